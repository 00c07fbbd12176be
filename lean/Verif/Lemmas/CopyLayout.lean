import Verif.Lemmas.CopyMem
import Verif.Lemmas.SaveRun
import Verif.Lemmas.SaveHandler
/-!
Where the parts of an object are.
-/
namespace Verif.Lemmas.CopyLayout
open Verif.Model Verif.Model.Ptrs Verif.Model.Save Verif.Model.Copy Verif.Spec.Save Verif.Spec.Copy Verif.Lemmas.SaveInv Verif.Lemmas.SaveRun Verif.Lemmas.SaveHandler

variable {tds : List Td}

theorem extent_ofFd (hok : FdOK tds f) (hp : f.ty = .pointer → f.size = 8) (a : Nat) : extent tds (ofFd a f) ≤ span f := by
  have hty : (ofFd a f).ty = f.ty := object_ty _ _ _ _ _ _
  have hsp : f.ty ≠ .bitfield → span f = f.size := fun h => if_neg h
  unfold extent
  rw [hty]
  split
  · rename_i h
    rw [hsp (by intro h'; rw [h'] at h; cases h), ← hty]
    unfold ofFd
    rw [elementSize_object h, hok.2.2.1 h]
    exact Nat.le_refl _
  · split
    · rename_i h; rw [hsp (by rw [h]; simp), hp h]; exact Nat.le_refl _
    · rename_i h
      rw [hsp (by rw [h]; simp)]
      unfold ofFd
      rw [h]
      simp only [object]
      exact Nat.mul_div_le _ _
    · exact Nat.zero_le _

/-- the size of an element of an array -/
theorem extent_element (hT : Types tds) {o : Obj} (h : ObjOK tds o) (hty : o.ty = .array) (hc : o.count ≠ 0) (a : Nat) :
    extent tds (object a o.aux (tyOf tds o.td) o.td 0 0) = o.step ∧ 0 < o.step := by
  unfold ObjOK at h
  rw [hty] at h
  obtain ⟨b, hb, hl, hs⟩ := h
  have hs := hs hc
  unfold extent
  rw [object_ty]
  rcases hl with ⟨rfl, hp⟩ | ⟨hp, _⟩
  · have he := elementSize_object (tds := tds) (a := a) (aux := tyOf tds o.td) (td := o.td) (c := 0) (s := 0) hp
    rw [object_ty] at he
    rw [if_pos hp, he]
    refine ⟨hs.symm, ?_⟩
    rw [hs]
    exact elementSize_pos hT hp fun _ => hb
  · rw [hp] at hs ⊢
    have : elementSize tds .pointer o.td = 8 := rfl
    rw [this] at hs
    simp [plain, hs]

theorem part_struct {o c : Obj} {i : Nat} (hty : o.ty = .struct) (hc : (components tds o)[i]? = some c) :
    ∃ (t : Nat) (d : Td) (f : Fd), o.td = some t ∧ tds[t]? = some d ∧ d.fields[i]? = some f ∧ c = ofFd (o.addr + f.offset) f := by
  unfold components at hc
  rw [hty] at hc
  simp only at hc
  cases hd : o.td.bind (tds[·]?) with
  | none => rw [hd] at hc; simp at hc
  | some d =>
    rw [hd] at hc
    simp only [List.getElem?_map, Option.map_eq_some_iff] at hc
    obtain ⟨f, hf, rfl⟩ := hc
    obtain ⟨t, ht, hd⟩ := Option.bind_eq_some_iff.1 hd
    exact ⟨t, d, f, ht, hd, hf, rfl⟩

theorem part_array {o c : Obj} {i : Nat} (hty : o.ty = .array) (hc : (components tds o)[i]? = some c) :
    i < o.count ∧ c = object (o.addr + i * o.step) o.aux (tyOf tds o.td) o.td 0 0 := by
  unfold components at hc
  rw [hty] at hc
  simp only [List.getElem?_map, Option.map_eq_some_iff] at hc
  obtain ⟨j, hj, rfl⟩ := hc
  obtain ⟨h1, h2⟩ := List.getElem?_eq_some_iff.1 hj
  simp at h1 h2
  subst h2
  exact ⟨h1, rfl⟩

theorem part_ty {o c : Obj} (h : c ∈ components tds o) : o.ty = .struct ∨ o.ty = .array := by
  unfold components at h
  split at h
  · rename_i hty; exact Or.inl hty
  · rename_i hty; exact Or.inr hty
  · cases h

theorem struct_td {o : Obj} (h : ObjOK tds o) (hty : o.ty = .struct) {t : Nat} {d : Td} (ht : o.td = some t) (hd : tds[t]? = some d) :
    d.ty = .struct ∧ extent tds o = d.size := by
  unfold ObjOK at h
  rw [hty] at h
  obtain ⟨t', d', h1, h2, h3⟩ := h
  rw [ht] at h1; cases h1
  rw [hd] at h2; cases h2
  refine ⟨h3, ?_⟩
  unfold extent
  rw [hty]
  simp [plain, elementSize, typeSize, ht, hd]

/-- a part is inside of the object -/
theorem part_range (hT : Types tds) (hL : Layout tds) {o c : Obj} (h : ObjOK tds o) (hc : c ∈ components tds o) :
    o.addr ≤ c.addr ∧ c.addr + extent tds c ≤ o.addr + extent tds o ∧ c.addr < o.addr + extent tds o := by
  obtain ⟨i, hi⟩ := List.mem_iff_getElem?.1 hc
  rcases part_ty hc with hty | hty
  · obtain ⟨t, d, f, ht, hd, hf, rfl⟩ := part_struct hty hi
    obtain ⟨h1, h2⟩ := struct_td h hty ht hd
    have hmem := List.mem_of_getElem? hf
    have h3 := hL.inside t d f hd h1 hmem
    have h4 := extent_ofFd (hT.fields t d hd h1 f hmem).1 (hL.pointer t d f hd h1 hmem) (o.addr + f.offset)
    have h5 : (ofFd (o.addr + f.offset) f).addr = o.addr + f.offset := object_addr _ _ _ _ _ _
    rw [h5, h2]
    omega
  · obtain ⟨h1, rfl⟩ := part_array hty hi
    obtain ⟨h2, h3⟩ := extent_element hT h hty (by omega) (o.addr + i * o.step)
    rw [object_addr, h2]
    have h4 : extent tds o = o.count * o.step := by unfold extent; rw [hty]; simp [plain]
    rw [h4]
    have h5 : (i + 1) * o.step ≤ o.count * o.step := Nat.mul_le_mul_right _ h1
    rw [Nat.add_mul] at h5
    omega

/-- different parts do not overlap -/
theorem parts_apart (hT : Types tds) (hL : Layout tds) {o c c' : Obj} (h : ObjOK tds o) {i j : Nat} (hc : (components tds o)[i]? = some c)
    (hc' : (components tds o)[j]? = some c') (hij : i ≠ j) :
    (c.ty = .bitfield ∧ c'.ty = .bitfield) ∨ Apart c.addr (extent tds c) c'.addr (extent tds c') := by
  rcases part_ty (List.mem_of_getElem? hc) with hty | hty
  · obtain ⟨t, d, f, ht, hd, hf, rfl⟩ := part_struct hty hc
    obtain ⟨t', d', f', ht', hd', hf', rfl⟩ := part_struct hty hc'
    rw [ht] at ht'; cases ht'
    rw [hd] at hd'; cases hd'
    obtain ⟨h1, h2⟩ := struct_td h hty ht hd
    have hm := List.mem_of_getElem? hf
    have hm' := List.mem_of_getElem? hf'
    have h4 := extent_ofFd (hT.fields t d hd h1 f hm).1 (hL.pointer t d f hd h1 hm) (o.addr + f.offset)
    have h4' := extent_ofFd (hT.fields t d hd h1 f' hm').1 (hL.pointer t d f' hd h1 hm') (o.addr + f'.offset)
    have h5 : ∀ g : Fd, (ofFd (o.addr + g.offset) g).addr = o.addr + g.offset := fun g => object_addr _ _ _ _ _ _
    have h6 : ∀ g : Fd, (ofFd (o.addr + g.offset) g).ty = g.ty := fun g => object_ty _ _ _ _ _ _
    rw [h5, h5, h6, h6]
    rcases hL.apart t d i j f f' hd h1 hf hf' hij with h7 | h7
    · exact Or.inl h7
    · right
      unfold Apart at *
      omega
  · obtain ⟨h1, rfl⟩ := part_array hty hc
    obtain ⟨h1', rfl⟩ := part_array hty hc'
    obtain ⟨h2, h3⟩ := extent_element hT h hty (by omega) (o.addr + i * o.step)
    obtain ⟨h2', _⟩ := extent_element hT h hty (by omega) (o.addr + j * o.step)
    right
    unfold Apart
    rw [object_addr, object_addr, h2, h2']
    rcases Nat.lt_or_gt_of_ne hij with hlt | hlt
    · have : (i + 1) * o.step ≤ j * o.step := Nat.mul_le_mul_right _ hlt
      rw [Nat.add_mul] at this
      omega
    · have : (j + 1) * o.step ≤ i * o.step := Nat.mul_le_mul_right _ hlt
      rw [Nat.add_mul] at this
      omega

theorem inside_trans {a b c : Obj} (h : Inside tds a b) (h' : Inside tds b c) : Inside tds a c := by
  induction h' with
  | self => exact h
  | part _ hc ih => exact .part ih hc

theorem inside_ok (hT : Types tds) {a b : Obj} (ha : ObjOK tds a) (h : Inside tds a b) : ObjOK tds b := by
  induction h with
  | self => exact ha
  | part _ hc ih => exact components_ok hT ih hc

theorem inside_range (hT : Types tds) (hL : Layout tds) {a b : Obj} (ha : ObjOK tds a) (h : Inside tds a b) :
    a.addr ≤ b.addr ∧ b.addr + extent tds b ≤ a.addr + extent tds a ∧ (a = b ∨ b.addr < a.addr + extent tds a) := by
  induction h with
  | self => exact ⟨Nat.le_refl _, Nat.le_refl _, Or.inl rfl⟩
  | part hb hc ih =>
    have := part_range hT hL (inside_ok hT ha hb) hc
    refine ⟨by omega, by omega, Or.inr ?_⟩
    omega

/-- from the outermost object inwards -/
inductive Inner (tds : List Td) : Obj → Obj → Prop
  | self {a : Obj} : Inner tds a a
  | step {a b c : Obj} : c ∈ components tds a → Inner tds c b → Inner tds a b

theorem inner_snoc {a b c : Obj} (h : Inner tds a b) (hc : c ∈ components tds b) : Inner tds a c := by
  induction h with
  | self => exact .step hc .self
  | step h1 _ ih => exact .step h1 (ih hc)

theorem inner_of {a b : Obj} (h : Inside tds a b) : Inner tds a b := by
  induction h with
  | self => exact .self
  | part _ hc ih => exact inner_snoc ih hc

theorem inside_of {a b : Obj} (h : Inner tds a b) : Inside tds a b := by
  induction h with
  | self => exact .self
  | step h1 _ ih => exact inside_trans (.part .self h1) ih

/-- two parts of an object that have a byte in common are nested -/
theorem laminar_inner (hT : Types tds) (hL : Layout tds) {t a : Obj} (h : Inner tds t a) : ∀ {b : Obj}, ObjOK tds t → Inner tds t b → ∀ x,
    a.addr ≤ x → x < a.addr + extent tds a → b.addr ≤ x → x < b.addr + extent tds b → Inside tds a b ∨ Inside tds b a := by
  induction h with
  | self => intro b _ hb x _ _ _ _; exact Or.inl (inside_of hb)
  | @step t a c hc hca ih =>
    intro b ht hb x h1 h2 h3 h4
    cases hb with
    | self => exact Or.inr (inside_trans (.part .self hc) (inside_of hca))
    | @step _ _ c' hc' hcb =>
      obtain ⟨i, hi⟩ := List.mem_iff_getElem?.1 hc
      obtain ⟨j, hj⟩ := List.mem_iff_getElem?.1 hc'
      by_cases hij : i = j
      · subst hij
        rw [hi] at hj; cases hj
        exact ih (components_ok hT ht hc) hcb x h1 h2 h3 h4
      · exfalso
        have hoc := components_ok hT ht hc
        have hoc' := components_ok hT ht hc'
        have hra := inside_range hT hL hoc (inside_of hca)
        have hrb := inside_range hT hL hoc' (inside_of hcb)
        rcases parts_apart hT hL ht hi hj hij with ⟨h5, h6⟩ | h5
        · have : extent tds c = 0 := by unfold extent; rw [h5]; simp [plain]
          omega
        · unfold Apart at h5
          omega

theorem laminar (hT : Types tds) (hL : Layout tds) {t a b : Obj} (ht : ObjOK tds t) (ha : Inside tds t a) (hb : Inside tds t b) {x : Nat}
    (h1 : a.addr ≤ x) (h2 : x < a.addr + extent tds a) (h3 : b.addr ≤ x) (h4 : x < b.addr + extent tds b) : Inside tds a b ∨ Inside tds b a :=
  laminar_inner hT hL (inner_of ha) ht (inner_of hb) x h1 h2 h3 h4

/-- nothing is inside of a pointer or string -/
theorem inside_cell {p b : Obj} (hp : isCell p = true) (h : Inside tds p b) : b = p := by
  induction h with
  | self => rfl
  | part _ hc ih =>
    subst ih
    have := part_ty hc
    unfold isCell at hp
    simp only [Bool.or_eq_true, beq_iff_eq] at hp
    rcases this with h | h <;> rw [h] at hp <;> simp at hp

theorem extent_cell {p : Obj} (hp : isCell p = true) : extent tds p = 8 := by
  unfold isCell at hp
  simp only [Bool.or_eq_true, beq_iff_eq] at hp
  unfold extent
  rcases hp with h | h <;> rw [h] <;> simp [plain, elementSize, typeSize]

/-! ### objects at other addresses -/

theorem moved_object (a b : Nat) (ty aux : MrType) (td : Option Nat) (c s : Nat) : moved (object a ty aux td c s) b = object b ty aux td c s := by
  unfold object moved
  cases ty <;> simp only
  split <;> rfl

theorem components_moved (o : Obj) (a : Nat) : components tds (moved o a) = (components tds o).map fun c => moved c (a + (c.addr - o.addr)) := by
  unfold components
  have h1 : (moved o a).ty = o.ty := rfl
  have h2 : (moved o a).td = o.td := rfl
  rw [h1]
  split
  · rw [h2]
    cases o.td.bind (tds[·]?) with
    | none => rfl
    | some d =>
      simp only [List.map_map]
      apply List.map_congr_left
      intro f _
      simp only [Function.comp, ofFd, moved_object, object_addr]
      rw [show o.addr + f.offset - o.addr = f.offset from by omega]
      rfl
  · simp only [List.map_map]
    apply List.map_congr_left
    intro j _
    simp only [Function.comp, moved_object, object_addr]
    rw [show o.addr + j * o.step - o.addr = j * o.step from by omega]
    rfl
  · rfl

theorem target_moved {mem mem' : Mem} {o t : Obj} {a : Nat} (h : target mem tds o = some t) (hp : mem'.ptr a ≠ 0) :
    target mem' tds (moved o a) = some (moved t (mem'.ptr a)) := by
  unfold target at *
  have h1 : (moved o a).ty = o.ty := rfl
  have h2 : (moved o a).addr = a := rfl
  rw [h1, h2]
  split at h
  · rename_i hty
    split at h
    · cases h
    · rename_i hc
      simp only [Bool.or_eq_true, not_or, beq_iff_eq] at hc
      rw [if_neg]
      · cases h; rw [moved_object]; rfl
      · simp only [Bool.or_eq_true, not_or, beq_iff_eq]
        exact ⟨hc.1, hp⟩
  · rename_i hty
    split at h
    · cases h
    · rw [if_neg hp]; cases h; rfl
  · cases h

theorem target_moved_none {mem mem' : Mem} {o : Obj} {a : Nat} (h : target mem tds o = none) (hp : mem.ptr o.addr = 0 → mem'.ptr a = 0) :
    target mem' tds (moved o a) = none := by
  unfold target at *
  have h1 : (moved o a).ty = o.ty := rfl
  have h2 : (moved o a).addr = a := rfl
  rw [h1, h2]
  split at h
  · rename_i hty
    split at h
    · rename_i hc
      simp only [Bool.or_eq_true, beq_iff_eq] at hc
      rw [if_pos]
      simp only [Bool.or_eq_true, beq_iff_eq]
      rcases hc with hc | hc
      · exact Or.inl hc
      · exact Or.inr (hp hc)
    · cases h
  · rename_i hty
    split at h
    · rename_i hc
      rw [if_pos (hp hc)]
    · cases h
  · rfl

end Verif.Lemmas.CopyLayout
