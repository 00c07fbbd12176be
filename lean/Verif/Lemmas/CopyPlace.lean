import Verif.Lemmas.CopyTops
import Verif.Lemmas.SaveMain
/-!
The addresses in the copy.
-/
namespace Verif.Lemmas.CopyPlace
open Verif.Model Verif.Model.Ptrs Verif.Model.Save Verif.Model.Copy Verif.Spec.Ptrs Verif.Spec.Save Verif.Spec.Copy Verif.Lemmas.SaveTree Verif.Lemmas.SaveInv
  Verif.Lemmas.CopyLayout Verif.Lemmas.CopyView Verif.Lemmas.CopyTops Verif.Lemmas.CopyMem

open Classical in
/-- the size of a block -/
noncomputable def need (m : Bytes) (tds : List Td) (o : Obj) : Nat := if h : ∃ n, Needs m tds o n then choose h else 0

theorem need_eq {m : Bytes} {tds : List Td} {o : Obj} {n : Nat} (h : Needs m tds o n) : need m tds o = n := by
  unfold need
  rw [dif_pos ⟨n, h⟩]
  have h' := Classical.choose_spec (p := fun n => Needs m tds o n) ⟨n, h⟩
  generalize Classical.choose (p := fun n => Needs m tds o n) ⟨n, h⟩ = k at *
  unfold Needs at h h'
  split at h
  · rename_i hc
    rw [if_pos hc] at h'
    obtain ⟨a, rfl, h1⟩ := h
    obtain ⟨b, rfl, h2⟩ := h'
    rw [text_unique h1 h2]
  · rename_i hc
    rw [if_neg hc] at h'
    omega

/-- all that is known about a graph that can be read -/
structure GCtx (m : Bytes) (mem : Mem) (tds : List Td) (root : Obj) (live : Blocks) (max : Nat) (st : St) (k : Forest) (n : Nat) (obj : Nat → Obj)
    (top : Nat → Nat) : Prop where
  T : Types tds
  L : Layout tds
  S : Graph m mem tds root live max
  V : View mem tds root st k n obj
  tops : Tops st n obj top

variable {m : Bytes} {mem : Mem} {tds : List Td} {root : Obj} {live : Blocks} {max : Nat} {st : St} {k : Forest} {n : Nat} {obj : Nat → Obj} {top : Nat → Nat}
  (C : GCtx m mem tds root live max st k n obj top)
include C

theorem root_ty : identified root.ty = true ∧ root.ty ≠ .charArray := by
  have h := C.S.base
  refine ⟨?_, fun h' => by rw [h'] at h; cases h.1⟩
  unfold isCell at h
  cases hty : root.ty <;> rw [hty] at h <;> simp [plain, identified] at h ⊢

/-- what the block of a node needs -/
theorem start_need {t : Nat} (h : Start st n obj t) :
    Needs m tds (obj t) (need m tds (obj t)) ∧ 0 < need m tds (obj t) ∧ covered live (obj t).addr (need m tds (obj t)) = true ∧
    extent tds (obj t) ≤ need m tds (obj t) ∧
    ((obj t).ty ≠ .charArray → need m tds (obj t) = extent tds (obj t)) := by
  have hr := start_range C.V h
  rcases h with rfl | ⟨h1, h2, h3⟩
  · rw [C.V.F.top]
    have hN : Needs m tds root (extent tds root) := by unfold Needs; rw [if_neg (root_ty C).2]
    rw [need_eq hN]
    have hp := C.S.base.1
    refine ⟨hN, ?_, C.S.read _ .self, Nat.le_refl _, fun _ => rfl⟩
    unfold extent
    rw [if_pos hp]
    apply SaveHandler.elementSize_pos C.T hp
    have hok := C.V.ok 1 (Nat.le_refl _) C.V.n1
    rw [C.V.F.top] at hok
    intro h
    unfold ObjOK at hok
    rcases h with h | h <;> rw [h] at hok ⊢ <;> exact hok
  · have hp := C.V.up t h1 h2
    have ht := C.V.lead t h1 h2 h3
    have hreach := C.V.reach t hr.1 hr.2
    have hpl : (obj (pa st t)).ty = .pointer ∨ (obj (pa st t)).ty = .string := by simpa [isCell] using h3
    rcases hpl with hpl | hpl
    · have hty := C.V.ptr_ty h1 h2 hpl
      have hN : Needs m tds (obj t) (extent tds (obj t)) := by unfold Needs; rw [if_neg hty]
      rw [need_eq hN]
      refine ⟨hN, ?_, C.S.read _ hreach, Nat.le_refl _, fun _ => rfl⟩
      have hid := C.S.cells _ _ (C.V.reach _ hp.1 hp.2) ht
      have hplain : plain (obj t).ty = true := by
        rcases SaveResolve.target_ty (C.V.ok _ hp.1 hp.2) ht with ⟨_, h | h⟩ | ⟨h, _⟩
        · exact h
        · rw [h] at hid; cases hid
        · rw [hpl] at h; cases h
      unfold extent
      rw [if_pos hplain]
      apply SaveHandler.elementSize_pos C.T hplain
      have hok := C.V.ok t hr.1 hr.2
      intro h
      unfold ObjOK at hok
      rcases h with h | h <;> rw [h] at hok ⊢ <;> exact hok
    · have hty := C.V.text_ty h1 h2 hpl
      obtain ⟨l, _, l2, l3⟩ := C.S.ends _ _ (C.V.reach _ hp.1 hp.2) hpl ht
      have hN : Needs m tds (obj t) (l + 1) := by unfold Needs; rw [if_pos hty]; exact ⟨l, rfl, l2⟩
      rw [need_eq hN]
      refine ⟨hN, by omega, l3, ?_, fun h => absurd hty h⟩
      unfold extent
      rw [hty]
      simp [plain]

/-- pointers and bit fields are parts of something -/
theorem inner_part {i : Nat} (h1 : 1 ≤ i) (h2 : i < n) (h : identified (obj i).ty = false) : 1 < i ∧ isCell (obj (pa st i)) = false := by
  have hi : i ≠ 1 := by
    rintro rfl
    rw [C.V.F.top, (root_ty C).1] at h
    cases h
  refine ⟨by omega, ?_⟩
  cases hc : isCell (obj (pa st i)) with
  | false => rfl
  | true =>
    have hp := C.V.up i (by omega) h2
    rw [C.S.cells _ _ (C.V.reach _ hp.1 hp.2) (C.V.lead i (by omega) h2 hc)] at h
    cases h

theorem same_parent {i j : Nat} (h1 : 1 ≤ i) (h2 : i < n) (h3 : 1 ≤ j) (h4 : j < n) (h : identified (obj i).ty = false) (he : obj i = obj j) :
    pa st i = pa st j := by
  obtain ⟨a1, a2⟩ := inner_part C h1 h2 h
  obtain ⟨b1, b2⟩ := inner_part C h3 h4 (by rw [← he]; exact h)
  have hpi := C.V.up i a1 h2
  have hpj := C.V.up j b1 h4
  have ci := C.V.part a1 h2 a2
  have cj := C.V.part b1 h4 b2
  rw [← he] at cj
  have := C.S.parts _ _ _ (C.V.reach _ hpi.1 hpi.2) (C.V.reach _ hpj.1 hpj.2) ci cj
  refine C.V.uniq _ _ hpi.1 hpi.2 hpj.1 hpj.2 ?_ this
  rcases part_ty ci with h | h <;> rw [h] <;> rfl

theorem same_top {i j : Nat} (h1 : 1 ≤ i) (h2 : i < n) (h3 : 1 ≤ j) (h4 : j < n) (he : obj i = obj j) : top i = top j := by
  cases h : identified (obj i).ty with
  | true => rw [C.V.uniq i j h1 h2 h3 h4 h he]
  | false =>
    obtain ⟨a1, a2⟩ := inner_part C h1 h2 h
    obtain ⟨b1, b2⟩ := inner_part C h3 h4 (by rw [← he]; exact h)
    rw [C.tops.up i a1 h2 a2, C.tops.up j b1 h4 b2, same_parent C h1 h2 h3 h4 h he]

/-- there is one node for a pointer or a string -/
theorem cell_uniq {i j : Nat} (h1 : 1 ≤ i) (h2 : i < n) (h3 : 1 ≤ j) (h4 : j < n) (hc : isCell (obj i) = true) (he : obj i = obj j) : i = j := by
  cases h : identified (obj i).ty with
  | true => exact C.V.uniq i j h1 h2 h3 h4 h he
  | false =>
    apply Classical.byContradiction
    intro hne
    obtain ⟨a1, a2⟩ := inner_part C h1 h2 h
    have hpi := C.V.up i a1 h2
    obtain ⟨b1, _⟩ := inner_part C h3 h4 (by rw [← he]; exact h)
    obtain ⟨l, l1, l2, l3⟩ := C.V.kids _ hpi.1 hpi.2 a2
    obtain ⟨x, hx⟩ := List.mem_iff_getElem?.1 ((l3 i).2 ⟨a1, h2, rfl⟩)
    obtain ⟨y, hy⟩ := List.mem_iff_getElem?.1 ((l3 j).2 ⟨b1, h4, (same_parent C h1 h2 h3 h4 h he).symm⟩)
    have hxy : x ≠ y := by
      rintro rfl
      rw [hx] at hy
      exact hne (Option.some.inj hy)
    have gx : (components tds (obj (pa st i)))[x]? = some (obj i) := by rw [← l2, List.getElem?_map, hx]; rfl
    have gy : (components tds (obj (pa st i)))[y]? = some (obj j) := by rw [← l2, List.getElem?_map, hy]; rfl
    have hcj : isCell (obj j) = true := by rw [← he]; exact hc
    rcases parts_apart C.T C.L (C.V.ok _ hpi.1 hpi.2) gx gy hxy with ⟨g, _⟩ | g
    · unfold isCell at hc
      rw [g] at hc
      cases hc
    · rw [extent_cell hc, extent_cell hcj, ← he] at g
      unfold Apart at g
      omega

/-- where the copy of the object of node `i` is, if the copies of the blocks are at `b` -/
def na (top : Nat → Nat) (obj : Nat → Obj) (b : Nat → Nat) (i : Nat) : Nat := b (top i) + ((obj i).addr - (obj (top i)).addr)

omit C in
theorem na_start (C : Tops st n obj top) {b : Nat → Nat} {t : Nat} (h : Start st n obj t) : na top obj b t = b t := by
  unfold na
  rw [start_top C h]
  omega

theorem na_congr {b : Nat → Nat} {i j : Nat} (h1 : 1 ≤ i) (h2 : i < n) (h3 : 1 ≤ j) (h4 : j < n) (he : obj i = obj j) : na top obj b i = na top obj b j := by
  unfold na
  rw [same_top C h1 h2 h3 h4 he, he]

theorem node_range {i : Nat} (h1 : 1 ≤ i) (h2 : i < n) :
    (obj (top i)).addr ≤ (obj i).addr ∧ (obj i).addr + extent tds (obj i) ≤ (obj (top i)).addr + need m tds (obj (top i)) ∧
    (obj i).addr < (obj (top i)).addr + need m tds (obj (top i)) := by
  have hs := top_start C.V C.tops i h1 h2
  have hr := start_range C.V hs
  obtain ⟨_, n2, _, n5, _⟩ := start_need C hs
  obtain ⟨g1, g2, g3⟩ := inside_range C.T C.L (C.V.ok _ hr.1 hr.2) (top_inside C.V C.tops i h1 h2)
  refine ⟨g1, by omega, ?_⟩
  rcases g3 with g3 | g3
  · rw [← g3]; omega
  · omega

theorem na_up {b : Nat → Nat} {c : Nat} (h1 : 1 < c) (h2 : c < n) (h : isCell (obj (pa st c)) = false) :
    (obj (pa st c)).addr ≤ (obj c).addr ∧ na top obj b c = na top obj b (pa st c) + ((obj c).addr - (obj (pa st c)).addr) := by
  have hp := C.V.up c h1 h2
  have hr := part_range C.T C.L (C.V.ok _ hp.1 hp.2) (C.V.part h1 h2 h)
  have hn := node_range C hp.1 hp.2
  refine ⟨hr.1, ?_⟩
  unfold na
  rw [C.tops.up c h1 h2 h]
  omega

/-- the blocks at `b` do not overlap -/
def Blk (m : Bytes) (tds : List Td) (st : St) (n : Nat) (obj : Nat → Obj) (b : Nat → Nat) : Prop :=
  ∀ t t', Start st n obj t → Start st n obj t' → t ≠ t' → Apart (b t) (need m tds (obj t)) (b t') (need m tds (obj t'))

theorem in_block {b : Nat → Nat} {i : Nat} (h1 : 1 ≤ i) (h2 : i < n) :
    b (top i) ≤ na top obj b i ∧ na top obj b i + extent tds (obj i) ≤ b (top i) + need m tds (obj (top i)) ∧ na top obj b i < b (top i) + need m tds (obj (top i)) := by
  have := node_range C h1 h2
  unfold na
  omega

/-- addresses in the copies of two objects are the same only if they are in one block -/
theorem meet {b : Nat → Nat} (hb : Blk m tds st n obj b) {i j x y : Nat} (h1 : 1 ≤ i) (h2 : i < n) (h3 : 1 ≤ j) (h4 : j < n)
    (hx : (obj i).addr + x < (obj (top i)).addr + need m tds (obj (top i))) (hy : (obj j).addr + y < (obj (top j)).addr + need m tds (obj (top j)))
    (he : na top obj b i + x = na top obj b j + y) : top i = top j ∧ (obj i).addr + x = (obj j).addr + y := by
  have ri := node_range C h1 h2
  have rj := node_range C h3 h4
  have hne : top i = top j := by
    apply Classical.byContradiction
    intro hne
    have := hb _ _ (top_start C.V C.tops i h1 h2) (top_start C.V C.tops j h3 h4) hne
    unfold Apart at this
    unfold na at he
    omega
  refine ⟨hne, ?_⟩
  unfold na at he
  rw [hne] at he ri
  omega

/-- a byte of an object that is in a pointer or string of the copy is in one of the object -/
theorem byte_cell {b : Nat → Nat} (hb : Blk m tds st n obj b) {i j x : Nat} (h1 : 1 ≤ i) (h2 : i < n) (h3 : 1 ≤ j) (h4 : j < n) (hc : isCell (obj j) = true)
    (hx : x < extent tds (obj i)) (g1 : na top obj b j ≤ na top obj b i + x) (g2 : na top obj b i + x < na top obj b j + 8) :
    Inside tds (obj i) (obj j) ∧ (obj j).addr ≤ (obj i).addr + x ∧ (obj i).addr + x < (obj j).addr + 8 := by
  have ri := node_range C h1 h2
  have rj := node_range C h3 h4
  have he := extent_cell (tds := tds) hc
  obtain ⟨m1, m2⟩ := meet C hb (i := i) (j := j) (x := x) (y := na top obj b i + x - na top obj b j) h1 h2 h3 h4 (by omega) (by omega) (by omega)
  refine ⟨?_, by omega, by omega⟩
  have hs := top_start C.V C.tops i h1 h2
  have hr := start_range C.V hs
  have ti := top_inside C.V C.tops i h1 h2
  have tj := top_inside C.V C.tops j h3 h4
  rw [← m1] at tj
  rcases laminar C.T C.L (C.V.ok _ hr.1 hr.2) ti tj (x := (obj i).addr + x) (by omega) (by omega) (by omega) (by omega) with h | h
  · exact h
  · rw [inside_cell hc h]; exact .self

theorem cells_apart {b : Nat → Nat} (hb : Blk m tds st n obj b) {i j : Nat} (h1 : 1 ≤ i) (h2 : i < n) (h3 : 1 ≤ j) (h4 : j < n) (hi : isCell (obj i) = true)
    (hj : isCell (obj j) = true) (hne : i ≠ j) : Apart (na top obj b i) 8 (na top obj b j) 8 := by
  apply Classical.byContradiction
  intro hna
  unfold Apart at hna
  have key : ∀ {i j : Nat}, 1 ≤ i → i < n → 1 ≤ j → j < n → isCell (obj i) = true → isCell (obj j) = true → i ≠ j → na top obj b i ≤ na top obj b j →
      na top obj b j < na top obj b i + 8 → False := by
    intro i j h1 h2 h3 h4 hi hj hne g1 g2
    have := (byte_cell C hb (x := 0) h3 h4 h1 h2 hi (by rw [extent_cell hj]; omega) (by omega) (by omega)).1
    exact hne (cell_uniq C h1 h2 h3 h4 hi (inside_cell hj this))
  by_cases h : na top obj b i ≤ na top obj b j
  · exact key h1 h2 h3 h4 hi hj hne h (by omega)
  · exact key h3 h4 h1 h2 hj hi (Ne.symm hne) (by omega) (by omega)

/-! ### with a destination -/

omit C

/-- all that is known about the graph to be copied -/
structure Ctx (m : Bytes) (mem : Mem) (tds : List Td) (root : Obj) (live : Blocks) (dst max : Nat) (st : St) (k : Forest) (n : Nat) (obj : Nat → Obj)
    (top : Nat → Nat) : Prop extends GCtx m mem tds root live max st k n obj top where
  D : Source m mem tds root live dst max

theorem start_away {dst : Nat} (C : Ctx m mem tds root live dst max st k n obj top) {t : Nat} (h : Start st n obj t) :
    Apart dst (extent tds root) (obj t).addr (need m tds (obj t)) := by
  obtain ⟨h1, _, _, _, h5⟩ := start_need C.toGCtx h
  by_cases hty : (obj t).ty = .charArray
  · rcases h with rfl | ⟨g1, g2, g3⟩
    · rw [C.V.F.top] at hty
      exact absurd hty (root_ty C.toGCtx).2
    · have hp := C.V.up t g1 g2
      have ht := C.V.lead t g1 g2 g3
      have hpl : (obj (pa st t)).ty = .pointer ∨ (obj (pa st t)).ty = .string := by simpa [isCell] using g3
      rcases hpl with hpl | hpl
      · exact absurd hty (C.V.ptr_ty g1 g2 hpl)
      · unfold Needs at h1
        rw [if_pos hty] at h1
        obtain ⟨l, l1, l2⟩ := h1
        rw [l1]
        exact C.D.texts _ _ l (C.V.reach _ hp.1 hp.2) hpl ht l2
  · rw [h5 hty]
    have hr := start_range C.V h
    exact C.D.away _ (C.V.reach t hr.1 hr.2)

end Verif.Lemmas.CopyPlace
