import Verif.Spec.Detect
import Verif.Props.TypeName
/-!
# C76: the type of a field is recovered from its declaration
-/
namespace Verif.Props.Detect
open Verif.Model Verif.Model.TypeName Verif.Model.Ptrs Verif.Model.Detect Verif.Spec.Detect Verif.Spec.TypeName Verif.Props.TypeName

theorem pointer_has_star {s s' : List Nat} (h : isPointer s = some (true, s')) : 42 ∈ s := by
  unfold isPointer at h
  split at h
  · cases h
  · cases hc : s[s.length - 1]? with
    | none => simp [hc] at h
    | some c =>
      simp only [hc, Option.bind_eq_bind, Option.bind_some] at h
      split at h
      · rename_i e
        exact e ▸ List.mem_of_getElem? hc
      · cases h

theorem strip_step {k : Nat} {s n : List Nat} (h : stripPointers (k + 1) s = some n) :
    ∃ s', isPointer s = some (true, s') ∧ stripPointers k s' = some n := by
  simp only [stripPointers] at h
  split at h
  · rename_i s' e
    exact ⟨s', e, h⟩
  · cases h

theorem fold_product (ds : List Nat) (e : Nat) (he : e < 2 ^ 32) :
    ds.foldr (fun d s => u32 (s * d)) e = e * product ds % 2 ^ 32 := by
  induction ds with
  | nil => simp [product, Nat.mod_eq_of_lt he]
  | cons d ds ih =>
    have hp : product (d :: ds) = d * product ds := rfl
    rw [List.foldr_cons, ih, hp, u32]
    rw [show (4294967296 : Nat) = 2 ^ 32 from rfl, Nat.mod_mul_mod]
    congr 1
    rw [Nat.mul_assoc, Nat.mul_comm (product ds) d]

theorem foldl_product (ds : List Nat) : ∀ a : Nat, ds.foldl (fun a b => a * b % 4294967296) a % 2 ^ 32 = a * product ds % 2 ^ 32 := by
  induction ds with
  | nil => intro a; simp [product]
  | cons d ds ih =>
    intro a
    have hp : product (d :: ds) = d * product ds := rfl
    rw [List.foldl_cons, ih, hp, show (4294967296 : Nat) = 2 ^ 32 from rfl, Nat.mod_mul_mod, Nat.mul_assoc]

theorem product_append (a b : List Nat) : product (a ++ b) = product a * product b := by
  induction a with
  | nil => simp [product]
  | cons x a ih =>
    have h1 : product (x :: a ++ b) = x * product (a ++ b) := rfl
    have h2 : product (x :: a) = x * product a := rfl
    rw [h1, ih, h2, Nat.mul_assoc]

theorem kept_product (ns : List Nat) (e : Nat) : e * product (kept ns) % 2 ^ 32 = e * product ns % 2 ^ 32 := by
  unfold kept
  split
  · rfl
  · rename_i h
    have hn : ns = ns.take 3 ++ (ns[3]'(by omega) :: ns.drop 4) := by
      rw [← List.drop_eq_getElem_cons (by omega), List.take_append_drop]
    have h3 : ns[3]?.getD 0 = ns[3]'(by omega) := by rw [List.getElem?_eq_getElem (by omega)]; rfl
    rw [h3]
    have hr : product ns = product (ns.take 3) * (ns[3]'(by omega) * product (ns.drop 4)) := by
      conv => lhs; rw [hn]
      rw [product_append]; rfl
    rw [hr, product_append]
    have h1 : ∀ x, product [x] = x := by intro x; simp [product]
    rw [h1, ← Nat.mul_assoc, ← Nat.mul_assoc, Nat.mul_mod, foldl_product, ← Nat.mul_mod]

/-- the text of a declaration: name with qualifiers, stars, bounds -/
structure Declares (base z : List Nat) (k : Nat) (ps : List (List Nat × Nat)) : Prop where
  text : ∀ c ∈ base ++ z, c ≠ 0
  blanks : ∀ c ∈ base, space c = true → c = 32 ∨ c = 9
  noStar : 42 ∉ base
  noBracket : 91 ∉ base ++ z
  name : ∃ w ∈ words base, w ∉ qualifiers
  stars : Stars k z
  cut : z = [] ∨ ∃ c, z.head? = some c ∧ separator c = true
  bounds : ∀ p ∈ ps, Spec.IsDecimal p.2 p.1 ∧ p.2 ≤ 2147483647

/-- what is known of the dimensions after the text was read -/
def dimsOf (st : Stype) (ps : List (List Nat × Nat)) : List Nat := if ps = [] then st.dims else kept (ps.map Prod.snd)

theorem detect_eq {base z : List Nat} {k : Nat} {ps : List (List Nat × Nat)} (hd : Declares base z k ps) (look : List Nat → Option Td)
    (st : Stype) (hty : st.ty ≠ .void ∧ st.ty ≠ .func ∧ st.ty ≠ .charArray) (ht : st.type = some (base ++ z ++ brackets (ps.map Prod.fst))) :
    ∃ t, stripPointers k t = some (bareName base) ∧ isPointer (bareName base) = some (false, bareName base) ∧
      detect look st = (byName look { st with dims := dimsOf st ps, isArray := st.isArray || !ps.isEmpty } t).bind fun x => some (finish look x.1 x.2) := by
  obtain ⟨t, n, h1, rfl, h3, h4⟩ := C38_pointer_depth base z k hd.text hd.blanks hd.noStar hd.name hd.stars hd.cut
  refine ⟨t, h3, h4, ?_⟩
  have h0 : 0 ∉ base ++ z := fun h => hd.text 0 h rfl
  have hb : (st.ty == .charArray) = false := by simpa using hty.2.2
  obtain ⟨ty, t0, aux, pc, ia, ib, sz, ds, tp⟩ := st
  simp only at ht hty hb
  subst ht
  unfold detect
  rw [if_neg (by simp [hty.1, hty.2.1])]
  simp only [hb]
  cases ps with
  | nil =>
    rw [show base ++ z ++ brackets (List.map Prod.fst []) = base ++ z by simp [brackets]]
    rw [C38_no_array false _ hd.noBracket h0]
    simp only [Option.bind_eq_bind, Option.bind_some, h1, dimsOf, List.isEmpty_nil, Bool.not_true, Bool.or_false, if_true]
  | cons p ps =>
    rw [C38_array_bounds false _ (p :: ps) hd.noBracket h0 (by simp) (by simp) hd.bounds]
    simp only [Option.bind_eq_bind, Option.bind_some, h1, dimsOf, List.isEmpty_cons, Bool.not_false, Bool.or_true]
    simp

theorem size_of (st : Stype) (ps : List (List Nat × Nat)) (e : Nat) (he : e < 2 ^ 32) :
    (dimsOf st ps).foldr (fun d s => u32 (s * d)) e = e * product (if ps = [] then st.dims else ps.map Prod.snd) % 2 ^ 32 := by
  rw [fold_product _ _ he]
  unfold dimsOf
  split
  · rfl
  · exact kept_product _ _

theorem byName_known {look : List Nat → Option Td} (hl : ∀ n td, look n = some td → 42 ∉ n) {k : Nat} (hk : k ≤ 2) {t n : List Nat} {td : Td}
    (hs : stripPointers k t = some n) (hn : look n = some td) {st : Stype} (haux : st.aux = .none)
    (hty : st.ty = .none ∨ (k = 0 ∧ intLike st.ty = true) ∨ (k ≠ 0 ∧ st.ty = .pointer)) :
    byName look st t = some ({ st with ty := kind k td.ty, aux := target k td.ty }, some td) := by
  have hno : ∀ s s', isPointer s = some (true, s') → look s = none := by
    intro s s' h
    cases hc : look s with
    | none => rfl
    | some x => exact absurd (pointer_has_star h) (hl _ _ hc)
  have hbf : st.ty ≠ .bitfield := by
    rintro e
    rw [e] at hty
    rcases hty with h | ⟨_, h⟩ | ⟨_, h⟩ <;> cases h
  have hint : k = 0 → intLike st.ty = true := by
    intro hk0
    rcases hty with h | h | h
    · rw [h]; rfl
    · exact h.2
    · exact absurd hk0 h.1
  match k, hk with
  | 0, _ =>
    cases hs
    simp only [byName, hn, hbf, if_false, hint rfl, if_true, kind, target, ← haux]
  | 1, _ =>
    obtain ⟨s1, h1, hs⟩ := strip_step hs
    cases hs
    have hst : noneOrPointer st.ty = true := by
      rcases hty with h | h | h
      · rw [h]; rfl
      · cases h.1
      · rw [h.2]; rfl
    simp [byName, hno _ _ h1, hst, h1, hn, kind, target]
  | 2, _ =>
    obtain ⟨s1, h1, hs⟩ := strip_step hs
    obtain ⟨s2, h2, hs⟩ := strip_step hs
    cases hs
    have hst : noneOrPointer st.ty = true := by
      rcases hty with h | h | h
      · rw [h]; rfl
      · cases h.1
      · rw [h.2]; rfl
    simp [byName, hno _ _ h1, hno _ _ h2, hst, haux, show noneOrPointer .none = true from rfl, h1, h2, hn, kind, target]

theorem kind_cases (k : Nat) (t : MrType) : kind k t = t ∨ kind k t = .pointer := by
  unfold kind; split <;> simp

theorem target_ne {k : Nat} {t : MrType} (hk : k ≠ 0) (ht : t ≠ .none) : target k t ≠ .none := by
  unfold target; rw [if_neg hk]; split <;> simp [ht]

theorem target_basic {k : Nat} {t : MrType} (_ : k ≤ 2) (h : basicName t = none) : basicName (target k t) = none := by
  unfold target; split
  · rfl
  · split
    · exact h
    · rfl

theorem basic_kind {k : Nat} {t : MrType} (h : basicName (target k t) = none) (h1 : basicName t = none) :
    basicName (if kind k t = .pointer then target k t else kind k t) = none := by
  split
  · exact h
  · rcases kind_cases k t with e | e <;> rw [e]
    · exact h1
    · rfl

theorem finish_plain (look : List Nat → Option Td) (st : Stype) (td : Td) (ha : st.isArray = false) (hb : st.isBitfield = false)
    (h1 : st.ty ≠ .none) (h2 : st.ty ≠ .bitfield) (h3 : st.ty ≠ .array) (h4 : st.ty = .pointer → st.aux ≠ .none)
    (h5 : basicName (if st.ty = .pointer then st.aux else st.ty) = none) :
    finish look st (some td) = { st with tdp := some td, size := if st.size ≠ 0 then st.size else if typeSize st.ty ≠ 0 then typeSize st.ty else td.size } := by
  obtain ⟨ty, t0, aux, pc, ia, ib, sz, ds, tp⟩ := st
  simp only at ha hb h1 h2 h3 h4 h5
  subst ha hb
  by_cases hp : t0 = .pointer
  · subst hp
    simp only [if_true] at h5
    by_cases hz : sz = 0 <;> simp [finish, h4, h5, hz, typeSize]
  · simp only [hp, if_false] at h5
    by_cases hz : sz = 0 <;> by_cases ht : typeSize t0 = 0 <;> simp [finish, h1, h2, h3, h5, hp, hz, ht]

theorem finish_array (look : List Nat → Option Td) (st : Stype) (td : Td) (ha : st.isArray = true) (hb : st.isBitfield = false)
    (h1 : st.ty ≠ .none) (h2 : st.ty ≠ .bitfield) (h4 : st.ty = .pointer → st.aux ≠ .none)
    (h5 : basicName (if st.ty = .pointer then st.aux else st.ty) = none) :
    finish look st (some td) = { st with tdp := some td, ty := .array, aux := st.ty, size := if st.size ≠ 0 then st.size else st.dims.foldr (fun d s => u32 (s * d)) (if st.ty = .pointer then 8 else td.size) } := by
  obtain ⟨ty, t0, aux, pc, ia, ib, sz, ds, tp⟩ := st
  simp only at ha hb h1 h2 h4 h5
  subst ha hb
  by_cases hp : t0 = .pointer
  · subst hp
    simp only [if_true] at h5
    by_cases hz : sz = 0 <;> simp [finish, h4, h5, hz, typeSize]
  · simp only [hp, if_false] at h5
    by_cases hz : sz = 0 <;> simp [finish, h1, h2, h5, hp, hz, typeSize]

theorem user_kinds {t : MrType} (h : t ∈ userKinds) :
    basicName t = none ∧ t ≠ .none ∧ t ≠ .pointer ∧ t ≠ .bitfield ∧ t ≠ .array ∧ (typeSize t = 0 ∨ t = .funcType) := by
  simp only [userKinds, List.mem_cons, List.not_mem_nil, or_false] at h
  rcases h with rfl | rfl | rfl | rfl | rfl | rfl <;> simp [basicName, typeSize]

theorem integers_like {t : MrType} (h : t ∈ integers) : intLike t = true := by
  simp only [integers, List.mem_cons, List.not_mem_nil, or_false] at h
  rcases h with rfl | rfl | rfl | rfl | rfl | rfl | rfl | rfl | rfl | rfl <;> rfl

theorem basics_table : ∀ x ∈ basics, basicName x.1 = some x.2.1 ∧ typeSize x.1 = x.2.2 ∧ x.1 ≠ .void := by
  decide +kernel

/-- **C76.** A field declared with a registered type of the user and up to two stars, with or without bounds: the kind is the one of
the declaration, the type descriptor is the registered one, the dimensions are the bounds, and a size that was not known is the number
of elements times the size of one. -/
theorem C76_user_types (look : List Nat → Option Td) (hl : ∀ n td, look n = some td → 42 ∉ n)
    (base z : List Nat) (k : Nat) (hk : k ≤ 2) (ps : List (List Nat × Nat)) (hd : Declares base z k ps) (td : Td)
    (hn : look (bareName base) = some td) (hu : td.ty ∈ userKinds) (hsz : td.size < 2 ^ 32 ∧ (td.ty = .funcType → td.size = 8)) (st : Stype) (ht : st.type = some (base ++ z ++ brackets (ps.map Prod.fst)))
    (hty : st.ty = .none ∨ (k = 0 ∧ st.ty ∈ integers) ∨ (k ≠ 0 ∧ st.ty = .pointer)) (haux : st.aux = .none) (hb : st.isBitfield = false) :
    ∃ r, detect look st = some r ∧ r.tdp = some td ∧
      r.isArray = (st.isArray || !ps.isEmpty) ∧
      (r.isArray = false → r.ty = kind k td.ty ∧ r.aux = target k td.ty ∧ (st.size = 0 → r.size = elementSize k td.size)) ∧
      (r.isArray = true → r.ty = .array ∧ r.aux = kind k td.ty ∧ (ps ≠ [] → r.dims = kept (ps.map Prod.snd)) ∧ (ps = [] → r.dims = st.dims) ∧
        (st.size = 0 → r.size = elementSize k td.size * product (if ps = [] then st.dims else ps.map Prod.snd) % 2 ^ 32)) ∧
      (st.size ≠ 0 → r.size = st.size) := by
  have hu := user_kinds hu
  have hsz : td.size < 2 ^ 32 ∧ (typeSize td.ty = 0 ∨ typeSize td.ty = td.size) := by
    refine ⟨hsz.1, ?_⟩
    rcases hu.2.2.2.2.2 with h | h
    · exact Or.inl h
    · rw [hsz.2 h, h]; exact Or.inr rfl
  have hty : st.ty = .none ∨ (k = 0 ∧ intLike st.ty = true) ∨ (k ≠ 0 ∧ st.ty = .pointer) := by
    rcases hty with h | h | h
    · exact Or.inl h
    · exact Or.inr (Or.inl ⟨h.1, integers_like h.2⟩)
    · exact Or.inr (Or.inr h)
  have hty' : st.ty ≠ .void ∧ st.ty ≠ .func ∧ st.ty ≠ .charArray := by
    rcases hty with h | ⟨_, h⟩ | ⟨_, h⟩
    · rw [h]; decide
    · refine ⟨?_, ?_, ?_⟩ <;> intro e <;> rw [e] at h <;> cases h
    · rw [h]; decide
  obtain ⟨t, hs, _, e⟩ := detect_eq hd look st hty' ht
  rw [byName_known hl hk hs hn (by exact haux) (by exact hty), Option.bind_some] at e
  simp only at e
  refine ⟨_, e, ?_⟩
  obtain ⟨u1, u2, u3, u4, u5, _⟩ := hu
  have k1 : kind k td.ty ≠ .none := by rcases kind_cases k td.ty with h | h <;> simp [h, u2]
  have k2 : kind k td.ty ≠ .bitfield := by rcases kind_cases k td.ty with h | h <;> simp [h, u4]
  have k3 : kind k td.ty ≠ .array := by rcases kind_cases k td.ty with h | h <;> simp [h, u5]
  have k4 : kind k td.ty = .pointer → target k td.ty ≠ .none := fun h => target_ne (fun hk => u3 (by simpa [kind, hk] using h)) u2
  cases ha : (st.isArray || !ps.isEmpty) with
  | false =>
    rw [finish_plain look { st with dims := dimsOf st ps, isArray := false, ty := kind k td.ty, aux := target k td.ty } td rfl hb k1
      k2 k3
      k4
      (basic_kind (target_basic hk u1) u1)]
    refine ⟨rfl, rfl, fun _ => ⟨rfl, rfl, fun hz => ?_⟩, fun h => absurd h (by simp), fun hz => by simp [hz]⟩
    simp only [hz, ne_eq, not_true, if_false]
    unfold kind elementSize
    by_cases hk0 : k = 0
    · simp only [hk0, if_true]
      rcases hsz.2 with h | h
      · simp [h]
      · simp [h]
    · simp [hk0, typeSize]
  | true =>
    rw [finish_array look { st with dims := dimsOf st ps, isArray := true, ty := kind k td.ty, aux := target k td.ty } td rfl hb k1
      k2
      k4
      (basic_kind (target_basic hk u1) u1)]
    refine ⟨rfl, rfl, fun h => absurd h (by simp), fun _ => ⟨rfl, rfl, fun h => by simp [dimsOf, h], fun h => by simp [dimsOf, h], fun hz => ?_⟩, fun hz => by simp [hz]⟩
    simp only [hz, ne_eq, not_true, if_false]
    have he : (if kind k td.ty = .pointer then 8 else td.size) = elementSize k td.size := by
      unfold kind elementSize
      by_cases hk0 : k = 0 <;> simp [hk0, u3]
    rw [he]
    exact size_of st ps _ (by unfold elementSize; split <;> omega)

theorem no_look {look : List Nat → Option Td} (hl : ∀ n td, look n = some td → 42 ∉ n) {s s' : List Nat} (h : isPointer s = some (true, s')) :
    look s = none := by
  cases hc : look s with
  | none => rfl
  | some x => exact absurd (pointer_has_star h) (hl _ _ hc)

theorem finish_basic (look : List Nat → Option Td) (st : Stype) (x : Option Td) (td : Td) (bn : List Nat) (hb : st.isBitfield = false)
    (h1 : basicName st.ty = some bn) (h2 : look bn = some td) :
    finish look st x =
      if st.isArray then { st with tdp := some td, ty := .array, aux := st.ty, size := if st.size ≠ 0 then st.size else st.dims.foldr (fun d s => u32 (s * d)) td.size }
      else { st with tdp := some td, size := if st.size ≠ 0 then st.size else typeSize st.ty } := by
  obtain ⟨ty, t0, aux, pc, ia, ib, sz, ds, tp⟩ := st
  simp only at hb h1
  subst hb
  have e1 : t0 ≠ .none := by rintro rfl; cases h1
  have e2 : t0 ≠ .pointer := by rintro rfl; cases h1
  have e3 : t0 ≠ .bitfield := by rintro rfl; cases h1
  have e4 : t0 ≠ .array := by rintro rfl; cases h1
  have e5 : typeSize t0 ≠ 0 := by
    intro h
    cases t0 <;> first | (cases h; done) | (cases h1; done)
  have ea : typeSize .array = 0 := rfl
  cases ia <;> by_cases hz : sz = 0 <;> simp [finish, h1, h2, e1, e2, e3, e4, e5, hz, ea]

/-- **C76.** A field whose kind the compiler has found to be a basic one keeps it, whatever typedef it was declared with; the type
descriptor is the one of the basic type. -/
theorem C76_basic_types (look : List Nat → Option Td) (hl : ∀ n td, look n = some td → 42 ∉ n)
    (base z : List Nat) (k : Nat) (ps : List (List Nat × Nat)) (hd : Declares base z k ps) (st : Stype)
    (ht : st.type = some (base ++ z ++ brackets (ps.map Prod.fst))) (bn : List Nat) (sz : Nat) (td : Td)
    (hty : (st.ty, bn, sz) ∈ basics) (hn : ∀ x, look (bareName base) = some x → x.ty = st.ty) (hbn : look bn = some td)
    (htd : td.size < 2 ^ 32) (hb : st.isBitfield = false) :
    ∃ r, detect look st = some r ∧ r.tdp = some td ∧ r.isArray = (st.isArray || !ps.isEmpty) ∧
      (r.isArray = false → r.ty = st.ty ∧ (st.size = 0 → r.size = sz)) ∧
      (r.isArray = true → r.ty = .array ∧ r.aux = st.ty ∧
        (st.size = 0 → r.size = td.size * product (if ps = [] then st.dims else ps.map Prod.snd) % 2 ^ 32)) ∧
      (st.size ≠ 0 → r.size = st.size) := by
  have hsz : typeSize st.ty = sz := (basics_table _ hty).2.1
  have hty : basicName st.ty = some bn ∧ st.ty ≠ .void := ⟨(basics_table _ hty).1, (basics_table _ hty).2.2⟩
  have hne : ∀ t, basicName t = none → st.ty ≠ t := by
    intro t h e
    rw [e, h] at hty
    cases hty.1
  obtain ⟨t, hs, _, e⟩ := detect_eq hd look st ⟨hty.2, hne _ rfl, hne _ rfl⟩ ht
  have hnp : noneOrPointer st.ty = false := by
    have a := hne .none rfl
    have b := hne .pointer rfl
    revert a b
    cases st.ty <;> simp [noneOrPointer]
  have hby : ∃ x, byName look { st with dims := dimsOf st ps, isArray := st.isArray || !ps.isEmpty } t =
      some ({ st with dims := dimsOf st ps, isArray := st.isArray || !ps.isEmpty }, x) := by
    cases k with
    | zero =>
      cases hs
      cases hc : look (bareName base) with
      | none => exact ⟨none, by simp [byName, hc, hnp]⟩
      | some x => exact ⟨some x, by simp [byName, hc, hne .bitfield rfl, hn x hc]⟩
    | succ k =>
      obtain ⟨s1, h1, _⟩ := strip_step hs
      exact ⟨none, by simp [byName, no_look hl h1, hnp]⟩
  obtain ⟨x, hx⟩ := hby
  rw [hx, Option.bind_some] at e
  simp only at e
  rw [finish_basic look { st with dims := dimsOf st ps, isArray := st.isArray || !ps.isEmpty } x td bn hb hty.1 hbn] at e
  refine ⟨_, e, ?_⟩
  cases ha : (st.isArray || !ps.isEmpty) with
  | false =>
    simp only [Bool.false_eq_true, if_false]
    refine ⟨trivial, trivial, fun _ => ⟨trivial, fun hz => by simp [hz, hsz]⟩, fun h => absurd h (by simp), fun hz => by simp [hz]⟩
  | true =>
    simp only [if_true]
    refine ⟨trivial, trivial, fun h => absurd h (by simp), fun _ => ⟨trivial, trivial, fun hz => ?_⟩, fun hz => by simp [hz]⟩
    simp only [hz, ne_eq, not_true, if_false]
    exact size_of st ps _ htd

/-- **C76.** A field declared with a type that is not registered: without a star it is opaque, or a pointer to opaque data if the
compiler says that it is a pointer; with one star it is a pointer to opaque data. -/
theorem C76_unknown_types (look : List Nat → Option Td) (hl : ∀ n td, look n = some td → 42 ∉ n)
    (base z : List Nat) (k : Nat) (hk : k ≤ 1) (hd : Declares base z k []) (hn : look (bareName base) = none) (st : Stype)
    (ht : st.type = some (base ++ z)) (hty : st.ty = .none ∧ st.aux = .none ∧ st.isBitfield = false ∧ st.isArray = false) :
    ∃ r, detect look st = some r ∧ r.tdp = look (Spec.ascii "void") ∧
      (if k = 1 ∨ st.pointerClass = true then r.ty = .pointer ∧ r.aux = .void else r.ty = .void) ∧ (st.size = 0 → r.size = 8) := by
  obtain ⟨t, hs, hp, e⟩ := detect_eq hd look st (by rw [hty.1]; decide) (by rw [ht]; simp [brackets])
  obtain ⟨h1, h2, h3, h4⟩ := hty
  have hv : basicName .void = some (Spec.ascii "void") := by decide +kernel
  match k, hk with
  | 0, _ =>
    cases hs
    have hx : byName look { st with dims := dimsOf st [], isArray := st.isArray || !([] : List (List Nat × Nat)).isEmpty } (bareName base) =
        some ({ st with dims := dimsOf st [], isArray := st.isArray || !([] : List (List Nat × Nat)).isEmpty }, none) := by
      simp [byName, hn, h1, noneOrPointer, hp]
    rw [hx, Option.bind_some] at e
    refine ⟨_, e, ?_⟩
    cases hc : st.pointerClass <;> by_cases hz : st.size = 0 <;> simp [finish, h1, h2, h3, h4, hz, hv, typeSize]
  | 1, _ =>
    obtain ⟨s1, hs1, hs⟩ := strip_step hs
    cases hs
    have hx : byName look { st with dims := dimsOf st [], isArray := st.isArray || !([] : List (List Nat × Nat)).isEmpty } t =
        some ({ st with ty := .pointer, dims := dimsOf st [], isArray := st.isArray || !([] : List (List Nat × Nat)).isEmpty }, none) := by
      simp [byName, no_look hl hs1, hs1, hn, h1, h2, noneOrPointer, hp]
    rw [hx, Option.bind_some] at e
    refine ⟨_, e, ?_⟩
    by_cases hz : st.size = 0 <;> simp [finish, h2, h3, h4, hz, hv, typeSize]

/-- **C76.** A bit-field stays a bit-field; it is linked to the enumeration it was declared with, or to the basic type the compiler
has found. -/
theorem C76_bit_fields (look : List Nat → Option Td) (base z : List Nat) (hd : Declares base z 0 []) (st : Stype)
    (ht : st.type = some (base ++ z)) (hty : st.ty = .bitfield ∧ st.isArray = false ∧ st.isBitfield = false ∧ st.size ≠ 0) :
    (∀ td, look (bareName base) = some td → td.ty = .enum →
      detect look st = some { st with aux := td.ty, tdp := some td }) ∧
    (∀ bn n, (∀ x, look (bareName base) = some x → x.ty = st.aux) → (st.aux, bn, n) ∈ basics →
      detect look st = some { st with tdp := look bn }) := by
  obtain ⟨t, hs, _, e⟩ := detect_eq hd look st (by rw [hty.1]; decide) (by rw [ht]; simp [brackets])
  cases hs
  obtain ⟨ty, t0, aux, pc, ia, ib, sz, ds, tp⟩ := st
  obtain ⟨h1, h2, h3, h4⟩ := hty
  simp only at h1 h2 h3 h4
  subst h1 h2 h3
  refine ⟨?_, ?_⟩
  · intro td hn hb
    have hb : basicName td.ty = none := by rw [hb]; rfl
    rw [e]
    simp [byName, hn, finish, hb, h4, dimsOf]
  · intro bn n hn hb
    have hb := (basics_table _ hb).1
    rw [e]
    cases hc : look (bareName base) with
    | none =>
      simp only at hb
      simp [byName, hc, finish, show noneOrPointer .bitfield = false from rfl, hb, h4, dimsOf]
    | some x =>
      have := hn x hc
      simp only at this hb
      simp [byName, hc, finish, this, hb, h4, dimsOf]

/-- **C76.** A character array with one bound stays one string, it does not become an array of characters. -/
theorem C76_char_arrays (look : List Nat → Option Td) (base d : List Nat) (n : Nat) (hd : Declares base [] 0 [(d, n)]) (st : Stype)
    (ht : st.type = some (base ++ brackets [d]) ∨ st.type = some base) (hty : st.ty = .charArray ∧ st.isArray = false ∧ st.isBitfield = false ∧ st.size ≠ 0) :
    detect look st = some { st with tdp := look (bareName base) } := by
  obtain ⟨t, nm, h1, rfl, h3, _⟩ := C38_pointer_depth base [] 0 hd.text hd.blanks hd.noStar hd.name hd.stars hd.cut
  cases h3
  rw [List.append_nil] at h1
  have hb := hd.noBracket
  have h0 : 0 ∉ base ++ [] := fun h => hd.text 0 h rfl
  rw [List.append_nil] at hb h0
  have hbd := hd.bounds (d, n) (by simp)
  have harr : ∀ x, st.type = some x → isArray true x = some (none, base) := by
    intro x hx
    rcases ht with h | h
    · rw [h] at hx; cases hx
      exact C38_char_array base d n hb h0 hbd.1 hbd.2
    · rw [h] at hx; cases hx
      exact C38_no_array true base hb h0
  obtain ⟨ty, t0, aux, pc, ia, ib, sz, ds, tp⟩ := st
  obtain ⟨g1, g2, g3, g4⟩ := hty
  simp only at g1 g2 g3 g4 harr ht
  subst g1 g2 g3
  have hbn : basicName .charArray = none := rfl
  have hby : ∀ s : Stype, s.ty = .charArray → byName look s (bareName base) = some (s, look (bareName base)) := by
    intro s hs
    unfold byName
    cases hc : look (bareName base) <;> simp [hs, intLike, noneOrPointer]
  obtain ⟨x, rfl⟩ : ∃ x, ty = some x := by
    rcases ht with h | h <;> exact ⟨_, h⟩
  have hb' := hby { type := some x, ty := .charArray, aux := aux, pointerClass := pc, isArray := false, isBitfield := false, size := sz, dims := ds, tdp := tp } rfl
  change normalizeType base = some (bareName base) at h1
  generalize bareName base = nm at h1 hb' ⊢
  simp [detect, harr x rfl, h1, hb', finish, hbn, g4]

/-- **C76**, deviation: with three or more stars the type of the user is lost, the field is a pointer to a pointer without type. -/
theorem C76_deviation_three_stars (look : List Nat → Option Td) (hl : ∀ n td, look n = some td → 42 ∉ n)
    (base z : List Nat) (k : Nat) (hk : 3 ≤ k) (hd : Declares base z k []) (td : Td) (_ : look (bareName base) = some td) (st : Stype)
    (ht : st.type = some (base ++ z)) (hty : st.ty = .none ∧ st.aux = .none ∧ st.isBitfield = false ∧ st.isArray = false) :
    ∃ r, detect look st = some r ∧ r.tdp = none ∧ r.ty = .pointer ∧ r.aux = .pointer := by
  obtain ⟨t, hs, hp, e⟩ := detect_eq hd look st (by rw [hty.1]; decide) (by rw [ht]; simp [brackets])
  obtain ⟨h1, h2, h3, h4⟩ := hty
  obtain ⟨k, rfl⟩ : ∃ j, k = j + 3 := ⟨k - 3, by omega⟩
  obtain ⟨s1, hs1, hs⟩ := strip_step hs
  obtain ⟨s2, hs2, hs⟩ := strip_step hs
  obtain ⟨s3, hs3, hs⟩ := strip_step hs
  have hx : byName look { st with dims := dimsOf st [], isArray := st.isArray || !([] : List (List Nat × Nat)).isEmpty } t =
      some ({ st with ty := .pointer, aux := .pointer, dims := dimsOf st [], isArray := st.isArray || !([] : List (List Nat × Nat)).isEmpty }, none) := by
    simp [byName, no_look hl hs1, hs1, no_look hl hs2, hs2, no_look hl hs3, h1, h2, noneOrPointer]
  rw [hx, Option.bind_some] at e
  refine ⟨_, e, ?_⟩
  have hv : basicName .pointer = none := rfl
  by_cases hz : st.size = 0 <;> simp [finish, h3, h4, hz, hv, typeSize]

/-! The types "foo" (a structure of 24 bytes) and the basic types. -/
def exTd : Td := ⟨Spec.ascii "foo", .struct, 24⟩
def exInt : Td := ⟨Spec.ascii "int32_t", .int32, 4⟩
def exLook (n : List Nat) : Option Td :=
  if n = Spec.ascii "foo" then some exTd else if n = Spec.ascii "int32_t" then some exInt else none
example : ∀ n td, exLook n = some td → 42 ∉ n := by
  intro n td h
  unfold exLook at h
  split at h
  · rename_i e; rw [e]; decide +kernel
  · split at h
    · rename_i e; rw [e]; decide +kernel
    · cases h
/- "const struct foo * const" with the bounds [2][3] -/
example : Declares (Spec.ascii "const struct foo") (Spec.ascii " * const") 1 [([50], 2), ([51], 3)] where
  text := by decide +kernel
  blanks := by decide +kernel
  noStar := by decide +kernel
  noBracket := by decide +kernel
  name := ⟨Spec.ascii "foo", by decide +kernel, by decide +kernel⟩
  stars := .blank _ 32 _ (Or.inl rfl) (.star _ _ (.blank _ 32 _ (Or.inl rfl) (.qualifier _ (Spec.ascii "const") _ (by decide +kernel) (Or.inl rfl) .nil)))
  cut := Or.inr ⟨32, by decide +kernel, rfl⟩
  bounds := by
    intro p hp
    simp only [List.mem_cons, List.not_mem_nil, or_false] at hp
    rcases hp with rfl | rfl
    · exact ⟨⟨[2], rfl, by intro d hd; simp at hd; omega, rfl, by simp, by simp⟩, by decide⟩
    · exact ⟨⟨[3], rfl, by intro d hd; simp at hd; omega, rfl, by simp, by simp⟩, by decide⟩
example : bareName (Spec.ascii "const struct foo") = Spec.ascii "foo" ∧ exLook (Spec.ascii "foo") = some exTd ∧ exTd.ty ∈ userKinds := by decide +kernel
example : (detect exLook { type := some (Spec.ascii "const struct foo * const[2][3]") }).map (fun r => (r.ty, r.aux, r.size, r.dims, r.tdp)) =
    some (.array, .pointer, 48, [2, 3], some exTd) := by decide +kernel
example : (detect exLook { type := some (Spec.ascii "foo [5]") }).map (fun r => (r.ty, r.aux, r.size, r.dims, r.tdp)) =
    some (.array, .struct, 120, [5], some exTd) := by decide +kernel
example : (detect exLook { type := some (Spec.ascii "my_int"), ty := .int32, size := 4 }).map (fun r => (r.ty, r.tdp)) = some (.int32, some exInt) := by
  decide +kernel
example : (detect exLook { type := some (Spec.ascii "foo ***") }).map (fun r => (r.ty, r.aux, r.tdp)) = some (.pointer, .pointer, none) := by
  decide +kernel

example : (MrType.int32, Spec.ascii "int32_t", 4) ∈ basics ∧ exLook (Spec.ascii "int32_t") = some exInt := by decide +kernel
/- "char [16]", and an enumeration in a bit-field -/
example : (detect exLook { type := some (Spec.ascii "char [16]"), ty := .charArray, size := 16 }).map (fun r => (r.ty, r.isArray, r.size)) =
    some (.charArray, false, 16) := by decide +kernel
example : (detect (fun n => if n = Spec.ascii "color" then some ⟨n, .enum, 4⟩ else none) { type := some (Spec.ascii "enum color"), ty := .bitfield, aux := .uint32, size := 4 }).map
    (fun r => (r.ty, r.aux)) = some (.bitfield, .enum) := by decide +kernel

end Verif.Props.Detect
