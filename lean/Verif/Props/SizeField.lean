import Verif.Lemmas.SizeField
/-!
# C65: size fields of resizable arrays

A pointer or an array of a structure may name a field of the structure that holds its size in bytes.
* `C65_size_field`: the field that is used is the one that is named, of the nearest structure.
* `C65_saved_elements_partial`: as many elements are saved as the size field says.
* `C65_saved_array`: the same for arrays, never more than the array has.
* `C65_no_size_field`: without a size field one element is saved, and loading changes nothing of the user.
* `C65_loaded_size`: loading writes the size of what was loaded to the size field, and nothing else.
* `C65_load_then_save`: after loading, as many elements are saved as were loaded.
* `C65_deviation_*`: negative sizes, sizes that do not fit, and size fields behind NULL pointers.
-/
namespace Verif.Props.SizeField
open Verif.Model Verif.Model.SizeField Verif.Spec.SizeField Verif.Lemmas.SizeField

/-- The size field that is used is the one that the pointer names, in the nearest enclosing structure,
at the address of that structure plus the offset of the field; by offset it is the last field there.
Without such a field none is used.  The search always ends. -/
theorem C65_size_field {known : String → Bool} {ra : List Node} (hg : Graph known ra) {idx : Nat} (hi : idx < ra.length) :
    ∃ pl, getSizePtrdes known ra idx = some pl ∧
      (∀ f a, SizeField ra idx f a → pl = { ty := f.ty, aux := f.aux, eff := f.eff, addr := a }) ∧
      ((¬ ∃ f a, SizeField ra idx f a) → pl.addr = 0) :=
  getSize_ok hg (List.getElem?_eq_getElem hi)

/-- A pointer has at most one size field. -/
theorem C65_one_size_field {known : String → Bool} {ra : List Node} (hg : Graph known ra) {idx : Nat} {f g : Fd} {a b : Nat}
    (hf : SizeField ra idx f a) (hh : SizeField ra idx g b) :
    a = b ∧ f.ty = g.ty ∧ f.aux = g.aux ∧ f.eff = g.eff := by
  have h1 := getSize_some hg hf
  rw [getSize_some hg hh] at h1
  simp only [Option.some.injEq, Place.mk.injEq] at h1
  obtain ⟨h1, h2, h3, h4⟩ := h1
  exact ⟨h4.symm, h1.symm, h2.symm, h3.symm⟩

theorem cell_val {M : Mem} {f : Fd} {s : Bool} {w a b cell x : Nat} {v : Int} (hi : IntField f s w) (hl : Located M f a b)
    (hv : Holds M s w b v) (ho : Own f a b w cell 4) :
    (load (assignInt (store M 4 cell x) { ty := .int false 4, addr := cell }
      { ty := f.ty, aux := f.aux, eff := f.eff, addr := a }) 4 cell : Int) = v % (2 ^ 32 : Nat) := by
  have hl' : Located (store M 4 cell x) f a b := located_congr hl fun hp i hi => store_out (by
    have := ho.2.2 hp; unfold Apart at this; omega)
  have hv' : Holds (store M 4 cell x) s w b v := holds_store_apart hv ho.2.1
  rw [assign_from hi hl' ho.1, load_store]
  have h1 := widen_holds hi.1 hi.2.1 hv'
  rw [Int.natCast_emod, h1, show 256 ^ 4 = 2 ^ 32 by decide]
  exact Int.emod_emod_of_dvd _ (by decide)

/-- The size of what a pointer points to is the value of the size field, reduced to 32 bits. -/
theorem C65_saved_size {known : String → Bool} {ra : List Node} (hg : Graph known ra) {idx : Nat} {f : Fd} {a : Nat}
    (hf : SizeField ra idx f a) (ha : a ≠ 0) {s : Bool} {w : Nat} (hi : IntField f s w) {M : Mem} {b : Nat}
    (hl : Located M f a b) {v : Int} (hv : Holds M s w b v) {cell : Nat} (ho : Own f a b w cell 4) (elem : Nat) :
    ∃ n : Nat, pointerSize known ra cell M idx elem = some n ∧ (n : Int) = v % (2 ^ 32 : Nat) := by
  refine ⟨_, ?_, cell_val (x := elem) hi hl hv ho⟩
  unfold pointerSize
  simp only [getSize_some hg hf, Option.bind_eq_bind, Option.bind_some]
  rw [if_pos ha]

/-- As many elements are saved behind a pointer as the size field says: the size divided by the size of
one element.  Missing: sizes that are negative or need more than 32 bits (see the deviations), and size
fields that are bit-fields or of type `bool`. -/
theorem C65_saved_elements_partial {known : String → Bool} {ra : List Node} (hg : Graph known ra) {idx : Nat} {f : Fd} {a : Nat}
    (hf : SizeField ra idx f a) (ha : a ≠ 0) {s : Bool} {w : Nat} (hi : IntField f s w) {M : Mem} {b : Nat}
    (hl : Located M f a b) {size : Nat} (hv : Holds M s w b size) (hs : size < 2 ^ 32)
    {cell : Nat} (ho : Own f a b w cell 4) (elem : Nat) :
    pointerCount known ra cell M idx elem = some (size / elem) := by
  obtain ⟨n, h1, h2⟩ := C65_saved_size hg hf ha hi hl hv ho elem
  rw [Int.emod_eq_of_lt (by omega) (by omega)] at h2
  have h2 : n = size := by omega
  subst h2
  unfold pointerCount
  simp only [h1, Option.bind_eq_bind, Option.bind_some]
  by_cases h : elem = 0 ∨ n < elem
  · rw [if_pos h]
    rcases h with h | h
    · subst h; simp
    · rw [Nat.div_eq_of_lt h]
  · rw [if_neg h]

/-- As many elements of an array are saved as the size field says, none when it is negative, and never
more than the array has. -/
theorem C65_saved_array {known : String → Bool} {ra : List Node} (hg : Graph known ra) {idx : Nat} {f : Fd} {a : Nat}
    (hf : SizeField ra idx f a) (ha : a ≠ 0) {s : Bool} {w : Nat} (hi : IntField f s w) {M : Mem} {b : Nat}
    (hl : Located M f a b) {size : Int} (hv : Holds M s w b size) (hs : -(2 ^ 63 : Nat) ≤ size ∧ size < (2 ^ 63 : Nat))
    {loc : Nat} (h0 : loc ≠ 0) {elem : Nat} (h00 : 0 < elem) (he : size.toNat / elem < 2 ^ 32) (count : Nat) :
    arrayCount known ra loc M idx count elem = some (min count (size.toNat / elem)) := by
  unfold arrayCount
  simp only [getSize_some hg hf, Option.bind_eq_bind, Option.bind_some]
  rw [if_pos ha, assign_from hi hl h0, load_store]
  have h1 := widen_holds hi.1 hi.2.1 hv
  generalize widen s w (load M w b) = x at h1
  have h2 : ((x % 256 ^ 8 : Nat) : Int) = size % (2 ^ 64 : Nat) := by
    rw [Int.natCast_emod, h1, show 256 ^ 8 = 2 ^ 64 by decide]
    exact Int.emod_emod_of_dvd _ (by decide)
  generalize x % 256 ^ 8 = r at h2
  by_cases hn : size ≤ 0
  · have : r = 0 ∨ 2 ^ 63 ≤ r := by omega
    rw [if_pos this, Int.toNat_of_nonpos hn]
    simp
  · rw [Int.emod_eq_of_lt (by omega) (by omega)] at h2
    have h3 : size.toNat = r := by omega
    rw [h3] at he ⊢
    rw [if_neg (by omega), if_neg (by omega)]
    have : u32 (r / elem) = r / elem := by unfold u32; exact Nat.mod_eq_of_lt (by omega)
    simp only [this]
    split
    · congr 1; omega
    · congr 1; omega

/-- Without a size field one element is saved behind a pointer, all elements of an array are saved, and
loading writes nothing outside of the data of Metaresc. -/
theorem C65_no_size_field {known : String → Bool} {ra : List Node} (hg : Graph known ra) {idx : Nat} (hi : idx < ra.length)
    (hn : ¬ ∃ f a, SizeField ra idx f a) (M : Mem) (cell : Nat) :
    (∀ elem, 0 < elem → elem < 2 ^ 32 → pointerCount known ra cell M idx elem = some 1) ∧
    (∀ count elem, arrayCount known ra cell M idx count elem = some count) ∧
    (∀ count elem, ∃ M', setSize known ra cell M idx count elem = some M' ∧
      ∀ x, (x < cell ∨ cell + 4 ≤ x) → M' x = M x) := by
  obtain ⟨pl, h1, _, h3⟩ := C65_size_field hg hi
  have h4 := h3 hn
  refine ⟨?_, ?_, ?_⟩
  · intro elem h0 hs
    unfold pointerCount pointerSize
    simp only [h1, h4, Option.bind_eq_bind, Option.bind_some, ne_eq, not_true_eq_false, if_false, load_store]
    rw [Nat.mod_eq_of_lt (show elem < 256 ^ 4 by omega), if_neg (by omega), Nat.div_self h0]
  · intro count elem
    unfold arrayCount
    simp [h1, h4]
  · intro count elem
    refine ⟨_, by unfold setSize; simp only [h1, h4, Option.bind_eq_bind, Option.bind_some, ne_eq, not_true_eq_false, if_false]; rfl, ?_⟩
    intro x hx
    exact store_out hx

/-- Loading `count` elements behind a pointer writes their size in bytes to the size field, provided that
the type of the field can hold it, and changes no other data of the user. -/
theorem C65_loaded_size {known : String → Bool} {ra : List Node} (hg : Graph known ra) {idx : Nat} {f : Fd} {a : Nat}
    (hf : SizeField ra idx f a) (ha : a ≠ 0) {s : Bool} {w : Nat} (hi : IntField f s w) {M : Mem} {b : Nat}
    (hl : Located M f a b) {cell : Nat} (ho : Own f a b w cell 4) {count elem : Nat}
    (hs : count * elem < 2 ^ 32) (hr : InRange s w (count * elem : Nat)) :
    ∃ M', setSize known ra cell M idx count elem = some M' ∧ Holds M' s w b (count * elem : Nat) ∧
      ∀ x, (x < b ∨ b + w ≤ x) → (x < cell ∨ cell + 4 ≤ x) → M' x = M x := by
  have hl' : Located (store M 4 cell (count * elem)) f a b := located_congr hl fun hp i hi => store_out (by
    have := ho.2.2 hp; unfold Apart at this; omega)
  have hv : widen false 4 (load (store M 4 cell (count * elem)) 4 cell) = count * elem := by
    simp only [widen, Bool.false_eq_true, false_and, if_false, load_store]
    exact Nat.mod_eq_of_lt (by omega)
  refine ⟨store (store M 4 cell (count * elem)) w b (count * elem), ?_, ⟨hr, store_bytes⟩, ?_⟩
  · unfold setSize
    simp only [getSize_some hg hf, Option.bind_eq_bind, Option.bind_some]
    rw [if_pos ha, assign_to hi hl' ho.1, hv]
  · intro x h1 h2
    rw [store_out h1, store_out h2]

/-- What was loaded is saved again: after loading `count` elements behind a pointer, `count` elements are
saved, also when Metaresc keeps its own data at another address by then. -/
theorem C65_load_then_save {known : String → Bool} {ra : List Node} (hg : Graph known ra) {idx : Nat} {f : Fd} {a : Nat}
    (hf : SizeField ra idx f a) (ha : a ≠ 0) {s : Bool} {w : Nat} (hi : IntField f s w) {M : Mem} {b : Nat}
    (hl : Located M f a b) (hp : f.ty = .pointer → Apart a 8 b w) {cell cell' : Nat} (ho : Own f a b w cell 4)
    (ho' : Own f a b w cell' 4) {count elem : Nat}
    (he : 0 < elem) (hs : count * elem < 2 ^ 32) (hr : InRange s w (count * elem : Nat)) :
    ∃ M', setSize known ra cell M idx count elem = some M' ∧ pointerCount known ra cell' M' idx elem = some count := by
  obtain ⟨M', h1, h2, h3⟩ := C65_loaded_size hg hf ha hi hl ho hs hr
  refine ⟨M', h1, ?_⟩
  have hl' : Located M' f a b := located_congr hl fun hq i hi => h3 _
    (by have := hp hq; unfold Apart at this; omega) (by have := ho.2.2 hq; unfold Apart at this; omega)
  rw [C65_saved_elements_partial hg hf ha hi hl' h2 hs ho' elem, Nat.mul_div_cancel _ he]

/-! ## deviations -/

/-- `struct { char * tag[0]; T size; E * ptr; }`, a structure at the address 1000 with a size field of the type
`ty`: by name for the pointer, by offset for the array -/
def nodes (ty aux : Ty) : List Node :=
  [{ ty := .struct, parent := none, data := 1000, fields := some [
      { name := "tag", offset := 0, ty := .other }, { name := "size", offset := 0, ty := ty, aux := aux },
      { name := "ptr", offset := 16, ty := .pointer, aux := .other } ] },
   { ty := .pointer, parent := some 0, data := 1016, fields := none, resType := some "string", resString := "size" },
   { ty := .other, parent := some 0, data := 1016, fields := none },
   { ty := .other, parent := some 2, data := 1016, fields := none, resType := some "offset", resOffset := 0 }]

def names (s : String) : Bool := s == "tag" || s == "size" || s == "ptr"

/-- A negative size is taken for a huge one: with the size −1 (for example an error code) in a field of
type `int32_t`, more than a thousand million elements of four bytes are saved from whatever follows the
data in memory.  (For arrays a negative size means no elements, `C65_saved_array`.) -/
theorem C65_deviation_negative_size :
    pointerCount names (nodes (.int true 4) .void) 5000 (store (fun _ => 0) 4 1000 (2 ^ 32 - 1)) 1 4 = some 1073741823 := by
  decide +kernel

/-- A size that the type of the size field cannot hold is cut off without an error: of 300 loaded bytes
only 44 are saved again when the size field is a `uint8_t`; with `int8_t` and 200 bytes, it is the
huge number of the previous deviation. -/
theorem C65_deviation_small_field :
    (setSize names (nodes (.int false 1) .void) 5000 (fun _ => 0) 1 300 1).bind
        (fun M => pointerCount names (nodes (.int false 1) .void) 5000 M 1 1) = some 44 ∧
    (setSize names (nodes (.int true 1) .void) 5000 (fun _ => 0) 1 200 1).bind
        (fun M => pointerCount names (nodes (.int true 1) .void) 5000 M 1 1) = some 4294967240 := by
  decide +kernel

/-- Sizes of 4 GiB and more are cut off without an error: with the size 2^32 + 8 in a field of type
`uint64_t`, two elements of four bytes are saved. -/
theorem C65_deviation_large_size :
    pointerCount names (nodes (.int false 8) .void) 5000 (store (fun _ => 0) 8 1000 (2 ^ 32 + 8)) 1 4 = some 2 := by
  decide +kernel

/-- When the size field of an array is a pointer that is NULL, an uninitialised variable decides how many
elements are saved: whatever the count, some content of the variable gives it. -/
theorem C65_deviation_null_size : ∀ n ≤ 10, ∃ M : Mem, (∀ x, (x < 5000 ∨ 5008 ≤ x) → M x = 0) ∧
    arrayCount names (nodes .pointer (.int false 4)) 5000 M 3 10 1 = some n := by
  intro n hn
  refine ⟨store (fun _ => 0) 8 5000 n, fun x hx => by rw [store_out (by omega)], ?_⟩
  have : ∀ n : Fin 11, arrayCount names (nodes .pointer (.int false 4)) 5000 (store (fun _ => 0) 8 5000 n) 3 10 1 = some n.val := by
    decide +kernel
  exact this ⟨n, by omega⟩

/-! ## the hypotheses can be met -/

theorem nodes_graph (ty aux : Ty) : Graph names (nodes ty aux) := by
  have hf : ∀ (i : Nat) (n : Node) (fs : List Fd), (nodes ty aux)[i]? = some n → n.fields = some fs →
      fs = [{ name := "tag", offset := 0, ty := .other }, { name := "size", offset := 0, ty := ty, aux := aux },
        { name := "ptr", offset := 16, ty := .pointer, aux := .other }] := by
    intro i n fs h1 h2
    match i, h1 with
    | 0, h1 => simp only [nodes, List.getElem?_cons_zero, Option.some.injEq] at h1; subst h1; exact (Option.some.inj h2).symm
    | 1, h1 => simp only [nodes, List.getElem?_cons_zero, List.getElem?_cons_succ, Option.some.injEq] at h1; subst h1; cases h2
    | 2, h1 => simp only [nodes, List.getElem?_cons_zero, List.getElem?_cons_succ, Option.some.injEq] at h1; subst h1; cases h2
    | 3, h1 => simp only [nodes, List.getElem?_cons_zero, List.getElem?_cons_succ, Option.some.injEq] at h1; subst h1; cases h2
    | k + 4, h1 => simp [nodes] at h1
  constructor
  · intro i n fs h1 h2; rw [hf i n fs h1 h2]; simp
  · intro i p n h1 h2
    match i, h1 with
    | 0, h1 => simp only [nodes, List.getElem?_cons_zero, Option.some.injEq] at h1; subst h1; cases h2
    | 1, h1 => simp only [nodes, List.getElem?_cons_zero, List.getElem?_cons_succ, Option.some.injEq] at h1; subst h1; cases h2; decide
    | 2, h1 => simp only [nodes, List.getElem?_cons_zero, List.getElem?_cons_succ, Option.some.injEq] at h1; subst h1; cases h2; decide
    | 3, h1 => simp only [nodes, List.getElem?_cons_zero, List.getElem?_cons_succ, Option.some.injEq] at h1; subst h1; cases h2; decide
    | k + 4, h1 => simp [nodes] at h1
  · intro i n fs h1 h2; rw [hf i n fs h1 h2]
    intro i j f g hij h3 h4
    match i, j, h3, h4 with
    | 0, 1, h3, h4 => simp at h3 h4; subst h3; subst h4; simp
    | 0, 2, h3, h4 => simp at h3 h4; subst h3; subst h4; simp
    | 1, 2, h3, h4 => simp at h3 h4; subst h3; subst h4; simp
    | _, k + 3, _, h4 => simp at h4
    | k + 1, 1, _, _ => omega
    | k + 2, 2, _, _ => omega
    | _, 0, _, _ => omega
  · intro i n fs h1 h2; rw [hf i n fs h1 h2]
    intro f h3 g h4 h5
    simp only [List.mem_cons, List.not_mem_nil, or_false] at h3 h4
    rcases h3 with rfl | rfl | rfl <;> rcases h4 with rfl | rfl | rfl <;> simp at h5 ⊢
  · intro i n fs h1 h2; rw [hf i n fs h1 h2]
    intro f h3
    simp only [List.mem_cons, List.not_mem_nil, or_false] at h3
    rcases h3 with rfl | rfl | rfl <;> simp [names]
  · decide

theorem nodes_by_name (ty aux : Ty) :
    SizeField (nodes ty aux) 1 { name := "size", offset := 0, ty := ty, aux := aux } 1000 :=
  ⟨_, 0, _, _, rfl, .here rfl rfl rfl rfl, rfl, rfl, .inr ⟨rfl, by simp, rfl⟩, rfl⟩

theorem nodes_by_offset (ty aux : Ty) :
    SizeField (nodes ty aux) 3 { name := "size", offset := 0, ty := ty, aux := aux } 1000 :=
  ⟨_, 0, _, _, rfl, .up rfl rfl rfl (fun h => by cases h) (.here rfl rfl rfl rfl), rfl, rfl, .inl ⟨rfl, 1, rfl, rfl, by
    intro j g hj hg
    match j, hg with
    | 2, hg => simp at hg; subst hg; simp
    | k + 3, hg => simp at hg
    | 1, _ => omega
    | 0, _ => omega⟩, rfl⟩

/-- 25 elements of 8 bytes, with a size field of type `int16_t` -/
example : ∃ M', setSize names (nodes (.int true 2) .void) 5000 (fun _ => 0) 1 25 8 = some M' ∧
    pointerCount names (nodes (.int true 2) .void) 6000 M' 1 8 = some 25 :=
  C65_load_then_save (nodes_graph _ _) (nodes_by_name _ _) (by decide) (s := true) (w := 2) ⟨by decide, by decide, .inl rfl⟩
    (b := 1000) ⟨by decide, by simp⟩ (fun h => by cases h) ⟨by decide, by simp [Apart], fun h => by cases h⟩
    ⟨by decide, by simp [Apart], fun h => by cases h⟩ (by decide) (by decide) ⟨by decide, by decide⟩

/-- the size field is a pointer to a `uint32_t` at 2000 -/
example : ∃ M', setSize names (nodes .pointer (.int false 4)) 5000 (store (fun _ => 0) 8 1000 2000) 1 25 8 = some M' ∧
    Holds M' false 4 2000 200 ∧
      ∀ x, (x < 2000 ∨ 2000 + 4 ≤ x) → (x < 5000 ∨ 5000 + 4 ≤ x) → M' x = store (fun _ => 0) 8 1000 2000 x :=
  C65_loaded_size (nodes_graph _ _) (nodes_by_name _ _) (by decide) (s := false) (w := 4)
    ⟨by decide, by decide, .inr (.inl ⟨.inr rfl, rfl⟩)⟩ (b := 2000)
    ⟨by decide, by rw [if_pos rfl]; exact ⟨⟨by decide, by decide⟩, store_bytes⟩⟩
    ⟨by decide, by simp [Apart], fun _ => by simp [Apart]⟩ (by decide) ⟨by decide, by decide⟩

/-- 20 bytes in an array of 10 elements of 4 bytes -/
example : arrayCount names (nodes (.int true 4) .void) 5000 (store (fun _ => 0) 4 1000 20) 3 10 4 = some 5 :=
  C65_saved_array (nodes_graph _ _) (nodes_by_offset _ _) (by decide) (s := true) (w := 4) ⟨by decide, by decide, .inl rfl⟩
    (b := 1000) ⟨by decide, by simp⟩ (size := 20) ⟨⟨by decide, by decide⟩, store_bytes⟩ (by decide) (by decide) (by decide) (by decide) 10

/-- the field is found by its offset, behind a field of no size -/
example : ∃ pl, getSizePtrdes names (nodes (.int true 4) .void) 3 = some pl ∧ pl.ty = .int true 4 ∧ pl.addr = 1000 := by
  obtain ⟨pl, h1, h2, _⟩ := C65_size_field (nodes_graph (.int true 4) .void) (idx := 3) (by decide)
  exact ⟨pl, h1, by rw [h2 _ _ (nodes_by_offset _ _)], by rw [h2 _ _ (nodes_by_offset _ _)]⟩

/-- the node 2 has no size field -/
example : pointerCount names (nodes (.int true 4) .void) 5000 (fun _ => 0) 2 4 = some 1 :=
  (C65_no_size_field (nodes_graph _ _) (by decide) (by
    rintro ⟨f, a, n, p, m, fs, h1, _, _, _, h, _⟩
    simp only [nodes, List.getElem?_cons_zero, List.getElem?_cons_succ, Option.some.injEq] at h1
    subst h1
    rcases h with h | h <;> cases h.1) _ _).1 4 (by decide) (by decide)

end Verif.Props.SizeField
