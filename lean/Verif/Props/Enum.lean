import Verif.Lemmas.Enum
/-!
# C22, C23, C41: enumerations

`initAll decls` is the program's initialisation of all declared enumerations, `nameTable tds []` the
resulting global table of names.  `castInt` reads a text as every text loader does, `storeEnum`
stores the result into a variable of the enumeration type.
-/
namespace Verif.Props.Enum
open Verif.Model Verif.Model.Enum Verif.Spec Verif.Lemmas.Enum Verif.Lemmas.Mem

/-- The delimiter all writers use. -/
def bar : List Nat := " | ".toList.map Char.toNat

/-- A program with initialised enumerations. -/
structure Program (decls tds : List Td) : Prop where
  declared : ∀ td ∈ decls, Declared td
  noConflict : NoConflict decls
  init : initAll decls = some tds

/-- name and value of the constants -/
def pairs (es : List Ed) : List (List Nat × BitVec 64) := es.map fun e => (e.name, e.value)

/-- **C41.** Initialisation of a declared enumeration succeeds, keeps exactly the declared constants
(names with their values) and orders them by value. -/
theorem C41_table_sorted (td : Td) (h : Declared td) : ∃ td', initEnum td = some td' ∧
    (pairs td'.enums).Perm (pairs td.enums) ∧
    (td'.enums.Pairwise fun x y => x.value.toNat ≤ y.value.toNat) ∧
    td'.size = td.size ∧ td'.effective = td.effective := by
  obtain ⟨td', h1, R⟩ := init_ok h.detected h.count
  refine ⟨td', h1, ?_, R.sorted, R.size, R.effective⟩
  have := R.perm.map fun e => (e.name, e.value)
  simpa [pairs, Function.comp_def] using this

/-- **C41.** A table is treated as a bit mask exactly when every constant is zero or a power of two (as
a value of the type) and at least two are not zero. -/
theorem C41_bitmask_exactly_when (td td' : Td) (h : Declared td) (hi : initEnum td = some td') :
    td'.isBitmask = true ↔
      2 ≤ (td.enums.filter fun e => decide (e.value.toNat % 2 ^ (8 * td.effective.size) ≠ 0)).length ∧
      ∀ e ∈ td.enums, e.value.toNat % 2 ^ (8 * td.effective.size) = 0 ∨
        ∃ k, e.value.toNat % 2 ^ (8 * td.effective.size) = 2 ^ k :=
  init_bitmask h.detected h.count hi

/-- **C41.** The same for an enumeration of 1, 2, 4 or 8 bytes whose type could not be detected: it is then
read as an unsigned number of its own size. -/
theorem C41_undetected_type (td : Td) (h : td.effective = .none) (hs : td.size ∈ [1, 2, 4, 8]) (hl : td.enums.length < 2 ^ 31) :
    ∃ td', initEnum td = some td' ∧ (pairs td'.enums).Perm (pairs td.enums) ∧
      (td'.enums.Pairwise fun x y => x.value.toNat ≤ y.value.toNat) ∧
      td'.size = td.size ∧ td'.effective.size = td.size ∧ td'.sizeEffective = td.size ∧ td'.effective.signed = false ∧
      (td'.isBitmask = true ↔
        2 ≤ (td'.enums.filter fun e => decide (e.value.toNat % 2 ^ (8 * td.size) ≠ 0)).length ∧
        ∀ e ∈ td'.enums, e.value.toNat % 2 ^ (8 * td.size) = 0 ∨ ∃ k, e.value.toNat % 2 ^ (8 * td.size) = 2 ^ k) := by
  unfold initEnum
  obtain ⟨es, h1, h2, h3⟩ := Lemmas.Hsort.hsort_ok edCmp (td.enums.map fun e => { e with ty := td.effective })
    (by simp; omega)
  have hse : ∃ ty : Ty, effectiveSize td = { td with sizeEffective := td.size, effective := ty } ∧ ty.size = td.size ∧ ty.signed = false := by
    simp only [List.mem_cons, List.not_mem_nil, or_false] at hs
    rcases hs with hs | hs | hs | hs
    · exact ⟨.u8, by simp [effectiveSize, h, hs], by rw [hs]; rfl, rfl⟩
    · exact ⟨.u16, by simp [effectiveSize, h, hs], by rw [hs]; rfl, rfl⟩
    · exact ⟨.u32, by simp [effectiveSize, h, hs], by rw [hs]; rfl, rfl⟩
    · exact ⟨.u64, by simp [effectiveSize, h, hs], by rw [hs]; rfl, rfl⟩
  obtain ⟨ty, e1, e2, e3⟩ := hse
  obtain ⟨m, g1, g2⟩ := classify_exact (n := td.size) (by simpa using hs) es 0 true
  simp only [h1, e1, Option.bind_eq_bind, Option.bind_some, g1]
  refine ⟨_, rfl, ?_, (h3 edCmp_pre).imp fun h => (edCmp_le _ _).mp h, rfl, e2, rfl, e3, ?_⟩
  · have := h2.map fun e => (e.name, e.value)
    simpa [pairs, Function.comp_def] using this
  · show (if 0 + _ < 2 then false else m) = true ↔ _
    split
    · rename_i hlt
      constructor
      · intro h; cases h
      · rintro ⟨h, _⟩; simp only at h; omega
    · rename_i hlt
      rw [g2]
      constructor
      · rintro ⟨_, h⟩; exact ⟨by simp only; omega, h⟩
      · rintro ⟨_, h⟩; exact ⟨rfl, h⟩

/-- **C22.** Lookup by value in an initialised table: a constant is found iff one was declared with that
value, and what is found is such a constant. -/
theorem C22_lookup_by_value (td td' : Td) (h : Declared td) (hi : initEnum td = some td') (v : BitVec 64) :
    ∃ r, byValue td' v = some r ∧ (r.isSome ↔ ∃ e ∈ td.enums, e.value = v) ∧
      ∀ e, r = some e → e.value = v ∧ ∃ e0 ∈ td.enums, e0.name = e.name ∧ e0.value = v := by
  obtain ⟨td2, h1, R⟩ := init_ok h.detected h.count
  rw [hi] at h1
  injection h1 with h1
  subst h1
  obtain ⟨r, h2, h3, h4⟩ := byValue_ok R.sorted (by rw [R.perm.length_eq]; simpa using h.count) v
  have hf : ∀ e, r = some e → e.value = v ∧ ∃ e0 ∈ td.enums, e0.name = e.name ∧ e0.value = v := by
    intro e he
    obtain ⟨a, b⟩ := h3 e he
    obtain ⟨e0, c, d, f, _⟩ := ready_mem R a
    exact ⟨b, e0, c, d, by rw [f, b]⟩
  refine ⟨r, h2, ?_, hf⟩
  constructor
  · intro hs
    obtain ⟨e, he⟩ := Option.isSome_iff_exists.mp hs
    obtain ⟨_, e0, a, _, b⟩ := hf e he
    exact ⟨e0, a, b⟩
  · rintro ⟨e, he, hv⟩
    cases hr : r with
    | some e => rfl
    | none =>
      exfalso
      refine h4 hr { e with ty := td.effective } (R.perm.mem_iff.mpr (List.mem_map.mpr ⟨e, he, rfl⟩)) hv

/-- **C22.** Lookup by name in the global table: a constant is found iff one of that name was declared
in some type, and it has the declared value. -/
theorem C22_lookup_by_name {decls tds : List Td} (P : Program decls tds) (n : List Nat) :
    ((byName (nameTable tds []) n).isSome ↔ ∃ td ∈ decls, ∃ e ∈ td.enums, e.name = n) ∧
    ∀ td ∈ decls, ∀ e ∈ td.enums, e.name = n →
      ∃ x, byName (nameTable tds []) n = some x ∧ x.name = n ∧ x.value = e.value := by
  obtain ⟨tds2, h1, R⟩ := initAll_ok decls P.declared
  rw [P.init] at h1
  injection h1 with h1
  subst h1
  have hleft : ∀ {l l' : List Td}, AllReady l l' → ∀ {x}, x ∈ l → ∃ y ∈ l', Ready x y := by
    intro l l' h
    induction h with
    | nil => intro x hx; simp at hx
    | cons h1 _ ih =>
      intro x hx
      rcases List.mem_cons.mp hx with h | h
      · subst h; exact ⟨_, by simp, h1⟩
      · obtain ⟨y, hy, hr⟩ := ih h
        exact ⟨y, by simp [hy], hr⟩
  have hB : ∀ td ∈ decls, ∀ e ∈ td.enums, e.name = n →
      ∃ x, byName (nameTable tds []) n = some x ∧ x.name = n ∧ x.value = e.value := by
    intro td ht e he hn
    obtain ⟨td', a, b⟩ := hleft R ht
    obtain ⟨_, x, _, hx, hv, hxn, _⟩ := known P.declared P.noConflict R a
      (b.perm.mem_iff.mpr (List.mem_map.mpr ⟨e, he, rfl⟩))
    exact ⟨x, hn ▸ hx, hn ▸ hxn, hv⟩
  refine ⟨⟨?_, ?_⟩, hB⟩
  · intro hs
    obtain ⟨x, hx⟩ := Option.isSome_iff_exists.mp hs
    have hxn : x.name = n := by have := List.find?_some hx; simpa using this
    rcases nameTable_sub tds [] (List.mem_of_find?_eq_some hx) with h | ⟨td, a, b⟩
    · simp at h
    · obtain ⟨td0, c, d⟩ := allReady_right R a
      obtain ⟨e0, f, g, _⟩ := ready_mem d b
      exact ⟨td0, c, e0, f, by rw [g, hxn]⟩
  · rintro ⟨td, ht, e, he, hn⟩
    obtain ⟨x, hx, _⟩ := hB td ht e he hn
    rw [hx]; rfl

/-- What a round trip through text achieves: the text is produced, is readable, and storing the result
into any variable `mem0` of the type gives a variable with the value of the original and touches
nothing behind it. -/
def RoundTrip (tds : List Td) (td : Td) (text : Option (List Nat)) (mem mem0 : List Nat) : Prop :=
  ∃ t v mem', text = some t ∧ castInt (nameTable tds []) (maxLength 0 (nameTable tds [])) t = some v ∧
    storeEnum td.size v mem0 = some mem' ∧ mem'.length = mem0.length ∧ mem'.drop td.size = mem0.drop td.size ∧
    ∃ value, getEnumValue td mem = some value ∧ getEnumValue td mem' = some value

theorem roundTrip {decls tds : List Td} (P : Program decls tds) {td : Td} (ht : td ∈ tds) {mem mem0 : List Nat}
    (hb : ∀ b ∈ mem, b < 256) (hl : td.size ≤ mem.length) (hl0 : td.size ≤ mem0.length) :
    RoundTrip tds td (printEnum td mem) mem mem0 ∧ RoundTrip tds td (printBitmask delim td mem) mem mem0 := by
  obtain ⟨tds2, h1, R⟩ := initAll_ok decls P.declared
  rw [P.init] at h1
  injection h1 with h1
  subst h1
  obtain ⟨td0, h0, Rt⟩ := allReady_right R ht
  have D := P.declared td0 h0
  have hk : ∀ e ∈ td.enums, Known (nameTable tds []) e := fun e he => known P.declared P.noConflict R ht he
  rw [Rt.size] at hl hl0
  have hs := D.size
  obtain ⟨raw, hr1, hr2⟩ := readLE_ok td0.effective.size mem (by omega) hb
  have hval := getEnumValue_eq (td := td) (Rt.effective ▸ D.detected) (mem := mem) (raw := raw) (by rw [Rt.effective]; exact hr1)
  have fin : ∀ {p : Option (List Nat)}, (∃ t, p = some t ∧ Means (nameTable tds []) (8 * td0.effective.size) t raw) →
      RoundTrip tds td p mem mem0 := by
    rintro p ⟨t, h2, v, h3, h4⟩
    obtain ⟨mem', h5, h6, h7, h8⟩ := store_ok D Rt hr1 hl0 h4
    exact ⟨t, v, mem', h2, h3, h5, h6, h7, _, hval, by rw [h8, hval]⟩
  exact ⟨fin (printEnum_ok D Rt hk hr2 hr1), fin (printBitmask_ok D Rt hk hr2 hr1)⟩

/-- **C22.** What is printed for an enumeration variable — the name of a known value, the number of an
unknown one — reads back to the value of the variable. -/
theorem C22_enum_round_trip {decls tds : List Td} (P : Program decls tds) {td : Td} (ht : td ∈ tds)
    {mem mem0 : List Nat} (hb : ∀ b ∈ mem, b < 256) (hl : td.size ≤ mem.length) (hl0 : td.size ≤ mem0.length) :
    RoundTrip tds td (printEnum td mem) mem mem0 := (roundTrip P ht hb hl hl0).1

/-- **C22.** The printed text is the name of a declared constant with the value of the variable, whenever
there is one. -/
theorem C22_known_value_prints_a_name (td td' : Td) (h : Declared td) (hi : initEnum td = some td')
    {mem : List Nat} {v : BitVec 64} (hv : getEnumValue td' mem = some v) (hk : ∃ e ∈ td.enums, e.value = v) :
    ∃ e ∈ td.enums, e.value = v ∧ printEnum td' mem = some e.name := by
  obtain ⟨r, h1, h2, h3⟩ := C22_lookup_by_value td td' h hi v
  obtain ⟨e, he⟩ := Option.isSome_iff_exists.mp (h2.mpr hk)
  obtain ⟨_, e0, h4, h5, h6⟩ := h3 e he
  refine ⟨e0, h4, h6, ?_⟩
  unfold printEnum
  simp only [hv, Option.bind_eq_bind, Option.bind_some, h1, he, h5]

/-- **C23.** What is printed for a bit-mask variable (names and a rest, joined by `" | "`) reads back to
the value of the variable, for every value of the type. -/
theorem C23_bitmask_round_trip {decls tds : List Td} (P : Program decls tds) {td : Td} (ht : td ∈ tds)
    {mem mem0 : List Nat} (hb : ∀ b ∈ mem, b < 256) (hl : td.size ≤ mem.length) (hl0 : td.size ≤ mem0.length) :
    RoundTrip tds td (printBitmask bar td mem) mem mem0 := (roundTrip P ht hb hl hl0).2

/-- Initialisation of a program without conflicts succeeds. -/
theorem program_exists (decls : List Td) (hd : ∀ td ∈ decls, Declared td) (hc : NoConflict decls) :
    ∃ tds, Program decls tds := by
  obtain ⟨tds, h, _⟩ := initAll_ok decls hd
  exact ⟨tds, hd, hc, h⟩

/-! ### a concrete program -/

def str (s : String) : List Nat := s.toList.map Char.toNat

/-- `enum { A = 1, B = 2, ALL = -128 }` in a signed char, declared out of order -/
def flags : Td := ⟨1, .i8, 0, [⟨str "ALL", BitVec.ofInt 64 (-128), .none⟩, ⟨str "B", 2#64, .none⟩, ⟨str "A", 1#64, .none⟩], false⟩
/-- `enum { MINUS = -1, PLUS = 1 }` -/
def signs : Td := ⟨4, .i32, 0, [⟨str "PLUS", 1#64, .none⟩, ⟨str "MINUS", BitVec.ofInt 64 (-1), .none⟩], false⟩

theorem flags_declared : Declared flags := by
  refine ⟨by decide, by decide, ?_, ?_, by decide⟩
  · intro e he
    simp only [flags, List.mem_cons, List.not_mem_nil, or_false] at he
    rcases he with rfl | rfl | rfl
    · exact ⟨-128, by decide, by decide, rfl⟩
    · exact ⟨2, by decide, by decide, rfl⟩
    · exact ⟨1, by decide, by decide, rfl⟩
  · intro e he
    simp only [flags, List.mem_cons, List.not_mem_nil, or_false] at he
    rcases he with rfl | rfl | rfl
    · exact ⟨⟨65, by decide, by decide⟩, by decide, by decide, by decide⟩
    · exact ⟨⟨66, by decide, by decide⟩, by decide, by decide, by decide⟩
    · exact ⟨⟨65, by decide, by decide⟩, by decide, by decide, by decide⟩

theorem signs_declared : Declared signs := by
  refine ⟨by decide, by decide, ?_, ?_, by decide⟩
  · intro e he
    simp only [signs, List.mem_cons, List.not_mem_nil, or_false] at he
    rcases he with rfl | rfl
    · exact ⟨1, by decide, by decide, rfl⟩
    · exact ⟨-1, by decide, by decide, rfl⟩
  · intro e he
    simp only [signs, List.mem_cons, List.not_mem_nil, or_false] at he
    rcases he with rfl | rfl
    · exact ⟨⟨80, by decide, by decide⟩, by decide, by decide, by decide⟩
    · exact ⟨⟨77, by decide, by decide⟩, by decide, by decide, by decide⟩

theorem example_noConflict : NoConflict [flags, signs] := by
  unfold NoConflict; decide

/-- the hypotheses of C22 and C23 are met by a program with a signed bit mask and a plain enum -/
example : ∃ tds, Program [flags, signs] tds :=
  program_exists _ (by intro td h; simp at h; rcases h with rfl | rfl; exact flags_declared; exact signs_declared) example_noConflict

/-- `-127` prints as `A | ALL`, 7 as `A | B | 4`, −120 as `ALL | 8` -/
example : ((initEnum flags).map fun td => (td.isBitmask, printBitmask bar td [129], printBitmask bar td [7], printBitmask bar td [136]))
    = some (true, some (str "A | ALL"), some (str "A | B | 4"), some (str "ALL | 8")) := by decide +kernel

example : ((initEnum signs).map fun td => (td.isBitmask, printEnum td [255, 255, 255, 255], printEnum td [1, 0, 0, 0], printEnum td [9, 0, 0, 0]))
    = some (false, some (str "MINUS"), some (str "PLUS"), some (str "9")) := by decide +kernel

/-! ### why the hypotheses are needed: four ways in which the code loses a value -/

/-- text printed for `mem` by the `i`-th type, as read back by the program -/
def trip (decls : List Td) (i : Nat) (mem : List Nat) : Option (List Nat × Option (BitVec 128)) := do
  let tds ← initAll decls
  let t ← printEnum (← tds[i]?) mem
  some (t, castInt (nameTable tds []) (maxLength 0 (nameTable tds [])) t)

/-- **C22, deviation.** A constant called `true` is read as 1 whatever its value. -/
theorem C22_deviation_reserved_name :
    trip [⟨4, .u32, 0, [⟨str "true", 5#64, .none⟩, ⟨str "other", 3#64, .none⟩], false⟩] 0 [5, 0, 0, 0] =
      some (str "true", some 1#128) := by decide +kernel

/-- **C22, deviation.** Constants of the same name in two types: the value of the second is lost. -/
theorem C22_deviation_conflicting_names :
    trip [⟨4, .u32, 0, [⟨str "RED", 1#64, .none⟩], false⟩, ⟨4, .u32, 0, [⟨str "RED", 2#64, .none⟩], false⟩] 1 [2, 0, 0, 0] =
      some (str "RED", some 1#128) := by decide +kernel

/-- **C22, deviation.** If the integer type of the enumeration was not detected, the names it prints
cannot be read: `mr_init_enum` records the types of the constants before it corrects the effective type. -/
theorem C22_deviation_undetected_type :
    trip [⟨4, .none, 0, [⟨str "ONE", 1#64, .none⟩, ⟨str "THREE", 3#64, .none⟩], false⟩] 0 [3, 0, 0, 0] =
      some (str "THREE", none) := by decide +kernel

/-- **C22, deviation.** The length of the longest name is computed once.  A name registered later
(`names2`) that is longer is in the table but cannot be read. -/
theorem C22_deviation_names_registered_later : ∃ names1 names2 n, (∃ x, byName (names1 ++ names2) n = some x) ∧
    castInt (names1 ++ names2) (maxLength (maxLength 0 names1) (names1 ++ names2)) n = none ∧
    castInt (names1 ++ names2) (maxLength 0 (names1 ++ names2)) n ≠ none :=
  ⟨[⟨str "ONE", 1#64, .u32⟩], [⟨str "SEVEN", 7#64, .u32⟩], str "SEVEN", ⟨⟨str "SEVEN", 7#64, .u32⟩, by decide⟩,
    by decide +kernel, by decide +kernel⟩

end Verif.Props.Enum
