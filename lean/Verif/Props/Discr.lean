import Verif.Lemmas.Discr
/-!
# C64: what a discriminator selects

A discriminator may be a number, an enumeration, a bit field or a text, and also a pointer to, an array of, or a structure that
begins with one.  Its value selects the member of the union.
-/
namespace Verif.Props.Discr
open Verif.Model.Discr Verif.Spec.Discr Verif.Lemmas.DiscrFlags Verif.Lemmas.Discr

/-- C64: when the types are registered, exactly those types are marked as discriminators whose chain of first fields ends in a
number, an enumeration or a text; for every set of types, with cycles too, and without undefined behaviour. -/
theorem C64_marked_types {tds : List Td} (hV : Valid tds) : ∃ fl, flags tds = some fl ∧ fl.length = tds.length ∧ ∀ (t : Nat), t < tds.length → ∃ f, fl[t]? = some f ∧ (f.ud = true ↔ Ends tds t) := flags_ok hV

/-- C64: every discriminator has exactly one value. -/
theorem C64_one_value {tds : List Td} (M : Mem) (f : Fd) (a : Nat) : ∃ r, Denotes tds M (shape f) a r ∧ ∀ r', Denotes tds M (shape f) a r' → r' = r := by
  obtain ⟨r, h⟩ := total f a
  exact ⟨r, h, fun r' h' => denotes_det h' h⟩

/-- C64: the search for the value ends, whatever the types and the object are. -/
theorem C64_ends {tds : List Td} (hV : Valid tds) {fl : List Flags} (hfl : flags tds = some fl) (M : Mem) (U : Un) {f : Fd} (hf : FdOk tds f) (a : Nat) : ∃ n m, ∀ fuel, n ≤ fuel → byType tds fl M U fuel f a = some m := by
  obtain ⟨fl', e, _, hok⟩ := flags_ok hV
  rw [hfl] at e; cases e
  obtain ⟨r, h⟩ := total (tds := tds) (M := M) f a
  obtain ⟨n, hn⟩ := denotes_runs (U := U) hV hok h f.type f (.inl ⟨hf, rfl, rfl⟩)
  exact ⟨n, _, hn⟩

/-- C64 (partial): the member is the one which the value of the discriminator selects.  Missing: numbers that do not fit into 32
bits (`C64_deviation_big_numbers`). -/
theorem C64_selected_member_partial {tds : List Td} (hV : Valid tds) {fl : List Flags} (hfl : flags tds = some fl) {M : Mem} {U : Un} (hU : U.members.length < 2 ^ 31) {f : Fd} (hf : FdOk tds f) {a : Nat} {r : Scalar}
    (h : Denotes tds M (shape f) a r) (hr : Fits r) : ∃ n, ∀ fuel, n ≤ fuel → byType tds fl M U fuel f a = some (member U r) := by
  obtain ⟨fl', e, _, hok⟩ := flags_ok hV
  rw [hfl] at e; cases e
  rw [← chosen_member hU hr]
  exact denotes_runs (U := U) hV hok h f.type f (.inl ⟨hf, rfl, rfl⟩)

/-! ## Example -/
namespace Example

/-- an integer, an enumeration, a structure that begins with a pointer to it, one that begins with an array of these, a
structure that begins with a pointer to itself, two that begin with pointers to each other, a structure that begins with a
floating point number, an empty structure -/
def tds : List Td := [{ type := .int true 4 }, { type := .enum, enums := [(0, some "b"), (7, some "c"), (8, none)] },
  { type := .struct, fields := [{ type := .pointer, aux := .enum, base := .enum, tdp := some 1, offset := 8 }, { type := .struct, tdp := some 2 }] },
  { type := .struct, fields := [{ type := .array, aux := .struct, base := .struct, tdp := some 2, offset := 16 }] },
  { type := .struct, fields := [{ type := .pointer, aux := .struct, base := .struct, tdp := some 4 }] },
  { type := .struct, fields := [{ type := .pointer, aux := .struct, base := .struct, tdp := some 6 }] },
  { type := .struct, fields := [{ type := .pointer, aux := .struct, base := .struct, tdp := some 5 }] },
  { type := .other }, { type := .struct, fields := [{ type := .other, tdp := some 7 }] }, { type := .struct }]

theorem valid : Valid tds := by
  have : ∀ d ∈ tds, ∀ f ∈ d.fields, (f.tdp.all fun t => t < tds.length) = true ∧ f.aux ≠ .array ∧ f.aux ≠ .bitfield ∧ f.aux ≠ .pointer := by decide
  intro d hd f hf
  obtain ⟨h1, h2, h3, h4⟩ := this d hd f hf
  refine ⟨fun t ht => ?_, fun _ => ⟨h2, h3⟩, fun _ h => absurd h h4⟩
  rw [ht] at h1
  simpa using h1

def fl : List Flags := [⟨true, true⟩, ⟨true, true⟩, ⟨true, true⟩, ⟨true, true⟩, ⟨true, false⟩, ⟨true, false⟩, ⟨true, false⟩, ⟨true, false⟩, ⟨true, false⟩, ⟨true, false⟩]

theorem flags_eq : flags tds = some fl := by decide +kernel

example : ∃ f, fl[3]? = some f ∧ (f.ud = true ↔ Ends tds 3) := by
  obtain ⟨fl', e, _, h⟩ := C64_marked_types valid
  rw [flags_eq] at e; cases e
  exact h 3 (by decide)

/-- the pointer at 124 leads to the enumeration at 500, with the value 7 -/
def M : Mem where
  ptr a := if a = 124 then 500 else 0
  int _ a := if a = 100 then 2 else if a = 108 then 4294967297 else 9
  bits _ _ := 1
  enum _ a := if a = 500 then 7 else 0
  text _ := "b"

def U : Un := { members := ["a", "b", "c"], overrides := [(9, some 1)] }

/-- a discriminator of the type with the array of structures with a pointer to an enumeration -/
def field : Fd := { type := .struct, base := .struct, tdp := some 3 }

theorem fieldOk : FdOk tds field := ⟨(fun t h => by cases h; decide), (fun h => by rcases h with h | h <;> cases h), fun h => by rcases h with h | h <;> cases h⟩

theorem ends1 : Ends tds 1 := .here rfl rfl rfl
theorem ends2 : Ends tds 2 := .next rfl rfl rfl ends1
theorem ends3 : Ends tds 3 := .next rfl rfl rfl ends2

theorem denotes : Denotes tds M (shape field) 100 (.enum 7 (some "c")) := by
  have h4 : Denotes tds M (.base .enum (some 1)) 500 (.enum 7 (some "c")) := Denotes.plain (by decide)
  have h3 : Denotes tds M (.ptr (.base .enum (some 1))) 124 (.enum 7 (some "c")) := .target (by decide) h4
  have h2 : Denotes tds M (.base .struct (some 2)) 116 (.enum 7 (some "c")) := .first (f := { type := .pointer, aux := .enum, base := .enum, tdp := some 1, offset := 8 }) ends2 rfl rfl h3
  exact .first (f := { type := .array, aux := .struct, base := .struct, tdp := some 2, offset := 16 }) ends3 rfl rfl (.element h2)

example : ∃ n, ∀ fuel, n ≤ fuel → byType tds fl M U fuel field 100 = some (some 2) :=
  C64_selected_member_partial valid flags_eq (by decide) fieldOk denotes (by simp only [Fits]; omega)

example : byType tds fl M U 9 field 100 = some (some 2) := by decide +kernel
/-- a number, a number with an override, a list that has no end -/
example : byType tds fl M U 9 { type := .int true 4, tdp := some 0 } 100 = some (some 2) := by decide +kernel
example : byType tds fl M U 9 { type := .int true 4, tdp := some 0 } 101 = some (some 1) := by decide +kernel
example : byType tds fl M U 9 { type := .pointer, aux := .struct, base := .struct, tdp := some 4 } 124 = some (some 0) := by decide +kernel
example : ∃ n m, ∀ fuel, n ≤ fuel → byType tds fl M U fuel field 7 = some m := C64_ends valid flags_eq M U fieldOk 7

end Example

/-- C64, where the code is wrong: a 64 bit number is converted to `int` before it is compared with the number of members.  4294967297
selects member 1 instead of the first. -/
theorem C64_deviation_big_numbers : ∃ (tds : List Td) (fl : List Flags) (M : Mem) (U : Un) (f : Fd) (a : Nat) (v : Int), Valid tds ∧ flags tds = some fl ∧ FdOk tds f ∧ Denotes tds M (shape f) a (.number v) ∧
    v ≥ U.members.length ∧ U.overrides = [] ∧ member U (.number v) = some 0 ∧ byType tds fl M U 1 f a = some (some 1) := by
  refine ⟨Example.tds, Example.fl, Example.M, { members := ["a", "b"] }, { type := .int false 8 }, 108, 4294967297, Example.valid, Example.flags_eq, ⟨(fun t h => by cases h), (fun h => by rcases h with h | h <;> cases h), fun h => by rcases h with h | h <;> cases h⟩, ?_, by decide, rfl, by decide, by decide +kernel⟩
  exact Denotes.plain (by decide)

end Verif.Props.Discr
