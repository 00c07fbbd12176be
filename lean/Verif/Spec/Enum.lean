import Verif.Model.Enum
/-!
# What the compiler and the programmer guarantee about a declared enumeration
-/
namespace Verif.Spec
open Verif.Model Verif.Model.Enum

/-- Smallest and largest value of an integer type. -/
def tyMin (ty : Ty) : Int := if ty.signed then -(2 ^ (8 * ty.size - 1)) else 0
def tyMax (ty : Ty) : Int := if ty.signed then 2 ^ (8 * ty.size - 1) - 1 else 2 ^ (8 * ty.size) - 1

/-- C identifier that is not one of the two reserved words of the reader. -/
def Identifier (name : List Nat) : Prop :=
  (∃ c, name.head? = some c ∧ (isalpha c = true ∨ c = '_'.toNat)) ∧
  (∀ c ∈ name, isalnum c = true ∨ c = '_'.toNat) ∧
  name ≠ "true".toList.map Char.toNat ∧ name ≠ "false".toList.map Char.toNat

/-- A declared enumeration: its integer type of at most 64 bits was detected, every constant is a
value of that type (stored in 64 bits) and has a proper name. -/
structure Declared (td : Td) : Prop where
  detected : td.effective ∈ [Ty.i8, .u8, .i16, .u16, .i32, .u32, .i64, .u64]
  size : td.effective.size ≤ td.size ∧ td.size ≤ 16
  constants : ∀ e ∈ td.enums, ∃ z : Int, tyMin td.effective ≤ z ∧ z ≤ tyMax td.effective ∧
    e.value = BitVec.ofInt 64 z
  names : ∀ e ∈ td.enums, Identifier e.name
  count : td.enums.length < 2 ^ 31

/-- No two constants of the program share a name but not the value. -/
def NoConflict (decls : List Td) : Prop :=
  ∀ td ∈ decls, ∀ td' ∈ decls, ∀ e ∈ td.enums, ∀ e' ∈ td'.enums, e.name = e'.name → e.value = e'.value

end Verif.Spec
