import Verif.Model.Detect
import Verif.Spec.TypeName
import Verif.Spec.Numeral
/-!
# What a declaration says about a field
-/
namespace Verif.Spec.Detect
open Verif.Model.Detect Verif.Model.Ptrs

/-- the kind of `T`, `T *`, `T **`, if `T` is of kind `t` -/
def kind (k : Nat) (t : MrType) : MrType := if k = 0 then t else .pointer

/-- the kind behind a pointer: that of `T` for `T *`, a pointer for `T **` -/
def target (k : Nat) (t : MrType) : MrType := if k = 0 then .none else if k = 1 then t else .pointer

/-- the size of `T`, `T *`, `T **` -/
def elementSize (k : Nat) (size : Nat) : Nat := if k = 0 then size else 8

/-- the size of an array with these dimensions -/
def product (ns : List Nat) : Nat := ns.foldr (· * ·) 1

/-- the type name of a declaration: its words that are not qualifiers -/
def bareName (base : List Nat) : List Nat :=
  Spec.TypeName.joinWords ((Spec.TypeName.words base).filter (fun w => decide (w ∉ Spec.TypeName.qualifiers)))

/-- integers: what the compiler takes an enumeration for -/
def integers : List MrType := [.int8, .uint8, .int16, .uint16, .int32, .uint32, .int64, .uint64, .int128, .uint128]

/-- kinds of types that the user defines -/
def userKinds : List MrType := [.struct, .union, .enum, .funcType, .anonUnion, .namedAnonUnion]

/-- the basic types, with their names and sizes on x86-64 -/
def basics : List (MrType × List Nat × Nat) :=
  [(.string, Spec.ascii "string_t", 8), (.char, Spec.ascii "char", 1), (.bool, Spec.ascii "bool", 1),
   (.int8, Spec.ascii "int8_t", 1), (.uint8, Spec.ascii "uint8_t", 1), (.int16, Spec.ascii "int16_t", 2), (.uint16, Spec.ascii "uint16_t", 2),
   (.int32, Spec.ascii "int32_t", 4), (.uint32, Spec.ascii "uint32_t", 4), (.int64, Spec.ascii "int64_t", 8), (.uint64, Spec.ascii "uint64_t", 8),
   (.int128, Spec.ascii "mr_int128_t", 16), (.uint128, Spec.ascii "mr_uint128_t", 16),
   (.float, Spec.ascii "float", 4), (.complexFloat, Spec.ascii "complex_float_t", 8), (.double, Spec.ascii "double", 8),
   (.complexDouble, Spec.ascii "complex_double_t", 16), (.longDouble, Spec.ascii "long_double_t", 16),
   (.complexLongDouble, Spec.ascii "complex_long_double_t", 32)]

end Verif.Spec.Detect
