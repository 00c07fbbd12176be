import Verif.Model.Cmp
/-!
# What the values of nodes mean
-/
namespace Verif.Spec.CmpValue
open Verif.Model Verif.Model.Ptrs Verif.Model.Save Verif.Model.Copy

/-- the integer types: signed or not, and the number of bytes -/
def intKind : MrType → Option (Bool × Nat)
  | .bool => some (false, 1)
  | .char => some (true, 1)
  | .int8 => some (true, 1)
  | .uint8 => some (false, 1)
  | .int16 => some (true, 2)
  | .uint16 => some (false, 2)
  | .int32 => some (true, 4)
  | .uint32 => some (false, 4)
  | .int64 => some (true, 8)
  | .uint64 => some (false, 8)
  | .int128 => some (true, 16)
  | .uint128 => some (false, 16)
  | .func => some (false, 8)
  | .funcType => some (false, 8)
  | _ => none

/-- `k` is the integer whose lowest `n` bytes are `v` and that fits into the type -/
def Reads (sg : Bool) (n v : Nat) (k : Int) : Prop :=
  (∃ q : Int, k = v + q * ((2 ^ (8 * n) : Nat) : Int)) ∧
  (if sg = true then -((2 ^ (8 * n - 1) : Nat) : Int) ≤ k ∧ k < ((2 ^ (8 * n - 1) : Nat) : Int) else 0 ≤ k ∧ k < ((2 ^ (8 * n) : Nat) : Int))

/-- the bytes of `t` are at `a`, then comes the first zero -/
def TextAt (m : Bytes) (a : Nat) (t : List Nat) : Prop :=
  (∀ i, i < t.length → m (a + i) ≠ 0 ∧ t[i]? = some (m (a + i)).toNat) ∧ m (a + t.length) = 0

/-- a binary floating point number with `e` bits of exponent and `f` bits of fraction is not a number: its bits
without the sign are above those of infinity -/
def IsNan (e f v : Nat) : Prop := (2 ^ e - 1) * 2 ^ f < v % 2 ^ (e + f)

/-- the bits of a floating point number as a number with a sign -/
def bitsOf (n v : Nat) : Int := if v / 2 ^ n % 2 = 1 then -((v % 2 ^ n : Nat) : Int) else ((v % 2 ^ n : Nat) : Int)

/-- bit `j` of the memory from address `a` on, least significant bits first -/
def bitAt (m : Bytes) (a j : Nat) : Bool := (m (a + j / 8)).toNat.testBit (j % 8)

end Verif.Spec.CmpValue
