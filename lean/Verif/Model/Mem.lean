/-!
# Checked memory accesses

C arrays are modelled by lists.  An access outside the array is undefined behaviour in C;
here it is the distinct outcome `none`, so a theorem concluding `= some _` also says that
the code performed no out-of-bounds access.
-/
namespace Verif.Model

/-- Checked write `a[i] = v`; `none` is an out-of-bounds write. -/
def wr {α : Type} (a : List α) (i : Nat) (v : α) : Option (List α) :=
  if i < a.length then some (a.set i v) else none

/-- `unsigned` (32-bit) arithmetic: reduction modulo 2^32. -/
def u32 (x : Nat) : Nat := x % 4294967296

/-- `n` bytes of memory, little endian; `none`: outside the object -/
def readLE : Nat → List Nat → Option Nat
  | 0, _ => some 0
  | _ + 1, [] => none
  | n + 1, b :: bs => do some (b + 256 * (← readLE n bs))

/-- store the low `n` bytes of `v`, little endian -/
def writeLE : Nat → Nat → List Nat → Option (List Nat)
  | 0, _, mem => some mem
  | _ + 1, _, [] => none
  | n + 1, v, _ :: bs => do some (v % 256 :: (← writeLE n (v / 256) bs))

end Verif.Model
