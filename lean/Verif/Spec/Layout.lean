import Verif.Model.Layout
import Verif.Spec.Bits
/-!
# Where a bit-field is
-/
namespace Verif.Spec.Layout
open Verif.Model.Layout

/-- `mask` is the structure in which exactly the bit-field of `width` bits at bit `p` is set -/
def IsMask (mask : List (BitVec 8)) (p width : Nat) : Prop :=
  ∀ k, memBit mask k = true ↔ p ≤ k ∧ k < p + width

/-- the right record for the bit-field of `width` bits at bit `p` -/
def at_ (p width : Nat) : Pos := { offset := p / 8, shift := p % 8, width }

/-- DWARF 2 and 3 count the bits from the highest bit of the unit of `size` bytes at `location` down to the highest
bit of the bit-field: there are `bitOffset` bits above it -/
def DwarfOffset (size location bitOffset p width : Nat) : Prop :=
  p + width + bitOffset = 8 * location + 8 * size ∧ 8 * location ≤ p

end Verif.Spec.Layout
