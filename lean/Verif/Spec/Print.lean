import Verif.Model.Print
import Verif.Spec.Numeral
/-!
# What is printed for a value
-/
namespace Verif.Spec.Print
open Verif.Model.Print

/-- what is printed before the document: nothing for a structure or an array, the address for a pointer; in the
C notation the address is followed by the type in parentheses, as in `0x1000 (point_t[])` -/
def before (value : Nat) (type : List Nat) (pointer array cinit : Bool) : List Nat :=
  if pointer then
    if cinit then address value ++ [32, 40] ++ type ++ (if array then [91, 93] else []) ++ [41]
    else address value ++ [32]
  else []

/-- `text` is the address `p` as C prints it: `0x` and the hexadecimal digits of `p` without leading zeros -/
def IsAddress (p : Nat) (text : List Nat) : Prop :=
  ∃ ds : List Nat, (∀ d ∈ ds, d < 16) ∧ positional 16 ds = p ∧ ds.head? ≠ some 0 ∧
    text = ascii "0x" ++ ds.map (fun d => (ascii "0123456789abcdef").getD d 0)

end Verif.Spec.Print
