import Verif.Model.Types
import Verif.Spec.Types
/-!
# Copies of texts; what a compiler writes for a structure
-/
namespace Verif.Spec.ObjType

/-- `s` is the text in memory `mem`, at most `size` bytes of it: it has no zero, it is what the memory begins with, and it ends at `size`
or at a zero byte -/
def TextIn (mem : List Nat) (size : Nat) (s : List Nat) : Prop :=
  0 ∉ s ∧ ∃ rest, mem = s ++ rest ∧ (s.length = size ∨ (s.length < size ∧ ∃ r, rest = 0 :: r))

/-- a name: not empty, no space, no keyword in front (there is no space after which it could end) -/
def Name (n : List Nat) : Prop := n ≠ [] ∧ 32 ∉ n

/-- what clang's `__builtin_dump_struct` writes for a structure of type `n`: the name, maybe after a keyword, maybe followed by a space and
something else -/
def Dumped (n text : List Nat) : Prop :=
  ∃ kw ∈ [[], Types.structKw, Types.unionKw, Types.enumKw], ∃ tail, (tail = [] ∨ ∃ t, tail = 32 :: t) ∧ text = kw ++ n ++ tail

/-- the words that are no names of types -/
def keywords : List (List Nat) := [[115, 116, 114, 117, 99, 116], [117, 110, 105, 111, 110], [101, 110, 117, 109]]

/-- the name of the structure the library uses for its own purposes -/
def placeholder : List Nat := "mr_dummy_struct_t".toList.map Char.toNat

end Verif.Spec.ObjType
