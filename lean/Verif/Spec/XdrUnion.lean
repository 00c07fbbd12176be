import Verif.Model.XdrUnion
import Verif.Spec.Xdr
/-!
# Objects made of scalars, structures and unions
-/
namespace Verif.Spec.XdrUnion
open Verif.Model.Xdr Verif.Model.XdrUnion Verif.Spec

/-- the names of members, in order -/
def names : Mems → List (List Nat)
  | .nil => []
  | .cons n _ _ rest => n :: names rest

/-- the member with the name: its offset and type -/
def member (name : List Nat) : Mems → Option (Nat × Ty)
  | .nil => none
  | .cons n off t rest => if n = name then some (off, t) else member name rest

mutual
/-- an object of the type lies in `n` bytes; members of a union have distinct names, which are C strings -/
def Fits : Ty → Nat → Prop
  | .sc k, n => scOk k ∧ k.size ≤ n
  | .st ms, n => FitAll ms n
  | .un ms, n => (names ms).Nodup ∧ (∀ s ∈ names ms, 0 ∉ s ∧ s.length < 2 ^ 32 - 1) ∧ FitAll ms n
def FitAll : Mems → Nat → Prop
  | .nil, _ => True
  | .cons _ off t rest, n => off ≤ n ∧ Fits t (n - off) ∧ FitAll rest n
end

mutual
/-- a program that knows the object as `d` can read what was saved as `t`: structures have the same fields at the same places,
every member of a union is known by its name to the reader, which may have more members and another order -/
def Readable : (t d : Ty) → Prop
  | .sc k, d => d = .sc k
  | .st ms, .st ds => ReadableAll ms ds
  | .un ms, .un ds => (names ms = [] → names ds = []) ∧ ReadableEach ms ds
  | _, _ => False
def ReadableAll : (ms ds : Mems) → Prop
  | .nil, ds => ds = .nil
  | .cons _ off t rest, .cons _ off' t' rest' => off = off' ∧ Readable t t' ∧ ReadableAll rest rest'
  | .cons .., .nil => False
def ReadableEach : (ms ds : Mems) → Prop
  | .nil, _ => True
  | .cons n off t rest, ds => (∃ t', member n ds = some (off, t') ∧ Readable t t') ∧ ReadableEach rest ds
end

mutual
/-- one member is chosen in every union that has members -/
def Chosen : Ty → Sel → Prop
  | .sc _, s => s = .leaf
  | .st ms, s => ChosenAll ms s
  | .un ms, .pick i s => ChosenAt ms i s
  | .un .nil, .leaf => True
  | .un _, _ => False
def ChosenAll : Mems → Sel → Prop
  | .nil, s => s = .nil
  | .cons _ _ t rest, .cons s ss => Chosen t s ∧ ChosenAll rest ss
  | .cons .., _ => False
def ChosenAt : Mems → Nat → Sel → Prop
  | .nil, _, _ => False
  | .cons _ _ t _, 0, s => Chosen t s
  | .cons _ _ _ rest, i + 1, s => ChosenAt rest i s
end

mutual
/-- byte `i` belongs to a scalar of the object, in unions to a scalar of the chosen member -/
def held : Ty → Sel → Nat → Bool
  | .sc k, _, i => covered k i
  | .st ms, s, i => heldAll ms s i
  | .un ms, .pick j s, i => heldAt ms j s i
  | .un _, _, _ => false
def heldAll : Mems → Sel → Nat → Bool
  | .cons _ off t rest, .cons s ss, i => (decide (off ≤ i) && held t s (i - off)) || heldAll rest ss i
  | _, _, _ => false
def heldAt : Mems → Nat → Sel → Nat → Bool
  | .nil, _, _, _ => false
  | .cons _ off t _, 0, s, i => decide (off ≤ i) && held t s (i - off)
  | .cons _ _ _ rest, j + 1, s, i => heldAt rest j s i
end

/-- the bytes of memory after loading: those held by the object come from `mem`, the others stay -/
def Copied (mem mem0 mem' : List Nat) (h : Nat → Bool) : Prop :=
  mem'.length = mem0.length ∧ ∀ i, mem'[i]? = if h i then mem[i]? else mem0[i]?

end Verif.Spec.XdrUnion
