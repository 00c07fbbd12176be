import Verif.Model.Json
import Verif.Spec.Number
import Verif.Spec.Numeral
/-!
# What a JSON document says about a tree of nodes

The document lists the nodes of the tree in document order; reading it creates the nodes in this order, so the
`j`-th node of the document gets the index `j` (counted from 1).
-/
namespace Verif.Spec.Json
open Verif.Model Verif.Model.Ptrs Verif.Model.Json Verif.Spec Verif.Spec.Ptrs

/-- a node that is written as a list in braces or brackets -/
def compound (t : MrType) : Bool := structLike t || t = .array || t = .pointer

/-! ### values -/

/-- a decimal digit -/
def Digit (c : Nat) : Prop := 48 ≤ c ∧ c ≤ 57

/-- the forms of floating point numbers: `nan`, `inf`, or digits with a fraction or an exponent or both; the sign
is optional.  (`printf` writes nothing else for numbers that are not written as integers.) -/
def FloatText (t : List Nat) : Prop :=
  ∃ sg m, t = sg ++ m ∧ (sg = [] ∨ sg = [45] ∨ sg = [43]) ∧
    (m = ascii "nan" ∨ m = ascii "inf" ∨
      ∃ ip fr ex, m = ip ++ fr ++ ex ∧ ip ≠ [] ∧ (∀ c ∈ ip, Digit c) ∧ ¬ (fr = [] ∧ ex = []) ∧
        (fr = [] ∨ ∃ d, fr = 46 :: d ∧ ∀ c ∈ d, Digit c) ∧
        (ex = [] ∨ ∃ e sg2 d, ex = e :: (sg2 ++ d) ∧ (e = 101 ∨ e = 69) ∧ (sg2 = [] ∨ sg2 = [45] ∨ sg2 = [43]) ∧ d ≠ [] ∧ ∀ c ∈ d, Digit c))

/-- values the writer can be given: floating point numbers in one of the forms above or written as an integer (as
`%g` does), strings without the byte 0, quoted texts without quotes and backslashes; integers of 64 or 128 bits -/
def LeafOK : Leaf → Prop
  | .bool _ => True
  | .int v => -(2 ^ 63 : Int) ≤ v ∧ v < 2 ^ 64
  | .int128 _ | .uint128 _ => True
  | .real t => FloatText t ∨ ∃ v : Int, -(2 ^ 127 : Int) ≤ v ∧ v < 2 ^ 128 ∧ IsDecimalInt v t
  | .text s => ∀ c ∈ s, 0 < c ∧ c < 256
  | .quoted s => ∀ c ∈ s, c ≠ 34 ∧ c ≠ 92
  | .void _ => True
  | .undefined => False

/-- an integer as a word of 128 bits -/
def word (v : Int) : Nat := (v % 2 ^ 128).toNat

/-- what the reader finds for a value: is it null, and the value -/
inductive ReadAs : Leaf → Bool → Value → Prop
  | false : ReadAs (.bool false) false (.int 0)
  | true : ReadAs (.bool true) false (.int 1)
  | int (v : Int) : ReadAs (.int v) false (.int (word v))
  | int128 (v : BitVec 128) : ReadAs (.int128 v) false (.int (word v.toInt))
  | uint128 (v : BitVec 128) : ReadAs (.uint128 v) false (.int v.toNat)
  | float (t : List Nat) : FloatText t → ReadAs (.real t) false (.float t)
  | whole (t : List Nat) (v : Int) : IsDecimalInt v t → ReadAs (.real t) false (.int (word v))
  | text (s : List Nat) : ReadAs (.text s) false (.string s)
  | quoted (s : List Nat) : ReadAs (.quoted s) false (.string s)
  | pointer : ReadAs (.void .pointer) true (.int 0)
  | aggregate : ReadAs (.void .aggregate) false .none
  | other : ReadAs (.void .other) false (.int 0)

/-- is the node a member of a structure or union? -/
def isMember (ra : List Pd) (pd : Pd) : Prop := pd.parent ≠ 0 ∧ ∃ pp, ra[pd.parent]? = some pp ∧ structLike pp.ty = true

/-- what the reader finds for a node: members of structures have their name; a reference is the number of its
target, a reference to the text of a string the negative number; null; lists have no value themselves -/
structure SameNode (ra : List Pd) (pd : Pd) (x : Info) (y : Loaded) : Prop where
  name : (isMember ra pd → y.name = some x.name) ∧ (¬ isMember ra pd → y.name = none)
  ref : (pd.ref || pd.cref) = true → ∃ t : Pd, ra[pd.firstChild]? = some t ∧ y.null = false ∧
    y.value = .int (word (if pd.cref then - (t.idx : Int) else t.idx))
  null : (pd.ref || pd.cref) = false → x.null = true → y.null = true ∧ y.value = .int 0
  list : (pd.ref || pd.cref) = false → x.null = false → compound pd.ty = true → y.null = false ∧ y.value = .none
  leaf : (pd.ref || pd.cref) = false → x.null = false → compound pd.ty = false → ReadAs x.leaf y.null y.value

/-- nodes that can be written: only members of structures are named; names have no quotes and backslashes;
references have a target with an index of 32 bits; nodes that are neither structures, unions, arrays nor pointers
have no children, nor has NULL; the type is one of those that are saved; the value can be written -/
structure NodeOK (ra : List Pd) (pd : Pd) (x : Info) : Prop where
  named : x.unnamed = false → isMember ra pd
  name : isMember ra pd → ∀ c ∈ x.name, c ≠ 34 ∧ c ≠ 92
  ref : (pd.ref || pd.cref) = true → ∃ t : Pd, ra[pd.firstChild]? = some t ∧ t.idx < 2 ^ 32
  children : (pd.ref || pd.cref) = false → x.null = true ∨ compound pd.ty = false → pd.firstChild = 0
  type : (pd.ref || pd.cref) = false → x.null = false → pd.ty ≠ .none ∧ pd.ty ≠ .endAnonUnion ∧ pd.ty ≠ .last
  leaf : (pd.ref || pd.cref) = false → x.null = false → compound pd.ty = false → LeafOK x.leaf

/-- all nodes of the list can be written, their names are known to the reader -/
def Writable (known : List Nat → Bool) (ra : List Pd) (info : List Info) (l : List Nat) : Prop :=
  ∀ i ∈ l, ∀ pd, ra[i]? = some pd → ∃ x, info[i]? = some x ∧ NodeOK ra pd x ∧ (isMember ra pd → known x.name = true)

end Verif.Spec.Json
