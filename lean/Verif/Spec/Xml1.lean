import Verif.Model.Xml1
import Verif.Spec.Json
/-!
# What an XML document says about a tree of nodes

The document lists the nodes of the tree in document order; reading it creates the nodes in this order, so the
`j`-th node of the document is found at place `j` (counted from 1).
-/
namespace Verif.Spec.Xml1
open Verif.Model Verif.Model.Ptrs Verif.Spec Verif.Spec.Ptrs
open Verif.Model.Json (Leaf Info)
open Verif.Model.Xml1 (Loaded)

/-- types whose nodes have a text of their own; the others are structures, unions, arrays, pointers and `void` -/
def valued (t : MrType) : Bool :=
  !(structLike t || t = .array || t = .pointer || t = .none || t = .void || t = .endAnonUnion || t = .last)

/-- a C identifier -/
def Name (n : List Nat) : Prop :=
  (∃ c, n.head? = some c ∧ (isalpha c = true ∨ c = 95)) ∧ ∀ c ∈ n, isalnum c = true ∨ c = 95

/-- values the writer can be given: integers of 64 or 128 bits, strings without the byte 0, other texts without `<`
and `&` -/
def LeafOK : Leaf → Prop
  | .bool _ => True
  | .int v => -(2 ^ 63 : Int) ≤ v ∧ v < 2 ^ 64
  | .int128 _ | .uint128 _ => True
  | .real t | .quoted t => ∀ c ∈ t, c ≠ 60 ∧ c ≠ 38
  | .text s => ∀ c ∈ s, 0 < c ∧ c < 256
  | .void _ => True
  | .undefined => False

/-- the text the reader finds for a value -/
inductive ReadAs : Leaf → List Nat → Prop
  | false : ReadAs (.bool false) (ascii "false")
  | true : ReadAs (.bool true) (ascii "true")
  | int (v : Int) (t : List Nat) : IsDecimalInt v t → ReadAs (.int v) t
  | int128 (v : BitVec 128) (t : List Nat) : IsDecimalInt v.toInt t → ReadAs (.int128 v) t
  | uint128 (v : BitVec 128) (t : List Nat) : IsDecimal v.toNat t → ReadAs (.uint128 v) t
  | real (t : List Nat) : ReadAs (.real t) t
  | text (s : List Nat) : ReadAs (.text s) s
  | quoted (s : List Nat) : ReadAs (.quoted s) s
  | void (c : Json.VoidClass) : ReadAs (.void c) []

/-- what the reader finds for a node: its name; the marks of references with the public index of the target; the
public index of a node that is referred to; NULL; the text of its value.  A node without a value of its own has
nothing but white space for text. -/
structure SameNode (ra : List Pd) (pd : Pd) (x : Info) (q : Pd) (y : Loaded) : Prop where
  name : y.name = some x.name
  null : y.null = x.null
  ref : q.ref = pd.ref
  cref : q.cref = pd.cref
  target : (pd.ref || pd.cref) = true → ∃ t : Pd, ra[pd.firstChild]? = some t ∧ q.firstChild = t.idx
  refd : q.refd = pd.refd
  idx : q.idx = if pd.refd then pd.idx else 0
  value : (pd.ref || pd.cref) = false → x.null = false → valued pd.ty = true → ∃ t, y.text = some t ∧ ReadAs x.leaf t
  none : (pd.ref || pd.cref) = true ∨ x.null = true ∨ valued pd.ty = false → ∃ t, y.text = some t ∧ ∀ c ∈ t, isspace c = true

/-- nodes that can be written: the name is an identifier; references have a target; public indices have 32 bits;
nodes with a value have no children, nor has NULL; the value can be written -/
structure NodeOK (ra : List Pd) (pd : Pd) (x : Info) : Prop where
  name : Name x.name
  ref : (pd.ref || pd.cref) = true → ∃ t : Pd, ra[pd.firstChild]? = some t ∧ t.idx < 2 ^ 32
  refd : pd.refd = true → pd.idx < 2 ^ 32
  children : (pd.ref || pd.cref) = false → x.null = true ∨ valued pd.ty = true → pd.firstChild = 0
  leaf : (pd.ref || pd.cref) = false → x.null = false → valued pd.ty = true → LeafOK x.leaf

/-- all nodes of the list can be written, their names are known to the reader -/
def Writable (known : List Nat → Bool) (ra : List Pd) (info : List Info) (l : List Nat) : Prop :=
  ∀ i ∈ l, ∀ pd, ra[i]? = some pd → ∃ x, info[i]? = some x ∧ NodeOK ra pd x ∧ known x.name = true

end Verif.Spec.Xml1
