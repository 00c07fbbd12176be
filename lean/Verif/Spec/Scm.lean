import Verif.Model.Scm
import Verif.Spec.Json
import Verif.Spec.Xml1
/-!
# What a Scheme document says about a tree of nodes

The document lists the nodes of the tree in document order; reading it creates the nodes in this order, so the
`j`-th node of the document is found at place `j` (counted from 1).
-/
namespace Verif.Spec.Scm
open Verif.Model Verif.Model.Ptrs Verif.Model.Scm Verif.Spec Verif.Spec.Ptrs
open Verif.Spec.Json (FloatText word)
open Verif.Spec.Xml1 (Name)

/-- a node that is written as a list -/
def compound (t : MrType) : Bool :=
  t = .struct || t = .union || t = .anonUnion || t = .namedAnonUnion || t = .array || t = .pointer

/-- a node that is written as `nil`: references and null pointers of any kind -/
def Nil (pd : Pd) (x : Info) : Prop :=
  (pd.ref || pd.cref) = true ∨ (x.null = true ∧ (pd.ty = .pointer ∨ pd.ty = .string ∨ pd.ty = .func ∨ pd.ty = .funcType))

/-- identifiers that mean something else in a document: true, false and special floating point numbers -/
def Reserved (n : List Nat) : Prop :=
  n = ascii "t" ∨ n = ascii "nil" ∨ n.map (fun c => if isupper c then c + 32 else c) ∈ [ascii "nan", ascii "inf"]

/-- an identifier that is read as an identifier -/
def Ident (n : List Nat) : Prop := Name n ∧ ¬ Reserved n

/-- values the writer can be given: integers of 64 or 128 bits; floating point numbers in one of the forms of `printf`;
strings without the byte 0; quoted texts without quotes and backslashes; addresses of 64 bits -/
def LeafOK : Leaf → Prop
  | .bool _ => True
  | .int v => -(2 ^ 63 : Int) ≤ v ∧ v < 2 ^ 64
  | .int128 _ | .uint128 _ => True
  | .real t => FloatText t ∨ t = ascii "-0" ∨ ∃ v : Int, -(2 ^ 127 : Int) ≤ v ∧ v < 2 ^ 128 ∧ IsDecimalInt v t
  | .char c => c < 256
  | .text s => ∀ c ∈ s, 0 < c ∧ c < 256
  | .quoted s => ∀ c ∈ s, c ≠ 34 ∧ c ≠ 92
  | .address v => v < 2 ^ 64
  | .undefined => False

/-- what the reader finds for a value: is it null, and the value.  False is `nil`, which is also the null pointer. -/
inductive ReadAs : Leaf → Bool → Value → Prop
  | false : ReadAs (.bool false) true (.int 0)
  | true : ReadAs (.bool true) false (.int 1)
  | int (v : Int) : ReadAs (.int v) false (.int (word v))
  | int128 (v : BitVec 128) : ReadAs (.int128 v) false (.int (word v.toInt))
  | uint128 (v : BitVec 128) : ReadAs (.uint128 v) false (.int v.toNat)
  | float (t : List Nat) : FloatText t → ReadAs (.real t) false (.float t)
  /-- the sign of a zero is lost -/
  | negativeZero : ReadAs (.real (ascii "-0")) false (.int 0)
  | whole (t : List Nat) (v : Int) : IsDecimalInt v t → ReadAs (.real t) false (.int (word v))
  | char (c : Nat) : ReadAs (.char c) false (.char c)
  | text (s : List Nat) : ReadAs (.text s) false (.string s)
  | quoted (s : List Nat) : ReadAs (.quoted s) false (.string s)
  | address (v : Nat) : ReadAs (.address v) false (.int v)

/-- what the reader finds for a node: its name, if it is written; the marks of references with the public index of the
target; the public index of a node that is referred to; null; lists have no value themselves; the value of the
others -/
structure SameNode (ra : List Pd) (pd : Pd) (x : Info) (q : Pd) (y : Loaded) : Prop where
  name : y.name = if x.unnamed then none else some x.name
  ref : q.ref = pd.ref
  cref : q.cref = pd.cref
  target : (pd.ref || pd.cref) = true → ∃ t : Pd, ra[pd.firstChild]? = some t ∧ q.firstChild = t.idx
  refd : q.refd = pd.refd
  idx : q.idx = if pd.refd then pd.idx else 0
  null : Nil pd x → y.null = true ∧ y.value = .int 0
  list : ¬ Nil pd x → compound pd.ty = true → y.null = false ∧ y.value = .none
  leaf : ¬ Nil pd x → compound pd.ty = false → ReadAs x.leaf y.null y.value

/-- nodes that can be written: names are identifiers that are not reserved; references are pointers or strings, they
have a target; public indices have 32 bits; nodes that are not lists have no children, nor has NULL; pointers that are
not null have; the type is one of those that have a text; the value can be written -/
structure NodeOK (ra : List Pd) (pd : Pd) (x : Info) : Prop where
  name : x.unnamed = false → Ident x.name
  ref : (pd.ref || pd.cref) = true → (pd.ty = .pointer ∨ pd.ty = .string) ∧ ¬ (pd.ref = true ∧ pd.cref = true) ∧
    ∃ t : Pd, ra[pd.firstChild]? = some t ∧ t.idx < 2 ^ 32
  refd : pd.refd = true → pd.idx < 2 ^ 32
  children : (pd.ref || pd.cref) = false → Nil pd x ∨ compound pd.ty = false → pd.firstChild = 0
  pointer : ¬ Nil pd x → pd.ty = .pointer → pd.firstChild ≠ 0
  kind : ¬ Nil pd x → pd.ty ≠ .none ∧ pd.ty ≠ .void ∧ pd.ty ≠ .endAnonUnion ∧ pd.ty ≠ .last
  leaf : ¬ Nil pd x → compound pd.ty = false → LeafOK x.leaf

/-- all nodes of the list can be written, their names are known to the reader -/
def Writable (known : List Nat → Bool) (ra : List Pd) (info : List Info) (l : List Nat) : Prop :=
  ∀ i ∈ l, ∀ pd, ra[i]? = some pd → ∃ x, info[i]? = some x ∧ NodeOK ra pd x ∧ (x.unnamed = false → known x.name = true)

end Verif.Spec.Scm
