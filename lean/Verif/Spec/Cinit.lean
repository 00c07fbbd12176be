import Verif.Model.Cinit
import Verif.Spec.Json
import Verif.Spec.Xml1
/-!
# What a C initializer says about a tree of nodes

The document lists the nodes of the tree in document order; reading it creates the nodes in this order, so the
`j`-th node of the document is found at place `j` (counted from 1).
-/
namespace Verif.Spec.Cinit
open Verif.Model Verif.Model.Ptrs Verif.Model.Cinit Verif.Spec Verif.Spec.Ptrs
open Verif.Spec.Json (Digit)
open Verif.Spec.Xml1 (Name)

/-- a node that is written as a list in braces -/
def compound (t : MrType) : Bool := t = .struct || t = .union || t = .anonUnion || t = .array || t = .pointer

/-- identifiers that mean something else in a document: the null pointer, truth values, the imaginary unit and
special floating point numbers -/
def Reserved (n : List Nat) : Prop :=
  n ∈ [ascii "NULL", ascii "false", ascii "FALSE", ascii "true", ascii "TRUE", ascii "I", ascii "i"] ∨
  n.map (fun c => if isupper c then c + 32 else c) ∈ [ascii "nan", ascii "inf"]

/-- an identifier that is read as an identifier -/
def Ident (n : List Nat) : Prop := Name n ∧ ¬ Reserved n

/-- names of types: identifiers with single blanks between them -/
inductive TypeName : List Nat → Prop
  | one (n : List Nat) : Name n → TypeName n
  | more (n t : List Nat) : Name n → TypeName t → TypeName (n ++ 32 :: t)

/-- digits with a fraction or an exponent or both -/
def FloatText (t : List Nat) : Prop :=
  ∃ ip fr ex, t = ip ++ fr ++ ex ∧ ip ≠ [] ∧ (∀ c ∈ ip, Digit c) ∧ ¬ (fr = [] ∧ ex = []) ∧
    (fr = [] ∨ ∃ d, fr = 46 :: d ∧ ∀ c ∈ d, Digit c) ∧
    (ex = [] ∨ ∃ e sg d, ex = e :: (sg ++ d) ∧ (e = 101 ∨ e = 69) ∧ (sg = [] ∨ sg = [45] ∨ sg = [43]) ∧ d ≠ [] ∧ ∀ c ∈ d, Digit c)

/-- what `printf` writes for numbers that are not finite -/
def NotFinite (t : List Nat) : Prop := t ∈ [ascii "nan", ascii "-nan", ascii "inf", ascii "-inf"]

/-- values the writer can be given: integers of 64 or 128 bits but for `-2^127`; floating point numbers in one of the
forms of `printf`; strings without the byte 0 in which no byte that is written as an octal number is followed by one
of the digits `0` to `7`; enumeration values and functions that are written as one identifier -/
def LeafOK : Leaf → Prop
  | .bool _ => True
  | .int v => -(2 ^ 63 : Int) ≤ v ∧ v < 2 ^ 64
  | .int128 v => v.toInt ≠ -(2 ^ 127 : Int)
  | .uint128 _ => True
  | .real t => NotFinite t ∨ FloatText t ∨ (∃ m, t = 45 :: m ∧ FloatText m) ∨ t = ascii "-0" ∨
      ∃ v : Int, -(2 ^ 127 : Int) < v ∧ v < 2 ^ 128 ∧ IsDecimalInt v t
  | .char c => c < 256
  | .text s => (∀ c ∈ s, 0 < c ∧ c < 256) ∧
      ∀ p c d q, s = p ++ c :: d :: q → isprint c = false → Escape.escMap c = 0 → ¬ (48 ≤ d ∧ d ≤ 55)
  | .plain s => Ident s
  | .void _ => True
  | .undefined => False

variable {K : Value.Floats}

/-- what the reader finds for a value: is it null, and the value.  An identifier is found in the text of the document:
`s` is the text there of its length. -/
inductive ReadAs : Leaf → Bool → Option (Value.Value K) → Prop
  | false : ReadAs (.bool false) false (some (.int 0#128))
  | true : ReadAs (.bool true) false (some (.int 1#128))
  | int (v : Int) : ReadAs (.int v) false (some (.int (BitVec.ofInt 128 v)))
  | int128 (v : BitVec 128) : ReadAs (.int128 v) false (some (.int v))
  | uint128 (v : BitVec 128) : ReadAs (.uint128 v) false (some (.int v))
  | notFinite (t : List Nat) : NotFinite t → ReadAs (.real t) false (some (.float (K.strtold t).1))
  | float (t : List Nat) : FloatText t → ReadAs (.real t) false (some (.float (K.strtold t).1))
  | negative (t : List Nat) : FloatText t → ReadAs (.real (45 :: t)) false (some (.float (K.fNeg (K.strtold t).1)))
  /-- the sign of a zero is lost -/
  | negativeZero : ReadAs (.real (ascii "-0")) false (some (.int 0#128))
  | whole (t : List Nat) (v : Int) : IsDecimalInt v t → ReadAs (.real t) false (some (.int (BitVec.ofInt 128 v)))
  | char (c : Nat) : ReadAs (.char c) false (some (.char c))
  | text (s : List Nat) : ReadAs (.text s) false (some (.string (some s)))
  | plain (s u : List Nat) : s <+: u → ReadAs (.plain s) false (some (.id (some u) s.length))
  | pointer : ReadAs (.void .pointer) true (some (.int 0#128))
  | aggregate : ReadAs (.void .aggregate) false none
  | other : ReadAs (.void .other) false (some (.int 0#128))

/-- the type a pointer is written with, unless it is `void` -/
def typeOf (pd : Pd) (x : Info) : Option (List Nat) :=
  if (pd.ref || pd.cref) = false ∧ x.null = false ∧ pd.ty = .pointer ∧ x.type ≠ ascii "void" then some x.type else none

/-- what the reader finds for a node: its name and type, if they are written; the marks of references with the public
index of the target; the public index of a node that is referred to; NULL (also for references); lists have no value
themselves; the value of the others -/
structure SameNode (ra : List Pd) (pd : Pd) (x : Info) (q : Pd) (y : Loaded K) : Prop where
  name : y.name = if x.unnamed then none else some x.name
  type : y.type = typeOf pd x
  ref : q.ref = pd.ref
  cref : q.cref = pd.cref
  target : (pd.ref || pd.cref) = true → ∃ t : Pd, ra[pd.firstChild]? = some t ∧ q.firstChild = t.idx
  refd : q.refd = pd.refd
  idx : q.idx = if pd.refd then pd.idx else 0
  null : (pd.ref || pd.cref) = true ∨ x.null = true → y.null = true ∧ y.value = some (.int 0#128)
  list : (pd.ref || pd.cref) = false → x.null = false → compound pd.ty = true → y.null = false ∧ y.value = none
  leaf : (pd.ref || pd.cref) = false → x.null = false → compound pd.ty = false → ReadAs x.leaf y.null y.value

/-- nodes that can be written: names are identifiers that are not reserved, the root has none; references have a
target; public indices have 32 bits; nodes that are not lists have no children, nor has NULL; the type is one of those
that are saved, but for named anonymous unions; pointers have the name of a type; the value can be written -/
structure NodeOK (ra : List Pd) (pd : Pd) (x : Info) : Prop where
  name : x.unnamed = false → Ident x.name ∧ pd.parent ≠ 0
  ref : (pd.ref || pd.cref) = true → ∃ t : Pd, ra[pd.firstChild]? = some t ∧ t.idx < 2 ^ 32
  refd : pd.refd = true → pd.idx < 2 ^ 32
  children : (pd.ref || pd.cref) = false → x.null = true ∨ compound pd.ty = false → pd.firstChild = 0
  kind : (pd.ref || pd.cref) = false → x.null = false →
    pd.ty ≠ .none ∧ pd.ty ≠ .endAnonUnion ∧ pd.ty ≠ .last ∧ pd.ty ≠ .namedAnonUnion
  type : (pd.ref || pd.cref) = false → x.null = false → pd.ty = .pointer → TypeName x.type
  leaf : (pd.ref || pd.cref) = false → x.null = false → compound pd.ty = false → LeafOK x.leaf

/-- all nodes of the list can be written, their names and types are known to the reader -/
def Writable (w : World) (ra : List Pd) (info : List Info) (l : List Nat) : Prop :=
  ∀ i ∈ l, ∀ pd, ra[i]? = some pd → ∃ x, info[i]? = some x ∧ NodeOK ra pd x ∧
    (x.unnamed = false → w.known x.name (typeOf pd x) = true) ∧ ∀ t, typeOf pd x = some t → w.types t = true

end Verif.Spec.Cinit
