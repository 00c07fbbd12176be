import Verif.Model.Yaml
import Verif.Spec.Json
/-!
# What a YAML document says about a tree of nodes

Reading the document creates the nodes in document order, so the `j`-th node of the document is found at place `j`
(counted from 1).
-/
namespace Verif.Spec.Yaml
open Verif.Model Verif.Model.Ptrs Verif.Model.Yaml Verif.Spec Verif.Spec.Ptrs
open Verif.Model.Scm (Leaf Info)

/-- nodes written as a mapping: their members have names -/
def mapping (t : MrType) : Bool := structLike t

/-- nodes written as a sequence: their members have no names -/
def sequence (t : MrType) : Bool := t = .array || t = .pointer

/-- nodes written as an alias: references and null pointers of any kind -/
def Alias (pd : Pd) (x : Info) : Prop := (pd.ref || pd.cref) = true ∨ x.null = true

/-- is the name of the node written?  It is not for the members of arrays, for the targets of pointers and for the
root.  Anonymous unions have a name in the document. -/
def nameless (pd : Pd) (x : Info) : Bool := x.unnamed && pd.ty ≠ .anonUnion

/-- `t` is `0x` and the two lower case hexadecimal digits of `c` -/
def HexByte (c : Nat) (t : List Nat) : Prop :=
  t = ascii "0x" ++ [(ascii "0123456789abcdef").getD (c / 16) 0, (ascii "0123456789abcdef").getD (c % 16) 0]

/-- `t` is `0x` and the lower case hexadecimal digits of `v`, most significant first, without leading zeros -/
def HexAddress (v : Nat) (t : List Nat) : Prop :=
  ∃ ds : List Nat, t = ascii "0x" ++ ds.map (fun d => (ascii "0123456789abcdef").getD d 0) ∧ (∀ d ∈ ds, d < 16) ∧
    positional 16 ds = v ∧ ds ≠ [] ∧ (ds.head? = some 0 → ds = [0])

/-- the text the reader finds for a value -/
inductive ReadAs : Leaf → List Nat → Prop
  | false : ReadAs (.bool false) (ascii "false")
  | true : ReadAs (.bool true) (ascii "true")
  | int (v : Int) (t : List Nat) : IsDecimalInt v t → ReadAs (.int v) t
  | int128 (v : BitVec 128) (t : List Nat) : IsDecimalInt v.toInt t → ReadAs (.int128 v) t
  | uint128 (v : BitVec 128) (t : List Nat) : IsDecimal v.toNat t → ReadAs (.uint128 v) t
  | real (t : List Nat) : ReadAs (.real t) t
  | char (c : Nat) : 32 ≤ c → c < 128 → ReadAs (.char c) [c]
  | hexChar (c : Nat) (t : List Nat) : c < 32 ∨ 128 ≤ c → HexByte c t → ReadAs (.char c) t
  | text (s : List Nat) : ReadAs (.text s) s
  | quoted (s : List Nat) : ReadAs (.quoted s) s
  | address (v : Nat) (t : List Nat) : HexAddress v t → ReadAs (.address v) t

/-- values the writer can be given: integers of 64 or 128 bits; numbers, enumerations and functions with a text;
characters are bytes; addresses of 64 bits.  libyaml accepts every text that may be written for the value. -/
structure LeafOK (utf8 : List Nat → Bool) (l : Leaf) : Prop where
  range : match l with
    | .int v => -(2 ^ 63 : Int) ≤ v ∧ v < 2 ^ 64
    | .real t | .quoted t => t ≠ []
    | .char c => c < 256
    | .address v => v < 2 ^ 64
    | .undefined => False
    | _ => True
  utf8 : ∀ t, ReadAs l t → utf8 t = Bool.true

/-- what the reader finds for a node: its name, if it is written; the marks of references with the public index of the
target; the mark and the public index of a node that is referred to; NULL, unless the node is a reference; the text of
its value: mappings, sequences and aliases have none -/
structure SameNode (ra : List Pd) (pd : Pd) (x : Info) (q : Pd) (y : Loaded) : Prop where
  name : y.name = if nameless pd x then none else some x.name
  ref : q.ref = pd.ref
  cref : q.cref = pd.cref
  target : (pd.ref || pd.cref) = true → ∃ t : Pd, ra[pd.firstChild]? = some t ∧ q.firstChild = t.idx
  refd : q.refd = pd.refd
  idx : q.idx = if pd.refd then pd.idx else 0
  null : y.null = (x.null && !(pd.ref || pd.cref))
  compound : Alias pd x ∨ mapping pd.ty = true ∨ sequence pd.ty = true → y.value = none
  leaf : ¬ Alias pd x → mapping pd.ty = false → sequence pd.ty = false → ∃ t, y.value = some t ∧ ReadAs x.leaf t

/-- nodes that can be written: libyaml accepts the name; references are pointers or strings, not of both kinds at once;
only pointers, strings and functions are null; nodes that are not compound have no children, nor has NULL; the type is
one of those that have a text; the value can be written (the text of a string that is a reference is looked at, too) -/
structure NodeOK (utf8 : List Nat → Bool) (ra : List Pd) (pd : Pd) (x : Info) : Prop where
  name : nameless pd x = false → utf8 x.name = true
  ref : (pd.ref || pd.cref) = true → (pd.ty = .pointer ∨ pd.ty = .string) ∧ ¬ (pd.ref = true ∧ pd.cref = true)
  null : x.null = true → pd.ty = .pointer ∨ pd.ty = .string ∨ pd.ty = .func ∨ pd.ty = .funcType
  children : (pd.ref || pd.cref) = false → x.null = true ∨ (mapping pd.ty = false ∧ sequence pd.ty = false) → pd.firstChild = 0
  kind : pd.ty ≠ .none ∧ pd.ty ≠ .void ∧ pd.ty ≠ .endAnonUnion ∧ pd.ty ≠ .last
  leaf : mapping pd.ty = false → sequence pd.ty = false → (pd.ty = .string ∧ x.null = true) ∨ LeafOK utf8 x.leaf

/-- members of mappings have names, the others do not -/
def NamesOK (ra : List Pd) (pd : Pd) (x : Info) : Prop :=
  nameless pd x = true ↔ (pd.parent = 0 ∨ ∃ p, ra[pd.parent]? = some p ∧ mapping p.ty = false)

/-- all nodes of the list can be written, their names are known to the reader, the empty text is accepted -/
structure Writable (utf8 known : List Nat → Bool) (ra : List Pd) (info : List Info) (l : List Nat) : Prop where
  empty : utf8 [] = true
  node : ∀ i ∈ l, ∀ pd, ra[i]? = some pd → ∃ x, info[i]? = some x ∧ NodeOK utf8 ra pd x ∧ NamesOK ra pd x ∧
    (nameless pd x = false → known x.name = true)

/-- the numbering of `mr_save`: the nodes of the list are numbered from 1 on (C29), there are less than 2³¹ of them;
references lead to nodes of the list that are marked; marked nodes that are written as an alias are the target of some
reference -/
structure Numbered (ra : List Pd) (info : List Info) (l : List Nat) : Prop where
  count : l.length < 2 ^ 31 - 1
  idx : ∀ (j i : Nat) (pd : Pd), l[j]? = some i → ra[i]? = some pd → pd.idx = j + 1
  target : ∀ i ∈ l, ∀ pd, ra[i]? = some pd → (pd.ref || pd.cref) = true → pd.firstChild ∈ l ∧ ∃ t, ra[pd.firstChild]? = some t ∧ t.refd = true
  marked : ∀ i ∈ l, ∀ pd x, ra[i]? = some pd → info[i]? = some x → pd.refd = true → Alias pd x →
    ∃ r ∈ l, ∃ pr, ra[r]? = some pr ∧ (pr.ref || pr.cref) = true ∧ pr.firstChild = i

/-! ## Any document -/

/-- `a` is an anchor of the document -/
def Anchored (events : List Event) (a : List Nat) : Prop :=
  (∃ v, Event.scalar (some a) v ∈ events) ∨ Event.mapStart (some a) ∈ events ∨ Event.seqStart (some a) ∈ events

/-- all links lead to nodes and every way along them ends: parents come before their children and are not references,
siblings come after, first children (of nodes that are not references) exist -/
structure Sound (ra : List Pd) : Prop where
  parent : ∀ (i : Nat) (pd : Pd), i ≠ 0 → ra[i]? = some pd → pd.parent < i ∧ ∀ p : Pd, ra[pd.parent]? = some p → (p.ref || p.cref) = false
  next : ∀ (i : Nat) (pd : Pd), ra[i]? = some pd → pd.next = 0 ∨ (i < pd.next ∧ pd.next < ra.length)
  first : ∀ (i : Nat) (pd : Pd), ra[i]? = some pd → (pd.ref || pd.cref) = false → pd.firstChild < ra.length

end Verif.Spec.Yaml
