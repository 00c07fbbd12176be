import Verif.Model.Ptrs
/-!
# Trees of nodes, independently of the way they are linked

First part: the tree described by a history of additions.  Second part: ordered forests, the events of a
depth-first walk, removal of empty nodes.
-/
namespace Verif.Spec.Ptrs
open Verif.Model.Ptrs

/-- the additions made so far, oldest first: (parent, child); parent 0: a root -/
abbrev Hist := List (Nat × Nat)

/-- the children of `p` in insertion order -/
def children (H : Hist) (p : Nat) : List Nat := (H.filter (·.1 = p)).map (·.2)

/-- `Anc H a x`: `a` is `x` or an ancestor of `x` -/
inductive Anc (H : Hist) (a : Nat) : Nat → Prop
  | self : Anc H a a
  | up {p x : Nat} : (p, x) ∈ H → Anc H a p → Anc H a x

/-- the node added last -/
def lastAdded (H : Hist) : Nat := ((H.getLast?).map (·.2)).getD 0

/-- `l` is what one sees following `next` from `h` -/
def Chain (ra : List Pd) : Nat → List Nat → Prop
  | h, [] => h = 0
  | h, c :: l => h = c ∧ c ≠ 0 ∧ ∃ pd, ra[c]? = some pd ∧ Chain ra pd.next l

/-- `l` are the children of node `p` as listed by the links, and each of them knows its parent -/
def Lists (ra : List Pd) (p : Nat) (l : List Nat) : Prop :=
  (∃ pd, ra[p]? = some pd ∧ Chain ra pd.firstChild l) ∧ ∀ c ∈ l, ∃ pd, ra[c]? = some pd ∧ pd.parent = p

/-- calls of the tree builders -/
inductive Op
  /-- a new node (`mr_add_ptr_to_list`) -/
  | alloc
  /-- `mr_add_child` -/
  | link (parent child : Nat)
  deriving DecidableEq, Repr

/-- the additions of a sequence of calls -/
def links : List Op → Hist
  | [] => []
  | .alloc :: ops => links ops
  | .link p c :: ops => (p, c) :: links ops

/-- the number of nodes after a sequence of calls, with the dummy node 0 -/
def count (ops : List Op) : Nat := 1 + (ops.filter (· = .alloc)).length

/-- run the calls on an empty tree (only the dummy node) -/
def run (ops : List Op) : Option Ptrs :=
  ops.foldlM (fun s o => match o with | .alloc => some (addPtr s).1 | .link p c => addChild s p c) { ra := [{}] }

/-- the call makes sense: existing nodes, the child is not yet in a tree, no cycle arises -/
structure Sensible (n : Nat) (H : Hist) (p c : Nat) : Prop where
  child : c ≠ 0 ∧ c < n
  parent : p < n
  fresh : c ∉ H.map (·.2)
  acyclic : ¬ Anc H c p

/-- the node added last is not in a subtree of `p` other than the last one -/
def Aligned (H : Hist) (p : Nat) : Prop :=
  p ≠ 0 → ∀ a ∈ children H p, Anc H a (lastAdded H) → (children H p).getLast? = some a

/-- sequences of sensible and aligned calls -/
inductive Proper : List Op → Prop
  | nil : Proper []
  | alloc {ops : List Op} : Proper ops → Proper (ops ++ [.alloc])
  | link {ops : List Op} {p c : Nat} : Proper ops → Sensible (count ops) (links ops) p c → Aligned (links ops) p →
      Proper (ops ++ [.link p c])

/-- the calls of the parsers, of `mr_xdr_load` and of `mr_yaml_load`: node `k` is added right after its
allocation under parent `ps[k-1]` -/
def topDown : Nat → List Nat → List Op
  | _, [] => []
  | k, p :: ps => .alloc :: .link p k :: topDown (k + 1) ps

/-- document order: every node is added under the node added before it, under one of the ancestors of that
node, or as a new root -/
def DocumentOrder (ps : List Nat) : Prop :=
  ∀ k, k < ps.length → ps[k]?.getD 0 = 0 ∨ (k ≠ 0 ∧ Anc ((ps.take k).zip (List.range' 1 k)) (ps[k]?.getD 0) k)

/-- an XML element tree: the sub-elements of the first element, the following elements -/
inductive Elems
  | nil
  | cons (kids next : Elems)

/-- the calls of `mr_xml2_load` for the sub-elements of node `idx` (src/xml2_load.c:71–86): a sub-element
with everything below it is loaded before it is added.  `n` is the next free index. -/
def bottomUp (idx : Nat) : Nat → Elems → List Op × Nat
  | n, .nil => ([], n)
  | n, .cons kids next =>
    let (o1, n1) := bottomUp n (n + 1) kids
    let (o2, n2) := bottomUp idx n1 next
    (.alloc :: o1 ++ [.link idx n] ++ o2, n2)

/-! ### ordered forests -/

/-- an ordered forest: the first root with the forest of its children, and the forest of its right siblings -/
inductive Forest
  | nil
  | cons (i : Nat) (kids sibs : Forest)
  deriving DecidableEq, Repr

namespace Forest

/-- the nodes in document order -/
def nodes : Forest → List Nat
  | nil => []
  | cons i k s => i :: (k.nodes ++ s.nodes)

/-- the roots -/
def roots : Forest → List Nat
  | nil => []
  | cons i _ s => i :: s.roots

/-- the events of a depth-first walk: every node with its depth, before and after its children -/
def events : Forest → Int → List (Nat × Int × Order)
  | nil, _ => []
  | cons i k s, level => (i, level, .pre) :: (k.events (level + 1) ++ (i, level, .post) :: s.events level)

end Forest

/-- where the children of a node start; the first-child member of a reference is not a child -/
def kidsHead (pd : Pd) : Nat := if (pd.ref || pd.cref) = true then 0 else pd.firstChild

/-- the array represents the forest: `head` is the first root, `par` the parent of all roots -/
def Rep (ra : List Pd) : Nat → Nat → Forest → Prop
  | _, head, .nil => head = 0
  | par, head, .cons i k s => head = i ∧ i ≠ 0 ∧
      ∃ pd, ra[i]? = some pd ∧ pd.parent = par ∧ Rep ra i (kidsHead pd) k ∧ Rep ra par pd.next s

/-- the visitor called for a list of events; stops at the first failure -/
def callAll {σ : Type} (v : Visitor σ) : List (Nat × Int × Order) → List Pd × σ → Option (Bool × (List Pd × σ))
  | [], s => some (true, s)
  | (i, level, order) :: es, s => do
    let (ok, s) ← v s i level order
    if ok = false then some (false, s) else callAll v es s

/-- the links of a descriptor in the tree -/
def linkPart (pd : Pd) : Nat × Nat × Nat := (pd.parent, kidsHead pd, pd.next)

/-- a visitor that may change everything but the shape of the tree -/
def KeepsLinks {σ : Type} (v : Visitor σ) : Prop :=
  ∀ s i level order ok s', v s i level order = some (ok, s') → s'.1.map linkPart = s.1.map linkPart

/-- structures and unions -/
def structLike (t : MrType) : Bool := t ∈ [MrType.struct, .union, .anonUnion, .namedAnonUnion]

/-- what is not written if it is empty: structures, unions, arrays and unresolved (void) content -/
def container (t : MrType) : Bool := structLike t || t = .array || t = .void

/-- nodes that may be dropped when they are empty: of a container type, nothing refers to them and they are no
references themselves -/
def droppable (pd : Pd) : Bool := container pd.ty && !pd.refd && !(pd.ref || pd.cref)

/-- no root of the forest has content: all are droppable and have no children or (structures and unions) only
children without content -/
def noContent (ra : List Pd) : Forest → Bool
  | .nil => true
  | .cons i k s =>
    (match ra[i]? with
      | none => false
      | some pd => droppable pd && (if structLike pd.ty then noContent ra k else k = .nil)) && noContent ra s

/-- the node `i` with the children `k` has no content -/
def contentless (ra : List Pd) (i : Nat) (k : Forest) : Bool := noContent ra (.cons i k .nil)

/-- structures and unions that are not saved as a reference -/
def isStruct (ra : List Pd) (i : Nat) : Bool :=
  match ra[i]? with
  | none => false
  | some pd => structLike pd.ty && !(pd.ref || pd.cref)

/-- the forest without the contentless members of structures and unions; `inStruct`: the roots are members of a
structure -/
def withoutEmpty (ra : List Pd) : Bool → Forest → Forest
  | _, .nil => .nil
  | inStruct, .cons i k s =>
    if inStruct && contentless ra i k then withoutEmpty ra inStruct s
    else .cons i (withoutEmpty ra (isStruct ra i) k) (withoutEmpty ra inStruct s)

/-! ### strings that share their text -/

def isString (ra : List Pd) (x : Nat) : Bool := ((ra[x]?).map Pd.ty) = some MrType.string

/-- the node that holds the text of a string or of a reference to a string -/
def holder (ra : List Pd) (x : Nat) : Nat :=
  match ra[x]? with
  | none => x
  | some pd => if pd.cref then pd.firstChild else x

/-- the first string of the list that shares its text with `x` -/
def firstSharing (ra : List Pd) (l : List Nat) (x : Nat) : Nat :=
  (l.find? fun y => isString ra y && holder ra y == holder ra x).getD x

/-- what `mr_save` produces: ids grow in document order, strings are leaves, and every node that refers to the
text of a string refers to a string of the tree that holds its text itself -/
structure SharedStrings (ra : List Pd) (l : List Nat) : Prop where
  ids : l.Pairwise fun x y => ∀ a b, ra[x]? = some a → ra[y]? = some b → a.idx < b.idx
  leaf : ∀ x ∈ l, ∀ pd, ra[x]? = some pd → pd.ty = .string → kidsHead pd = 0
  target : ∀ x ∈ l, ∀ pd, ra[x]? = some pd → (pd.ty = .string ∨ pd.ty = .pointer) → pd.cref = true →
    pd.firstChild ∈ l ∧ ∃ h, ra[pd.firstChild]? = some h ∧ h.ty = .string ∧ h.cref = false ∧ h.ref = false
  outside : ∀ x pd, ra[x]? = some pd → x ∉ l → ¬ (pd.ty = .pointer ∧ pd.cref = true)

end Verif.Spec.Ptrs
