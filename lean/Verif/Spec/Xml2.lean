import Verif.Model.Xml2
import Verif.Spec.Xml1
/-!
# What a tree of libxml2 says about a tree of nodes
-/
namespace Verif.Spec.Xml2
open Verif.Model Verif.Model.Ptrs Verif.Spec Verif.Spec.Ptrs
open Verif.Model.Json (Leaf Info)
open Verif.Model.Xml1 (Loaded)
open Verif.Model.Xml2 (XNode Heap)
open Verif.Spec.Xml1 (valued)

/-- the value of a hexadecimal digit -/
def hexDigit (c d : Nat) : Prop := (d < 10 ∧ c = d + 48) ∨ (10 ≤ d ∧ d < 16 ∧ c = d + 55)

/-- `Denotes t s`: the XML character data `t` stands for the ASCII characters `s`: an ordinary character stands for
itself, `&lt;`, `&gt;`, `&amp;` and `&quot;` for what they are called after, `&#xHL;` for the character with this
code. -/
inductive Denotes : List Nat → List Nat → Prop
  | nil : Denotes [] []
  | plain (c : Nat) (t s : List Nat) : 0 < c → c < 128 → c ≠ 38 → c ≠ 60 → Denotes t s → Denotes (c :: t) (c :: s)
  | lt (t s : List Nat) : Denotes t s → Denotes (ascii "&lt;" ++ t) (60 :: s)
  | gt (t s : List Nat) : Denotes t s → Denotes (ascii "&gt;" ++ t) (62 :: s)
  | amp (t s : List Nat) : Denotes t s → Denotes (ascii "&amp;" ++ t) (38 :: s)
  | quot (t s : List Nat) : Denotes t s → Denotes (ascii "&quot;" ++ t) (34 :: s)
  | code (a b da db : Nat) (t s : List Nat) : hexDigit a da → hexDigit b db → 0 < 16 * da + db → 16 * da + db < 128 →
      Denotes t s → Denotes (ascii "&#x" ++ (a :: b :: ascii ";") ++ t) ((16 * da + db) :: s)

/-- libxml2 finds in a node the text that the character data stand for -/
def Decodes (decode : List Nat → List Nat) : Prop := ∀ t s, Denotes t s → decode t = s

/-- values that can be written: integers of 64 or 128 bits, ASCII strings, other ASCII texts without `<` and `&` -/
def LeafOK : Leaf → Prop
  | .bool _ => True
  | .int v => -(2 ^ 63 : Int) ≤ v ∧ v < 2 ^ 64
  | .int128 _ | .uint128 _ => True
  | .real t | .quoted t => ∀ c ∈ t, 0 < c ∧ c < 128 ∧ c ≠ 60 ∧ c ≠ 38
  | .text s => ∀ c ∈ s, 0 < c ∧ c < 128
  | .void _ => True
  | .undefined => False

/-- nodes that can be written: references have a target; public indices have 32 bits; the value can be written -/
structure NodeOK (ra : List Pd) (pd : Pd) (x : Info) : Prop where
  ref : (pd.ref || pd.cref) = true → ∃ t : Pd, ra[pd.firstChild]? = some t ∧ t.idx < 2 ^ 32
  refd : pd.refd = true → pd.idx < 2 ^ 32
  leaf : (pd.ref || pd.cref) = false → x.null = false → valued pd.ty = true → LeafOK x.leaf

/-- all nodes of the list can be written, their names are known to the reader -/
def Writable (known : List Nat → Bool) (ra : List Pd) (info : List Info) (l : List Nat) : Prop :=
  ∀ i ∈ l, ∀ pd, ra[i]? = some pd → ∃ x, info[i]? = some x ∧ NodeOK ra pd x ∧ known x.name = true

/-- what the reader finds for a node: its name; the marks of references with the public index of the target; the
public index of a node that is referred to; NULL; the text of its value, which is empty if it has none of its own -/
structure SameNode (ra : List Pd) (pd : Pd) (x : Info) (q : Pd) (y : Loaded) : Prop where
  name : y.name = some x.name
  null : y.null = x.null
  ref : q.ref = pd.ref
  cref : q.cref = pd.cref
  target : (pd.ref || pd.cref) = true → ∃ t : Pd, ra[pd.firstChild]? = some t ∧ q.firstChild = t.idx
  refd : q.refd = pd.refd
  idx : q.idx = if pd.refd then pd.idx else 0
  value : (pd.ref || pd.cref) = false → x.null = false → valued pd.ty = true → ∃ t, y.text = some t ∧ Spec.Xml1.ReadAs x.leaf t
  none : (pd.ref || pd.cref) = true ∨ x.null = true ∨ valued pd.ty = false → y.text = some []

/-- a list of element trees, by value: the node itself, its children, its following siblings -/
inductive Tree
  | nil
  | cons (x : XNode) (kids next : Tree)

namespace Tree

/-- the nodes in document order -/
def nodes : Tree → List XNode
  | nil => []
  | cons x k s => x :: (k.nodes ++ s.nodes)

/-- the shape; the numbers are of no importance -/
def shape : Tree → Forest
  | nil => .nil
  | cons _ k s => .cons 0 k.shape s.shape

end Tree

/-- the element nodes `l` in memory are the roots of the trees -/
def InMemory (h : Heap) : List Nat → Tree → Prop
  | [], .nil => True
  | i :: l, .cons x k s => h i = some x ∧ InMemory h x.kids k ∧ InMemory h l s
  | _, _ => False

end Verif.Spec.Xml2
