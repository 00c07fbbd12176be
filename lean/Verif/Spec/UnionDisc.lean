import Verif.Model.UnionDisc
/-!
# The member of a union that is in use

The object nearest to the union that has a member with the name of the discriminator decides.
-/
namespace Verif.Spec.UnionDisc
open Verif.Model.UnionDisc

/-- the object of the node has a member with the name of the discriminator of `u`, which selects `d` -/
def Decides (E : Env) (x : Node) (u : Nat) (d : Option Nat) : Prop := x.skip = false ∧ ∃ t, x.td = some t ∧ E.has t u = true ∧ E.pick t x.addr u = d

/-- what a discriminator selects, or the first member of the union if this is nothing -/
def orDefault (E : Env) (u : Nat) (d : Option Nat) : Option Nat := d.or (E.dflt u)

/-- `d` is the member of the union field `u` that is in use at node `p`: what the nearest object with a discriminator
selects; the first member if there is none. -/
inductive InUse (E : Env) (tree : List Node) (u : Nat) : Nat → Option Nat → Prop
  | top : InUse E tree u 0 (E.dflt u)
  | here {p : Nat} {x : Node} {d : Option Nat} : p ≠ 0 → tree[p]? = some x → Decides E x u d → InUse E tree u p (orDefault E u d)
  | up {p : Nat} {x : Node} {d : Option Nat} : p ≠ 0 → tree[p]? = some x → (∀ e, ¬ Decides E x u e) → InUse E tree u x.parent d → InUse E tree u p d

/-- The parents of the nodes form a tree: all lead to node 0. -/
def Rooted (tree : List Node) : Prop :=
  ∃ depth : Nat → Nat, ∀ (p : Nat) (x : Node), p ≠ 0 → tree[p]? = some x → x.parent < tree.length ∧ depth x.parent < depth p ∧ depth p < tree.length

/-- what happens while an object is saved: nodes are added, unions are resolved, nodes are moved to other parents -/
inductive Op
  | append (x : Node)
  | query (p u : Nat)
  | move (i p : Nat)

/-- one step; `s` before, `s'` after.  Nodes are added with an existing parent, and moved such that there is still a tree; nodes
of arrays and pointers are not moved.  (There are less results than fit into the type of their indices.) -/
inductive Step (E : Env) : St → Op → St → Prop
  | append {s : St} {x : Node} : x.parent < s.tree.length → Step E s (.append x) (append s x)
  | query {s s' : St} {p u : Nat} {d : Option Nat} : p < s.tree.length → s.ud.length < E.limit → query E s p u = some (d, s') → Step E s (.query p u) s'
  | move {s s' : St} {i p : Nat} {ok : Bool} : i ≠ 0 → p < s.tree.length → (∀ x, s.tree[i]? = some x → x.skip = false ∧ Rooted (s.tree.set i { x with parent := p })) →
      move E s i p = some (ok, s') → s'.ud.length < E.limit → Step E s (.move i p) s'

/-- everything that may have happened: from an array with the unused node 0 only -/
inductive Reached (E : Env) : St → Prop
  | start : Reached E { tree := [{ parent := 0 }], uds := [[]], ud := [] }
  | step {s s' : St} {o : Op} : Reached E s → Step E s o s' → Reached E s'

end Verif.Spec.UnionDisc
