/-!
# Which member of a union is saved: `mr_union_discriminator`

Model of /repo/src/mr_save.c:255–455, 548–572, 607–636: the member of a union that is in use is determined by a discriminator,
a member of an object around the union.  What was found is remembered in all nodes between the union and that object, and
used again for the same field.

* A node is represented by what the search reads: its parent, whether its type is MR_TYPE_ARRAY or MR_TYPE_POINTER, the
  type descriptor of `fdp` and the address of the object.
* Field descriptors are numbers.  `mr_union_discriminator_by_type` (the value of the discriminator) is a parameter: it
  depends on descriptors and memory, which do not change.
* A set `ud_set` is the list of its elements; that it becomes a hash collection (C17) when it grows is left out, and so
  are failures of allocations.
-/
namespace Verif.Model.UnionDisc

/-- src/mr_protos.h:571–610 `mr_ptrdes_t` -/
structure Node where
  parent : Nat
  skip : Bool := false
  td : Option Nat := none
  addr : Nat := 0
  deriving DecidableEq, Repr

/-- `typed u`: the union field `u` has a type descriptor; `known u`: the text that names its discriminator is the name of some
field; `dflt u`: the first member of the union, src/mr_save.c:26–41 `mr_union_discriminator_by_name` without a name; `has t u`:
the type `t` has a member with the name of the discriminator of `u`, src/metaresc.c:1656–1667; `pick t a u`: the member of
the union selected by the discriminator in an object of type `t` at `a`, src/mr_save.c:68–199; `limit`: the number of
values of MR_RA_UD_IDX_TYPE -/
structure Env where
  typed : Nat → Bool
  known : Nat → Bool
  dflt : Nat → Option Nat
  has : Nat → Nat → Bool
  pick : Nat → Nat → Nat → Option Nat
  limit : Nat

/-- the nodes; for every node the set of indices of results; all results `mr_ra_ud`: field and member of the union -/
structure St where
  tree : List Node
  uds : List (List Nat)
  ud : List (Nat × Option Nat)
  deriving DecidableEq, Repr

/-- src/mr_save.c:238–252 `mr_ud_find`: the first element with a result for the field `u`; every element is an index of
`mr_ra_ud` -/
def udFind (ud : List (Nat × Option Nat)) (u : Nat) : List Nat → Option (Option Nat)
  | [] => some none
  | r :: l => do
    let x ← ud[r]?
    if x.1 = u then some (some r) else udFind ud u l

/-- src/mr_save.c:254–319 `mr_ud_add` -/
def udAdd (ud : List (Nat × Option Nat)) (r : Nat) (l : List Nat) : Option (List Nat) := do
  let x ← ud[r]?
  match ← udFind ud x.1 l with
  | some _ => some l
  | none => some (l ++ [r])

/-- src/mr_save.c:402–421: is the discriminator a member of the object of this node, and what does it select -/
def own (E : Env) (x : Node) (u : Nat) : Option (Option Nat) :=
  if x.skip then none
  else
    match x.td with
    | none => none
    | some t => if E.has t u then some (E.pick t x.addr u) else none

/-- how the search ends: at a node with a result for this field, at an object with a discriminator, above the root -/
inductive Found
  | cached (r : Nat)
  | own (d : Option Nat)
  | top
  deriving DecidableEq, Repr

/-- the loop src/mr_save.c:392–423 -/
def walk (E : Env) (s : St) (u : Nat) : Nat → Nat → Option (Nat × Found)
  | 0, _ => none
  | fuel + 1, p =>
    if p = 0 then some (0, .top)
    else do
      let x ← s.tree[p]?
      match ← udFind s.ud u (← s.uds[p]?) with
      | some r => some (p, .cached r)
      | none =>
        match own E x u with
        | some d => some (p, .own d)
        | none => walk E s u fuel x.parent

/-- the loop src/mr_save.c:449–452 -/
def mark (tree : List Node) (ud : List (Nat × Option Nat)) (stop r : Nat) : Nat → Nat → List (List Nat) → Option (List (List Nat))
  | 0, _, _ => none
  | fuel + 1, p, uds =>
    if p = stop then some uds
    else do
      let x ← tree[p]?
      let l ← udAdd ud r (← uds[p]?)
      mark tree ud stop r fuel x.parent (uds.set p l)

/-- src/mr_save.c:432–439: `mr_ic_add` of the new result to the collection of all results -/
def record (ud : List (Nat × Option Nat)) (x : Nat × Option Nat) : Nat × List (Nat × Option Nat) :=
  match ud.findIdx? fun y => y == x with
  | some r => (r, ud)
  | none => (ud.length, ud ++ [x])

/-- src/mr_save.c:429–444: a new result `d` for the field `u` found at the node `q`, for the nodes from `p` on -/
def remember (s : St) (p q u : Nat) (d : Option Nat) : Option (Option Nat × St) := do
  let (r, ud) := record s.ud (u, d)
  let stop ← if q = 0 then some 0 else (s.tree[q]?).map Node.parent
  let uds ← mark s.tree ud stop r (s.tree.length + 1) p s.uds
  some (d, { s with uds := uds, ud := ud })

/-- src/mr_save.c:425–454: what becomes of the end of the search -/
def conclude (E : Env) (s : St) (p u : Nat) : Nat × Found → Option (Option Nat × St)
  | (q, .cached r) => do
    let x ← s.ud[r]?
    let uds ← mark s.tree s.ud q r (s.tree.length + 1) p s.uds
    some (x.2, { s with uds := uds })
  | (q, .own d) => remember s p q u (if d = none then E.dflt u else d)
  | (q, .top) => remember s p q u (E.dflt u)

/-- src/mr_save.c:353–455 `mr_union_discriminator` for the union field `u` at the node `p`; the result is NULL (`none`) or
a member -/
def query (E : Env) (s : St) (p u : Nat) : Option (Option Nat × St) :=
  if E.typed u = false then some (none, s)
  else if E.known u = false then some (E.dflt u, s)
  else if s.ud.length ≥ E.limit then some (none, s)
  else do conclude E s p u (← walk E s u (s.tree.length + 1) p)

/-- src/mr_save.c:548–572 `mr_check_ud` for the elements of the set of the node `x` (src/mr_save.c:791): is the member the same
below the node `p` -/
def check (E : Env) (x : Node) (p : Nat) : List Nat → St → Option (Bool × St)
  | [], s => some (true, s)
  | r :: l, s => do
    let y ← s.ud[r]?
    if (x.td.any fun t => E.has t y.1) = true then check E x p l s
    else do
      let (d, s) ← query E s p y.1
      if d = y.2 then check E x p l s else some (false, s)

/-- a node is added, src/mr_save.c:1486–1560 `mr_save_inner` -/
def append (s : St) (x : Node) : St := { s with tree := s.tree ++ [x], uds := s.uds ++ [[]] }

/-- the body of the loop src/mr_save.c:622–634: the node `i` is moved below `p` (its type stays the same) -/
def relink (s : St) (i p : Nat) : Option St := do
  let x ← s.tree[i]?
  some { s with tree := s.tree.set i { x with parent := p } }

/-- src/mr_save.c:790–791, 607–636: the node `i` is moved below `p` if the unions in it stay the same; the result is false
if they do not -/
def move (E : Env) (s : St) (i p : Nat) : Option (Bool × St) := do
  let x ← s.tree[i]?
  let (ok, s) ← check E x p (← s.uds[i]?) s
  if ok then do some (true, ← relink s i p) else some (false, s)

/-- the loop src/mr_save.c:622–634 -/
def relinkAll (p : Nat) : List Nat → St → Option St
  | [], s => some s
  | i :: l, s => do relinkAll p l (← relink s i p)

/-- src/mr_save.c:790–791, 607–636 for a pointer with the elements `i :: l`: the unions in the first are checked, and all
are moved -/
def moveAll (E : Env) (s : St) (i : Nat) (l : List Nat) (p : Nat) : Option (Bool × St) := do
  let x ← s.tree[i]?
  let (ok, s) ← check E x p (← s.uds[i]?) s
  if ok then do some (true, ← relinkAll p (i :: l) s) else some (false, s)

end Verif.Model.UnionDisc
