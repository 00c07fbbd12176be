import Verif.Model.IcHash
import Verif.Model.Tree
import Verif.Spec.Collection
/-!
# `src/mr_ic.c`, `src/mr_ic.h`: the indexed collection API

`Ic` is `mr_ic_t`: the constructor is the kind installed in `virt_func` (it changes when an unsorted
or static array turns into a sorted one), its fields are the active member of the anonymous union and
`items_count`.  Comparator, hash function and context do not change and are parameters.
Results are the key behind the returned pointer.  `m` are the answers of the allocator to the (at
most two) requests of one call.
-/
namespace Verif.Model.Ic
open Verif.Model Verif.Spec

/-- `ic->tree` (`mr_tree_t`, `src/mr_protos.h:240-244`; the pool up to `size`) and `items_count` -/
structure TreeIc where
  pool : Tree.Pool
  itemsCount : Nat

/-- `mr_ic_t` (`src/mr_protos.h:268-285`) -/
inductive Ic where
  | unsorted (a : Arr)
  | sorted (a : Arr)
  | static (s : Static)
  | hash (h : Hash)
  | rb (t : TreeIc)
  | avl (t : TreeIc)

/-- the constructors `mr_ic_*_new` -/
inductive Kind where
  | unsorted | sorted | static | hash | rb | avl
deriving DecidableEq

/-- `src/mr_ic.c:234-242`, `423-432`, `688-697`, `835-843`, `948-957`, `1015-1024`: state after `mr_ic_*_new`. -/
def icNew : Kind → Ic
  | .unsorted => .unsorted { ra := [], itemsCount := 0 }
  | .sorted => .sorted { ra := [], itemsCount := 0 }
  | .static => .static { arr := [0, 0, 0], itemsCount := 0 }
  | .hash => .hash hashNew
  | .rb => .rb { pool := [], itemsCount := 0 }
  | .avl => .avl { pool := [], itemsCount := 0 }

/-- the key behind a returned pointer into `l`; outer `none`: dangling -/
def deref (l : List Key) : Option Nat → Option (Option Key)
  | none => some none
  | some i => (l[i]?).map some

/-- `ic->rb.size / sizeof (ic->rb.pool[0]) - 1` stored in the 32-bit `items_count` -/
def treeCount (p : Tree.Pool) : Nat := (p.length + 4294967295) % 4294967296

/-- `src/mr_ic.c:866-874` `mr_ic_tree_find` -/
def treeIcFind (cmp : Cmp) (t : TreeIc) (key : Key) : Option (Option Key) := do
  let tr ← Tree.find cmp key t.pool t.pool.length
  if tr.equal then do
    let e ← tr.path[tr.size - 1]?
    some (some (← Tree.getKey t.pool e.1))
  else some none

/-- `src/mr_ic.c:849-856` `mr_ic_rbtree_add`, `src/mr_ic.c:963-970` `mr_ic_avltree_add` -/
def treeIcAdd (add : Cmp → Tree.Pool → Key → Bool × Bool → Option (Tree.Pool × Option Nat)) (cmp : Cmp)
    (t : TreeIc) (key : Key) (m : Bool × Bool) : Option (TreeIc × Option Key) := do
  let (p, r) ← add cmp t.pool key m
  some ({ pool := p, itemsCount := treeCount p }, ← deref (p.map (·.key)) r)

/-- `src/mr_ic.c:858-864` `mr_ic_rbtree_del`, `src/mr_ic.c:972-978` `mr_ic_avltree_del` -/
def treeIcDel (del : Cmp → Tree.Pool → Key → Option (Tree.Pool × Bool)) (cmp : Cmp) (t : TreeIc)
    (key : Key) : Option (TreeIc × Bool) := do
  let (p, st) ← del cmp t.pool key
  some ({ pool := p, itemsCount := treeCount p }, st)

/-- `src/mr_ic.c:876-885` `mr_ic_tree_foreach_unsorted`: slots `size - 1`, …, 1 -/
def treeIcForeach (t : TreeIc) : List Key :=
  if t.pool.length ≥ 2 then ((t.pool.drop 1).map (·.key)).reverse else []

/-- `src/mr_ic.c:900-911` `mr_ic_tree_index`.  `mr_tree_reserve` (`src/mr_btree.c:25-49`) empties the
tree and asks for memory for all elements; its status is ignored.  When it was granted (`m.1`), no add
asks the allocator; otherwise every request of an add is answered by `m.2`. -/
def treeIcIndex (add : Cmp → Tree.Pool → Key → Bool × Bool → Option (Tree.Pool × Option Nat)) (cmp : Cmp)
    (ok : Bool) : TreeIc → List Key → Option (TreeIc × Bool)
  | t, [] => some (t, true)
  | t, k :: ks => do
    match ← treeIcAdd add cmp t k (ok, ok) with
    | (t, none) => some (t, false)
    | (t, some _) => treeIcIndex add cmp ok t ks

/-- `mr_ic_find` (`src/mr_ic.h`), `src/mr_ic.c:158-166`, `299-305`, `606-632`, `750-758`, `866-874` -/
def icFind (cmp : Cmp) (hash : Key → Nat) (ic : Ic) (key : Key) : Option (Option Key) :=
  match ic with
  | .unsorted a => deref a.ra (arrayFind cmp key a.ra 0)
  | .sorted a => do deref a.ra (← sortedFind cmp a key)
  | .static s => deref s.arr (staticFind cmp s key)
  | .hash h => do deref h.table (← hashFind cmp hash h key)
  | .rb t => treeIcFind cmp t key
  | .avl t => treeIcFind cmp t key

/-- `src/mr_ic.c:118-136` `mr_ic_unsorted_array_add` -/
def unsortedAdd (cmp : Cmp) (a : Arr) (key : Key) (m : Bool × Bool) : Option (Ic × Option Key) :=
  match arrayFind cmp key a.ra 0 with
  | some i => do some (.unsorted a, ← deref a.ra (some i))
  | none => do
    match ← sortedIndex cmp a.ra m.1 with
    | (_, false) => some (.unsorted a, none)
    | (d, true) => do
      let (d, r) ← sortedAdd cmp d key m.2
      some (.sorted d, ← deref d.ra r)

/-- `src/mr_ic.c:703-734` `mr_ic_static_array_add` -/
def staticAdd (cmp : Cmp) (s : Static) (key : Key) (m : Bool × Bool) : Option (Ic × Option Key) :=
  match staticFind cmp s key with
  | some i => do some (.static s, ← deref s.arr (some i))
  | none =>
    let n := if s.itemsCount > staticSize then 0 else s.itemsCount
    if n = staticSize then do
      match ← sortedIndex cmp s.arr m.1 with
      | (_, false) => some (.static { s with itemsCount := n }, none)
      | (d, true) => do
        let (d, r) ← sortedAdd cmp d key m.2
        some (.sorted d, ← deref d.ra r)
    else do
      let arr ← wr s.arr n key
      some (.static { arr := arr, itemsCount := n + 1 }, ← deref arr (some n))

/-- `mr_ic_add` (`src/mr_ic.h`) -/
def icAdd (cmp : Cmp) (hash : Key → Nat) (ic : Ic) (key : Key) (m : Bool × Bool) :
    Option (Ic × Option Key) :=
  match ic with
  | .unsorted a => unsortedAdd cmp a key m
  | .sorted a => do
    let (a, r) ← sortedAdd cmp a key m.1
    some (.sorted a, ← deref a.ra r)
  | .static s => staticAdd cmp s key m
  | .hash h => do
    let (h, r) ← hashAdd cmp hash h key m.1
    some (.hash h, ← deref h.table r)
  | .rb t => do
    let (t, r) ← treeIcAdd Tree.rbAdd cmp t key m
    some (.rb t, r)
  | .avl t => do
    let (t, r) ← treeIcAdd Tree.avlAdd cmp t key m
    some (.avl t, r)

/-- `src/mr_ic.c:138-156` `mr_ic_unsorted_array_del` -/
def unsortedDel (cmp : Cmp) (a : Arr) (key : Key) (m : Bool × Bool) : Option (Ic × Bool) :=
  match arrayFind cmp key a.ra 0 with
  | none => some (.unsorted a, false)
  | some _ => do
    match ← sortedIndex cmp a.ra m.1 with
    | (_, false) => some (.unsorted a, false)
    | (d, true) => do
      let (d, st) ← sortedDel cmp d key
      some (.sorted d, st)

/-- `mr_ic_del` (`src/mr_ic.h`) -/
def icDel (cmp : Cmp) (hash : Key → Nat) (ic : Ic) (key : Key) (m : Bool × Bool) :
    Option (Ic × Bool) :=
  match ic with
  | .unsorted a => unsortedDel cmp a key m
  | .sorted a => do
    let (a, st) ← sortedDel cmp a key
    some (.sorted a, st)
  | .static s => do
    let (s, st) ← staticDel cmp s key
    some (.static s, st)
  | .hash h => do
    let (h, st) ← hashDel cmp hash h key
    some (.hash h, st)
  | .rb t => do
    let (t, st) ← treeIcDel Tree.rbDel cmp t key
    some (.rb t, st)
  | .avl t => do
    let (t, st) ← treeIcDel Tree.avlDel cmp t key
    some (.avl t, st)

/-- `mr_ic_foreach` (`src/mr_ic.h`; `src/mr_ic.c:168-176`, `634-651`, `760-768`, `876-885`) with a visitor that
accepts every key: the keys in the order of the visits. -/
def icForeach : Ic → List Key
  | .unsorted a => a.ra
  | .sorted a => a.ra
  | .static s => s.arr.take s.itemsCount
  | .hash h => hashForeach h
  | .rb t => treeIcForeach t
  | .avl t => treeIcForeach t

/-- the public field `items_count` -/
def icCount : Ic → Nat
  | .unsorted a => a.itemsCount
  | .sorted a => a.itemsCount
  | .static s => s.itemsCount
  | .hash h => h.itemsCount
  | .rb t => t.itemsCount
  | .avl t => t.itemsCount

/-- `src/mr_ic.c:789-791`: the loop of `mr_ic_static_array_index`; the status of `mr_ic_add` is
ignored. -/
def staticIndexLoop (cmp : Cmp) (m : Bool × Bool) : Ic → List Key → Option Ic
  | ic, [] => some ic
  | .static s, k :: ks => do
    let (ic, _) ← staticAdd cmp s k m
    staticIndexLoop cmp m ic ks
  | _, _ :: _ => none

/-- `mr_ic_index` (`src/mr_ic.h`; `src/mr_ic.c:178-186`, `329-373`, `522-538`, `777-795`, `900-911`) on a fresh
collection: new state and status. -/
def icIndex (cmp : Cmp) (hash : Key → Nat) (ic : Ic) (rarray : List Key) (m : Bool × Bool) :
    Option (Ic × Bool) :=
  match ic with
  | .unsorted _ => some (.unsorted { ra := rarray, itemsCount := rarray.length }, true)
  | .sorted _ => do
    let (a, st) ← sortedIndex cmp rarray m.1
    some (.sorted a, st)
  | .static s =>
    if rarray.length > staticSize then do
      let (a, st) ← sortedIndex cmp rarray m.1
      some (.sorted a, st)
    else do
      let ic ← staticIndexLoop cmp m (.static { s with itemsCount := 0 }) rarray
      some (ic, true)
  | .hash h => do
    let (h, st) ← hashIndex cmp hash h rarray m.1
    some (.hash h, st)
  | .rb t => do
    let (t, st) ← treeIcIndex Tree.rbAdd cmp (m.1 || m.2) { t with pool := [] } rarray
    some (.rb t, st)
  | .avl t => do
    let (t, st) ← treeIcIndex Tree.avlAdd cmp (m.1 || m.2) { t with pool := [] } rarray
    some (.avl t, st)

/-- one API call -/
def icStep (cmp : Cmp) (hash : Key → Nat) (ic : Ic) (m : Bool × Bool) : Op Key → Option (Ic × Res Key)
  | .find k => do some (ic, .key (← icFind cmp hash ic k))
  | .add k => do
    let (ic, r) ← icAdd cmp hash ic k m
    some (ic, .key r)
  | .del k => do
    let (ic, st) ← icDel cmp hash ic k m
    some (ic, .status st)

/-- a history of API calls, each with the answers of the allocator -/
def icRun (cmp : Cmp) (hash : Key → Nat) : Ic → List (Op Key × Bool × Bool) →
    Option (Ic × List (Res Key))
  | ic, [] => some (ic, [])
  | ic, (op, m) :: ops => do
    let (ic, r) ← icStep cmp hash ic m op
    let (ic, rs) ← icRun cmp hash ic ops
    some (ic, r :: rs)

end Verif.Model.Ic
