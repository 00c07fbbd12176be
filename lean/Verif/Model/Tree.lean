import Verif.Model.Mem
import Verif.Model.IcArray
/-!
# `src/mr_btree.c`: red-black and AVL trees in an index-linked pool

`tree->pool` is a list of nodes, `tree->size` its length (in nodes); slot 0 is the header whose left
link is the root and which also serves as the NIL node.  Reads and writes of pool and path are
checked: `none` is an access outside the array (or an endless loop).  The answer of the allocator to
`mr_rarray_allocate_element` is a parameter, as in `Verif.Model.IcArray`.
`MR_LEFT`/`MR_RIGHT` are `false`/`true`, `^ FLIP` is `!`.
-/
namespace Verif.Model.Tree
open Verif.Model Verif.Model.Ic

abbrev Dir := Bool

/-- `mr_tree_node_t` (`src/mr_protos.h:228-238`): the key and `next[2]`, each a 31-bit index with an
extra bit.  `lbit` is `avl.balanced`; `rbit` is `rb.red` or `avl.longer`. -/
structure Node where
  key : Key
  left : Nat
  lbit : Bool
  right : Nat
  rbit : Bool
deriving DecidableEq, Repr

/-- a node after `memset (node, 0, sizeof (*node))` -/
def Node.zero : Node := ⟨0, 0, false, 0, false⟩

instance : Inhabited Node := ⟨Node.zero⟩

abbrev Pool := List Node

/-- `node.next[d].idx` -/
def Node.nx (n : Node) (d : Dir) : Nat := if d then n.right else n.left

/-- `node.next[d].idx = v`: stored in 31 bits -/
def Node.setNx (n : Node) (d : Dir) (v : Nat) : Node :=
  if d then { n with right := v % 2147483648 } else { n with left := v % 2147483648 }

/-- `tree->pool[i].next[d].idx` -/
def getNx (p : Pool) (i : Nat) (d : Dir) : Option Nat := (p[i]?).map (·.nx d)

/-- `tree->pool[i].next[d].idx = v` -/
def setNx (p : Pool) (i : Nat) (d : Dir) (v : Nat) : Option Pool := do
  wr p i ((← p[i]?).setNx d v)

/-- `tree->pool[i].rb.red` or `.avl.longer` -/
def getR (p : Pool) (i : Nat) : Option Bool := (p[i]?).map (·.rbit)

/-- `tree->pool[i].rb.red = b` or `.avl.longer = b` -/
def setR (p : Pool) (i : Nat) (b : Bool) : Option Pool := do
  wr p i { (← p[i]?) with rbit := b }

/-- `tree->pool[i].avl.balanced` -/
def getB (p : Pool) (i : Nat) : Option Bool := (p[i]?).map (·.lbit)

/-- `tree->pool[i].avl.balanced = b` -/
def setB (p : Pool) (i : Nat) (b : Bool) : Option Pool := do
  wr p i { (← p[i]?) with lbit := b }

/-- `tree->pool[i].key` -/
def getKey (p : Pool) (i : Nat) : Option Key := (p[i]?).map (·.key)

/-- `tree->pool[i].key = k` -/
def setKey (p : Pool) (i : Nat) (k : Key) : Option Pool := do
  wr p i { (← p[i]?) with key := k }

/-- `mr_tree_path_t path[63]` (`src/mr_protos.h:246-255`): index and direction of descent -/
abbrev Path := List (Nat × Dir)

/-- `MR_PATH_SIZE` -/
def pathSize : Nat := 63

/-- `mr_tree_traverse_t`; `size` counts entries (the code stores bytes in 16 bits) -/
structure Traverse where
  path : Path
  size : Nat
  equal : Bool

/-- `src/mr_btree.c:127-142`: the descent of `mr_tree_find`. -/
def findLoop (cmp : Cmp) (key : Key) (p : Pool) : Nat → Path → Nat → Nat → Option Traverse
  | 0, _, _, _ => none
  | fuel + 1, path, ts, idx =>
    if idx = 0 then some ⟨path, ts, false⟩
    else do
      let k ← getKey p idx
      let c := cmp key k
      let d : Dir := decide (c > 0)
      let path ← wr path ts (idx, d)
      if c = 0 then some ⟨path, ts + 1, true⟩
      else do
        let nxt ← getNx p idx d
        findLoop cmp key p fuel path (ts + 1) nxt

/-- `src/mr_btree.c:115-146` `mr_tree_find`; `size` is `tree->size` in nodes.  The path is a local
variable of the callers, its initial contents are irrelevant. -/
def find (cmp : Cmp) (key : Key) (p : Pool) (size : Nat) : Option Traverse := do
  let path ← wr (List.replicate pathSize (0, false)) 0 (0, false)
  if size ≥ 2 then do
    let root ← getNx p 0 false
    findLoop cmp key p (pathSize + 1) path 1 root
  else some ⟨path, 1, false⟩

/-- `src/mr_btree.c:313-323` `mr_tree_rotate (tree, &path[k], d)` -/
def rotate (p : Pool) (path : Path) (k : Nat) (d : Dir) : Option Pool := do
  let node := (← path[k]?).1
  let child ← getNx p node d
  let g ← getNx p child !d
  let p ← setNx p node d g
  let p ← setNx p child (!d) node
  if k = 0 then none
  else do
    let up ← path[k - 1]?
    setNx p up.1 up.2 child

/-- `src/mr_btree.c:325-339` `mr_tree_grand_rotate (tree, &path[k], d)` -/
def grandRotate (p : Pool) (path : Path) (k : Nat) (d : Dir) : Option Pool := do
  let node := (← path[k]?).1
  let child ← getNx p node d
  let grand ← getNx p child !d
  let p ← setNx p node d (← getNx p grand !d)
  let p ← setNx p child (!d) (← getNx p grand d)
  let p ← setNx p grand (!d) node
  let p ← setNx p grand d child
  if k = 0 then none
  else do
    let up ← path[k - 1]?
    setNx p up.1 up.2 grand

/-- `src/mr_btree.c:358-373`: uncle black, rotations. -/
def rbAddRotate (p : Pool) (path : Path) (ts : Nat) (node parent grand : Nat) (pd : Dir) :
    Option Pool := do
  let brother ← getNx p parent !pd
  let p ← if node ≠ brother then setR p parent false
    else do
      let p ← rotate p path (ts + 1) !pd
      setR p node false
  let p ← rotate p path ts pd
  setR p grand true

/-- `src/mr_btree.c:350-378`: the `while` loop of `mr_rbtree_rebalance_add`. -/
def rbAddLoop : Nat → Pool → Path → Nat → Option Pool
  | 0, _, _, _ => none
  | fuel + 1, p, path, ts => do
    let parentRed ← getR p (← path[ts - 1]?).1
    if ts > 2 ∧ parentRed then do
      let node := (← path[ts]?).1
      let parent := (← path[ts - 1]?).1
      let (grand, pd) ← path[ts - 2]?
      let uncle ← getNx p grand !pd
      if !(← getR p uncle) then rbAddRotate p path (ts - 2) node parent grand pd
      else do
        let p ← setR p parent false
        let p ← setR p uncle false
        let p ← setR p grand true
        rbAddLoop fuel p path (ts - 2)
    else some p

/-- `src/mr_btree.c:341-381` `mr_rbtree_rebalance_add`; the test of line 349 is the first test of the
loop. -/
def rbRebalanceAdd (p : Pool) (path : Path) (ts : Nat) : Option Pool := do
  let p ← setR p (← path[ts]?).1 true
  let p ← rbAddLoop (pathSize + 1) p path ts
  setR p (← getNx p 0 false) false

/-- `src/mr_btree.c:556-572`, the same statements in `627-643`: new balance of the three nodes of a
double rotation. -/
def avlGrandBits (p : Pool) (node child grand : Nat) : Option Pool := do
  if ← getB p grand then do
    let p ← setB p node true
    setB p child true
  else if (← getR p child) = (← getR p grand) then do
    let p ← setB p node true
    let p ← setR p child (!(← getR p child))
    setB p grand true
  else do
    let p ← setR p node (!(← getR p node))
    let p ← setB p child true
    setB p grand true

/-- `src/mr_btree.c:516-576`: the `for` loop of `mr_avltree_rebalance_add`. -/
def avlAddLoop : Nat → Pool → Path → Option Pool
  | 0, p, _ => some p
  | idx + 1, p, path => do
    let (node, d) ← path[idx + 1]?
    if ← getB p node then do
      let p ← setB p node false
      let p ← setR p node d
      avlAddLoop idx p path
    else if (← getR p node) ≠ d then setB p node true
    else do
      let child ← getNx p node d
      if (← getR p node) = (← getR p child) then do
        let p ← setB p node true
        let p ← setB p child true
        rotate p path (idx + 1) d
      else do
        let grand ← getNx p child !d
        let p ← avlGrandBits p node child grand
        grandRotate p path (idx + 1) d

/-- `src/mr_btree.c:509-577` `mr_avltree_rebalance_add` -/
def avlRebalanceAdd (p : Pool) (path : Path) (ts : Nat) : Option Pool := do
  let p ← setB p (← path[ts]?).1 true
  avlAddLoop (ts - 1) p path

/-- `src/mr_btree.c:51-62` `mr_tree_node_new`: `none` when the allocator refuses. -/
def nodeNew (p : Pool) (ok : Bool) : Option (Pool × Nat) :=
  if ok then some (p ++ [Node.zero], p.length) else none

/-- `src/mr_btree.c:148-177` `mr_tree_add`: new pool and index behind the returned pointer (`none` is
NULL).  `m` answers the requests for the header and for the node. -/
def treeAdd (rebalance : Pool → Path → Nat → Option Pool) (cmp : Cmp) (p : Pool) (key : Key)
    (m : Bool × Bool) : Option (Pool × Option Nat) :=
  match (if p.length = 0 then (nodeNew p m.1).map (·.1) else some p) with
  | none => some (p, none)
  | some p => do
    let tr ← find cmp key p p.length
    if tr.equal then do
      let e ← tr.path[tr.size - 1]?
      some (p, some e.1)
    else
      match nodeNew p m.2 with
      | none => some (p, none)
      | some (p, idx) => do
        let old ← tr.path[tr.size]?
        let path ← wr tr.path tr.size (idx % 2147483648, old.2)
        let p ← setKey p idx key
        let parent ← path[tr.size - 1]?
        let p ← setNx p parent.1 parent.2 idx
        let p ← rebalance p path tr.size
        some (p, some idx)

/-- `src/mr_btree.c:383-387` `mr_rbtree_add` -/
def rbAdd := treeAdd rbRebalanceAdd
/-- `src/mr_btree.c:579-583` `mr_avltree_add` -/
def avlAdd := treeAdd avlRebalanceAdd

/-- `src/mr_btree.c:422-447`: the part of the loop body of `mr_rbtree_rebalance_del` after the
case of a red brother; `none` in the result of the tree means the loop goes on. -/
def rbDelBlackBrother (p : Pool) (path : Path) (ts : Nat) (parent brother : Nat) (d : Dir) :
    Option (Pool × Bool) := do
  let rl ← getR p (← getNx p brother false)
  let rr ← getR p (← getNx p brother true)
  if rl || rr then do
    let nephew ← getNx p brother d
    let (p, brother) ← (if ← getR p nephew then do
        let p ← setR p nephew false
        let p ← setR p brother true
        let old ← path[ts]?
        let path ← wr path ts (brother, old.2)
        let up ← path[ts - 1]?
        let path ← wr path (ts - 1) (up.1, !up.2)
        let p ← rotate p path ts d
        some (p, nephew)
      else some (p, brother))
    let p ← setR p brother (← getR p parent)
    let p ← setR p parent false
    let p ← setR p (← getNx p brother !d) false
    let p ← rotate p path (ts - 1) !d
    some (p, true)
  else do
    let p ← setR p brother true
    some (p, false)

/-- `src/mr_btree.c:396-448`: the `for` loop of `mr_rbtree_rebalance_del`. -/
def rbDelLoop : Nat → Pool → Path → Nat → Option Pool
  | 0, _, _, _ => none
  | fuel + 1, p, path, ts =>
    if ts > 0 then do
      let (parent, d) ← path[ts - 1]?
      let child ← getNx p parent d
      let brother ← getNx p parent !d
      if ← getR p child then setR p child false
      else if ← getR p brother then do
        let p ← setR p brother false
        let p ← setR p parent true
        let p ← rotate p path (ts - 1) !d
        let path ← wr path (ts - 1) (brother, d)
        let path ← wr path ts (parent, d)
        let brother ← getNx p parent !d
        let (p, stop) ← rbDelBlackBrother p path (ts + 1) parent brother d
        if stop then some p else rbDelLoop fuel p path ts
      else do
        let (p, stop) ← rbDelBlackBrother p path ts parent brother d
        if stop then some p else rbDelLoop fuel p path (ts - 1)
    else some p

/-- `src/mr_btree.c:389-452` `mr_rbtree_rebalance_del` -/
def rbRebalanceDel (p : Pool) (path : Path) (ts : Nat) : Option Pool := do
  let p ← (if !(← getR p (← path[ts]?).1) then rbDelLoop (pathSize + 2) p path ts else some p)
  let p ← setR p 0 false
  setR p (← getNx p 0 false) false

/-- `src/mr_btree.c:590-646`: the `for` loop of `mr_avltree_rebalance_del`. -/
def avlDelLoop : Nat → Pool → Path → Option Pool
  | 0, p, _ => some p
  | idx + 1, p, path => do
    let (node, d) ← path[idx + 1]?
    if ← getB p node then do
      let p ← setB p node false
      setR p node !d
    else if (← getR p node) = d then do
      let p ← setB p node true
      avlDelLoop idx p path
    else do
      let child ← getNx p node !d
      if ← getB p child then do
        let p ← setB p child false
        let p ← setR p child d
        rotate p path (idx + 1) !d
      else if (← getR p node) = (← getR p child) then do
        let p ← setB p node true
        let p ← setB p child true
        let p ← rotate p path (idx + 1) !d
        avlDelLoop idx p path
      else do
        let grand ← getNx p child d
        let p ← avlGrandBits p node child grand
        let p ← grandRotate p path (idx + 1) !d
        avlDelLoop idx p path

/-- `src/mr_btree.c:585-647` `mr_avltree_rebalance_del` -/
def avlRebalanceDel (p : Pool) (path : Path) (ts : Nat) : Option Pool := avlDelLoop (ts - 1) p path

/-- `src/mr_btree.c:196-200`: descent to the in-order successor; the final path, its size and the
successor. -/
def succLoop (p : Pool) : Nat → Path → Nat → Nat → Option (Path × Nat × Nat)
  | 0, _, _, _ => none
  | fuel + 1, path, ts, del => do
    let l ← getNx p del false
    if l ≠ 0 then do
      let path ← wr path ts (del, false)
      succLoop p fuel path (ts + 1) l
    else do
      let old ← path[ts]?
      let path ← wr path ts (del, old.2)
      some (path, ts, del)

/-- `src/mr_btree.c:213-226`: the last slot of the pool moves into the freed one. -/
def compact (cmp : Cmp) (p : Pool) (del : Nat) : Option (Pool × Bool) := do
  let last := p.length - 1
  if del ≠ last then do
    let k ← getKey p last
    let tr ← find cmp k p last
    if !tr.equal then some (p.take last, false)
    else do
      let p ← wr p del (← p[last]?)
      let parent ← tr.path[tr.size - 2]?
      let p ← setNx p parent.1 parent.2 del
      some (p.take last, true)
  else some (p.take last, true)

/-- `src/mr_btree.c:179-228` `mr_tree_del`: new pool and status. -/
def treeDel (rebalance : Pool → Path → Nat → Option Pool) (cmp : Cmp) (p : Pool) (key : Key) :
    Option (Pool × Bool) := do
  let tr ← find cmp key p p.length
  if !tr.equal then some (p, false)
  else do
    let node := (← tr.path[tr.size - 1]?).1
    let l ← getNx p node false
    let r ← getNx p node true
    let (path, ts, del) ← (if l = 0 ∨ r = 0 then some (tr.path, tr.size - 1, node)
      else do
        let path ← wr tr.path (tr.size - 1) (node, true)
        succLoop p (pathSize + 1) path tr.size r)
    let parent ← path[ts - 1]?
    let dr ← getNx p del true
    let c ← getNx p del (decide (dr ≠ 0))
    let p ← setNx p parent.1 parent.2 c
    let p ← setKey p node (← getKey p del)
    let p ← rebalance p path ts
    compact cmp p del

/-- `src/mr_btree.c:454-458` `mr_rbtree_del` -/
def rbDel := treeDel rbRebalanceDel
/-- `src/mr_btree.c:649-653` `mr_avltree_del` -/
def avlDel := treeDel avlRebalanceDel

/-! ### iteration -/

/-- `src/mr_btree.c:75-76`: push the left spine of `idx` on `path[MR_PATH_SIZE]`; the head of the list
is `path[size - 1]`, a push at `size = MR_PATH_SIZE` is outside the array. -/
def walkPush (p : Pool) : Nat → Nat → List Nat → Option (List Nat)
  | 0, _, _ => none
  | fuel + 1, idx, path =>
    if idx = 0 then some path
    else if path.length < pathSize then do
      walkPush p fuel (← getNx p idx false) (idx :: path)
    else none

/-- `src/mr_btree.c:73-82`: the outer loop of `mr_tree_walk` -/
def walkLoop (p : Pool) : Nat → Nat → List Nat → Option (List Key)
  | 0, _, _ => none
  | fuel + 1, idx, path => do
    match ← walkPush p (pathSize + 1) idx path with
    | [] => some []
    | i :: path => do
      let k ← getKey p i
      let ks ← walkLoop p fuel (← getNx p i true) path
      some (k :: ks)

/-- `src/mr_btree.c:64-84` `mr_tree_walk` with a visitor that accepts every key: the keys in the order
of the visits. -/
def treeWalk (p : Pool) : Option (List Key) :=
  if p.length < 2 then some []
  else do walkLoop p p.length (← getNx p 0 false) []

/-- `src/mr_btree.c:97-103`: descend to the extreme node on the side opposite to `d` -/
def nextDown (p : Pool) (d : Dir) : Nat → Path → Nat → Nat → Option (Path × Nat)
  | 0, _, _, _ => none
  | fuel + 1, path, ts, idx =>
    if idx = 0 then some (path, ts)
    else do
      let path ← wr path ts (idx, !d)
      nextDown p d fuel path (ts + 1) (← getNx p idx !d)

/-- `src/mr_btree.c:105-107`: `while (--traverse_size > 1) if (path[traverse_size - 1].child_idx != next) break;` -/
def nextUp (path : Path) (d : Dir) : Nat → Option Nat
  | 0 => none
  | ts + 1 =>
    if ts > 1 then do
      if (← path[ts - 1]?).2 ≠ d then some ts else nextUp path d ts
    else some ts

/-- `src/mr_btree.c:86-112` `mr_tree_next` -/
def treeNext (p : Pool) (tr : Traverse) (d : Dir) : Option Traverse :=
  if tr.size ≤ 1 then some tr
  else do
    let e ← tr.path[tr.size - 1]?
    if tr.equal || e.2 == d then do
      let path ← wr tr.path (tr.size - 1) (e.1, d)
      let c ← getNx p e.1 d
      if c ≠ 0 then do
        let (path, ts) ← nextDown p d (pathSize + 1) path tr.size c
        some ⟨path, ts, true⟩
      else do
        let ts ← nextUp path d tr.size
        some ⟨path, ts, true⟩
    else some ⟨tr.path, tr.size, true⟩

/-- how a user of `mr_btree.h` iterates with `mr_tree_next` (`mr_btree.c:86-113`, declared in
`mr_btree.h`): call it until the traverse is back at the header; the keys of the nodes passed -/
def cursorLoop (p : Pool) (d : Dir) : Nat → Traverse → Option (List Key)
  | 0, _ => none
  | fuel + 1, tr => do
    let tr ← treeNext p tr d
    if tr.size ≤ 1 then some []
    else do
      let k ← getKey p (← tr.path[tr.size - 1]?).1
      let ks ← cursorLoop p d fuel tr
      some (k :: ks)

/-! ### validators -/

/-- `src/mr_btree.c:230-267` `mr_btree_is_valid_recurse`; the first argument is the number of levels
left up to `MR_PATH_SIZE`, `height` the `uint8_t` array.  Outer `none`: access outside an array. -/
def validRec (cmp : Cmp) (nodeValid : Pool → Nat → List Nat → Option (List Nat × Bool)) (p : Pool) :
    Nat → Nat → List Nat → Nat → Nat → Option (List Nat × Bool)
  | 0, idx, h, _, _ => some (h, decide (idx = 0))
  | levels + 1, idx, h, left, right =>
    if idx = 0 then some (h, true)
    else do
      if (← h[idx]?) ≠ 0 then some (h, false)
      else if left ≠ 0 && decide (cmp (← getKey p idx) (← getKey p left) ≤ 0) then some (h, false)
      else if right ≠ 0 && decide (cmp (← getKey p right) (← getKey p idx) ≤ 0) then some (h, false)
      else do
        let (h, v) ← validRec cmp nodeValid p levels (← getNx p idx false) h left idx
        if v = false then some (h, false)
        else do
          let (h, v) ← validRec cmp nodeValid p levels (← getNx p idx true) h idx right
          if v = false then some (h, false)
          else nodeValid p idx h

/-- `src/mr_btree.c:269-311` `mr_btree_is_valid` (the allocation of `height` succeeds) -/
def treeIsValid (cmp : Cmp) (nodeValid : Pool → Nat → List Nat → Option (List Nat × Bool)) (p : Pool) :
    Option Bool :=
  if p.length = 0 then some true
  else if p.any fun n => decide (n.left ≥ p.length) || decide (n.right ≥ p.length) then some false
  else do
    let h ← wr (List.replicate p.length 0) 0 1
    let (h, v) ← validRec cmp nodeValid p pathSize (← getNx p 0 false) h 0 0
    some (v && h.all (· ≠ 0))

/-- `src/mr_btree.c:459-483` `mr_rbnode_is_valid` -/
def rbNodeValid (p : Pool) (idx : Nat) (h : List Nat) : Option (List Nat × Bool) := do
  let l ← getNx p idx false
  let r ← getNx p idx true
  let red ← getR p idx
  if red && (← getR p l) then some (h, false)
  else if red && (← getR p r) then some (h, false)
  else if (← h[l]?) ≠ (← h[r]?) then some (h, false)
  else do
    let h' ← wr h idx (((← h[l]?) + (if red then 0 else 1)) % 256)
    some (h', true)

/-- `src/mr_btree.c:485-507` `mr_rbtree_is_valid` -/
def rbIsValid (cmp : Cmp) (p : Pool) : Option Bool := do
  if (← treeIsValid cmp rbNodeValid p) = false then some false
  else if p.length > 0 then do
    if ← getR p 0 then some false
    else if ← getR p (← getNx p 0 false) then some false
    else some true
  else some true

/-- `src/mr_btree.c:655-703` `mr_avlnode_is_valid` -/
def avlNodeValid (p : Pool) (idx : Nat) (h : List Nat) : Option (List Nat × Bool) := do
  let lh ← h[← getNx p idx false]?
  let rh ← h[← getNx p idx true]?
  let (v, delta, longer) := if lh > rh then (lh + 1, lh - rh, false) else (rh + 1, rh - lh, true)
  let h ← wr h idx (v % 256)
  if delta > 1 then some (h, false)
  else if delta = 0 then do some (h, ← getB p idx)
  else if ← getB p idx then some (h, false)
  else if longer ≠ (← getR p idx) then some (h, false)
  else some (h, true)

/-- `src/mr_btree.c:705-709` `mr_avltree_is_valid` -/
def avlIsValid (cmp : Cmp) (p : Pool) : Option Bool := treeIsValid cmp avlNodeValid p

end Verif.Model.Tree
