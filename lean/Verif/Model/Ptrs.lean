import Verif.Model.Mem
/-!
# The serialization tree: `mr_ra_ptrdes_t`

`mr_save` and all loaders describe an object or a document by an array of node descriptors that are
linked to a tree by array indices: parent, first child and next sibling.  Index 0 (`MR_NULL_IDX`,
metaresc.h:33) is the NULL link; element 0 of the array is a dummy.

Modelled: `mr_last_child_for_parent`, `mr_add_child` (src/metaresc.c:624–669), the depth-first walk
`mr_ptrs_dfs_impl` (src/mr_save.c:1238–1270), its visitors `mr_reorder_strings_visitor`,
`mr_remove_empty_node`, `mr_renumber_node` and the drivers `mr_remove_empty_nodes`, `mr_reorder_strings`
(src/mr_save.c:1272–1379).  Of the descriptor only the members read by these functions are kept.
-/
namespace Verif.Model.Ptrs

/-- mr_type_t, src/mr_protos.h:91–126 -/
inductive MrType
  | none | string | charArray | char | void | bool | int8 | uint8 | int16 | uint16 | int32 | uint32 | int64
  | uint64 | int128 | uint128 | float | complexFloat | double | complexDouble | longDouble
  | complexLongDouble | struct | enum | funcType | func | bitfield | array | pointer | union | anonUnion
  | namedAnonUnion | endAnonUnion | last
  deriving DecidableEq, Repr, Inhabited

/-- src/mr_save.h:7 MR_STRUCT_TYPES -/
def structTypes : MrType → Bool
  | .struct | .union | .anonUnion | .namedAnonUnion => true
  | _ => false

/-- src/mr_save.c:1318 REMOVE_IF_EMPTY -/
def removeIfEmpty : MrType → Bool
  | .void | .struct | .array | .union | .anonUnion | .namedAnonUnion => true
  | _ => false

/-- mr_ptrdes_t, src/mr_protos.h:572–597: links, public index, type and the three reference flags
(`ref` MR_IS_REFERENCE, `cref` MR_IS_CONTENT_REFERENCE, `refd` MR_IS_REFERENCED) -/
structure Pd where
  parent : Nat := 0
  firstChild : Nat := 0
  next : Nat := 0
  idx : Nat := 0
  ref : Bool := false
  cref : Bool := false
  refd : Bool := false
  ty : MrType := .none
  deriving DecidableEq, Repr, Inhabited

/-- mr_ra_ptrdes_t, src/mr_protos.h:606–614: the array and the cached index of the last added child -/
structure Ptrs where
  ra : List Pd := []
  lastChild : Nat := 0
  deriving DecidableEq, Repr

/-- update one descriptor in place -/
def upd (ra : List Pd) (i : Nat) (f : Pd → Pd) : Option (List Pd) := do
  wr ra i (f (← ra[i]?))

/-- src/metaresc.c:613–621 `mr_add_ptr_to_list`: a zeroed descriptor at the end, its index
(allocation failure is not modelled here) -/
def addPtr (s : Ptrs) : Ptrs × Nat := ({ s with ra := s.ra ++ [{}] }, s.ra.length)

/-- src/metaresc.c:635–636: climb from the cached child until a child of `parent` is found -/
def climb : Nat → List Pd → Nat → Nat → Option Nat
  | 0, _, _, _ => none
  | fuel + 1, ra, parent, lc =>
    if lc = 0 then some 0
    else do
      let pd ← ra[lc]?
      if pd.parent = parent then some lc else climb fuel ra parent pd.parent

/-- src/metaresc.c:639: follow `next` to the last sibling -/
def lastSibling : Nat → List Pd → Nat → Option Nat
  | 0, _, _ => none
  | fuel + 1, ra, lc => do
    let pd ← ra[lc]?
    if pd.next = 0 then some lc else lastSibling fuel ra pd.next

/-- src/metaresc.c:623–643 `mr_last_child_for_parent` -/
def lastChildForParent (s : Ptrs) (parent : Nat) : Option (Ptrs × Nat) :=
  if parent = 0 then some (s, 0)
  else do
    let pp ← s.ra[parent]?
    if pp.firstChild = 0 then some (s, 0)
    else
      let lc ← climb (s.ra.length + 1) s.ra parent s.lastChild
      let lc ← if lc = 0 then lastSibling (s.ra.length + 1) s.ra pp.firstChild else some lc
      some ({ s with lastChild := lc }, lc)

/-- src/metaresc.c:651–666 `mr_add_child` -/
def addChild (s : Ptrs) (parent child : Nat) : Option Ptrs := do
  let (s, lc) ← lastChildForParent s parent
  let ra ← upd s.ra child fun pd => { pd with parent := parent }
  if parent = 0 then some { ra := ra, lastChild := child }
  else
    let pp ← ra[parent]?
    if pp.firstChild = 0 then
      let ra ← upd ra parent fun pd => { pd with firstChild := child }
      some { ra := ra, lastChild := child }
    else if lc ≠ 0 then
      let ra ← upd ra lc fun pd => { pd with next := child }
      some { ra := ra, lastChild := child }
    else some { ra := ra, lastChild := child }

/-- mr_dfs_order_t -/
inductive Order | pre | post deriving DecidableEq, Repr

/-- mr_ptrdes_processor_t: the visitor may change the array and its own context; `false` is any status
other than MR_SUCCESS, `none` undefined behaviour -/
abbrev Visitor (σ : Type) := List Pd × σ → Nat → Int → Order → Option (Bool × (List Pd × σ))

/-- how the inner loop of the walk ends -/
inductive Up (σ : Type)
  /-- a visitor failed -/
  | fail (s : List Pd × σ)
  /-- back at the start node -/
  | done (s : List Pd × σ)
  /-- go on with a sibling of `idx` (or stop if there is none) -/
  | cont (s : List Pd × σ) (idx : Nat) (level : Int)

/-- src/mr_save.c:1256–1264: post-order visits while climbing up.  `level` is an `int`; modelled as an
integer without overflow. -/
def goUp {σ : Type} (v : Visitor σ) (start : Nat) : Nat → List Pd × σ → Nat → Int → Option (Up σ)
  | 0, _, _, _ => none
  | fuel + 1, s, idx, level => do
    let pd ← s.1[idx]?
    if pd.next = 0 ∧ pd.parent ≠ 0 then
      let (ok, s) ← v s pd.parent (level - 1) .post
      if ok = false then some (.fail s)
      else if pd.parent = start then some (.done s)
      else goUp v start fuel s pd.parent (level - 1)
    else some (.cont s idx level)

/-- src/mr_save.c:1244–1268: the loop of `mr_ptrs_dfs_impl` -/
def dfsLoop {σ : Type} (v : Visitor σ) (start : Nat) : Nat → List Pd × σ → Nat → Int → Option (Bool × (List Pd × σ))
  | 0, _, _, _ => none
  | fuel + 1, s, idx, level =>
    if idx = 0 then some (true, s)
    else do
      let (ok, s) ← v s idx level .pre
      if ok = false then some (false, s)
      else
        let pd ← s.1[idx]?
        if pd.firstChild ≠ 0 ∧ (pd.ref || pd.cref) = false then dfsLoop v start fuel s pd.firstChild (level + 1)
        else
          let (ok, s) ← v s idx level .post
          if ok = false then some (false, s)
          else
            match ← goUp v start (s.1.length + 1) s idx level with
            | .fail s => some (false, s)
            | .done s => some (true, s)
            | .cont s idx level =>
              let pd ← s.1[idx]?
              dfsLoop v start fuel s pd.next level

/-- src/mr_save.c:1238–1270 `mr_ptrs_dfs_impl` -/
def dfs {σ : Type} (v : Visitor σ) (start : Nat) (s : List Pd × σ) : Option (Bool × (List Pd × σ)) :=
  dfsLoop v start (s.1.length + 1) s start 0

/-- src/mr_save.c:1354–1362 `mr_renumber_node`; the context is the next number -/
def renumberNode : Visitor Nat := fun s i _ order =>
  match order with
  | .post => some (true, s)
  | .pre => do some (true, (← upd s.1 i fun pd => { pd with idx := s.2 }, s.2 + 1))

/-- a link of type `mr_idx_t *` used by `mr_remove_empty_node`: a first-child or a next member -/
inductive Link | first (i : Nat) | next (i : Nat)

def Link.get (l : Link) (ra : List Pd) : Option Nat :=
  match l with
  | .first i => do some (← ra[i]?).firstChild
  | .next i => do some (← ra[i]?).next

def Link.set (l : Link) (ra : List Pd) (v : Nat) : Option (List Pd) :=
  match l with
  | .first i => upd ra i fun pd => { pd with firstChild := v }
  | .next i => upd ra i fun pd => { pd with next := v }

/-- src/mr_save.c:1332–1343: unchain the empty children; the flag says whether one was found -/
def removeLoop : Nat → List Pd → Link → Bool → Option (List Pd × Bool)
  | 0, _, _, _ => none
  | fuel + 1, ra, link, found => do
    let n ← link.get ra
    if n = 0 then some (ra, found)
    else
      let pd ← ra[n]?
      if pd.firstChild = 0 ∧ pd.refd = false ∧ removeIfEmpty pd.ty = true then
        let ra ← link.set ra pd.next
        removeLoop fuel ra link true
      else removeLoop fuel ra (.next n) found

/-- src/mr_save.c:1320–1347 `mr_remove_empty_node`; the context is `need_reindex` -/
def removeEmptyNode : Visitor Bool := fun s i _ order => do
  match order with
  | .pre => some (true, s)
  | .post =>
    let pd ← s.1[i]?
    if structTypes pd.ty = false then some (true, s)
    else if (pd.ref || pd.cref) = true then some (true, s)
    else some (true, ← removeLoop (s.1.length + 1) s.1 (.first i) s.2)

/-- src/mr_save.c:1368–1379 `mr_remove_empty_nodes` (the status of the walks is ignored) -/
def removeEmptyNodes (ra : List Pd) : Option (List Pd) := do
  let (_, ra, found) ← dfs removeEmptyNode 1 (ra, false)
  if found then
    let (_, ra, _) ← dfs renumberNode 1 (ra, 1)
    some ra
  else some ra

/-- src/mr_save.c:1272–1294 `mr_reorder_strings_visitor` -/
def reorderStringsVisitor : Visitor Unit := fun s i _ order =>
  match order with
  | .pre => some (true, s)
  | .post => do
    let pd ← s.1[i]?
    if pd.ty = .string ∧ pd.cref = true then
      let rp ← s.1[pd.firstChild]?
      if rp.cref = true then
        let ra ← upd s.1 i fun p => { p with firstChild := rp.firstChild }
        some (true, (ra, ()))
      else if pd.idx < rp.idx then
        let ra ← upd s.1 i fun p => { p with firstChild := 0, refd := true, cref := false }
        let ra ← upd ra pd.firstChild fun p => { p with firstChild := i, refd := false, cref := true }
        some (true, (ra, ()))
      else some (true, s)
    else some (true, s)

/-- src/mr_save.c:1308–1315: the loop of `mr_reorder_strings` over all descriptors, `n` of them to go -/
def reorderPointers : Nat → List Pd → Nat → Option (List Pd)
  | 0, ra, _ => some ra
  | n + 1, ra, i => do
    let pd ← ra[i]?
    if pd.ty = .pointer ∧ pd.cref = true then
      let rp ← ra[pd.firstChild]?
      if rp.cref = true then
        let ra ← upd ra i fun p => { p with firstChild := rp.firstChild }
        reorderPointers n ra (i + 1)
      else reorderPointers n ra (i + 1)
    else reorderPointers n ra (i + 1)

/-- src/mr_save.c:1302–1316 `mr_reorder_strings` (the status of the walk is ignored) -/
def reorderStrings (ra : List Pd) : Option (List Pd) := do
  let (_, ra, _) ← dfs reorderStringsVisitor 1 (ra, ())
  reorderPointers (ra.length - 1) ra 1

end Verif.Model.Ptrs
