import Verif.Model.Ptrs
/-!
# Saving an object graph: `mr_save`

Model of /repo/src/mr_save.c:455–1641 without unions and without allocation failures.  The node array is
kept in two lists of the same length: `ptrs` (links, type and reference flags, `Verif.Model.Ptrs`) and `info`
(all the other members of `mr_ptrdes_t`).

* Pointers into the type tables (`mr_td_t *`) are indices into the list `tds`; field descriptors are values.
* `Mem` is the memory of the program: the pointer and the integer stored at an address.  All addresses are
  taken to be readable.
* `none` is undefined behaviour or not enough fuel; the number 0 as count of nodes is the failure of the code.
* Sizes are natural numbers, they do not wrap around.
-/
namespace Verif.Model.Save
open Verif.Model Verif.Model.Ptrs

/-- `mr_fd_t`, src/mr_protos.h: the members read by `mr_save`.  `dims` are the entries in use of
`stype.dim.dim`; `sizeField` is the offset of the size field in the enclosing structure, if there is one
(`res_type` "offset", or "string" with the name of a field). -/
structure Fd where
  name : List Nat := []
  ty : MrType := .none
  aux : MrType := .none
  base : MrType := .none
  td : Option Nat := none
  size : Nat := 0
  dims : List Nat := []
  offset : Nat := 0
  unnamed : Bool := false
  nonPersistent : Bool := false
  sizeField : Option Nat := none
  opaqueName : Bool := false
  /-- `bitfield_param.shift`, `bitfield_param.width` -/
  shift : Nat := 0
  width : Nat := 0
  deriving DecidableEq, Repr, Inhabited

/-- `mr_td_t`: type, size and the fields of a structure; `effective` is the integer type of an enum -/
structure Td where
  name : List Nat := []
  ty : MrType
  size : Nat
  fields : List Fd := []
  effective : MrType := .uint8
  deriving DecidableEq, Repr, Inhabited

/-- the memory of the program -/
structure Mem where
  /-- the pointer stored at an address; 0 is NULL -/
  ptr : Nat → Nat
  /-- the value of the integer field at an address -/
  int : Nat → Int

/-- the members of `mr_ptrdes_t` that are not in `Pd`: `addr` data.ptr, `fd` fdp (may be NULL), `aux`
mr_type_aux, `size` MR_SIZE, the flags MR_IS_UNNAMED, MR_IS_NULL, MR_IS_OPAQUE_DATA, `nextUntyped`
save_params.next_untyped -/
structure Info where
  addr : Nat := 0
  fd : Option Fd := none
  aux : MrType := .none
  size : Nat := 0
  unnamed : Bool := false
  null : Bool := false
  opq : Bool := false
  nextUntyped : Nat := 0
  deriving DecidableEq, Repr, Inhabited

/-- `mr_save_data_t`.  The collection `untyped_ptrs` holds at most one node for every value of
`address & ~3` (C12–C17 are about collections); `index` maps `address / 4` to that node, 0 if there is none. -/
structure St where
  ptrs : Ptrs
  info : List Info
  index : Nat → Nat

/-- src/metaresc.c:1185–1204 `mr_type_size` (64-bit, x86-64 long double) -/
def typeSize : MrType → Nat
  | .void | .pointer | .func | .funcType | .string => 8
  | .char | .bool | .int8 | .uint8 => 1
  | .int16 | .uint16 => 2
  | .int32 | .uint32 | .float => 4
  | .int64 | .uint64 | .double | .complexFloat => 8
  | .int128 | .uint128 | .longDouble | .complexDouble => 16
  | .complexLongDouble => 32
  | _ => 0

/-- size of an object of type `ty`, for structures and enums from the type descriptor,
src/mr_save.c:659–661, 1513–1516 -/
def elementSize (tds : List Td) (ty : MrType) (td : Option Nat) : Nat :=
  if typeSize ty ≠ 0 then typeSize ty
  else
    match td with
    | none => 0
    | some t => ((tds[t]?).map Td.size).getD 0

/-- `tdp->mr_ptr_fd`, src/metaresc.c:1226–1233 -/
def ptrFd (tds : List Td) (td : Option Nat) : Option Fd := do
  let t ← td
  let d ← tds[t]?
  some { name := d.name, ty := .pointer, aux := d.ty, base := d.ty, td := some t, size := 8 }

def tdOf (fd : Option Fd) : Option Nat := fd.bind Fd.td

/-- types whose type descriptors are compared, src/mr_save.c:499–506 -/
def tdCompared : MrType → Bool
  | .struct | .enum | .union | .anonUnion | .namedAnonUnion => true
  | _ => false

/-- types that are different for every node, src/mr_save.c:494–497 -/
def neverEqual : MrType → Bool
  | .array | .pointer | .bitfield => true
  | _ => false

/-- src/mr_save.c:455–513 `mr_cmp_ptrdes` of two different nodes, result 0 or not.  If one of the field
descriptors is NULL the descriptors themselves are compared. -/
def sameKey (addr : Nat) (ty : MrType) (fd : Option Fd) (addr' : Nat) (ty' : MrType) (fd' : Option Fd) : Bool :=
  addr == addr' && ty == ty' && !neverEqual ty &&
    (!tdCompared ty || (match fd, fd' with
      | none, none => true
      | some a, some b => a.td == b.td
      | _, _ => false))

/-- src/mr_save.c:583–589 `ref_is_parent` -/
def refIsParent : Nat → List Pd → Nat → Nat → Option Bool
  | 0, _, _, _ => none
  | fuel + 1, ra, node, ref =>
    if node = 0 ∨ node = ref then some (node == ref)
    else do
      let pd ← ra[node]?
      refIsParent fuel ra pd.parent ref

/-- src/mr_save.c:574–581 `is_first_child` -/
def isFirstChild (ra : List Pd) (node : Nat) : Option Bool := do
  let pd ← ra[node]?
  if pd.parent = 0 then some false
  else
    let pp ← ra[pd.parent]?
    some (pp.firstChild == node)

/-- the loop of `mr_get_persistent_fd`, src/mr_save.c:598–601: the field descriptor of the closest ancestor
that has a persistent one -/
def persistentAncestor : Nat → St → Nat → Option (Option Fd)
  | 0, _, _ => none
  | fuel + 1, st, node =>
    if node = 0 then some none
    else do
      let i ← st.info[node]?
      let pd ← st.ptrs.ra[node]?
      match i.fd with
      | none => persistentAncestor fuel st pd.parent
      | some f => if f.nonPersistent then persistentAncestor fuel st pd.parent else some (some f)

/-- src/mr_save.c:591–608 `mr_get_persistent_fd` for a node with descriptor `fd` below `parent` -/
def persistentFd (tds : List Td) (st : St) (fd : Fd) (parent : Nat) : Option (Option Fd) :=
  if fd.nonPersistent then do
    match ← persistentAncestor (st.ptrs.ra.length + 1) st parent with
    | some f => some (some f)
    | none => some (ptrFd tds fd.td)
  else some (some fd)

def updPd (st : St) (i : Nat) (f : Pd → Pd) : Option St := do
  some { st with ptrs := { st.ptrs with ra := ← upd st.ptrs.ra i f } }

def updInfo (st : St) (i : Nat) (f : Info → Info) : Option St := do
  some { st with info := ← wr st.info i (f (← st.info[i]?)) }

/-- src/metaresc.c:651–666 `mr_add_child` -/
def link (st : St) (parent child : Nat) : Option St := do
  some { st with ptrs := ← addChild st.ptrs parent child }

/-- The node that is being saved, before it is put into the array: src/mr_save.c:1015–1033 -/
structure Cur where
  addr : Nat
  fd : Fd
  size : Nat
  parent : Nat

/-- `parent` becomes a reference to `ref`, e.g. src/mr_save.c:706–708 -/
def setReference (st : St) (parent ref : Nat) : Option St := do
  let st ← updPd st parent fun pd => { pd with firstChild := ref, ref := true }
  updPd st ref fun pd => { pd with refd := true }

/-- the loop of `move_nodes_to_parent`, src/mr_save.c:622–634 -/
def moveLoop (tds : List Td) (cur : Cur) : Nat → St → Nat → Nat → Option (St × Nat)
  | 0, _, _, _ => none
  | fuel + 1, st, ref, count =>
    if ref = 0 then some (st, count)
    else do
      let pd ← st.ptrs.ra[ref]?
      let fd ← persistentFd tds st cur.fd cur.parent
      let st ← updInfo st ref fun i => { i with
        fd := fd, aux := cur.fd.aux, unnamed := cur.fd.unnamed, size := cur.size - count * cur.fd.size }
      let st ← updPd st ref fun p => { p with ty := cur.fd.ty }
      let st ← link st cur.parent ref
      moveLoop tds cur fuel st pd.next (count + 1)

/-- src/mr_save.c:610–636 `move_nodes_to_parent` -/
def moveNodes (tds : List Td) (st : St) (cur : Cur) (refParent : Nat) : Option (St × Nat) := do
  let rp ← st.ptrs.ra[refParent]?
  let st ← setReference st refParent rp.firstChild
  moveLoop tds cur (st.ptrs.ra.length + 1) st rp.firstChild 0

/-- the loop over the nodes of a resizable array that were saved before, src/mr_save.c:669–676; returns the
number of them -/
def growSizes (elem count : Nat) : Nat → St → Nat → Nat → Option (St × Nat)
  | 0, _, _, _ => none
  | fuel + 1, st, node, i =>
    if node = 0 then some (st, i)
    else do
      let pd ← st.ptrs.ra[node]?
      let st ← updInfo st node fun n => { n with size := max n.size ((count - i) * elem) }
      if i + 1 ≥ count then some (st, i + 1) else growSizes elem count fuel st pd.next (i + 1)

/-- save the elements from number `i` on, src/mr_save.c:678–684 and 1222–1228; `inner` is `mr_save_inner` -/
def saveElements (inner : St → Nat → Fd → Nat → Nat → Option (St × Nat)) (data : Nat) (fd : Fd) (count parent : Nat) :
    Nat → St → Nat → Option (St × Nat)
  | 0, _, _ => none
  | fuel + 1, st, i =>
    if i < count then do
      let (st, added) ← inner st (data + i * fd.size) fd (count - i) parent
      if added = 0 then some (st, 0)
      else saveElements inner data fd count parent fuel st (i + added)
    else some (st, i)

/-- descriptor of what a pointer points to, src/mr_save.c:652–662 -/
def contentFd (tds : List Td) (aux : MrType) (fd : Option Fd) : Fd :=
  { ty := aux, td := tdOf fd, aux := (fd.map Fd.base).getD .void, nonPersistent := true, unnamed := true,
    size := elementSize tds aux (tdOf fd) }

/-- src/mr_save.c:645–686 `mr_save_pointer_content` -/
def savePointerContent (mem : Mem) (tds : List Td) (inner : St → Nat → Fd → Nat → Nat → Option (St × Nat))
    (st : St) (idx : Nat) : Option (St × Nat) := do
  let n ← st.info[idx]?
  let pd ← st.ptrs.ra[idx]?
  let fd := contentFd tds n.aux n.fd
  if fd.size = 0 then some (st, 0)
  else
    let count := n.size / fd.size
    let (st, i) ← growSizes fd.size count (st.ptrs.ra.length + 1) st pd.firstChild 0
    saveElements inner (mem.ptr n.addr) fd count idx (count + 1) st i

/-- the loop src/mr_save.c:762–763 -/
def addSizes (delta : Nat) : Nat → St → Nat → Option St
  | 0, _, _ => none
  | fuel + 1, st, node =>
    if node = 0 then some st
    else do
      let pd ← st.ptrs.ra[node]?
      let st ← updInfo st node fun n => { n with size := n.size + delta }
      addSizes delta fuel st pd.next

/-- src/mr_save.c:688–773 `resolve_pointer`; `content` is `mr_save_pointer_content`.  The result tells
whether the node is resolved and the number of nodes. -/
def resolvePointer (tds : List Td) (content : St → Nat → Option (St × Nat)) (st : St) (cur : Cur) (ref : Nat) :
    Option (St × Bool × Nat) := do
  let pp ← st.ptrs.ra[cur.parent]?
  let rpd ← st.ptrs.ra[ref]?
  let rinfo ← st.info[ref]?
  let rparent ← st.ptrs.ra[rpd.parent]?
  let elem := cur.fd.size
  if elem = 0 then some (st, false, 0)
  else if pp.firstChild = 0 then
    if cur.size ≤ rinfo.size then do
      let st ← setReference st cur.parent ref
      some (st, true, cur.size / elem)
    else if rparent.ty = .pointer then do
      if ← isFirstChild st.ptrs.ra ref then do
        let (st, n) ← moveNodes tds st cur rpd.parent
        some (st, true, n)
      else do
        let st ← updInfo st rpd.parent fun n => { n with size := n.size + (cur.size - rinfo.size) }
        let st ← setReference st cur.parent ref
        let (st, added) ← content st rpd.parent
        some (st, true, if added = 0 then 0 else cur.size / elem)
    else some (st, false, 0)
  else if rparent.ty = .pointer then do
    if rinfo.size > cur.size then do
      let st ← addSizes (rinfo.size - cur.size) (st.ptrs.ra.length + 1) st pp.firstChild
      let st ← updInfo st cur.parent fun n => { n with size := n.size + (rinfo.size - cur.size) }
      let (st, n) ← moveNodes tds st { cur with size := rinfo.size } rpd.parent
      some (st, true, n)
    else do
      let (st, n) ← moveNodes tds st cur rpd.parent
      some (st, true, n)
  else some (st, false, 0)

/-- is the node `ref` with parent `rp` the content of a string or the first node of what a pointer points to,
not larger than the node saved now, and not above it: src/mr_save.c:813–818 -/
def movable (st : St) (cur : Cur) (ref : Nat) (rpd : Pd) (rinfo : Info) : Option Bool :=
  if rpd.parent = 0 then some false
  else do
    let rparent ← st.ptrs.ra[rpd.parent]?
    let first ← isFirstChild st.ptrs.ra ref
    let above ← refIsParent (st.ptrs.ra.length + 1) st.ptrs.ra cur.parent ref
    some ((rparent.ty == .string || (rparent.ty == .pointer && first && decide (cur.size ≥ rinfo.size))) && !above)

/-- src/mr_save.c:775–828 `resolve_matched` along the list of the nodes at about the same address.  There are
no unions, so the check of the union discriminators succeeds.  Line 807 tests the pointer `resolved`, which is
never NULL: the first match decides. -/
def resolveMatched (tds : List Td) (content : St → Nat → Option (St × Nat)) (st : St) (cur : Cur) :
    Nat → Nat → Option (St × Bool × Nat)
  | 0, _ => none
  | fuel + 1, ref =>
    if ref = 0 then some (st, false, 0)
    else do
      let rpd ← st.ptrs.ra[ref]?
      let rinfo ← st.info[ref]?
      if sameKey rinfo.addr rpd.ty rinfo.fd cur.addr cur.fd.ty (some cur.fd) then do
        let pp ← st.ptrs.ra[cur.parent]?
        match pp.ty with
        | .string => do
          let st ← setReference st cur.parent ref
          some (st, true, 1)
        | .pointer => resolvePointer tds content st cur ref
        | _ =>
          if ← movable st cur ref rpd rinfo then do
            let (st, n) ← moveNodes tds st cur rpd.parent
            some (st, true, n)
          else resolveMatched tds content st cur fuel rinfo.nextUntyped
      else resolveMatched tds content st cur fuel rinfo.nextUntyped

/-- the closest structure above a node, src/mr_save.c:976–978 -/
def closestStruct : Nat → List Pd → Nat → Option Nat
  | 0, _, _ => none
  | fuel + 1, ra, node =>
    if node = 0 then some 0
    else do
      let pd ← ra[node]?
      if pd.ty = .struct then some node else closestStruct fuel ra pd.parent

/-- src/mr_save.c:954–1003 `mr_pointer_get_size_ptrdes` and `mr_assign_int`: the value of the size field, if the
descriptor has one.  Simplified: the field with the given offset exists in the structure. -/
def sizeValue (mem : Mem) (st : St) (fd : Fd) (parent : Nat) : Option (Option Int) :=
  match fd.sizeField with
  | none => some none
  | some off => do
    let s ← closestStruct (st.ptrs.ra.length + 1) st.ptrs.ra parent
    if s = 0 then some none
    else
      let n ← st.info[s]?
      some (some (mem.int (n.addr + off)))

/-- the size of what the pointer points to, src/mr_save.c:1509–1527; MR_SIZE has 32 bits -/
def pointerSize (mem : Mem) (st : St) (fd : Fd) (parent elem : Nat) : Option Nat := do
  match ← sizeValue mem st fd parent with
  | none => some elem
  | some v => some (v % 4294967296).toNat

/-- src/mr_save.c:1499–1545 `mr_save_pointer` for node `idx` with descriptor `fd`: the flags and the size;
what it points to is saved later -/
def savePointer (mem : Mem) (tds : List Td) (st : St) (idx addr parent : Nat) (fd : Fd) : Option (St × Nat) :=
  if mem.ptr addr = 0 then do
    let st ← updInfo st idx fun n => { n with null := true }
    some (st, 1)
  else do
    let elem := elementSize tds fd.aux fd.td
    let size ← pointerSize mem st fd parent elem
    let opq := fd.opaqueName && size != 0
    let st ← updInfo st idx fun n => { n with
      size := size, opq := opq,
      null := (fd.opaqueName && size == 0) || (!opq && (elem == 0 || decide (size < elem))) }
    some (st, 1)

/-- the number of elements of a one-dimensional array that are saved, src/mr_save.c:1191–1213 -/
def arrayCount (mem : Mem) (st : St) (fd : Fd) (parent count elem : Nat) : Option Nat :=
  if fd.nonPersistent then some count
  else do
    match ← sizeValue mem st fd parent with
    | none => some count
    | some v => some (if v ≤ 0 then 0 else min count (v.toNat / elem))

/-- descriptor of the elements of an array, src/mr_save.c:1179–1190, 1216–1220; `memmove` in line 1219 has the
same source and destination (see C36) -/
def elementFd (fd : Fd) (count : Nat) : Fd :=
  if fd.dims.length = 1 then
    { fd with nonPersistent := true, unnamed := true, offset := 0, size := fd.size / count, ty := fd.aux, aux := fd.base }
  else
    { fd with nonPersistent := true, unnamed := true, offset := 0, size := fd.size / count, dims := fd.dims.dropLast }

/-- src/mr_save.c:1172–1230 `mr_save_array` -/
def saveArray (mem : Mem) (inner : St → Nat → Fd → Nat → Nat → Option (St × Nat)) (st : St) (idx addr parent : Nat) (fd : Fd) :
    Option (St × Nat) := do
  let count ← fd.dims[0]?
  if count = 0 then some (st, 1)
  else if fd.size = 0 then some (st, 0)
  else
    let efd := elementFd fd count
    let n ← (if fd.dims.length = 1 then arrayCount mem st fd parent count efd.size else some count)
    let st ← (if fd.dims.length = 1 ∧ fd.nonPersistent = false then updInfo st idx fun i => { i with size := n * efd.size } else some st)
    let (st, i) ← saveElements inner addr efd n idx (n + 1) st 0
    some (st, if i = 0 ∧ n ≠ 0 then 0 else 1)

/-- src/mr_save.c:1124–1139 `mr_save_struct`: the fields in order -/
def saveFields (inner : St → Nat → Fd → Nat → Nat → Option (St × Nat)) (addr idx : Nat) : List Fd → St → Option (St × Nat)
  | [], st => some (st, 1)
  | f :: fs, st => do
    let (st, added) ← inner st (addr + f.offset) f 1 idx
    if added = 0 then some (st, 0) else saveFields inner addr idx fs st

/-- the integer types, src/mr_save.c:1114 -/
def intType : MrType → Bool
  | .uint8 | .int8 | .uint16 | .int16 | .uint32 | .int32 | .uint64 | .int64 | .uint128 | .int128 => true
  | _ => false

/-- the effective type of the enum, src/mr_save.c:1116 -/
def effectiveType (tds : List Td) (td : Option Nat) : MrType :=
  match td.bind (tds[·]?) with
  | some d => d.effective
  | none => .uint8

/-- src/mr_save.c:1107–1118 `mr_save_enum` -/
def saveEnum (tds : List Td) (st : St) (idx : Nat) (fd : Fd) : Option (St × Nat) := do
  let st ← updInfo st idx fun n => if intType n.aux then n else { n with aux := effectiveType tds fd.td }
  some (st, 1)

/-- the handlers, src/mr_save.c:1617–1629; `inner` is `mr_save_inner`.  Unions are not modelled. -/
def handler (mem : Mem) (tds : List Td) (inner : St → Nat → Fd → Nat → Nat → Option (St × Nat))
    (st : St) (idx addr parent : Nat) (fd : Fd) : Option (St × Nat) :=
  match fd.ty with
  | .func | .funcType => do
    let st ← (if mem.ptr addr = 0 then updInfo st idx fun n => { n with null := true } else some st)
    some (st, 1)
  | .string =>
    if mem.ptr addr = 0 then do
      let st ← updInfo st idx fun n => { n with null := true }
      some (st, 1)
    else inner st (mem.ptr addr) { fd with nonPersistent := true, ty := .charArray, size := 1 } 1 idx
  | .enum => saveEnum tds st idx fd
  | .struct => do
    let t ← fd.td
    let d ← tds[t]?
    saveFields inner addr idx d.fields st
  | .array => saveArray mem inner st idx addr parent fd
  | .pointer => savePointer mem tds st idx addr parent fd
  | .union | .anonUnion | .namedAnonUnion => none
  | _ => some (st, 1)

/-- put the node into the array and into the index: src/mr_save.c:1015–1033, 1048–1052 -/
def newNode (st : St) (cur : Cur) : St :=
  let info : Info := { addr := cur.addr, fd := some cur.fd, aux := cur.fd.aux, size := cur.size, unnamed := cur.fd.unnamed, nextUntyped := st.index (cur.addr / 4) }
  { ptrs := { st.ptrs with ra := st.ptrs.ra ++ [{ parent := cur.parent, ty := cur.fd.ty }] },
    info := st.info ++ [info],
    index := fun b => if b = cur.addr / 4 then st.ptrs.ra.length else st.index b }

/-- src/mr_save.c:1012–1065 `mr_save_inner`: save the object at `data` described by `fd` below `parent`.
The result is the number of nodes, 0 on failure. -/
def saveInner (mem : Mem) (tds : List Td) : Nat → St → Nat → Fd → Nat → Nat → Option (St × Nat)
  | 0, _, _, _, _, _ => none
  | fuel + 1, st, data, fd, count, parent => do
    let cur : Cur := { addr := data, fd := fd, size := fd.size * count, parent := parent }
    let content := savePointerContent mem tds (saveInner mem tds fuel)
    let (st, resolved, matched) ← resolveMatched tds content st cur (st.ptrs.ra.length + 1) (st.index (data / 4))
    if resolved then some (st, matched)
    else
      let idx := st.ptrs.ra.length
      let st ← link (newNode st cur) parent idx
      let (st, added) ← handler mem tds (saveInner mem tds fuel) st idx data parent fd
      let pfd ← persistentFd tds st fd parent
      let st ← updInfo st idx fun n => { n with fd := pfd }
      some (st, added)

/-- is this a pointer whose content is to be saved, src/mr_save.c:1583–1586 -/
def hasContent (pd : Pd) (n : Info) : Bool :=
  pd.ty == .pointer && n.aux != .void && n.aux != .none && !n.null && !n.opq

/-- the loop over the nodes, src/mr_save.c:1582–1591; depth is the fuel of `mr_save_inner` -/
def saveContents (mem : Mem) (tds : List Td) (depth : Nat) : Nat → St → Nat → Option (St × Nat)
  | 0, _, _ => none
  | fuel + 1, st, i =>
    if i < st.ptrs.ra.length then do
      let pd ← st.ptrs.ra[i]?
      let n ← st.info[i]?
      if hasContent pd n then do
        let (st, added) ← savePointerContent mem tds (saveInner mem tds depth) st i
        if added = 0 then some (st, 0) else saveContents mem tds depth fuel st (i + 1)
      else saveContents mem tds depth fuel st (i + 1)
    else some (st, 1)

/-- the state before the first node, src/mr_save.c:1564–1577 -/
def start : St := { ptrs := { ra := [{}] }, info := [{}], index := fun _ => 0 }

/-- src/mr_save.c:1552–1591 `mr_save` up to the post-processing: the nodes of the object at `data` and of
everything that can be reached from it -/
def saveGraph (mem : Mem) (tds : List Td) (fuel : Nat) (data : Nat) (fd : Fd) : Option (St × Nat) := do
  let (st, added) ← saveInner mem tds fuel start data { fd with unnamed := true } 1 0
  if added = 0 then some (st, 0) else saveContents mem tds fuel fuel st 1

end Verif.Model.Save
