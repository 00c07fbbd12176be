import Verif.Model.IcArray
/-!
# Size fields of resizable arrays

A pointer (or an array) of a structure may name another field of that structure that holds its size
in bytes.  This file models how the field is found, how it is read when the pointer or the array is
saved, and how it is written when the pointer is loaded.

Memory is a total function from addresses to bytes; integers are little endian and the address zero is
NULL.  Left out: size fields that are bit-fields, the warning messages, the rest of the nodes.
-/
namespace Verif.Model.SizeField
open Verif.Model Verif.Model.Ic

/-- `src/mr_protos.h:91-126` `mr_type_t`: the types that matter here.  `int s w` is the integer type of
`w` bytes, signed when `s`; `char` is `int true 1`.  All other types are `other`. -/
inductive Ty
  | void | enum | pointer | struct | bool | other
  | int (signed : Bool) (w : Nat)
  deriving DecidableEq, Repr

abbrev Mem := Nat → Nat

/-- Reading `w` bytes: `*(TYPE*)src_data` in `src/mr_save.c:867`, before the conversion to the type. -/
def load (M : Mem) : Nat → Nat → Nat
  | 0, _ => 0
  | w + 1, a => M a % 256 + 256 * load M w (a + 1)

/-- Writing `w` bytes: `*(TYPE*)dst_data = value` in `src/mr_save.c:907`; the upper bytes of the value
are lost. -/
def store (M : Mem) (w a v : Nat) : Mem :=
  fun x => if a ≤ x ∧ x < a + w then v / 256 ^ (x - a) % 256 else M x

/-- The part of `mr_ptrdes_t` that `mr_assign_int` reads.  `eff` is
`fdp->stype.tdp->param.enum_param.mr_type_effective` when `fdp->stype.tdp` is an enumeration. -/
structure Place where
  ty : Ty
  aux : Ty := .void
  eff : Option Ty := none
  addr : Nat
  deriving Repr

/-- `src/mr_save.c:867`, conversion of an integer of `w` bytes to `mr_uintmax_t` (128 bits). -/
def widen (signed : Bool) (w raw : Nat) : Nat :=
  if signed ∧ 2 ^ (8 * w - 1) ≤ raw then 2 ^ 128 - (2 ^ (8 * w) - raw) else raw

/-- `src/mr_save.c:850-889`: the value that is copied. -/
def getValue (M : Mem) (src : Place) (data : Nat) : Nat :=
  let t := if src.ty = .void ∨ src.ty = .pointer then src.aux else src.ty
  match t with
  | .void | .enum =>
    match src.eff with
    | some (.int s w) => widen s w (load M w data)
    | _ => 0
  | .bool => load M 1 data
  | .int s w => widen s w (load M w data)
  | _ => 0

/-- `src/mr_save.c:891-925`: the copy. -/
def setValue (M : Mem) (dst : Place) (data value : Nat) : Mem :=
  let t := if dst.ty = .void ∨ dst.ty = .pointer then dst.aux else dst.ty
  match t with
  | .void | .enum =>
    match dst.eff with
    | some (.int _ w) => store M w data value
    | _ => M
  | .bool => store M 1 data (if value = 0 then 0 else 1)
  | .int _ w => store M w data value
  | _ => M

/-- `src/mr_save.c:830-926` `mr_assign_int`. -/
def assignInt (M : Mem) (dst src : Place) : Mem :=
  let srcData := if src.ty = .pointer then load M 8 src.addr else src.addr
  if srcData = 0 then M
  else
    let dstData := if dst.ty = .pointer then load M 8 dst.addr else dst.addr
    if dstData = 0 then M
    else setValue M dst dstData (getValue M src srcData)

/-- The part of a field descriptor (`mr_fd_t`, `src/mr_protos.h:358-395`) that matters. -/
structure Fd where
  name : String
  offset : Nat
  ty : Ty
  aux : Ty := .void
  eff : Option Ty := none
  deriving DecidableEq, Repr

/-- `src/metaresc.c:763-769` `mr_fd_offset_cmp`. -/
def offsetCmp (x y : Fd) : Int :=
  (if x.offset > y.offset then 1 else 0) - (if x.offset < y.offset then 1 else 0)

/-- `src/mr_save.c:947-949`: the loop to the last field with the offset. -/
def skipLoop (fields : List Fd) (offset : Nat) : Nat → Nat → Option Nat
  | 0, _ => none
  | fuel + 1, idx =>
    match fields[idx + 1]? with
    | some f => if f.offset = offset then skipLoop fields offset fuel (idx + 1) else some idx
    | none => some idx

/-- `src/mr_save.c:932-951` `mr_get_fd_by_offset`.  The outer `none` is an access outside of the array. -/
def fdByOffset (fields : List Fd) (offset : Nat) : Option (Option Fd) := do
  let (diff, idx) ← findIdx offsetCmp fields { name := "", offset := offset, ty := .other }
  if diff ≠ 0 then some none
  else do
    let idx ← skipLoop fields offset (fields.length + 1) idx
    let f ← fields[idx]?
    some (some f)

/-- `src/metaresc.c:1656-1667` `mr_get_fd_by_name`; the hash index is left out: the names of the fields
of one structure are distinct. -/
def fdByName (fields : List Fd) (name : String) : Option Fd :=
  fields.find? (fun f => f.name == name)

/-- A node of the graph (`mr_ptrdes_t`, `src/mr_protos.h:572-590`).  `resType`, `resString` and `resOffset`
are `fdp->res_type`, `fdp->res.string` and `fdp->res.offset`; `fields` are the fields of
`fdp->stype.tdp`, `none` when one of the two is NULL. -/
structure Node where
  ty : Ty
  parent : Option Nat
  data : Nat
  fields : Option (List Fd)
  resType : Option String := none
  resString : String := ""
  resOffset : Nat := 0

/-- `src/mr_save.c:976-978`: up to the first structure; the outer `none` is an access outside of the
array or an endless loop. -/
def upLoop (ra : List Node) : Nat → Option Nat → Option (Option Nat)
  | 0, _ => none
  | _ + 1, none => some none
  | fuel + 1, some p => do
    let n ← ra[p]?
    if n.ty = .struct then some (some p) else upLoop ra fuel n.parent

/-- `src/mr_save.c:957`: the descriptor when no size field is found. -/
def noPlace : Place := { ty := .other, aux := .other, addr := 0 }

/-- `src/mr_save.c:990-994`: the lookup of the size field in the structure. -/
def findSizeFd (fields : List Fd) (name : String) (offset : Nat) : Option (Option Fd) :=
  if name = "" then fdByOffset fields offset else some (fdByName fields name)

/-- `src/mr_save.c:953-1003` `mr_pointer_get_size_ptrdes`.  `known s` says that some field of some type has
the name `s` (`mr_get_any_fd_by_name`). -/
def getSizePtrdes (known : String → Bool) (ra : List Node) (idx : Nat) : Option Place := do
  let n ← ra[idx]?
  let name :=
    match n.resType with
    | some t => if t = "offset" then some "" else if t = "string" then if known n.resString then some n.resString else none else none
    | none => none
  match name with
  | none => some noPlace
  | some name => do
    match ← upLoop ra (ra.length + 1) n.parent with
    | none => some noPlace
    | some p => do
      let pn ← ra[p]?
      match pn.fields with
      | none => some noPlace
      | some fields => do
        let fd ← findSizeFd fields name n.resOffset
        match fd with
        | none => some noPlace
        | some f => some { ty := f.ty, aux := f.aux, eff := f.eff, addr := pn.data + f.offset }

/-- `src/mr_load.c:676-689` `mr_pointer_set_size` after `src/mr_load.c:764`: `cell` is the address of the
`MR_SIZE` of the node (`mr_size_t`, 32 bits). -/
def setSize (known : String → Bool) (ra : List Node) (cell : Nat) (M : Mem) (idx count elem : Nat) : Option Mem := do
  let M := store M 4 cell (count * elem)
  let dst ← getSizePtrdes known ra idx
  if dst.addr ≠ 0 then some (assignInt M dst { ty := .int false 4, addr := cell })
  else some M

/-- `src/mr_save.c:1517-1529`: the size in bytes of what a pointer points to, when it is saved. -/
def pointerSize (known : String → Bool) (ra : List Node) (cell : Nat) (M : Mem) (idx elem : Nat) : Option Nat := do
  let M := store M 4 cell elem
  let src ← getSizePtrdes known ra idx
  if src.addr ≠ 0 then some (load (assignInt M { ty := .int false 4, addr := cell } src) 4 cell)
  else some (load M 4 cell)

/-- `src/mr_save.c:1540-1542` and `src/mr_save.c:666`: how many elements are saved behind a pointer that
is not NULL and not opaque data; no elements is `MR_IS_NULL`. -/
def pointerCount (known : String → Bool) (ra : List Node) (cell : Nat) (M : Mem) (idx elem : Nat) : Option Nat := do
  let size ← pointerSize known ra cell M idx elem
  if elem = 0 ∨ size < elem then some 0 else some (size / elem)

/-- `src/mr_save.c:1195-1212`: how many of the `count` elements of an array are saved.  `loc` is the
address of the local variable `size` (`ssize_t`), which is not initialised. -/
def arrayCount (known : String → Bool) (ra : List Node) (loc : Nat) (M : Mem) (idx count elem : Nat) : Option Nat := do
  let src ← getSizePtrdes known ra idx
  if src.addr ≠ 0 then
    let M := assignInt M { ty := .int true 8, addr := loc } src
    let raw := load M 8 loc
    -- `size <= 0`
    if raw = 0 ∨ 2 ^ 63 ≤ raw then some 0
    -- division by zero
    else if elem = 0 then none
    else
      let c := u32 (raw / elem)
      if count > c then some c else some count
  else some count

end Verif.Model.SizeField
