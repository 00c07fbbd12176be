import Verif.Model.Save
/-!
# Post-processing of a saved graph, recursive free

Model of /repo/src/mr_save.c:1386–1497, 1591–1592 (`resolve_void_ptr_and_strings`, `mr_post_process`) and of
/repo/src/mr_extra.c:8–47 (`mr_free_recursively`).
-/
namespace Verif.Model.Save
open Verif.Model Verif.Model.Ptrs

/-- the loop over the bucket, src/mr_save.c:1420–1428: the largest node with the address `addr`; `best` is the
one found so far, 0 if there is none -/
def bestMatch (st : St) (addr : Nat) : Nat → Nat → Nat → Option Nat
  | 0, _, _ => none
  | fuel + 1, node, best =>
    if node = 0 then some best
    else do
      let x ← st.info[node]?
      if x.addr = addr then
        if best = 0 then bestMatch st addr fuel x.nextUntyped node
        else
          let b ← st.info[best]?
          bestMatch st addr fuel x.nextUntyped (if x.size > b.size then node else best)
      else bestMatch st addr fuel x.nextUntyped best

/-- `void *` that is not NULL, src/mr_save.c:1397–1434.  The temporary node for the search (lines 1401–1411) is
not modelled, the look-up of its address is. -/
def resolveVoid (mem : Mem) (st : St) (idx : Nat) (x : Info) : Option St := do
  let st ← updInfo st idx fun n => { n with null := true }
  let best ← bestMatch st (mem.ptr x.addr) (st.ptrs.ra.length + 1) (st.index (mem.ptr x.addr / 4)) 0
  if best = 0 then some st else setReference st idx best

/-- an element of an array of character arrays: the size was that of the rest of the array,
src/mr_save.c:1441–1447 -/
def charSize (st : St) (idx : Nat) (pd : Pd) : Option St :=
  if pd.parent = 0 then some st
  else do
    let p ← st.ptrs.ra[pd.parent]?
    if (p.ty = .array ∨ p.ty = .pointer) ∧ pd.next ≠ 0 then do
      let y ← st.info[pd.next]?
      updInfo st idx fun n => { n with size := n.size - y.size }
    else some st

/-- the switch over the type of the node, src/mr_save.c:1395–1450 -/
def resolveByType (mem : Mem) (st : St) (idx : Nat) : Option St := do
  let pd ← st.ptrs.ra[idx]?
  let x ← st.info[idx]?
  match pd.ty with
  | .pointer => if (x.aux = .none ∨ x.aux = .void) ∧ x.null = false then resolveVoid mem st idx x else some st
  | .string => if (pd.ref || pd.cref) = false then updPd st idx fun p => { p with firstChild := 0 } else some st
  | .charArray => charSize st idx pd
  | _ => some st

/-- a reference to the text of a string becomes a reference to the string, src/mr_save.c:1456–1470 -/
def redirect (st : St) (idx : Nat) : Option St := do
  let pd ← st.ptrs.ra[idx]?
  if pd.ref = true then do
    let r ← st.ptrs.ra[pd.firstChild]?
    if r.parent = 0 then some st
    else
      let p ← st.ptrs.ra[r.parent]?
      if p.ty = .string then do
        let st ← updPd st idx fun q => { q with firstChild := r.parent, ref := false, cref := true }
        updPd st r.parent fun q => { q with refd := true }
      else some st
  else some st

/-- src/mr_save.c:1386–1473 `resolve_void_ptr_and_strings` -/
def resolveVoidAndStrings (mem : Mem) (st : St) (idx : Nat) : Option St := do
  redirect (← resolveByType mem st idx) idx

/-- the loop src/mr_save.c:1485–1486, `n` nodes to go -/
def postLoop (mem : Mem) : Nat → St → Nat → Option St
  | 0, st, _ => some st
  | n + 1, st, i => do
    let st ← resolveVoidAndStrings mem st i
    postLoop mem n st (i + 1)

/-- src/mr_save.c:1481–1489 `mr_post_process` -/
def postProcess (mem : Mem) (st : St) : Option St := do
  let st ← postLoop mem (st.ptrs.ra.length - 1) st 1
  let (_, ra, _) ← dfs renumberNode 1 (st.ptrs.ra, 1)
  some { st with ptrs := { st.ptrs with ra := ra } }

/-- src/mr_save.c:1552–1611 `mr_save`; the number 0 is the failure (`ptrs.ra` is NULL) -/
def mrSave (mem : Mem) (tds : List Td) (fuel data : Nat) (fd : Fd) : Option (St × Nat) := do
  let (st, added) ← saveGraph mem tds fuel data fd
  if added = 0 then some (st, 0)
  else
    let st ← postProcess mem st
    some (st, added)

/-! ### `MR_FREE_RECURSIVELY` -/

/-- the condition src/mr_extra.c:29–30 -/
def owns (pd : Pd) (x : Info) : Bool :=
  pd.idx != 0 && !(x.null || pd.ref || pd.cref) && (pd.ty == .pointer || pd.ty == .string)

/-- the first loop of `mr_free_recursively`, src/mr_extra.c:23–40: the values of `res.data.ptr`, 0 is NULL -/
def collect (mem : Mem) : List Pd → List Info → List Nat
  | pd :: pds, x :: xs => (if owns pd x && x.addr != 0 then mem.ptr x.addr else 0) :: collect mem pds xs
  | _, _ => []

/-- `free` of the blocks one after the other; `live` are the addresses of the allocated blocks; freeing anything
else is undefined -/
def freeBlocks : List Nat → List Nat → Option (List Nat)
  | [], live => some live
  | a :: as, live =>
    if a = 0 then freeBlocks as live
    else if a ∈ live then freeBlocks as (live.erase a)
    else none

/-- does the first loop meet an owner at the address NULL, src/mr_extra.c:32–36 -/
def nullOwner : List Pd → List Info → Bool
  | pd :: pds, x :: xs => (owns pd x && x.addr == 0) || nullOwner pds xs
  | _, _ => false

/-- src/mr_extra.c:8–47 `mr_free_recursively`: the status and the allocated blocks that are left -/
def freeRecursively (mem : Mem) (st : St) (live : List Nat) : Option (Bool × List Nat) := do
  let left ← freeBlocks (collect mem (st.ptrs.ra.drop 1) (st.info.drop 1)) live
  some (!nullOwner (st.ptrs.ra.drop 1) (st.info.drop 1), left)

end Verif.Model.Save
