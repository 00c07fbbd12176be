import Verif.Model.SavePost
/-!
# Deep copy: `mr_copy_recursively`

Model of /repo/src/mr_extra.c:49–196 on top of the result of `mr_save`.  Memory consists of bytes; a pointer is
stored in eight bytes, the lowest first.  `live` are the blocks (address, size) that may be accessed; every
access by the code outside of them is undefined (`none`).  The allocator is an arbitrary function: given the
blocks in use and a size it returns an address, 0 if there is no memory.  Sizes are natural numbers, they do not
wrap around (`mr_strdup` keeps the length in an `int`).
-/
namespace Verif.Model.Copy
open Verif.Model Verif.Model.Ptrs Verif.Model.Save

abbrev Bytes := Nat → UInt8
abbrev Blocks := List (Nat × Nat)

/-- the number in the `n` bytes at an address, the lowest byte first -/
def number (m : Bytes) (a : Nat) : Nat → Nat
  | 0 => 0
  | n + 1 => (m a).toNat + 256 * number m (a + 1) n

/-- `*(void **)a` -/
def word (m : Bytes) (a : Nat) : Nat := number m a 8

/-- `*(void **)a = v` -/
def setWord (m : Bytes) (a v : Nat) : Bytes := fun b =>
  if a ≤ b ∧ b < a + 8 then UInt8.ofNat (v / 256 ^ (b - a)) else m b

/-- are the `n` bytes at `a` in one of the blocks -/
def covered (live : Blocks) (a n : Nat) : Bool := live.any fun b => decide (b.1 ≤ a ∧ a + n ≤ b.1 + b.2)

/-- `memcpy`: the ranges must be accessible and must not overlap -/
def memcpy (live : Blocks) (m : Bytes) (dst src n : Nat) : Option Bytes :=
  if covered live dst n && covered live src n && decide (dst + n ≤ src ∨ src + n ≤ dst) then
    some fun b => if dst ≤ b ∧ b < dst + n then m (src + (b - dst)) else m b
  else none

/-- `strlen` -/
def strlen (live : Blocks) (m : Bytes) : Nat → Nat → Option Nat
  | 0, _ => none
  | fuel + 1, a =>
    if covered live a 1 = false then none
    else if m a = 0 then some 0
    else do some ((← strlen live m fuel (a + 1)) + 1)

/-- the state of the copy: memory, blocks, and for every node `res.data.ptr` and `res.type` -/
structure CSt where
  m : Bytes
  live : Blocks
  res : Nat → Nat
  txt : Nat → Nat

def setAt (f : Nat → Nat) (i v : Nat) : Nat → Nat := fun j => if j = i then v else f j

/-- src/metaresc.c:487–499 `mr_strdup`; the address 0 is the failure -/
def strdup (alloc : Blocks → Nat → Nat) (fuel : Nat) (s : CSt) (str : Nat) : Option (Nat × CSt) := do
  let n ← strlen s.live s.m fuel str
  let a := alloc s.live (n + 1)
  if a = 0 then some (0, s)
  else
    let live := s.live ++ [(a, n + 1)]
    some (a, { s with m := ← memcpy live s.m a str (n + 1), live := live })

/-- read a pointer -/
def load (s : CSt) (a : Nat) : Option Nat := if covered s.live a 8 then some (word s.m a) else none

/-- the loop src/mr_extra.c:142–143 over the children of a pointer: `base` is the value of the pointer -/
def placeChildren (st : St) (copy base : Nat) : Nat → (Nat → Nat) → Nat → Option (Nat → Nat)
  | 0, _, _ => none
  | fuel + 1, res, idx =>
    if idx = 0 then some res
    else do
      let pd ← st.ptrs.ra[idx]?
      let x ← st.info[idx]?
      if base ≤ x.addr then placeChildren st copy base fuel (setAt res idx (copy + (x.addr - base))) pd.next else none

/-- `case MR_TYPE_STRING`, src/mr_extra.c:103–110; the flag is false if the copy fails -/
def copyString (alloc : Blocks → Nat → Nat) (fuel : Nat) (s : CSt) (i : Nat) (x : Info) : Option (Bool × CSt) := do
  let v ← load s x.addr
  if v = 0 then some (true, s)
  else
    let (a, s) ← strdup alloc fuel s v
    some (a != 0, { s with txt := setAt s.txt i a })

/-- `case MR_TYPE_POINTER`, src/mr_extra.c:112–145 -/
def copyPointer (alloc : Blocks → Nat → Nat) (st : St) (s : CSt) (pd : Pd) (x : Info) : Option (Bool × CSt) :=
  if pd.firstChild = 0 then some (false, s)
  else
    let copy := alloc s.live x.size
    if copy = 0 then some (false, s)
    else do
      let live := s.live ++ [(copy, x.size)]
      let v ← load s x.addr
      let m ← memcpy live s.m copy v x.size
      let res ← placeChildren st copy v (st.ptrs.ra.length + 1) s.res pd.firstChild
      some (true, { s with m := m, live := live, res := res })

/-- one pass of the loop src/mr_extra.c:95–149: nodes of the tree that are not NULL and no references -/
def copyNode (alloc : Blocks → Nat → Nat) (fuel : Nat) (st : St) (s : CSt) (i : Nat) : Option (Bool × CSt) := do
  let pd ← st.ptrs.ra[i]?
  let x ← st.info[i]?
  if pd.idx ≠ 0 ∧ (x.null || pd.ref || pd.cref) = false then
    match pd.ty with
    | .string => copyString alloc fuel s i x
    | .pointer => copyPointer alloc st s pd x
    | _ => some (true, s)
  else some (true, s)

/-- the loop src/mr_extra.c:95–149, `n` nodes to go -/
def copyLoop (alloc : Blocks → Nat → Nat) (fuel : Nat) (st : St) : Nat → CSt → Nat → Option (Bool × CSt)
  | 0, s, _ => some (true, s)
  | n + 1, s, i => do
    let (ok, s) ← copyNode alloc fuel st s i
    if ok = false then some (false, s) else copyLoop alloc fuel st n s (i + 1)

/-- src/mr_extra.c:49–64 `calc_relative_addr`; the difference of addresses must not be negative -/
def calcRelativeAddr (info : List Info) : Visitor (Nat → Nat) := fun s i _ order =>
  match order with
  | .post => some (true, s)
  | .pre =>
    if s.2 i ≠ 0 then some (true, s)
    else do
      let pd ← s.1[i]?
      let x ← info[i]?
      let p ← info[pd.parent]?
      if p.addr ≤ x.addr then some (true, (s.1, setAt s.2 i (s.2 pd.parent + (x.addr - p.addr)))) else none

/-- write a pointer -/
def store (s : CSt) (a v : Nat) : Option CSt := if covered s.live a 8 then some { s with m := setWord s.m a v } else none

/-- one pass of the loop src/mr_extra.c:155–179: update a pointer in the copy -/
def relink (st : St) (s : CSt) (i : Nat) : Option CSt := do
  let pd ← st.ptrs.ra[i]?
  let x ← st.info[i]?
  if pd.idx = 0 then some s
  else
    match pd.ty with
    | .string =>
      if x.null then some s
      else if pd.ref then do
        let _ ← st.ptrs.ra[pd.firstChild]?
        store s (s.res i) (s.res pd.firstChild)
      else if pd.cref then do
        let _ ← st.ptrs.ra[pd.firstChild]?
        store s (s.res i) (s.txt pd.firstChild)
      else store s (s.res i) (s.txt i)
    | .pointer =>
      if pd.firstChild = 0 then some s
      else do
        let _ ← st.ptrs.ra[pd.firstChild]?
        store s (s.res i) (s.res pd.firstChild)
    | _ => some s

/-- the loop src/mr_extra.c:155–179, `n` nodes to go -/
def relinkLoop (st : St) : Nat → CSt → Nat → Option CSt
  | 0, s, _ => some s
  | n + 1, s, i => do relinkLoop st n (← relink st s i) (i + 1)

/-- `free`: undefined for anything but the start of a block -/
def freeBlock (live : Blocks) (a : Nat) : Option Blocks :=
  if live.any (fun b => b.1 == a) then some (live.eraseP fun b => b.1 == a) else none

/-- one pass of the loop after a failure, src/mr_extra.c:184–193 -/
def undo (st : St) (s : CSt) (i : Nat) : Option CSt := do
  let pd ← st.ptrs.ra[i]?
  if pd.ty = .string ∧ s.txt i ≠ 0 then do some { s with live := ← freeBlock s.live (s.txt i) }
  else if pd.ty = .pointer ∧ pd.firstChild ≠ 0 then
    if s.res pd.firstChild ≠ 0 then do
      some { s with live := ← freeBlock s.live (s.res pd.firstChild), res := setAt s.res pd.firstChild 0 }
    else some s
  else some s

def undoLoop (st : St) : Nat → CSt → Nat → Option CSt
  | 0, s, _ => some s
  | n + 1, s, i => do undoLoop st n (← undo st s i) (i + 1)

/-- src/mr_extra.c:66–196 `mr_copy_recursively`: the status, the memory and the blocks afterwards -/
def copyRecursively (alloc : Blocks → Nat → Nat) (fuel : Nat) (m : Bytes) (live : Blocks) (st : St) (dst : Nat) :
    Option (Bool × Bytes × Blocks) :=
  if dst = 0 then some (false, m, live)
  else do
    let x ← st.info[1]?
    let m ← memcpy live m dst x.addr x.size
    let (ok, s) ← copyLoop alloc fuel st (st.ptrs.ra.length - 2) { m := m, live := live, res := setAt (fun _ => 0) 1 dst, txt := fun _ => 0 } 2
    if ok = false then do
      let s ← undoLoop st (st.ptrs.ra.length - 2) s 2
      some (false, s.m, s.live)
    else
      let (_, _, res) ← dfs (calcRelativeAddr st.info) 1 (st.ptrs.ra, s.res)
      let s ← relinkLoop st (st.ptrs.ra.length - 2) { s with res := res } 2
      some (true, s.m, s.live)

end Verif.Model.Copy
