import Verif.Model.Mem
import Verif.Model.Hsort
/-!
# `src/mr_ic.c`: unsorted, sorted and static array collections

Keys (`mr_ptr_t`) are words; the comparator is a function to `int`.  A returned `mr_ptr_t *` is
represented by its index in the array.  The parameter `ok` of a function is the answer of the
allocator to `mr_rarray_allocate_element`; the real function does not ask the allocator while the
capacity suffices (that is `Verif.Model.Rarray`), so the model allows more failures than the code.
The virtual-function dispatch of `src/mr_ic.h:60-131` is the `match` in `Verif.Model.Ic`.
-/
namespace Verif.Model.Ic
open Verif.Model

abbrev Key := Nat
abbrev Cmp := Key → Key → Int

/-- `memmove (&a[dst], &a[src], n * sizeof (a[0]))`; `none`: outside the array. -/
def memmove (a : List Key) (dst src n : Nat) : Option (List Key) :=
  if dst + n ≤ a.length ∧ src + n ≤ a.length then
    some (a.take dst ++ (a.drop src).take n ++ a.drop (dst + n))
  else none

/-- `ic->rarray` and `ic->items_count`: the used elements of `rarray.ra` and the count. -/
structure Arr where
  ra : List Key
  itemsCount : Nat

/-- `src/mr_ic.c:157-165` `mr_ic_unsorted_array_find`, also the loop of
`mr_ic_static_array_find` (`src/mr_ic.c:751-759`): index of the first equal key. -/
def arrayFind (cmp : Cmp) (key : Key) : List Key → Nat → Option Nat
  | [], _ => none
  | r :: ra, i => if cmp key r = 0 then some i else arrayFind cmp key ra (i + 1)

/-- `src/mr_ic.c:254-263`: the `while` loop of `mr_ic_sorted_array_find_idx`. -/
def findIdxLoop {α : Type} (cmp : α → α → Int) (ra : List α) (key : α) : Nat → Nat → Nat → Int → Option (Int × Nat)
  | 0, _, _, _ => none
  | fuel + 1, down, up, diff =>
    if up ≠ down ∧ diff ≠ 0 then do
      let mid := u32 (down + up) / 2
      let r ← ra[mid]?
      let diff := cmp key r
      if diff ≤ 0 then findIdxLoop cmp ra key fuel down mid diff
      else findIdxLoop cmp ra key fuel (mid + 1) up diff
    else some (diff, up)

/-- `src/mr_ic.c:247-266` `mr_ic_sorted_array_find_idx`: last comparison and index. -/
def findIdx {α : Type} (cmp : α → α → Int) (ra : List α) (key : α) : Option (Int × Nat) :=
  findIdxLoop cmp ra key (ra.length + 1) 0 ra.length 1

/-- `src/mr_ic.c:268-285` `mr_ic_sorted_array_add`: new array and index behind the returned pointer
(`none` is NULL).  The new element is uninitialised (`junk`) until stored. -/
def sortedAdd (cmp : Cmp) (a : Arr) (key : Key) (ok : Bool) (junk : Key := 0) :
    Option (Arr × Option Nat) := do
  let (diff, idx) ← findIdx cmp a.ra key
  if diff = 0 then some (a, some idx)
  else if !ok then some (a, none)
  else do
    let ra := a.ra ++ [junk]
    let ra ← memmove ra (idx + 1) idx (ra.length - (idx + 1))
    let ra ← wr ra idx key
    some ({ ra := ra, itemsCount := ra.length }, some idx)

/-- `src/mr_ic.c:286-297` `mr_ic_sorted_array_del`: array and status. -/
def sortedDel (cmp : Cmp) (a : Arr) (key : Key) : Option (Arr × Bool) := do
  let (diff, idx) ← findIdx cmp a.ra key
  if diff ≠ 0 then some (a, false)
  else do
    let itemsCount := a.ra.length - 1
    let ra ← memmove a.ra idx (idx + 1) (itemsCount - idx)
    some ({ ra := ra.take itemsCount, itemsCount := itemsCount }, true)

/-- `src/mr_ic.c:299-305` `mr_ic_sorted_array_find` -/
def sortedFind (cmp : Cmp) (a : Arr) (key : Key) : Option (Option Nat) := do
  let (diff, idx) ← findIdx cmp a.ra key
  some (if diff = 0 then some idx else none)

/-- `src/mr_ic.c:313-327` `mr_sort_key_cmp` on two indices into the input array; `none` in the model
never occurs for indices inside the array, the comparator result is then 0. -/
def sortKeyCmp (cmp : Cmp) (rarray : List Key) (x y : Nat) : Int :=
  let diff := cmp (rarray.getD x 0) (rarray.getD y 0)
  if diff ≠ 0 then diff
  else (if x > y then 1 else 0) - (if x < y then 1 else 0)

/-- `src/mr_ic.c:357-369`: deduplication; the output prefix `ra[0 .. dst)` is accumulated. -/
def dedupLoop (cmp : Cmp) (rarray : List Key) : List Nat → Key → List Key → Option (List Key)
  | [], _, out => some out
  | s :: src, prev, out => do
    let next ← rarray[s]?
    dedupLoop cmp rarray src next (if cmp next prev ≠ 0 then out ++ [next] else out)

/-- `src/mr_ic.c:329-373` `mr_ic_sorted_array_index` on a fresh collection: array and status. -/
def sortedIndex (cmp : Cmp) (rarray : List Key) (ok : Bool) : Option (Arr × Bool) :=
  if rarray.length > 0 then
    if !ok then some ({ ra := [], itemsCount := 0 }, false)
    else do
      let idxs ← Hsort.hsort (sortKeyCmp cmp rarray) (List.range rarray.length)
      match idxs with
      | [] => none
      | i0 :: rest => do
        let prev ← rarray[i0]?
        let out ← dedupLoop cmp rarray rest prev [prev]
        some ({ ra := out, itemsCount := out.length }, true)
  else some ({ ra := [], itemsCount := 0 }, true)

/-- `static_array[3]` and `items_count` (`src/mr_protos.h` `mr_ic_static_array_t`) -/
structure Static where
  arr : List Key
  itemsCount : Nat

/-- number of elements of `static_array` -/
def staticSize : Nat := 3

/-- `src/mr_ic.c:751-759` `mr_ic_static_array_find` -/
def staticFind (cmp : Cmp) (s : Static) (key : Key) : Option Nat :=
  arrayFind cmp key (s.arr.take s.itemsCount) 0

/-- `src/mr_ic.c:736-749` `mr_ic_static_array_del`: array and status. -/
def staticDel (cmp : Cmp) (s : Static) (key : Key) : Option (Static × Bool) :=
  match staticFind cmp s key with
  | none => some (s, false)
  | some idx => do
    let n := s.itemsCount - 1
    let arr ← memmove s.arr idx (idx + 1) (n - idx)
    let arr ← wr arr n 0
    some ({ arr := arr, itemsCount := n }, true)

end Verif.Model.Ic
