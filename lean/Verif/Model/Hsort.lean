import Verif.Model.Mem
/-!
# `src/mr_hsort.c`

The element size is abstracted: `memcpy` of `size` bytes from `&array[i * size]` is reading
element `i`.  The comparator is an arbitrary function to `int` (modelled by `Int`); it is
called with the addresses of two elements and is assumed not to modify them.
`idx0`, `idx1`, `i` are `unsigned` in the C code, hence `u32`; `count` is `size_t`.
-/
namespace Verif.Model.Hsort
open Verif.Model

variable {α : Type}

/-- `src/mr_hsort.c:18-26`, the `for` loop of `sift`.
`count` is the index of the last element (the caller decremented it).
Returns the array, the hole `idx0` and `idx1` at loop exit (`break` or condition false).
`fuel` bounds the number of iterations; `none` is an out-of-bounds access or a loop that does not
stop within the bound. -/
def siftLoop (cmp : α → α → Int) (count : Nat) (x : α) :
    Nat → List α → Nat → Nat → Option (List α × Nat × Nat)
  | 0, _, _, _ => none
  | fuel + 1, a, idx0, idx1 =>
    if idx1 < count then do
      let l ← a[idx1]?
      let r ← a[u32 (idx1 + 1)]?
      let idx1' := if cmp l r ≤ 0 then u32 (idx1 + 1) else idx1
      let c ← a[idx1']?
      if cmp c x ≤ 0 then
        some (a, idx0, idx1')
      else do
        let a' ← wr a idx0 c
        siftLoop cmp count x fuel a' idx1' (u32 (2 * idx1' + 1))
    else
      some (a, idx0, idx1)

/-- `src/mr_hsort.c:11-34`, `sift`. -/
def sift (cmp : α → α → Int) (count : Nat) (a : List α) (idx0 : Nat) : Option (List α) := do
  let x ← a[idx0]?
  let (a, idx0, idx1) ← siftLoop cmp count x (count + 1) a idx0 (u32 (2 * idx0 + 1))
  if idx1 = count then do
    let c ← a[idx1]?
    if cmp c x > 0 then do
      let a ← wr a idx0 c
      wr a idx1 x
    else
      wr a idx0 x
  else
    wr a idx0 x

/-- `src/mr_hsort.c:44-45`: `for (i = count >> 1; i > 0; --i) sift (array, count, ..., i);` -/
def build (cmp : α → α → Int) (count : Nat) : Nat → List α → Option (List α)
  | 0, a => some a
  | i + 1, a => do
    let a ← sift cmp count a (i + 1)
    build cmp count i a

/-- `src/mr_hsort.c:47-55`: `for ( ; count > 0; --count) { sift (0); swap array[0], array[count]; }` -/
def extract (cmp : α → α → Int) : Nat → List α → Option (List α)
  | 0, a => some a
  | count + 1, a => do
    let a ← sift cmp (count + 1) a 0
    let last ← a[count + 1]?
    let first ← a[0]?
    let a ← wr a (count + 1) first
    let a ← wr a 0 last
    extract cmp count a

/-- `src/mr_hsort.c:36-56`, `mr_hsort` called with `count` = number of elements of the array. -/
def hsort (cmp : α → α → Int) (a : List α) : Option (List α) :=
  if a.length ≤ 1 then some a
  else do
    let count := a.length - 1
    let a ← build cmp count (u32 (count / 2)) a
    extract cmp count a

end Verif.Model.Hsort
