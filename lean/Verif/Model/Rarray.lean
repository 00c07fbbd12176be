import Verif.Model.Mem
/-!
# Resizable arrays

`src/metaresc.c:568-609` and the text appenders `src/mr_stringify.c:337-379`, `src/mr_message.c:145-183`.
A pointer returned by the code is represented by its offset in the (possibly moved) block.
`ssize_t` is a 64-bit signed integer.
-/
namespace Verif.Model.Rarray
open Verif.Model

/-- `mr_rarray_t` (`src/metaresc.h`): `data` is NULL (`none`) or a heap block given by its bytes;
`size` and `alloc` are `MR_SIZE` and `alloc_size`. -/
structure Rarray where
  data : Option (List Nat)
  size : Int
  alloc : Int
deriving DecidableEq

/-- Answer of the allocator to one `MR_REALLOC` call: `none` is failure, `some junk` success with
`junk` being the contents of the bytes that were not in the old block. -/
abbrev Answer := Option (Nat → Nat)

/-- contents of the block returned by a successful `realloc (old, n)` -/
def realloc (old : Option (List Nat)) (n : Nat) (junk : Nat → Nat) : List Nat :=
  (List.range n).map fun i => ((old.getD [])[i]?).getD (junk i)

/-- two's complement wrap-around to 64 bits, used for `new_size * 2`, whose overflow the code tests
after the fact (`src/metaresc.c:586-587`) -/
def wrap64 (x : Int) : Int := (x + 2 ^ 63) % 2 ^ 64 - 2 ^ 63

/-- `src/metaresc.c:574-603` `mr_rarray_allocate_element` with non-NULL arguments.
Outer `none`: signed overflow of `_size + element_size` (undefined behaviour).
The returned pointer is NULL (`none`) or an offset in the block. -/
def allocateElement (ra : Rarray) (elementSize : Int) (ans : Answer) : Option (Rarray × Option Nat) :=
  if ra.size < 0 ∨ elementSize < 0 then some (ra, none)
  else if ra.size + elementSize ≥ 2 ^ 63 then none
  else
    let newSize := ra.size + elementSize
    if newSize > ra.alloc then
      let r := wrap64 (newSize * 2)
      let r := if r < newSize then newSize else r
      match ans with
      | none => some (ra, none)
      | some junk =>
        some ({ data := some (realloc ra.data r.toNat junk), size := newSize, alloc := r },
          some ra.size.toNat)
    else
      -- `&_data[_size]`, which is NULL if `_data` is NULL (then `_size` is 0)
      some ({ ra with size := newSize }, if ra.data.isNone then none else some ra.size.toNat)

/-- store bytes at consecutive offsets; `none`: outside the block -/
def store : List Nat → Nat → List Nat → Option (List Nat)
  | block, _, [] => some block
  | block, off, b :: bs => do
    let block ← wr block off b
    store block (off + 1) bs

/-- What every caller of `mr_rarray_append (ra, n)` (`src/metaresc.c:605-609`) does: test for NULL
and fill the zone with its `n` bytes. -/
def append (ra : Rarray) (bytes : List Nat) (ans : Answer) : Option (Rarray × Bool) := do
  let (ra, ptr) ← allocateElement ra bytes.length ans
  match ptr with
  | none => some (ra, false)
  | some off => do
    let block ← store (ra.data.getD []) off bytes
    some ({ ra with data := some block }, true)

/-- the label `free_mr_ra` (`src/mr_stringify.c:351-356,373-378`, `src/mr_message.c:176-182`) -/
def freed : Rarray := { data := none, size := 0, alloc := 0 }

/-- `src/mr_stringify.c:337-357` `mr_ra_append_char`; returns the `int` result. -/
def appendChar (ra : Rarray) (c : Nat) (ans : Answer) : Option (Rarray × Int) :=
  if ra.size = 0 ∨ ra.data.isNone then some (freed, -1)
  else do
    let (ra, tail) ← allocateElement ra 1 ans
    match tail with
    | none => some (freed, -1)
    | some tail =>
      if tail = 0 then none
      else do
        let block ← wr (ra.data.getD []) (tail - 1) c
        let block ← wr block tail 0
        some ({ ra with data := some block }, 1)

/-- `src/mr_stringify.c:359-379` `mr_ra_append_string` and `src/mr_message.c:145-183` `mr_ra_printf`,
where `str` is the formatted text (NUL-free); `strcpy`/`vsnprintf` store it with its terminator at
`tail - 1`.  `int length = strlen (str)`: longer strings are outside the model (`none`). -/
def appendString (ra : Rarray) (str : List Nat) (ans : Answer) : Option (Rarray × Int) :=
  if ra.size = 0 ∨ ra.data.isNone then some (freed, -1)
  else if str.length ≥ 2 ^ 31 then none
  else do
    let (ra, tail) ← allocateElement ra str.length ans
    match tail with
    | none => some (freed, -1)
    | some tail =>
      if tail = 0 then none
      else do
        let block ← store (ra.data.getD []) (tail - 1) (str ++ [0])
        some ({ ra with data := some block }, str.length)

end Verif.Model.Rarray
