import Verif.Model.Types
/-!
# Copies of texts and the type of an object from the compiler's dump

Models src/metaresc.c `mr_strndup`, `mr_get_struct_type_name_extra` and `mr_get_struct_type_name`.  Texts are lists of bytes.
-/
namespace Verif.Model.ObjType
open Verif.Model.Types (skipKeywords)

/-- the loop src/metaresc.c:475: counts up to `size` bytes before a zero.  `none`: a byte behind the memory `mem` is read. -/
def count (mem : List Nat) (size : Nat) : Nat → Nat → Option Nat
  | 0, n => some n
  | fuel + 1, n => do
    if n < size then
      let c ← mem[n]?
      if c = 0 then some n else count mem size fuel (n + 1)
    else some n

/-- src/metaresc.c:469–485 `mr_strndup`; `mem` are the bytes from the address `str` on that can be read, `alloc` tells whether there is
memory.  `none` is undefined behaviour, `some none` the result NULL, `some (some b)` a new block with the bytes `b`. -/
def strndup (mem : List Nat) (size : Nat) (alloc : Bool) : Option (Option (List Nat)) := do
  let n ← count mem size (size + 1) 0
  if alloc then
    if n ≤ mem.length then some (some (mem.take n ++ [0])) else none
  else some none

/-- "%s" -/
def percentS : List Nat := [37, 115]

/-- "mr_dummy_struct_t" -/
def dummy : List Nat := [109, 114, 95, 100, 117, 109, 109, 121, 95, 115, 116, 114, 117, 99, 116, 95, 116]

/-- src/metaresc.c:92–129 `mr_get_struct_type_name_extra`: what `type_name` is when it jumps back.  `known` tells which names are in the
table of fields (`mr_get_any_fd_by_name`; types are there too, see `mr_register_type_pointer` src/metaresc.c:1236), `arg` is the next
argument if one was passed.  `none`: an argument that was not passed is read. -/
def typeName (known : List Nat → Bool) (fmt : List Nat) (arg : Option (List Nat)) : Option (Option (List Nat)) := do
  let fmt ← if fmt = percentS then arg else some fmt
  let fmt := skipKeywords fmt
  let found :=
    if known fmt then some fmt
    else if fmt.contains 32 then
      let name := fmt.takeWhile (· != 32)
      if known name then some name else none
    else none
  some (if found = some dummy then none else found)

/-- src/metaresc.c:131–135 `mr_get_struct_type_name`: its own arguments are not passed on -/
def typeNameThread (known : List Nat → Bool) (fmt : List Nat) (_arg : Option (List Nat)) : Option (Option (List Nat)) :=
  typeName known fmt none

end Verif.Model.ObjType
