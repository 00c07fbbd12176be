import Verif.Model.Mem
/-!
# XDR streams over a memory buffer

`src/xdr.c:25-145` (stream), `src/xdr.c:365-660`, `src/xdr.c:762-818` (scalars and strings).
The generic filters `xdr_int`, `xdr_int16_t`, `xdr_uint16_t`, `xdr_int32_t`, `xdr_uint32_t`,
`xdr_float`, `xdr_double`, `xdr_opaque` are those of the C library (RFC 4506): one big-endian 32-bit
word per number of up to 32 bits, the more significant word of a double first, opaque data
zero-padded to a multiple of four bytes.

Encoding: a function returns the bytes it appends.  An append that runs out of memory makes the
function return FALSE with a prefix of these bytes in the buffer (`mr_rarray_append` is C11); this
case is not represented.

Decoding: `buf` is the whole document, `pos` the field `x_handy` (32 bits).  Outer `none` is undefined
behaviour (a read outside the document or a write outside the destination), inner `none` is FALSE.
-/
namespace Verif.Model.Xdr
open Verif.Model

abbrev Dec (α : Type) := Option (Option (α × Nat))

/-- sequencing of two decoding steps: FALSE and undefined behaviour stop -/
def Dec.andThen {α β : Type} (x : Dec α) (f : α → Nat → Dec β) : Dec β :=
  match x with
  | none => none
  | some none => some none
  | some (some (a, pos)) => f a pos

/-- `memcpy` from `buf[pos .. pos + len)` -/
def slice (buf : List Nat) (pos len : Nat) : Option (List Nat) :=
  if pos + len ≤ buf.length then some ((buf.drop pos).take len) else none

/-- `htonl` applied to a word, as bytes in memory -/
def be32 (w : Nat) : List Nat := [w / 16777216 % 256, w / 65536 % 256, w / 256 % 256, w % 256]

/-- `ntohl` of four bytes in memory -/
def ofBe32 : List Nat → Nat
  | [a, b, c, d] => a * 16777216 + b * 65536 + c * 256 + d
  | _ => 0

/-- `src/xdr.c:31-46` `xdrra_getlong`: the comparison is made in `size_t` -/
def getLong (buf : List Nat) (pos : Nat) : Dec Nat :=
  if ((buf.length : Int) - pos) % 2 ^ 64 < 4 then some none
  else (slice buf pos 4).bind fun b => some (some (ofBe32 b, u32 (pos + 4)))

/-- `src/xdr.c:75-90` `xdrra_getbytes`: the comparison is made in `ssize_t` -/
def getBytes (buf : List Nat) (pos len : Nat) : Dec (List Nat) :=
  if (buf.length : Int) - pos < len then some none
  else (slice buf pos len).bind fun b => some (some (b, u32 (pos + len)))

/-- `xdr_opaque` (C library), encoding -/
def putOpaque (bytes : List Nat) : List Nat :=
  bytes ++ List.replicate ((4 - bytes.length % 4) % 4) 0

/-- `xdr_opaque` (C library), decoding of `len` bytes -/
def getOpaque (buf : List Nat) (pos len : Nat) : Dec (List Nat) :=
  if len = 0 then some (some ([], pos))
  else
    (getBytes buf pos len).andThen fun b pos =>
      if len % 4 = 0 then some (some (b, pos))
      else (getBytes buf pos (4 - len % 4)).andThen fun _ pos => some (some (b, pos))

/-- scalars by the way they are encoded -/
inductive Sc where
  /-- `xdr_int8_t` (`src/xdr.c:364-381`): `int8_t`, `uint8_t`, `char`, `bool` -/
  | w8
  /-- `int16_t` -/
  | i16
  /-- `uint16_t` -/
  | u16
  /-- `int32_t`, `uint32_t`, `float` -/
  | w32
  /-- `xdr_int64_t` (`src/xdr.c:383-414`): `int64_t`, `uint64_t`, pointers to functions; `double` -/
  | w64
  /-- `_xdr_uint128_t` (`src/xdr.c:449-455`): `mr_int128_t`, `mr_uint128_t` -/
  | w128
  /-- `xdr_long_double` (`src/xdr.c:518-522`): `n = MR_SIZEOF_LONG_DOUBLE` bytes as they are -/
  | raw (n : Nat)
  /-- `XDR_COMPLEX` (`src/xdr.c:470-494`): real then imaginary part; `size` is the size of one part
  in memory -/
  | complex (part : Sc) (size : Nat)
deriving DecidableEq, Repr

/-- the number of bytes of memory an operation reads or writes -/
def Sc.size : Sc → Nat
  | .w8 => 1
  | .i16 | .u16 => 2
  | .w32 => 4
  | .w64 => 8
  | .w128 => 16
  | .raw n => n
  | .complex p n => n + p.size

/-- sign extension of an `n`-bit number to 32 bits -/
def sext32 (n x : Nat) : Nat := if x ≥ 2 ^ (n - 1) then x + 2 ^ 32 - 2 ^ n else x

/-- `src/xdr.c:389-394`: high word, then low word -/
def enc64 (mem : List Nat) : Option (List Nat) := do
  let v ← readLE 8 mem
  let hi := v / 2 ^ 32
  let low := v % 2 ^ 32
  some (be32 hi ++ be32 low)

/-- `src/xdr.c:396-402` -/
def dec64 (buf : List Nat) (pos : Nat) (mem : List Nat) : Dec (List Nat) :=
  (getLong buf pos).andThen fun hi pos => (getLong buf pos).andThen fun low pos =>
    (writeLE 8 (hi * 2 ^ 32 + low) mem).map fun mem => some (mem, pos)

/-- encoding of the object at `mem` (`src/xdr.c:364-530`); `none`: `mem` is too short -/
def enc : Sc → List Nat → Option (List Nat)
  | .w8, mem => do some (be32 (sext32 8 (← readLE 1 mem)))
  | .i16, mem => do some (be32 (sext32 16 (← readLE 2 mem)))
  | .u16, mem => do some (be32 (← readLE 2 mem))
  | .w32, mem => do some (be32 (← readLE 4 mem))
  | .w64, mem => enc64 mem
  | .w128, mem => do
    let first ← enc64 mem
    let second ← enc64 (mem.drop 8)
    some (first ++ second)
  | .raw n, mem => do some (putOpaque (← slice mem 0 n))
  | .complex p n, mem => do
    let re ← enc p mem
    let im ← enc p (mem.drop n)
    some (re ++ im)

/-- decode to the object at `mem` (`src/xdr.c:364-530`) -/
def dec : Sc → List Nat → Nat → List Nat → Dec (List Nat)
  | .w8, buf, pos, mem => (getLong buf pos).andThen fun w pos => (writeLE 1 w mem).map fun mem => some (mem, pos)
  | .i16, buf, pos, mem => (getLong buf pos).andThen fun w pos => (writeLE 2 w mem).map fun mem => some (mem, pos)
  | .u16, buf, pos, mem => (getLong buf pos).andThen fun w pos => (writeLE 2 w mem).map fun mem => some (mem, pos)
  | .w32, buf, pos, mem => (getLong buf pos).andThen fun w pos => (writeLE 4 w mem).map fun mem => some (mem, pos)
  | .w64, buf, pos, mem => dec64 buf pos mem
  | .w128, buf, pos, mem =>
    (dec64 buf pos mem).andThen fun mem pos =>
      (dec64 buf pos (mem.drop 8)).andThen fun tail pos => some (some (mem.take 8 ++ tail, pos))
  | .raw n, buf, pos, mem =>
    (getOpaque buf pos n).andThen fun b pos =>
      if n ≤ mem.length then some (some (b ++ mem.drop n, pos)) else none
  | .complex p n, buf, pos, mem =>
    (dec p buf pos mem).andThen fun mem pos =>
      (dec p buf pos (mem.drop n)).andThen fun tail pos => some (some (mem.take n ++ tail, pos))

/-! ### strings -/

/-- `MR_IS_NULL`, `MR_IS_REFERENCE`, `MR_IS_CONTENT_REFERENCE` (`src/mr_protos.h:476-483`) -/
def isNull (flags : Nat) : Bool := flags.testBit 0
def isRef (flags : Nat) : Bool := flags.testBit 1 || flags.testBit 3

/-- `src/xdr.c:586-609` `xdr_save_string`; `str` are the bytes before the terminating NUL, `refIdx` the
public index of the referenced node -/
def saveString (flags refIdx : Nat) (str : List Nat) : List Nat :=
  be32 (sext32 8 flags) ++
  if isRef flags then be32 (u32 refIdx)
  else if !isNull flags then be32 (u32 str.length) ++ putOpaque (str.take (u32 str.length))
  else []

/-- what `xdr_load_string` leaves: a reference, NULL, or a new block -/
inductive Str where
  | ref (idx : Nat)
  | null
  | block (bytes : List Nat)
deriving DecidableEq, Repr

/-- `src/xdr.c:618-655` `xdr_load_string`; the flags and what was stored.  The allocation is assumed to
succeed; the block of `size + 1` bytes is zeroed, `xdr_opaque` fills its head (outside of it: undefined). -/
def loadString (buf : List Nat) (pos : Nat) : Dec (Nat × Str) :=
  (getLong buf pos).andThen fun w pos =>
    let flags := w % 256
    if isRef flags then (getLong buf pos).andThen fun idx pos => some (some ((flags, .ref idx), pos))
    else if isNull flags then some (some ((flags, .null), pos))
    else
      (getLong buf pos).andThen fun size pos =>
        let block := List.replicate (u32 (size + 1)) 0
        (getOpaque buf pos size).andThen fun b pos =>
          if b.length ≤ block.length then some (some ((flags, .block (b ++ block.drop b.length)), pos))
          else none

/-- `src/xdr.c:548-559`: number of bytes of a character array of `size` bytes to be saved -/
def charArrayLen (mem : List Nat) (size : Nat) : Option Nat := do
  let b ← slice mem 0 size
  let len := (b.takeWhile (· ≠ 0)).length
  some (if len < size then len + 1 else len)

/-- `src/xdr.c:539-573` `xdr_char_array_`, encoding of an array inside an object -/
def saveCharArray (mem : List Nat) (size : Nat) : Option (List Nat) := do
  let len ← charArrayLen mem size
  some (be32 len ++ putOpaque (← slice mem 0 len))

/-- `src/xdr.c:539-573` `xdr_char_array_`, decoding to an array inside an object: nothing compares the
length in the document with the size of the array -/
def loadCharArray (buf : List Nat) (pos : Nat) (mem : List Nat) : Dec (List Nat) :=
  (getLong buf pos).andThen fun len pos =>
    (getOpaque buf pos len).andThen fun b pos =>
      if b.length ≤ mem.length then some (some (b ++ mem.drop b.length, pos)) else none

/-- `src/xdr.c:545-547`: encoding of a character array behind a pointer (a dynamic string) -/
def saveDynArray (str : List Nat) : List Nat :=
  be32 (u32 (str.length + 1)) ++ putOpaque ((str ++ [0]).take (u32 (str.length + 1)))

/-- `src/xdr.c:560-572`: decoding; the pointer owns a zeroed block of one byte
(`src/xdr.c:1008-1012`), which is reallocated if the length is greater than 1 -/
def loadDynArray (buf : List Nat) (pos : Nat) : Dec (List Nat) :=
  (getLong buf pos).andThen fun len pos =>
    let room := if len > 1 then len else 1
    (getOpaque buf pos len).andThen fun b pos =>
      if b.length ≤ room then some (some (b ++ List.replicate (1 - b.length) 0, pos)) else none

end Verif.Model.Xdr
