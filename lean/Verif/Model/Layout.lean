import Verif.Model.Bitfield
/-!
# Where the fields of a structure are

Metaresc gets the positions of fields in three ways:
* the macros store, for each bit-field, the bytes of a structure in which only this bit-field is set;
* `MR_ADD_TYPE` lets the compiler dump a variable (`__builtin_dump_struct`) that is filled with patterns;
* the DWARF utility reads the positions from debugging information.

Not modelled: the detection of types.  The layout is little-endian: bit `k` of a structure is bit `k % 8` of byte
`k / 8`, a bit-field at bit `p` has its lowest bit there.
-/
namespace Verif.Model.Layout
open Verif.Model.Bitfield

/-- what is recorded for a bit-field: `offset`, `bitfield_param.shift` and `bitfield_param.width` (src/mr_protos.h:330–337) -/
structure Pos where
  offset : Nat
  shift : Nat
  width : Nat
deriving DecidableEq, Repr

/-! ## the macros -/

/-- src/metaresc.c:1159–1161: the first byte that is not zero -/
def firstByte : List Byte → Nat → Nat
  | [], i => i
  | b :: l, i => if b ≠ 0#8 then i else firstByte l (i + 1)

/-- src/metaresc.c:1167–1169: the first bit that is set; the first argument is the number of bits left -/
def firstBit (b : Byte) : Nat → Nat → Nat
  | 0, i => i
  | n + 1, i => if b.getLsbD i then i else firstBit b n (i + 1)

/-- src/metaresc.c:1174–1178: count the bits up to the first one that is not set; `width` is a `uint8_t` -/
def runBits (b : Byte) : Nat → Nat → Nat → Nat × Nat
  | 0, i, width => (i, width)
  | n + 1, i, width => if b.getLsbD i then runBits b n (i + 1) ((width + 1) % 256) else (i, width)

/-- src/metaresc.c:1172–1182 -/
def runBytes : List Byte → Nat → Nat → Nat
  | [], _, width => width
  | b :: l, i, width =>
    let r := runBits b (8 - i) i width
    if r.1 < 8 then r.2 else runBytes l 0 r.2

/-- src/metaresc.c:1144–1183 `mr_fd_init_bitfield_params` for a bit-field that is not initialized; `none` when nothing is set -/
def byMask (mask : List Byte) : Option Pos := do
  let offset := firstByte mask 0
  let b ← mask[offset]?
  let shift := firstBit b 8 0
  some { offset, shift, width := runBytes (mask.drop offset) shift 0 }

/-! ## dumps of patterns -/

/-- `memset` in a variable of `size` bytes; `none` when it writes behind it -/
def memset (size : Nat) (M : Nat → Nat) (ptr v n : Nat) : Option (Nat → Nat) :=
  if ptr + n ≤ size then some (fun a => if ptr ≤ a ∧ a < ptr + n then v % 256 else M a) else none

/-- src/metaresc.h:862–866, 876–880: fill blocks; `v i` is the value for block `i` (`block - 1 ≤ size`, so that the
difference of the `size_t` does not wrap) -/
def fillLoop (size block : Nat) (v : Nat → Nat) : Nat → Nat → Nat → (Nat → Nat) → Option (Nat × Nat × (Nat → Nat))
  | 0, _, _, _ => none
  | fuel + 1, i, ptr, M =>
    if ptr < size - (block - 1) then do
      let M ← memset size M ptr (v i) block
      fillLoop size block v fuel (i + 1) (ptr + block) M
    else some (i, ptr, M)

/-- src/metaresc.h:862–867, 876–881 -/
def fill (size block : Nat) (v : Nat → Nat) (M : Nat → Nat) : Option (Nat → Nat) := do
  let (i, ptr, M) ← fillLoop size block v (size + 1) 0 0 M
  memset size M ptr (v i) (size &&& (block - 1))

/-- src/metaresc.h:854–868 with src/metaresc.c:165–248 `mr_dump_struct_type_add_field`, for a field at `o` whose first byte
is passed (integers, pointers, strings).  Simplified: the other fields.  `none` when 1 is shifted by 32. -/
def plainLoop (size o : Nat) : Nat → Nat → (Nat → Nat) → Nat → Option Nat
  | 0, _, _, _ => none
  | fuel + 1, offsetByte, M, offset =>
    let offset := (offset + M o <<< (8 * offsetByte)) % 2 ^ 64
    if 8 * (1 + offsetByte) ≥ 32 then none
    else
      let block := 1 <<< (8 * (1 + offsetByte))
      if size < block then some offset
      else do
        let M ← fill size block id M
        plainLoop size o fuel (offsetByte + 1) M offset

/-- the offset that `MR_ADD_TYPE` finds for a plain field at `o`, src/metaresc.h:846–868 -/
def plainOffset (size o : Nat) : Option Nat :=
  plainLoop size o 5 0 (fun a => a % 256) 0

/-- the lowest bit of the bit-field at `p`, which the compiler passes -/
def bit (M : Nat → Nat) (p : Nat) : Nat := (M (p / 8) / 2 ^ (p % 8)) % 2

/-- src/metaresc.c:400–413: a new field, if there is room for it -/
def grow (room : Nat) (fields : List Nat) (i : Nat) : Option (List Nat) :=
  if i = fields.length then (if fields.length ≥ room then none else some (fields ++ [0])) else some fields

/-- src/metaresc.c:375–421 `mr_dump_struct_bitfield_detection`, called for the bit-fields at `ps`.  `fields` are the offsets
of the bit-fields found before, `idx` is the number of the next one, `room` is how many fit (`MR_PP_DEPTH`).
`none`: there are too many. -/
def dump (room : Nat) (M : Nat → Nat) : List Nat → List Nat → Nat → Option (List Nat)
  | [], fields, _ => some fields
  | p :: ps, fields, idx => do
    let i := if idx > fields.length then fields.length else idx
    let fields ← grow room fields i
    let off ← fields[i]?
    dump room M ps (fields.set i ((off <<< 1 ||| bit M p) % 2 ^ 64)) (idx + 1)

/-- src/metaresc.h:874–888: halve the blocks; `-(i & 1)` is 0 or 255 -/
def blocks (room size : Nat) (ps : List Nat) : Nat → Nat → List Nat → (Nat → Nat) → Option (List Nat × (Nat → Nat))
  | 0, _, _, _ => none
  | fuel + 1, block, fields, M =>
    if block ≠ 0 then do
      let M ← fill size block (fun i => if i &&& 1 = 1 then 255 else 0) M
      let fields ← dump room M ps fields 0
      blocks room size ps fuel (block >>> 1) fields M
    else some (fields, M)

/-- src/metaresc.h:871–912: the offsets and shifts that `MR_ADD_TYPE` finds for the bit-fields at `ps` (at least one) in a structure of
`size` bytes; `size` is less than 2^31 -/
def byPatterns (room size : Nat) (ps : List Nat) : Option (List (Nat × Nat)) := do
  let last := if size ≤ 1 then 1 else size - 1
  let (fields, M) ← blocks room size ps 33 (1 <<< last.log2) [] (fun _ => 0)
  let M ← memset size M 0 0b11110000 size
  let fields ← dump room M ps fields 0
  let M ← memset size M 0 0b11001100 size
  let fields ← dump room M ps fields 0
  let M ← memset size M 0 0b10101010 size
  let fields ← dump room M ps fields 0
  some (fields.map fun off => (off / 8, off % 8))

/-! ## DWARF -/

/-- src/mr_dwarf.c:943–972: `location`, `bitSize`, `dataBitOffset` and `bitOffset` are the attributes of a member, `size` is
its `DW_AT_byte_size`; `size` is a `uint32_t`, `shift` and `width` are `uint8_t` -/
def byDwarf (size location bitSize : Nat) (dataBitOffset bitOffset : Option Nat) : Pos :=
  let pos : Pos := { offset := location, shift := 0, width := bitSize % 256 }
  let pos := match dataBitOffset with
    | some d => { pos with shift := d % 8, offset := d / 8 }
    | none => pos
  match bitOffset with
  | some b =>
    let shift := (size * 8 + 2 ^ 64 - pos.width - b) % 256
    { pos with offset := pos.offset + shift / 8, shift := shift % 8 }
  | none => pos

end Verif.Model.Layout
