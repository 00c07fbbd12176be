import Verif.Model.Mem
/-!
# Bit-fields: `mr_save_bitfield_value`, `mr_load_bitfield_value` (`src/metaresc.c:501-566`)

The memory behind `ptrdes->data.ptr` is a list of bytes; `none` is an access outside of it.
`mr_uintmax_t` is a 128-bit unsigned word.  `signed` stands for the test
`(MR_SIGNED_INT_TYPES >> mr_type) & 1` (`src/metaresc.c:521-528`).  The `int` intermediate results of
the byte masks are immediately stored to an `uint8_t`, so they are computed modulo `2^8`.
-/
namespace Verif.Model.Bitfield
open Verif.Model

abbrev Byte := BitVec 8
abbrev Word := BitVec 128

/-- `(((typeof (*value))2) << (width - 1)) - 1`, `src/metaresc.c:518,552` -/
def fieldMask (width : Nat) : Word := (2#128 <<< (width - 1)) - 1#128

/-- `src/metaresc.c:516-517`: `for (i = 8 - shift; i < width; i += 8) _value |= *ptr++ << i;`
`fuel` bounds the iterations. -/
def saveLoop (mem : List Byte) (width : Nat) : Nat → Nat → Nat → Word → Option Word
  | 0, _, _, _ => none
  | fuel + 1, i, ptr, v =>
    if i < width then do
      let b ← mem[ptr]?
      saveLoop mem width fuel (i + 8) (ptr + 1) (v ||| (b.zeroExtend 128 <<< i))
    else some v

/-- `src/metaresc.c:507-533` `mr_save_bitfield_value`. -/
def saveBitfield (mem : List Byte) (shift width : Nat) (signed : Bool) : Option Word := do
  let b ← mem[0]?
  let v : Word := (b.zeroExtend 128 : Word) >>> shift
  let v ← saveLoop mem width (width + 1) (8 - shift) 1 v
  let v := v &&& fieldMask width
  some (if signed && (v >>> (width - 1)).getLsbD 0 then v ||| ~~~(fieldMask width) else v)

/-- `(1 << n) - 1` as a byte mask -/
def byteMask (n : Nat) : Byte := BitVec.ofNat 8 (2 ^ n - 1)

/-- `src/metaresc.c:558-564`: the loop over the remaining bytes -/
def loadLoop (width : Nat) (v : Word) : Nat → Nat → Nat → List Byte → Option (List Byte)
  | 0, _, _, _ => none
  | fuel + 1, i, ptr, mem =>
    if i < width then
      if width - i ≥ 8 then do
        let mem ← wr mem ptr ((v >>> i).truncate 8)
        loadLoop width v fuel (i + 8) (ptr + 1) mem
      else do
        let b ← mem[ptr]?
        let b := b &&& ~~~(byteMask (width - i))
        let mem ← wr mem ptr (b ||| (v >>> i).truncate 8)
        loadLoop width v fuel (i + 8) (ptr + 1) mem
    else some mem

/-- `src/metaresc.c:541-566` `mr_load_bitfield_value`. -/
def loadBitfield (mem : List Byte) (shift width : Nat) (value : Word) : Option (List Byte) := do
  let v := value &&& fieldMask width
  let b ← mem[0]?
  let b := if shift + width ≥ 8 then b &&& byteMask shift
    else b &&& (~~~(byteMask (shift + width)) ||| byteMask shift)
  let mem ← wr mem 0 (b ||| (v <<< shift).truncate 8)
  loadLoop width v (width + 1) (8 - shift) 1 mem

end Verif.Model.Bitfield
