import Verif.Model.XdrGraph
import Verif.Model.Load
import Verif.Model.Json
/-!
# An object graph in JSON

`MR_SAVE_JSON` (src/metaresc.h:1105–1115) is `mr_save`, `mr_remove_empty_nodes`, `mr_json_save`; `MR_LOAD_JSON` is `mr_json_load`,
`mr_load`.  Here is what connects them with the memory: the values that the handlers of the table src/json_save.c:168–201
find in the saved object, and the bytes that the handlers of `mr_load` make of a value in the document.

The texts of floating point numbers, complex numbers, functions and enums and their conversions are parameters
(`Codec`); those of enums are in `Verif.Model.Enum` and `Verif.Model.Value`.  `mr_conf.output_format` (src/mr_stringify.c:124–130) is not set.
-/
namespace Verif.Model.SaveJson
open Verif.Model Verif.Model.Ptrs Verif.Model.Save Verif.Model.Copy Verif.Model.XdrGraph
open Verif.Model.Load (Conv)

/-- printers and conversions that are not modelled here -/
structure Codec where
  /-- floating point and complex numbers and functions from their bytes: `printf` with `%g` (src/mr_stringify.c:40–42), src/json_save.c:42–76, 129–138 -/
  print : MrType → List Nat → Json.Leaf
  /-- `mr_ra_printf_bitmask` (src/mr_stringify.c:171–220) from the bytes of the integer -/
  enum : Option Td → List Nat → List Nat
  /-- `json_printf_void`, src/json_save.c:148–166 -/
  void : Option Fd → Json.VoidClass
  /-- `mr_value_cast (MR_VT_INT)` of a text, src/mr_value.c:357–393; `none` is a failure -/
  parse : List Nat → Option (BitVec 128)
  /-- the conversion of a floating point number to `mr_intmax_t`, src/mr_value.c:341 -/
  trunc : List Nat → BitVec 128
  /-- `mr_load_float`, `mr_load_complex`, `mr_load_func`, and `mr_load_char` of a text that is not one character
  (src/mr_load.c:227–279, 304–347, 364–415) -/
  load : Fd → Json.Loaded → Conv

/-! ### saving -/

/-- the number that bytes stand for, little endian -/
def leNat : List Nat → Nat
  | [] => 0
  | b :: l => b + 256 * leNat l

/-- the bytes of a signed number -/
def leInt (l : List Nat) : Int := if 2 * leNat l ≥ 256 ^ l.length then (leNat l : Int) - 256 ^ l.length else leNat l

/-- the number of bytes that the printer of a type reads: `mr_get_enum_value` reads the effective type, UINT8 if there is no descriptor (src/mr_stringify.c:136–167) -/
def printed (tds : List Td) (ty : MrType) (td : Option Nat) : Nat :=
  match ty with
  | .enum => match tdAt tds td with
    | some d => typeSize d.effective
    | none => 1
  | t => typeSize t

/-- the handlers of the table src/json_save.c:168–201 for values, src/mr_stringify.c:32–90: the value from its bytes -/
def leafOf (K : Codec) (tds : List Td) (ty : MrType) (td : Option Nat) (l : List Nat) : Json.Leaf :=
  match ty with
  | .bool => .bool (leNat l ≠ 0)
  | .char => .text l
  | .int8 | .int16 | .int32 | .int64 => .int (leInt l)
  | .uint8 | .uint16 | .uint32 | .uint64 => .int (leNat l)
  | .int128 => .int128 (BitVec.ofNat 128 (leNat l))
  | .uint128 => .uint128 (BitVec.ofNat 128 (leNat l))
  | .enum => .quoted (K.enum (tdAt tds td) l)
  | t => K.print t l

/-- the types of bit fields that are written, src/mr_stringify.c:231–245; nothing is written for others -/
def bitPrinted : MrType → Bool
  | .bool | .int8 | .uint8 | .int16 | .uint16 | .int32 | .uint32 | .int64 | .uint64 | .int128 | .uint128 | .enum => true
  | _ => false

/-- The value of a node without children; `none`: memory that must not be read.
src/json_save.c:78–91 `json_printf_char_array`, `json_printf_string`; 104–119 `json_printf_bitfield`. -/
def leaf (K : Codec) (S : Src) (pd : Pd) (x : Info) : Option Json.Leaf :=
  match pd.ty with
  | .void => some (.void (K.void x.fd))
  | .charArray => do some (.text ((← peek S.live S.m x.addr x.size).takeWhile (· ≠ 0)))
  | .string => do some (.text (← S.text (← S.ptr x.addr)))
  | .bitfield => do
    let f ← x.fd
    let v ← Bitfield.saveBitfield (toBits (← peek S.live S.m x.addr (bitBytes f))) f.shift f.width (signedInt (bitType S.tds x.aux f.td))
    if bitPrinted x.aux then some (leafOf K S.tds x.aux f.td ((wordBytes v).take (printed S.tds x.aux f.td))) else some (.real [])
  | t => do some (leafOf K S.tds t (tdOf x.fd) (← peek S.live S.m x.addr (printed S.tds t (tdOf x.fd))))

/-- what `json_pre_print_node` (src/json_save.c:203–257) reads of a descriptor -/
def info (K : Codec) (S : Src) (pd : Pd) (x : Info) : Json.Info :=
  { name := (x.fd.map Fd.name).getD []
    unnamed := x.unnamed
    null := x.null
    leaf := (leaf K S pd x).getD .undefined }

/-- src/metaresc.h:1105–1115 MR_SAVE_JSON after `mr_save` -/
def save (K : Codec) (S : Src) (st : St) : Option (List Nat) := do
  Json.jsonSave (← removeEmptyNodes st.ptrs.ra) (List.zipWith (info K S) st.ptrs.ra st.info)

/-! ### loading -/

/-- src/mr_value.c:315–403 `mr_value_cast (MR_VT_INT)` of a value in a JSON document -/
def castInt (K : Codec) : Json.Value → Option (BitVec 128)
  | .none => none
  | .int v => some (BitVec.ofNat 128 v)
  | .float t => some (K.trunc t)
  | .string s => K.parse s

/-- the bytes of an integer -/
def wordByte (v : BitVec 128) (k : Nat) : UInt8 := UInt8.ofNat (v.toNat / 256 ^ k % 256)

/-- src/mr_load.c:152–191 `mr_load_integer`, 288–302 `mr_load_bitfield` -/
def loadInteger (K : Codec) (y : Json.Loaded) : Conv :=
  match castInt K y.value with
  | some v => .store (wordByte v)
  | none => .fail

/-- What the value `y` of a node is converted to for an object of type `f`, src/mr_load.c:152–415 -/
def convert (K : Codec) (f : Fd) (y : Json.Loaded) : Conv :=
  match f.ty with
  | .bool => match castInt K y.value with
    | some v => .store fun _ => if v = 0 then 0 else 1
    | none => .fail
  | .int8 | .uint8 | .int16 | .uint16 | .int32 | .uint32 | .int64 | .uint64 | .int128 | .uint128 | .enum | .bitfield => loadInteger K y
  | .char => match y.value with
    | .string [c] => .store fun _ => UInt8.ofNat c
    | .string _ => K.load f y
    | _ => loadInteger K y
  | _ => K.load f y

/-- the conversions of the nodes of a document -/
def conv (K : Codec) (data : List Json.Loaded) (f : Fd) (i : Nat) : Conv :=
  match data[i]? with
  | some y => convert K f y
  | none => .fail

end Verif.Model.SaveJson
