import Verif.Model.Hsort
import Verif.Model.IcArray
import Verif.Model.Decimal
import Verif.Model.Scanf
/-!
# Enumerations and bit masks

`src/metaresc.c:940-1140` (tables, lookup), `src/mr_stringify.c:137-219` (printing),
`src/mr_value.c:57-174`, `src/mr_value.c:381-393` (reading), `src/mr_load.c:163-189` (storing).
Target: little endian, `sizeof (int) = 4`.
-/
namespace Verif.Model.Enum
open Verif.Model

/-- The values of `mr_type_t` that matter here; `none` stands for every non-integer type. -/
inductive Ty where
  | none | i8 | u8 | i16 | u16 | i32 | u32 | i64 | u64 | i128 | u128
deriving DecidableEq, Repr

/-- `sizeof` of the integer types; 0 for `none` -/
def Ty.size : Ty → Nat
  | .none => 0
  | .i8 | .u8 => 1
  | .i16 | .u16 => 2
  | .i32 | .u32 => 4
  | .i64 | .u64 => 8
  | .i128 | .u128 => 16

def Ty.signed : Ty → Bool
  | .i8 | .i16 | .i32 | .i64 | .i128 => true
  | _ => false

/-- `mr_ed_t` (`src/mr_protos.h:412-420`): name, `value._unsigned`, type.  `name.str` is not NULL. -/
structure Ed where
  name : List Nat
  value : BitVec 64
  ty : Ty
deriving DecidableEq, Repr

/-- the enum part of `mr_td_t` (`src/mr_protos.h:422-428`) -/
structure Td where
  size : Nat
  effective : Ty
  sizeEffective : Nat
  enums : List Ed
  isBitmask : Bool
deriving Repr

/-- `src/metaresc.c:993-1006` `mr_ed_enum_value_cmp` -/
def edCmp (x y : Ed) : Int :=
  (if x.value.toNat > y.value.toNat then 1 else 0) - (if x.value.toNat < y.value.toNat then 1 else 0)

/-- `src/metaresc.c:1035-1056`: effective type and sizes -/
def effectiveSize (td : Td) : Td :=
  match td.effective with
  | .none =>
    match td.size with
    | 1 => { td with sizeEffective := 1, effective := .u8 }
    | 2 => { td with sizeEffective := 2, effective := .u16 }
    | 4 => { td with sizeEffective := 4, effective := .u32 }
    | 8 => { td with sizeEffective := 8, effective := .u64 }
    | 16 => { td with sizeEffective := 16, effective := .u128 }
    | _ => { td with sizeEffective := 4, effective := .i32, size := 4 }
  | ty => { td with sizeEffective := ty.size }

/-- `(2LL << (size_effective * __CHAR_BIT__ - 1)) - 1` converted to 64 bits, `src/metaresc.c:1071`.
`none`: shift by 64 or more (undefined).  For `size_effective = 8` the shift overflows a signed
number and is taken to wrap to 0. -/
def sizeMask (sizeEffective : Nat) : Option (BitVec 64) :=
  if 1 ≤ sizeEffective ∧ sizeEffective ≤ 8 then some ((2#64 <<< (sizeEffective * 8 - 1)) - 1#64) else none

/-- `src/metaresc.c:1060-1090`: the loop that classifies the table; counts the non-zero values. -/
def classify (sizeEffective : Nat) : List Ed → Nat → Bool → Option (Nat × Bool)
  | [], cnt, mask => some (cnt, mask)
  | e :: es, cnt, mask => do
    let value := e.value &&& (← sizeMask sizeEffective)
    let cnt := if value ≠ 0#64 then cnt + 1 else cnt
    let mask := if value &&& (value - 1#64) ≠ 0#64 then false else mask
    classify sizeEffective es cnt mask

/-- `src/metaresc.c:1011-1094` `mr_init_enum` without the name table: `enums` is the declared list up
to the terminating NULL.  The types of the constants are set (line 1020) before the effective type is
corrected. -/
def initEnum (td : Td) : Option Td := do
  let enums := td.enums.map fun e => { e with ty := td.effective }
  let td := effectiveSize td
  let enums ← Hsort.hsort edCmp enums
  let (cnt, mask) ← classify td.sizeEffective enums 0 true
  some { td with enums := enums, isBitmask := if cnt < 2 then false else mask }

/-- `src/metaresc.c:1129-1136` `mr_get_enum_by_name`: the constant of that name in the global table.
The table is an indexed collection ordered by name (`mr_conf.enum_by_name`); that find returns the
stored element with the same name and add keeps the first one is C12–C17. -/
def byName (names : List Ed) (name : List Nat) : Option Ed := names.find? fun e => e.name = name

/-- `src/metaresc.c:1080`: `mr_ic_add (&mr_conf.enum_by_name, …)` for every constant of a type -/
def addNames (names : List Ed) : List Ed → List Ed
  | [] => names
  | e :: es => addNames (if (byName names e.name).isSome then names else names ++ [e]) es

/-- `src/metaresc.c:1958-1967`: `mr_init_enum` for every registered enumeration -/
def initAll : List Td → Option (List Td)
  | [] => some []
  | td :: tds => do some ((← initEnum td) :: (← initAll tds))

/-- the global name table after the initialised types `tds` were registered, in that order -/
def nameTable (tds : List Td) (names : List Ed) : List Ed := tds.foldl (fun n td => addNames n td.enums) names

/-- a `ty` object in memory as a mathematical integer -/
def readInt (ty : Ty) (mem : List Nat) : Option Int := do
  let raw ← readLE ty.size mem
  some (if ty.signed && decide (2 * raw ≥ 256 ^ ty.size) then (raw : Int) - 256 ^ ty.size else raw)

/-- `src/metaresc.c:945-972` `mr_get_enum_value` -/
def getEnumValue (td : Td) (mem : List Nat) : Option (BitVec 64) :=
  match td.effective with
  | .none => do some (BitVec.ofNat 64 (← readLE (min td.sizeEffective 8) mem))
  | ty => do some (BitVec.ofInt 64 (← readInt ty mem))

/-- `src/metaresc.c:1114-1122` `mr_get_enum_by_value`; inner `none` is NULL -/
def byValue (td : Td) (value : BitVec 64) : Option (Option Ed) := do
  let (diff, idx) ← Ic.findIdx edCmp td.enums { name := [], value := value, ty := .none }
  if diff ≠ 0 then some none else do some (some (← td.enums[idx]?))

/-- `printf` of an integer with `%d`-like conversions (ISO C 7.21.6.1): canonical decimal -/
def fmtInt (z : Int) : List Nat :=
  (if z < 0 then [ch '-'] else []) ++ Scanf.printRadix 10 0 false z.natAbs

/-- `mr_ra_printf_int8_t` … `mr_ra_printf_uint64_t` (`src/mr_stringify.c:38-54`, `123-135`) with the
default output format, applied to an object in memory.  128-bit types are not modelled here
(`none`). -/
def printTy (ty : Ty) (mem : List Nat) : Option (List Nat) :=
  match ty with
  | .none | .i128 | .u128 => none
  | ty => do some (fmtInt (← readInt ty mem))

/-- `src/mr_stringify.c:137-164` `mr_ra_printf_enum` for a field with a type descriptor -/
def printEnum (td : Td) (mem : List Nat) : Option (List Nat) := do
  let value ← getEnumValue td mem
  match ← byValue td value with
  | some e => some e.name
  | none => printTy td.effective mem

/-- `src/mr_stringify.c:183-194`: the loop over the constants; remaining value, `first`, text -/
def maskLoop (delim : List Nat) : List Ed → BitVec 64 → Bool → List Nat → BitVec 64 × Bool × List Nat
  | [], value, first, text => (value, first, text)
  | e :: es, value, first, text =>
    if value &&& e.value ≠ 0#64 then
      let text := if first then text ++ e.name else text ++ delim ++ e.name
      let value := value ^^^ e.value
      if value = 0#64 then (value, false, text) else maskLoop delim es value false text
    else maskLoop delim es value first text

/-- the bytes of a local `mr_enum_value_type_t` -/
def bytes64 (value : BitVec 64) : List Nat := (List.range 8).map fun i => value.toNat / 256 ^ i % 256

/-- `src/mr_stringify.c:166-219` `mr_ra_printf_bitmask` for a field with a type descriptor -/
def printBitmask (delim : List Nat) (td : Td) (mem : List Nat) : Option (List Nat) := do
  if !td.isBitmask then printEnum td mem
  else do
    let value ← getEnumValue td mem
    if value = 0#64 then printEnum td mem
    else do
      let (value, first, text) := maskLoop delim td.enums value true []
      if value ≠ 0#64 then do
        let text := if first then text else text ++ delim
        some (text ++ (← printTy td.effective (bytes64 value)))
      else some text

/-- `src/mr_value.c:57-66`, `src/mr_value.c:77-79`: the longest name, computed once: `cached` is the
`static` variable, 0 before the first call. -/
def maxLength (cached : Nat) (names : List Ed) : Nat :=
  if cached = 0 then names.foldl (fun m e => max m e.name.length) 0 else cached

/-- characters of an identifier: `isalnum (*str) || ('_' == *str)` -/
def idChar (c : Nat) : Bool := isalnum c || c == ch '_'

/-- `src/mr_value.c:74-133` `mr_get_enum`: the value (128 bits) and the rest of the string; `none` is
NULL. -/
def getEnum (names : List Ed) (maxLen : Nat) (str : List Nat) : Option (BitVec 128 × List Nat) :=
  let name := str.takeWhile idChar
  let rest := str.dropWhile idChar
  if name.length > maxLen then none
  else if name = [ch 'f', ch 'a', ch 'l', ch 's', ch 'e'] then some (0#128, rest)
  else if name = [ch 't', ch 'r', ch 'u', ch 'e'] then some (1#128, rest)
  else
    match byName names name with
    | none => none
    | some e =>
      match e.ty with
      | .i8 | .i16 | .i32 | .i64 => some (e.value.signExtend 128, rest)
      | .u8 | .u16 | .u32 | .u64 => some (e.value.setWidth 128, rest)
      | _ => none

/-- `src/mr_value.c:140-151` `mr_get_int` -/
def getInt (names : List Ed) (maxLen : Nat) (str : List Nat) : Option (BitVec 128 × List Nat) :=
  let str := str.dropWhile isspace
  match str with
  | c :: _ =>
    if isalpha c || c == ch '_' then getEnum names maxLen str
    else
      let (v, rest) := Decimal.strtouintmax str 0
      some (BitVec.ofNat 128 v, rest)
  | [] => some (BitVec.ofNat 128 (Decimal.strtouintmax str 0).1, (Decimal.strtouintmax str 0).2)

/-- `src/mr_value.c:153-174` `mr_load_bitmask`: accumulated value and rest; the first argument bounds the
iterations (every iteration but the last consumes a `|`) -/
def loadBitmask (names : List Ed) (maxLen : Nat) : Nat → List Nat → BitVec 128 → Option (BitVec 128 × List Nat)
  | 0, _, _ => none
  | fuel + 1, str, accum => do
    let (value, str) ← getInt names maxLen str
    let accum := accum ||| value
    let str := str.dropWhile isspace
    match str with
    | c :: str => if c = ch '|' then loadBitmask names maxLen fuel str accum else some (accum, c :: str)
    | [] => some (accum, [])

/-- `src/mr_value.c:381-393`: cast of a NUL-terminated string to an integer; `none` is failure -/
def castInt (names : List Ed) (maxLen : Nat) (str : List Nat) : Option (BitVec 128) := do
  let (value, tail) ← loadBitmask names maxLen (str.length + 1) str 0#128
  if tail ≠ [] then none else some value

/-- `src/mr_load.c:170-183`: store into an enum of `size` bytes -/
def storeEnum (size : Nat) (value : BitVec 128) (mem : List Nat) : Option (List Nat) :=
  writeLE (min size 16) value.toNat mem

end Verif.Model.Enum
