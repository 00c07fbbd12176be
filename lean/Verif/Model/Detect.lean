import Verif.Model.TypeName
import Verif.Model.Ptrs
/-!
# Types of fields from their declarations: `mr_detect_structured_type`

* `look` is `mr_get_td_by_name_internal`; NULL is `none`.  The static table `type_tdp` holds answers of `look` that were not NULL;
  it is simplified to asking again (types are not removed).
* Sizes are those of x86-64.
-/
namespace Verif.Model.Detect
open Verif.Model Verif.Model.TypeName Verif.Model.Ptrs

/-- `mr_td_t`: the fields `type`, `mr_type`, `size` -/
structure Td where
  name : List Nat
  ty : MrType
  size : Nat
deriving DecidableEq, Repr

/-- src/mr_protos.h:309–323 `mr_stype_t`; `pointerClass`: `mr_type_class` is MR_POINTER_TYPE_CLASS; `dims`: the used part of `dim` -/
structure Stype where
  type : Option (List Nat)
  ty : MrType := .none
  aux : MrType := .none
  pointerClass : Bool := false
  isArray : Bool := false
  isBitfield : Bool := false
  size : Nat := 0
  dims : List Nat := []
  tdp : Option Td := none
deriving DecidableEq, Repr

/-- src/metaresc.c:1374 -/
def intLike : MrType → Bool
  | .none | .int8 | .uint8 | .int16 | .uint16 | .int32 | .uint32 | .int64 | .uint64 | .int128 | .uint128 => true
  | _ => false

/-- src/metaresc.c:1377, 1384: MR_TYPE_NONE or MR_TYPE_POINTER -/
def noneOrPointer : MrType → Bool
  | .none | .pointer => true
  | _ => false

/-- src/metaresc.c:1410–1416 `type_name` -/
def basicName : MrType → Option (List Nat)
  | .void => some (ascii "void")
  | .string => some (ascii "string_t")
  | .char => some (ascii "char")
  | .bool => some (ascii "bool")
  | .int8 => some (ascii "int8_t")
  | .uint8 => some (ascii "uint8_t")
  | .int16 => some (ascii "int16_t")
  | .uint16 => some (ascii "uint16_t")
  | .int32 => some (ascii "int32_t")
  | .uint32 => some (ascii "uint32_t")
  | .int64 => some (ascii "int64_t")
  | .uint64 => some (ascii "uint64_t")
  | .int128 => some (ascii "mr_int128_t")
  | .uint128 => some (ascii "mr_uint128_t")
  | .float => some (ascii "float")
  | .complexFloat => some (ascii "complex_float_t")
  | .double => some (ascii "double")
  | .complexDouble => some (ascii "complex_double_t")
  | .longDouble => some (ascii "long_double_t")
  | .complexLongDouble => some (ascii "complex_long_double_t")
  | _ => none
where ascii (s : String) : List Nat := s.toList.map Char.toNat

/-- src/metaresc.c:1185–1204 `mr_type_size` -/
def typeSize : MrType → Nat
  | .void | .pointer | .func | .funcType | .string => 8
  | .char | .bool | .int8 | .uint8 => 1
  | .int16 | .uint16 => 2
  | .int32 | .uint32 | .float => 4
  | .int64 | .uint64 | .double | .complexFloat => 8
  | .int128 | .uint128 | .longDouble | .complexDouble => 16
  | .complexLongDouble => 32
  | _ => 0

/-- src/metaresc.c:1393–1455: what happens after the look-up by name -/
def finish (look : List Nat → Option Td) (st : Stype) (tdp : Option Td) : Stype :=
  let st := if st.ty = .none ∧ st.aux ≠ .none then { st with ty := .pointer } else st
  let st := if st.ty = .none ∧ st.pointerClass ∧ ¬ st.isArray then { st with ty := .pointer } else st
  let st := if st.ty = .pointer then (if st.aux = .none then { st with aux := .void } else st)
    else if st.ty = .none then { st with ty := .void } else st
  let ty := if st.ty = .bitfield ∨ st.ty = .pointer then st.aux else st.ty
  let tdp := match basicName ty with
    | some n => look n
    | none => tdp
  let st := { st with tdp := tdp }
  let st := if st.isArray then { st with aux := st.ty, ty := .array } else st
  let st := if st.isBitfield then { st with aux := st.ty, ty := .bitfield } else st
  if st.size ≠ 0 then st
  else if typeSize st.ty ≠ 0 then { st with size := typeSize st.ty }
  else
    let size := match st.tdp with
      | some td => td.size
      | none => 0
    if st.ty = .array then
      let size := if st.aux = .pointer then 8 else size
      { st with size := st.dims.foldr (fun d s => u32 (s * d)) size }
    else { st with size := size }

/-- src/metaresc.c:1368–1391: the look-up by name, without and with up to two stars; `text` is the normalised text.
The result is the type descriptor that was found. -/
def byName (look : List Nat → Option Td) (st : Stype) (text : List Nat) : Option (Stype × Option Td) :=
  match look text with
  | some td =>
    if st.ty = .bitfield then some ({ st with aux := td.ty }, some td)
    else if intLike st.ty then some ({ st with ty := td.ty }, some td)
    else some (st, some td)
  | none =>
    if noneOrPointer st.ty then do
      let (p, text) ← isPointer text
      if p then
        match look text with
        | some td => some ({ st with ty := .pointer, aux := td.ty }, some td)
        | none =>
          if noneOrPointer st.aux then do
            let (p, text) ← isPointer text
            if p then some ({ st with ty := .pointer, aux := .pointer }, look text)
            else some ({ st with ty := .pointer }, none)
          else some ({ st with ty := .pointer }, none)
      else some (st, none)
    else some (st, none)

/-- src/metaresc.c:1356–1456 `mr_detect_structured_type`; `none`: access outside of the text -/
def detect (look : List Nat → Option Td) (st : Stype) : Option Stype :=
  if st.ty = .void ∨ st.ty = .func then some st
  else
    match st.type with
    | none => some st
    | some text => do
      let (d, text) ← isArray (st.ty == .charArray) text
      let st := match d with
        | some dims => { st with dims := dims, isArray := true }
        | none => st
      let text ← normalizeType text
      let (st, tdp) ← byName look st text
      some (finish look st tdp)

end Verif.Model.Detect
