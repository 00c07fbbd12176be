import Verif.Model.Detect
/-!
# The check of detected types: `mr_validate_stype`
-/
namespace Verif.Model.Validate
open Verif.Model.Ptrs Verif.Model.Detect

/-- src/metaresc.c:43 `MR_INT_TYPES`: the kinds that hold an integer -/
def intTypes : MrType → Bool
  | .char | .bool | .int8 | .uint8 | .int16 | .uint16 | .int32 | .uint32 | .int64 | .uint64 | .int128 | .uint128 | .enum => true
  | _ => false

/-- src/mr_save.h:8 `MR_TYPED_TYPES` -/
def typedTypes : MrType → Bool
  | .struct | .enum | .union | .anonUnion | .namedAnonUnion => true
  | _ => false

/-- src/metaresc.c:1809 `VALID_POINTER_AUX_TYPES` -/
def validAux : MrType → Bool
  | .string | .charArray | .char | .void | .bool | .int8 | .uint8 | .int16 | .uint16 | .int32 | .uint32 | .int64 | .uint64 | .int128 | .uint128
  | .float | .complexFloat | .double | .complexDouble | .longDouble | .complexLongDouble | .struct | .enum | .funcType | .pointer | .union => true
  | _ => false

/-- is there a descriptor, and is it of another kind (`stype->tdp` and `t != stype->tdp->mr_type`) -/
def differs (tdp : Option Td) (t : MrType) : Bool :=
  match tdp with
  | some td => t != td.ty
  | none => false

/-- src/metaresc.c:1816–1830: the case MR_TYPE_POINTER; the status -/
def checkPointer (st : Stype) : Bool :=
  if st.aux = .pointer then st.tdp.isSome
  else validAux st.aux && !differs st.tdp st.aux && !(typedTypes st.aux && st.tdp.isNone)

/-- src/metaresc.c:1754–1842: the switch; the status and the kind -/
def check (st : Stype) : Bool × MrType :=
  match st.ty with
  | .void | .func => (true, st.ty)
  | .none | .endAnonUnion | .last => (true, .void)
  | .charArray =>
    match st.tdp with
    | some td => if td.ty = .char then (true, st.ty) else (!differs st.tdp st.ty, st.ty)
    | none => (!differs st.tdp st.ty, st.ty)
  | .bitfield =>
    (intTypes st.aux && !(typedTypes st.aux && st.tdp.isNone) && !(typedTypes st.aux && differs st.tdp st.aux), st.ty)
  | .array => ((st.aux != .void) && checkPointer st, st.ty)
  | .pointer => (checkPointer st, st.ty)
  | .struct | .enum | .union | .anonUnion | .namedAnonUnion =>
    (match st.tdp with
      | none => false
      | some td => st.ty == td.ty, st.ty)
  | _ => (!differs st.tdp st.ty, st.ty)

/-- src/metaresc.c:1751–1851 `mr_validate_stype` -/
def validate (st : Stype) : Bool × Stype :=
  let (ok, ty) := check st
  let st := { st with ty := ty }
  if ok then (true, st)
  else (false, { st with ty := if st.ty ≠ .pointer then .void else st.ty, aux := .void })

end Verif.Model.Validate
