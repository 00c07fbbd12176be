import Verif.Model.Ctype
/-!
# Names of `MR_VOID` fields and `MR_TYPE_VOID_FIELDS` (`src/metaresc.c`)

The name of a field is a pointer into a block of memory, here an index into a list of bytes; an access outside of the block is
undefined (`none`).  `isalnum` is the one of the C locale (no character above 127; `Model/Ctype.lean`).
-/
namespace Verif.Model.FieldName
open Verif.Model

/-- src/metaresc.c:1573, 1575: `isalnum (*name) || (*name == '_')` -/
def valid (c : Nat) : Bool := isalnum c || c == 95

/-- src/metaresc.c:1573: the loop over invalid characters; it tests nothing else.  The list are the bytes from `name` on. -/
def skipInvalid : List Nat → Nat → Option Nat
  | [], _ => none
  | c :: l, name => if !valid c then skipInvalid l (name + 1) else some name

/-- src/metaresc.c:1575: the loop over valid characters -/
def skipValid : List Nat → Nat → Option Nat
  | [], _ => none
  | c :: l, name => if valid c then skipValid l (name + 1) else some name

/-- src/metaresc.c:1563–1579 `mr_normalize_field_name`: the block and the name afterwards; `name = none` is NULL -/
def normalize (isVoid : Bool) (block : List Nat) (name : Option Nat) : Option (List Nat × Option Nat) :=
  match name with
  | none => some (block, none)
  | some p => do
    let c ← block[p]?
    if c ≠ 0 ∧ isVoid then do
      let start ← skipInvalid (block.drop p) p
      let stop ← skipValid (block.drop start) start
      let c ← block[stop]?
      some (if c ≠ 0 then block.set stop 0 else block, some start)
    else some (block, some p)

/-- the types of fields that `mr_type_void_fields_impl` tells apart; `other` are all the others -/
inductive FTy where
  | void | bitfield | array | pointer
  | other (n : Nat)
deriving DecidableEq, Repr

/-- `mr_fd_t`: name, `stype.mr_type` and `stype.mr_type_aux` -/
structure Fd where
  name : List Nat
  ty : FTy
  aux : FTy
deriving DecidableEq, Repr

/-- src/metaresc.c:1695–1702: one field that was found -/
def voidField (f : Fd) : Fd :=
  if f.ty ≠ .void then
    let f := if f.ty ≠ .bitfield ∧ f.ty ≠ .array ∧ f.ty ≠ .pointer then { f with aux := f.ty } else f
    { f with ty := .void }
  else f

/-- src/metaresc.c:1692 `mr_get_fd_by_name` (1656–1667), simplified to the first field with the name, and the update of this
field; `none`: not found -/
def voidByName (name : List Nat) : List Fd → Option (List Fd)
  | [] => none
  | f :: fs => if f.name = name then some (voidField f :: fs) else (voidByName name fs).map (f :: ·)

/-- src/metaresc.c:1690–1703: the loop over the names; the fields afterwards and the names reported as not found -/
def voidFields : List (List Nat) → List Fd → List (List Nat) → List Fd × List (List Nat)
  | [], fs, warn => (fs, warn)
  | name :: ns, fs, warn =>
    match voidByName name fs with
    | none => voidFields ns fs (warn ++ [name])
    | some fs => voidFields ns fs warn

end Verif.Model.FieldName
