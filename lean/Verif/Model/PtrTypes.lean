/-!
# Pointers to registered types as members of `mr_ptr_t`

Models src/metaresc.c:1211–1239 `mr_register_type_pointer` and its calls by `mr_conf_init`.  Collections are lists in which the first entry
with a name counts (see C12–C17, C79); additions to the tables of all fields (src/metaresc.c:1235–1236) are not modelled, nor is a lack
of memory.
-/
namespace Verif.Model.PtrTypes

/-- what matters of `mr_td_t`: its name, its kind (`mr_type`) and an identity (its address) -/
structure Td where
  id : Nat
  name : List Nat
  kind : Nat
deriving DecidableEq

/-- what matters of `mr_fd_t`: `name`, `stype.type`, `stype.mr_type`, `stype.mr_type_aux`, `stype.tdp`, `mr_type_base`, and all the rest
(`offset`, `stype.size`, flags …) as one value -/
structure Fd where
  name : List Nat
  type : List Nat
  kind : Nat
  aux : Nat
  td : Option Nat
  base : Nat
  rest : Nat
deriving DecidableEq

/-- `MR_TYPE_POINTER` (its number does not matter) -/
def pointerKind : Nat := 30

/-- the descriptor of `mr_ptr_t`: `fields` and the index `field_by_name` -/
structure PtrUnion where
  fields : List Fd
  index : List Fd

/-- src/metaresc.c:1657–1667 `mr_get_fd_by_name` for `mr_ptr_t` -/
def find (u : PtrUnion) (n : List Nat) : Option Fd := u.index.find? fun f => f.name == n

/-- src/metaresc.c:1211–1239 `mr_register_type_pointer`; without `mr_ptr_t` nothing is done.  `none`: `fields[0]` does not exist. -/
def register (u : Option PtrUnion) (t : Td) : Option (Option PtrUnion) :=
  match u with
  | none => some none
  | some u =>
    if (find u t.name).isSome then some (some u)
    else
      match u.fields[0]? with
      | none => none
      | some f => some (some { u with index := u.index ++
          [{ f with type := t.name, name := t.name, kind := pointerKind, aux := t.kind, td := some t.id, base := t.kind }] })

/-- the loop src/metaresc.c:1958–1969 over the types that are no duplicates -/
def registerAll (u : Option PtrUnion) : List Td → Option (Option PtrUnion)
  | [] => some u
  | t :: ts => do
    let u ← register u t
    registerAll u ts

end Verif.Model.PtrTypes
