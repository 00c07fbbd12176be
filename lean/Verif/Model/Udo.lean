/-!
# The types of discriminators that override members of unions: `mr_udo_init`

Model of /repo/src/mr_udo_init.c.  The description of a union field may list values of its discriminator together with
the member to use (`mr_ud_override_t`).  A value whose type is not given gets the type of the discriminator: the structure
with the field, and then the structures with fields of that structure's type, and so on, are searched for a member with the
name of the discriminator.

* Types are positions in the list of all descriptors, `tdp` is such a position; a name is a list of characters.
* The collection `field_by_name` holds the same fields as the array `fields`; `mr_ic_find` and `mr_ic_foreach` are those
  of the collections of the library (C13–C17).
* Overrides of different fields are different memory.
-/
namespace Verif.Model.Udo

/-- src/mr_protos.h:296–302 `mr_ud_override_t`: `value`, `type` (the address of the name), `typed`: `typed_value` leads to
`value` -/
structure Over where
  value : Nat
  type : Option Nat := none
  typed : Bool := false
  deriving DecidableEq, Repr

/-- src/mr_protos.h:358–384 `mr_fd_t`: `name`, `stype.tdp`, `meta`; `over` are the resources `res` if `res_type` is
"mr_ud_override_t" -/
structure Fd where
  name : List Nat
  td : Option Nat := none
  note : Option (List Nat) := none
  over : Option (List Over) := none
  deriving DecidableEq, Repr

/-- src/mr_protos.h:454–470 `mr_td_t`: `type.str` (an address), is `mr_type` one of MR_STRUCT_TYPES (src/mr_save.h:7), the
fields -/
structure Td where
  str : Nat
  struct : Bool := true
  fields : List Fd := []
  deriving DecidableEq, Repr

/-- src/mr_udo_init.c:36–52 `mr_append_td` for all types: the array `types` -/
def structs (tds : List Td) : List Nat := (List.range tds.length).filter fun t => (tds[t]?).any Td.struct

/-- src/mr_udo_init.c:81–101 `mr_append_ref`: `i` is appended to the list of the type of the field -/
def appendRef (types : List Nat) (i : Nat) (f : Fd) (refs : List (List Nat)) : Option (List (List Nat)) :=
  match f.td.bind fun t => types.findIdx? fun u => u == t with
  | none => some refs
  | some k => do some (refs.set k ((← refs[k]?) ++ [i]))

/-- `mr_ic_foreach` on the fields of a type, src/mr_udo_init.c:119 -/
def appendRefs (types : List Nat) (i : Nat) : List Fd → List (List Nat) → Option (List (List Nat))
  | [], refs => some refs
  | f :: l, refs => do appendRefs types i l (← appendRef types i f refs)

/-- the loop src/mr_udo_init.c:116–122 -/
def refLoop (tds : List Td) (types : List Nat) : List Nat → List (List Nat) → Option (List (List Nat))
  | [], refs => some refs
  | i :: l, refs => do
    let d ← tds[← types[i]?]?
    refLoop tds types l (← appendRefs types i d.fields refs)

/-- src/mr_udo_init.c:103–124 `mr_udo_build_ref_graph`: for every type the positions in `types` of those that have a
field of it -/
def buildRefs (tds : List Td) (types : List Nat) : Option (List (List Nat)) :=
  refLoop tds types (List.range types.length) (List.replicate types.length [])

/-- src/mr_udo_init.c:134–138: the address of the name of the type of the member, if there is such a member and it has a
descriptor; src/metaresc.c:1656–1667 `mr_get_fd_by_name` -/
def member (tds : List Td) (types : List Nat) (name : List Nat) (i : Nat) : Option (Option Nat) := do
  let d ← tds[← types[i]?]?
  match (d.fields.find? fun f => f.name == name).bind Fd.td with
  | none => some none
  | some t => do some (some (← tds[t]?).str)

/-- `visited` and `*discriminator_type` -/
structure St where
  visited : List Bool
  disc : Option Nat := none
  deriving DecidableEq, Repr

/-- src/mr_udo_init.c:137–141: does the type agree with what was found before -/
def agree (s : St) (x : Nat) : Bool × St :=
  match s.disc with
  | none => (true, { s with disc := some x })
  | some y => (decide (y = x), s)

/-- the loop src/mr_udo_init.c:146–148 -/
def dfsAll (inner : St → Nat → Option (Bool × St)) : List Nat → St → Option (Bool × St)
  | [], s => some (true, s)
  | i :: l, s => do
    let (ok, s) ← inner s i
    if ok then dfsAll inner l s else some (false, s)

/-- src/mr_udo_init.c:126–151 `mr_udo_dfs`; the first argument bounds the depth of the recursion -/
def dfs (member : Nat → Option (Option Nat)) (refs : List (List Nat)) : Nat → St → Nat → Option (Bool × St)
  | 0, _, _ => none
  | fuel + 1, s, i => do
    if ← s.visited[i]? then some (true, s)
    else
      let s := { s with visited := s.visited.set i true }
      match ← member i with
      | some x => some (agree s x)
      | none => do dfsAll (dfs member refs fuel) (← refs[i]?) s

/-- src/mr_udo_init.c:178–183 -/
def setType (x : Nat) (o : Over) : Over := if o.type = none then { o with type := some x, typed := true } else o

/-- src/mr_udo_init.c:171–183: search, then set the types that are missing -/
def assignTypes (tds : List Td) (types : List Nat) (refs : List (List Nat)) (i : Nat) (name : List Nat) (l : List Over) : Option (List Over) := do
  let (ok, s) ← dfs (member tds types name) refs (types.length + 1) { visited := List.replicate types.length false } i
  match ok, s.disc with
  | true, some x => some (l.map (setType x))
  | _, _ => some l

/-- src/mr_udo_init.c:153–184 `mr_udo_detect_types` -/
def detect (tds : List Td) (types : List Nat) (refs : List (List Nat)) (i : Nat) (f : Fd) : Option Fd :=
  match f.over, f.td, f.note with
  | some l, some _, some name =>
    if l.all fun o => o.type.isSome then some f
    else do some { f with over := some (← assignTypes tds types refs i name l) }
  | _, _, _ => some f

/-- the loop src/mr_udo_init.c:194–195 -/
def detectAll (tds : List Td) (types : List Nat) (refs : List (List Nat)) (i : Nat) : List Fd → Option (List Fd)
  | [] => some []
  | f :: l => do
    let g ← detect tds types refs i f
    some (g :: (← detectAll tds types refs i l))

/-- src/mr_udo_init.c:186–197 `mr_udo_foreach`: `cur` are the descriptors so far.  (They differ from `tds` in overrides
only, on which the search does not depend.) -/
def foreachLoop (tds : List Td) (types : List Nat) (refs : List (List Nat)) : List Nat → List Td → Option (List Td)
  | [], cur => some cur
  | i :: l, cur => do
    let t ← types[i]?
    let d ← cur[t]?
    let fields ← detectAll tds types refs i d.fields
    foreachLoop tds types refs l (cur.set t { d with fields := fields })

/-- src/mr_udo_init.c:213–236 `mr_udo_init`; `mem`: is there memory for the graph -/
def udoInit (mem : Bool) (tds : List Td) : Option (List Td) :=
  if mem then do
    let types := structs tds
    let refs ← buildRefs tds types
    foreachLoop tds types refs (List.range types.length) tds
  else some tds

end Verif.Model.Udo
