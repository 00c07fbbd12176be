/-!
# Loading of structures with named anonymous unions

Models src/mr_load.c `mr_load_struct`, `mr_load_struct_next_field`, `mr_load_anon_union` and the check of names of `mr_load`: which
field every node below a structure goes to.  What is loaded into the field is not modelled here (see `Model.Load`), nor is the check of
the types of typed nodes; `route` says what happens if the fields themselves can be loaded.
-/
namespace Verif.Model.AnonLoad

/-- what matters of `mr_fd_t`: src/metaresc.h `name`, `unnamed`, and whether `stype.mr_type` is `MR_TYPE_NAMED_ANON_UNION` -/
structure Field where
  name : String
  unnamed : Bool
  anon : Bool
deriving DecidableEq

/-- what matters of `mr_ptrdes_t` after parsing: the name (`fdp`, NULL if the document gives none), whether there are children
(`first_child`) and whether the value is an empty text (`value_type` and `load_params.vt_substr.length`) -/
structure Node where
  name : Option String
  kids : Bool
  emptyText : Bool
deriving DecidableEq

/-- what becomes of a node: it is loaded into field number `k`, or it only announces that the next one is for the union `k` -/
inductive Dest
  | into (k : Nat)
  | announces (k : Nat)
deriving DecidableEq

/-- src/mr_load.c:555–567 `mr_load_struct_next_field` (numbers of fields instead of addresses) -/
def nextField : Option Nat → Nat
  | none => 0
  | some k => k + 1

/-- src/mr_load.c:595–597; src/metaresc.c:1656–1667 `mr_get_fd_by_name` -/
def select (fs : List Field) (cur : Option Nat) (name : Option String) : Nat :=
  match name.bind fun n => fs.findIdx? fun f => f.name == n with
  | some k => k
  | none => nextField cur

/-- src/mr_load.c:874–880: the name of the node is not the one of the field -/
def mismatch (f : Field) (name : Option String) : Bool :=
  !f.unnamed && (match name with
    | some n => n != f.name
    | none => false)

/-- src/mr_load.c:787–796: the C init form of an anonymous union; the table src/mr_load.c:804–838 has `mr_load_anon_union` for named
anonymous unions only.  `ptrdes->fdp` is never NULL here: src/mr_load.c:883 has just set it. -/
def marker (f : Field) (n : Node) (rest : List Node) : Bool :=
  f.anon && !n.kids && n.emptyText && (match rest with
    | m :: _ => m.name.isNone
    | [] => false)

/-- the loop src/mr_load.c:593–608 with what `mr_load` and `mr_load_anon_union` do for every child; `cur` is the field of the previous
node, `given` the name that `mr_load_anon_union` has given to the first node (src/mr_load.c:795). `none` is a failure. -/
def route (fs : List Field) : Option Nat → Option String → List Node → Option (List Dest)
  | _, _, [] => some []
  | cur, given, n :: rest =>
    let name := match given with
      | some g => some g
      | none => n.name
    let k := select fs cur name
    match fs[k]? with
    | none => none
    | some f =>
      if mismatch f name then none
      else if marker f n rest then (route fs (some k) (some f.name) rest).map (Dest.announces k :: ·)
      else (route fs (some k) none rest).map (Dest.into k :: ·)

/-- src/mr_load.c:576–610 `mr_load_struct`: where the nodes below a structure with the fields `fs` go -/
def loadStruct (fs : List Field) (nodes : List Node) : Option (List Dest) := route fs none none nodes

end Verif.Model.AnonLoad
