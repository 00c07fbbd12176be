import Verif.Model.Mem

/-
Model of the registry of type descriptors: `mr_add_type` (/repo/src/metaresc.c:1721-1731),
`mr_sort_td` (/repo/src/metaresc.c:1883-1911), `mr_skip_keywords`
(/repo/src/metaresc.c:73-90) and the part of `mr_conf_init` that fills the table of types
by name (/repo/src/metaresc.c:1940-1956).

Descriptors live in a heap, a list of records; a `mr_td_t *` is `some` index into it, or
`none` for NULL.  Every access is checked: a dangling pointer, or a loop that does not end,
is the outcome `none`.
-/
namespace Verif.Model.Types
open Verif.Model

/-- `MR_TDP_LAST`, /repo/src/mr_protos.h:152-158: MACRO 0, DWARF 1, DUMP_STRUCT 2,
ANON_UNION 3. -/
def tdpLast : Nat := 4

/-- The fields of `mr_td_t` used here.  `typeNone` says that `mr_type` is `MR_TYPE_NONE`;
`name` is `type.str`, without its final NUL. -/
structure Td where
  next : Option Nat
  producer : Nat
  typeNone : Bool
  name : List Nat
deriving DecidableEq, Repr

abbrev Heap := List Td

/-- Write the `next` field of a descriptor. -/
def setNext (h : Heap) (t : Nat) (n : Option Nat) : Option Heap := do
  let d ← h[t]?
  some (h.set t { d with next := n })

/-- `mr_add_type`, /repo/src/metaresc.c:1721-1731.  `list` is `mr_conf.td_list`. -/
def addType (h : Heap) (list : Option Nat) (tdp : Option Nat) : Option (Heap × Option Nat) :=
  match tdp with
  | none => some (h, list)
  | some t => do
    let d ← h[t]?
    if d.typeNone || d.next.isSome then some (h, list)
    else do
      let h ← setNext h t list
      some (h, some t)

/-- A sequence of calls of `mr_add_type`. -/
def addAll : Heap → Option Nat → List (Option Nat) → Option (Heap × Option Nat)
  | h, list, [] => some (h, list)
  | h, list, t :: ts => do
    let (h, list) ← addType h list t
    addAll h list ts

/-- First loop of `mr_sort_td`, /repo/src/metaresc.c:1888-1898: distribute the list over
`by_producer`. -/
def distribute : Nat → Heap → Option Nat → List (Option Nat) → Option (Heap × List (Option Nat))
  | _, h, none, by_ => some (h, by_)
  | 0, _, some _, _ => none
  | fuel + 1, h, some t, by_ => do
    let d ← h[t]?
    if d.producer < tdpLast then do
      let b ← by_[d.producer]?
      let h ← setNext h t b
      let by_ ← wr by_ d.producer (some t)
      distribute fuel h d.next by_
    else distribute fuel h d.next by_

/-- Inner loop of the second part of `mr_sort_td`, /repo/src/metaresc.c:1903-1909: push
the descriptors of one bucket to the front of the result. -/
def collect : Nat → Heap → Option Nat → Option Nat → Option (Heap × Option Nat)
  | _, h, none, root => some (h, root)
  | 0, _, some _, _ => none
  | fuel + 1, h, some t, root => do
    let d ← h[t]?
    let h ← setNext h t root
    collect fuel h d.next (some t)

/-- Outer loop of the second part, /repo/src/metaresc.c:1901-1909: `n` is `i + 1`, going
down to 0. -/
def collectAll (fuel : Nat) (by_ : List (Option Nat)) :
    Nat → Heap → Option Nat → Option (Heap × Option Nat)
  | 0, h, root => some (h, root)
  | i + 1, h, root => do
    let b ← by_[i]?
    let (h, root) ← collect fuel h b root
    collectAll fuel by_ i h root

/-- `mr_sort_td`, /repo/src/metaresc.c:1883-1911. -/
def sortTd (fuel : Nat) (h : Heap) (list : Option Nat) : Option (Heap × Option Nat) := do
  let (h, by_) ← distribute fuel h list (List.replicate tdpLast none)
  collectAll fuel by_ tdpLast h none

/-- One `strncmp (type, KEYWORD " ", sizeof (KEYWORD)) == 0` step of `mr_skip_keywords`. -/
def skipOne (kw : List Nat) (s : List Nat) : List Nat :=
  if (kw ++ [32]).isPrefixOf s then s.drop (kw.length + 1) else s

/-- `mr_skip_keywords`, /repo/src/metaresc.c:73-90. -/
def skipKeywords (s : List Nat) : List Nat :=
  skipOne [101, 110, 117, 109]
    (skipOne [117, 110, 105, 111, 110]
      (skipOne [115, 116, 114, 117, 99, 116] s))

/-- The table of types by name, `mr_conf.type_by_name`.  Simplification: the hash index is
a list of descriptors; `mr_ic_find` on it (/repo/src/metaresc.c:829-836) returns the entry
whose name equals the key (`mr_hashed_string_cmp`, /repo/src/metaresc.c:684-700).  The
index itself is modelled in IcHash.lean. -/
def lookup (h : Heap) (table : List Nat) (name : List Nat) : Option Nat :=
  table.find? (fun t => match h[t]? with
    | some d => d.name == name
    | none => false)

/-- Loop of `mr_conf_init` over the sorted list, /repo/src/metaresc.c:1943-1956.
Simplification: `mr_init_struct`, `mr_init_enum` and `mr_init_func` are left out; they
do not change the names, links or the table entries of the descriptors in the list. -/
def fill : Nat → Heap → Option Nat → List Nat → Option (Heap × List Nat)
  | _, h, none, table => some (h, table)
  | 0, _, some _, _ => none
  | fuel + 1, h, some t, table => do
    let d ← h[t]?
    let d := { d with name := skipKeywords d.name }
    let h := h.set t d
    match lookup h table d.name with
    | some _ => fill fuel h d.next table
    | none => fill fuel h d.next (table ++ [t])

/-- Registration of the types and the initialisation of the table: constructors call
`mr_add_type` for each type, then `mr_conf_init` sorts and indexes the list. -/
def confInit (fuel : Nat) (h : Heap) (ts : List (Option Nat)) : Option (Heap × List Nat) := do
  let (h, list) ← addAll h none ts
  let (h, list) ← sortTd fuel h list
  fill fuel h list []

end Verif.Model.Types
