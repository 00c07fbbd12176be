import Verif.Model.Mem

/-
Model of the extraction of anonymous unions from the declaration of a structure:
`mr_anon_unions_extract` (/repo/src/metaresc.c:851-938) and `mr_init_struct`
(/repo/src/metaresc.c:1587-1602).

Field descriptors and type descriptors live in heaps, `mr_fd_t *` and `mr_td_t *` are
indices into them.  `mem` is the array of field pointers declared for the structure
(/repo/src/metaresc.h:744-766), `none` is NULL; all the types extracted from a
structure share it.  Every access is checked: an access outside of an array, a NULL
dereference, a `sprintf` over the end of its buffer or a loop that does not end is the
outcome `none`.

Simplifications: `mr_normalize_field_name` (only for `VOID` fields) and the index of the
fields by name are left out; hash values are left out; `meta`, `res_type` and `MR_SIZE`
are opaque numbers; `res` is a number, for a union header the index of the descriptor
allocated for the union.
-/
namespace Verif.Model.AnonUnion
open Verif.Model

/-- The values of `mr_type_t` (/repo/src/mr_protos.h:91-126) that matter here. -/
inductive Kind
  | other
  | struct
  | union
  | anonUnion
  | namedAnonUnion
  | endAnonUnion
deriving DecidableEq, Repr

/-- `mr_fd_t`, /repo/src/mr_protos.h:358-390.  `name` is the string in a buffer of
`nameCap` bytes. -/
structure Fd where
  kind : Kind
  name : List Nat
  nameCap : Nat
  type : List Nat
  size : Nat
  offset : Nat
  info : Nat
  res : Nat
  resType : Nat
  mrSize : Nat
deriving DecidableEq, Repr

/-- `mr_td_t`, /repo/src/mr_protos.h:453-468.  `fields` is a position in `mem`, `count`
is `fields_size` in units of pointers; `name` is in a buffer of `nameCap` bytes. -/
structure Td where
  kind : Kind
  name : List Nat
  nameCap : Nat
  size : Nat
  producer : Nat
  fields : Nat
  count : Nat
deriving DecidableEq, Repr

/-- `added` are the descriptors passed to `mr_ic_add (&mr_conf.type_by_name, ...)` and
`mr_add_type`, in order. -/
structure St where
  fds : List Fd
  tds : List Td
  mem : List (Option Nat)
  added : List Nat
deriving DecidableEq, Repr

def isHeader (k : Kind) : Bool := k == .anonUnion || k == .namedAnonUnion

/-- `MR_STRUCT_TYPES`, /repo/src/mr_save.h:7. -/
def isStructType (k : Kind) : Bool :=
  k == .struct || k == .union || k == .anonUnion || k == .namedAnonUnion

/-- Read `n` pointers from position `p`. -/
def readN (mem : List (Option Nat)) (p n : Nat) : Option (List (Option Nat)) :=
  if p + n ≤ mem.length then some ((mem.drop p).take n) else none

/-- Write pointers at position `p`. -/
def writeN (mem : List (Option Nat)) (p : Nat) (xs : List (Option Nat)) :
    Option (List (Option Nat)) :=
  if p + xs.length ≤ mem.length then some (mem.take p ++ xs ++ mem.drop (p + xs.length)) else none

/-- The descriptor behind the pointer at position `p`. -/
def fieldAt (st : St) (p : Nat) : Option (Nat × Fd) := do
  let f ← (← st.mem[p]?)
  let d ← st.fds[f]?
  some (f, d)

/-- The loop that looks for the matching end record,
/repo/src/metaresc.c:867-877: `some none` when there is none. -/
def findEnd (st : St) (base count : Nat) : Nat → Nat → Nat → Option (Option Nat)
  | 0, _, _ => none
  | fuel + 1, j, opened =>
    if j < count then do
      let (_, d) ← fieldAt st (base + j)
      let opened := if isHeader d.kind then opened + 1 else opened
      if d.kind = .endAnonUnion then
        (if opened - 1 = 0 then some (some j) else findEnd st base count fuel (j + 1) (opened - 1))
      else findEnd st base count fuel (j + 1) opened
    else some none

/-- The loop over the members, /repo/src/metaresc.c:897-906: moves the offset of the
members to the header `h` and finds the size of the largest member. -/
def scanMembers (h : Nat) : List (Option Nat) → List Fd → Nat → Option (List Fd × Nat)
  | [], fds, size => some (fds, size)
  | p :: ps, fds, size => do
    let f ← p
    let d ← fds[f]?
    let hd ← fds[h]?
    let fds := if d.offset ≠ 0 then fds.set h { hd with offset := d.offset } else fds
    let d ← fds[f]?
    let fds := fds.set f { d with offset := 0 }
    scanMembers h ps fds (if size < d.size then d.size else size)

/-- `%d` for a number that is not negative. -/
def decimalLoop : Nat → Nat → List Nat
  | 0, n => [48 + n % 10]
  | fuel + 1, n => if n < 10 then [48 + n] else decimalLoop fuel (n / 10) ++ [48 + n % 10]

def decimal (n : Nat) : List Nat := decimalLoop n n

/-- `sprintf` into a buffer of `cap` bytes. -/
def sprintf (cap : Nat) (text : List Nat) : Option (List Nat) :=
  if text.length + 1 ≤ cap then some text else none

/-- `MR_ANONYMOUS_FIELD_NAME_TEMPLATE`, /repo/src/metaresc.h:103: `"%s_%d"`. -/
def fieldName (type : List Nat) (i : Nat) : List Nat := type ++ [95] ++ decimal i

/-- `MR_ANONYMOUS_FIELD_TYPE_TEMPLATE`, /repo/src/metaresc.h:104: `"%s_%d_t"`. -/
def typeName (type : List Nat) (i : Nat) : List Nat := fieldName type i ++ [95, 116]

/-- The new name of a header field, /repo/src/metaresc.c:916-918. -/
def headerName (td : Td) (i : Nat) (fd : Fd) : Option (List Nat) :=
  if fd.name = [] then sprintf fd.nameCap (fieldName td.name i) else some fd.name

/-- The block for one union, /repo/src/metaresc.c:879-929, up to the call of
`mr_init_struct`: `t` is the structure with its first field at `base`, `i` the index of
the header `f`, `j` that of the matching end record; `MR_TDP_ANON_UNION` is 3
(/repo/src/mr_protos.h:152-158).  Returns the new count. -/
def split (st : St) (t i j f : Nat) (count : Nat) : Option (St × Nat) := do
  let td ← st.tds[t]?
  let fd ← st.fds[f]?
  let u := fd.res
  let fieldsCount := j - i
  let first := td.fields + i + 1
  let fields ← readN st.mem first fieldsCount
  let tail ← readN st.mem (first + fieldsCount) (count - j)
  let mem ← writeN st.mem first tail
  let mem ← writeN mem (first + (count - j)) fields
  let (fds, size) ← scanMembers f (fields.take (fieldsCount - 1)) st.fds 0
  let last ← (← mem[td.fields + count]?)
  let mem ← wr mem (td.fields + count) none
  let fd ← fds[f]?
  let ud ← st.tds[u]?
  let name ← sprintf ud.nameCap (typeName td.name i)
  let hname ← headerName td i fd
  let ld ← fds[last]?
  let ud := { ud with kind := fd.kind, name := name, size := size, producer := 3,
                      fields := td.fields + (count - fieldsCount + 1) }
  let fd := { fd with name := hname, type := name, size := size, info := ld.info, res := ld.res,
                      resType := ld.resType, mrSize := ld.mrSize }
  let tds := st.tds.set u ud
  let td ← tds[t]?
  let tds := tds.set t { td with count := count - fieldsCount }
  some ({ st with fds := fds.set f fd, tds := tds, mem := mem }, count - fieldsCount)

/-- `for (count = 0; fields[count] != NULL; ++count)`, /repo/src/metaresc.c:1594-1595. -/
def countFields (mem : List (Option Nat)) (base : Nat) : Nat → Nat → Option Nat
  | 0, _ => none
  | fuel + 1, n => do
    match ← mem[base + n]? with
    | none => some n
    | some _ => countFields mem base fuel (n + 1)

/-- `mr_init_struct`, /repo/src/metaresc.c:1591-1596, before the extraction. -/
def startStruct (st : St) (t : Nat) : Option (St × Nat) := do
  let td ← st.tds[t]?
  let count ← countFields st.mem td.fields (st.mem.length + 1) 0
  some ({ st with tds := st.tds.set t { td with count := count } }, count)

/-- The loop of `mr_anon_unions_extract`, /repo/src/metaresc.c:857-936, from index `i`.
The call of `mr_init_struct` for the new type is `startStruct` and the same loop from
index 0; its status is ignored (/repo/src/metaresc.c:1598).  The result `false` is
`MR_FAILURE`. -/
def extract : Nat → St → Nat → Nat → Nat → Option (St × Bool)
  | 0, _, _, _, _ => none
  | fuel + 1, st, t, count, i =>
    if i < count then do
      let td ← st.tds[t]?
      let (f, fd) ← fieldAt st (td.fields + i)
      if isHeader fd.kind then do
        match ← findEnd st td.fields count (count + 1) (i + 1) 1 with
        | none => some (st, false)
        | some j =>
          let u := fd.res
          let (st, count) ← split st t i j f count
          let (st, ucount) ← startStruct st u
          let (st, _) ← extract fuel st u ucount 0
          extract fuel { st with added := st.added ++ [u] } t count (i + 1)
      else extract fuel st t count (i + 1)
    else some (st, true)

/-- `mr_init_struct`, /repo/src/metaresc.c:1587-1602. -/
def initStruct (fuel : Nat) (st : St) (t : Nat) : Option St := do
  let td ← st.tds[t]?
  if isStructType td.kind then do
    let (st, count) ← startStruct st t
    let (st, _) ← extract fuel st t count 0
    some st
  else some st

end Verif.Model.AnonUnion
