/-!
# What the discriminator of a union selects: `mr_union_discriminator_by_type`

Model of /repo/src/mr_save.c:14–199 and /repo/src/metaresc.c:1864–1881, 1971–1972: the discriminator may be a number, an
enumeration, a bit field or a text, a pointer to one of these, an array of these, or a structure that begins with one of these;
which structures do is found out when the types are registered.

* `TYPE_STRUCT, TYPE_UNION, TYPE_ANON_UNION` and `TYPE_NAMED_ANON_UNION` are handled alike here and represented by `struct`.
* Addresses are numbers, 0 is NULL.  The memory of the object is represented by what is read from it (`Mem`).
* The lookup of names is C17, of values of enumerations C28, of bit fields C14; here they are lookups in lists and values.
-/
namespace Verif.Model.Discr

/-- src/mr_protos.h:91–126 `mr_type_t`, as far as they are told apart here; `other`: floating point numbers, functions -/
inductive Ty
  | none | void | bool | char | int (signed : Bool) (bytes : Nat) | bitfield | charArray | string | enum | array | pointer | struct | other
  deriving DecidableEq, Repr

/-- src/mr_protos.h:309–323, 358–375 `mr_stype_t` and `mr_fd_t`: type, type of the element or target, type of the type descriptor,
type descriptor, offset -/
structure Fd where
  type : Ty
  aux : Ty := .none
  base : Ty := .none
  tdp : Option Nat := Option.none
  offset : Nat := 0
  deriving DecidableEq, Repr

/-- src/mr_protos.h:454–468 `mr_td_t`: type, fields of a structure, values of an enumeration with their meta text -/
structure Td where
  type : Ty
  fields : List Fd := []
  enums : List (Int × Option String) := []
  deriving DecidableEq, Repr

/-- the first field of a structure, if it has fields: src/metaresc.c:1871–1872 (and the step of the loop :1868) -/
def Td.first (d : Td) : Option Fd := if d.type = .struct then d.fields.head? else none

/-- src/metaresc.c:43, 1874: MR_UNION_RESOLVABLE_TYPES -/
def resolvable : Ty → Bool
  | .char | .bool | .int _ _ | .enum | .string | .charArray => true
  | _ => false

/-- the fields `is_union_discriminator_set` and `is_union_discriminator` of a type descriptor -/
structure Flags where
  set : Bool := false
  ud : Bool := false
  deriving DecidableEq, Repr

/-- the first loop src/metaresc.c:1868–1877: the type where it ends, NULL is `none` -/
def chase (tds : List Td) : Nat → Option Nat → List Flags → Option (Option Nat × List Flags)
  | 0, _, _ => none
  | _ + 1, none, fl => some (none, fl)
  | fuel + 1, some t, fl => do
    let f ← fl[t]?
    if f.set then some (some t, fl)
    else do
      let d ← tds[t]?
      match d.first with
      | some x => chase tds fuel x.tdp (fl.set t { f with set := true })
      | none => some (some t, fl.set t { set := true, ud := resolvable d.type })

/-- the second loop src/metaresc.c:1879–1880; `fields[0]` must exist -/
def spread (tds : List Td) : Nat → Option Nat → List Flags → Option (List Flags)
  | 0, _, _ => none
  | _ + 1, none, fl => some fl
  | fuel + 1, some t, fl => do
    let f ← fl[t]?
    if f.ud then some fl
    else do
      let x ← (← tds[t]?).first
      spread tds fuel x.tdp (fl.set t { f with ud := true })

/-- src/metaresc.c:1878–1880: what is done with the end of the first loop -/
def settle (tds : List Td) (t : Nat) : Option Nat × List Flags → Option (List Flags)
  | (none, fl) => some fl
  | (some q, fl) => do
    let f ← fl[q]?
    if f.ud then spread tds (tds.length + 1) (some t) fl else some fl

/-- src/metaresc.c:1864–1881 `mr_type_is_union_discriminator` -/
def isDiscriminator (tds : List Td) (t : Nat) (fl : List Flags) : Option (List Flags) := do
  settle tds t (← chase tds (tds.length + 1) (some t) fl)

/-- the loop src/metaresc.c:1971–1972 -/
def flagsLoop (tds : List Td) : List Nat → List Flags → Option (List Flags)
  | [], fl => some fl
  | t :: l, fl => do flagsLoop tds l (← isDiscriminator tds t fl)

/-- for all types, in the order of their list -/
def flags (tds : List Td) : Option (List Flags) := flagsLoop tds (List.range tds.length) (List.replicate tds.length {})

/-- what is read from the object: pointers, numbers (for `bool` the byte), bit fields, enumerations, texts -/
structure Mem where
  ptr : Nat → Nat
  int : Ty → Nat → Int
  bits : Fd → Nat → Int
  enum : Nat → Nat → Int
  text : Nat → String

/-- a union field: names of the members, overrides with value and member (NULL if the name is unknown) -/
structure Un where
  members : List String
  overrides : List (Int × Option Nat) := []
  deriving DecidableEq, Repr

/-- a conversion to a signed type with `n` bits -/
def wrap (n : Nat) (v : Int) : Int := (v + 2 ^ (n - 1)) % 2 ^ n - 2 ^ (n - 1)

/-- the first member, NULL for an empty union -/
def dflt (U : Un) : Option Nat := if U.members.length > 0 then some 0 else none

/-- src/mr_save.c:14–24 `mr_union_discriminator_by_idx` with an index of type `int` -/
def byIdx (U : Un) (idx : Int) : Option Nat :=
  if idx < 0 ∨ idx ≥ U.members.length then dflt U
  else if U.members.length > 0 then some idx.toNat else none

/-- src/mr_save.c:26–41 `mr_union_discriminator_by_name` -/
def byName (U : Un) : Option String → Option Nat
  | none => dflt U
  | some s => if s = "" then dflt U else (U.members.findIdx? fun m => m == s).or (dflt U)

/-- src/mr_save.c:43–54 `mr_ud_override_value`: the value is converted to 64 bits; overrides with unknown members are not in the
collection and of several overrides of a value the first one is (C68) -/
def override (U : Un) (v : Int) : Option Nat := U.overrides.findSome? fun o => if o.1 == wrap 64 v then o.2 else none

/-- src/mr_save.c:83–95: the member for a number; it is converted to `int` -/
def byValue (U : Un) (v : Int) : Option Nat :=
  match override U v with
  | some m => some m
  | none => byIdx U (wrap 32 v)

/-- src/metaresc.c:1114–1122 `mr_get_enum_by_value` and its meta text -/
def metaOf (d : Td) (v : Int) : Option String := (d.enums.find? fun e => e.1 == v).bind Prod.snd

/-- src/mr_save.c:107–118, 136–140: the member for a value of an enumeration -/
def byEnum (U : Un) (d : Td) (v : Int) : Option Nat :=
  match override U v with
  | some m => some m
  | none => byName U (metaOf d v)

/-- src/mr_save.c:56–66 `mr_init_pointer_fd` -/
def ptrFd (f : Fd) : Fd := { f with type := f.aux, aux := f.base, offset := 0 }

/-- the variables of the loop: `mr_type`, `parent_fdp`, `discriminator` -/
structure Cur where
  ty : Ty
  fd : Fd
  a : Nat
  deriving DecidableEq, Repr

/-- one pass: return, or the next values -/
inductive Out
  | done (m : Option Nat)
  | go (c : Cur)
  deriving DecidableEq, Repr

/-- src/mr_save.c:152–160: the case of a pointer -/
def pointerStep (M : Mem) (U : Un) (f : Fd) (a : Nat) : Out :=
  if M.ptr a = 0 then .done (dflt U)
  else .go { ty := f.aux, fd := if f.aux = .pointer then ptrFd f else f, a := M.ptr a }

/-- src/mr_save.c:169–182: the case of structures -/
def structStep (tds : List Td) (fl : List Flags) (f : Fd) (a : Nat) : Option Out :=
  match f.tdp with
  | none => some (.go { ty := .none, fd := f, a := a })
  | some t => do
    let d ← tds[t]?
    let g ← fl[t]?
    match d.first, g.ud with
    | some x, true => some (.go { ty := x.type, fd := x, a := a + x.offset })
    | _, _ => some (.go { ty := .none, fd := f, a := a })

/-- src/mr_save.c:97–121: the case of a bit field -/
def bitsStep (tds : List Td) (M : Mem) (U : Un) (f : Fd) (a : Nat) : Option Out :=
  match f.tdp with
  | none => some (.done (byValue U (M.bits f a)))
  | some t => do
    let d ← tds[t]?
    if d.type = .enum then some (.done (byEnum U d (M.bits f a))) else some (.done (byValue U (M.bits f a)))

/-- src/mr_save.c:129–141: the case of an enumeration -/
def enumStep (tds : List Td) (M : Mem) (U : Un) (f : Fd) (a : Nat) : Option Out :=
  match f.tdp with
  | none => some (.done (dflt U))
  | some t => do some (.done (byEnum U (← tds[t]?) (M.enum t a)))

/-- src/mr_save.c:74–187: the switch -/
def step (tds : List Td) (fl : List Flags) (M : Mem) (U : Un) (c : Cur) : Option Out :=
  match c.ty with
  | .bool => some (.done (byValue U (if M.int .bool c.a = 0 then 0 else 1)))
  | .int s b => some (.done (byValue U (M.int (.int s b) c.a)))
  | .bitfield => bitsStep tds M U c.fd c.a
  | .charArray => some (.done (byName U (some (M.text c.a))))
  | .string => some (.done (byName U (if M.ptr c.a = 0 then none else some (M.text (M.ptr c.a)))))
  | .enum => enumStep tds M U c.fd c.a
  | .array => if c.fd.aux ≠ .pointer then some (.go { c with ty := c.fd.aux }) else some (pointerStep M U (ptrFd c.fd) c.a)
  | .pointer => some (pointerStep M U c.fd c.a)
  | .void => some (.go { c with ty := if c.fd.aux = .void ∨ c.fd.aux = .array ∨ c.fd.aux = .pointer then .none else c.fd.aux })
  | .struct => structStep tds fl c.fd c.a
  | _ => some (.go { c with ty := .none })

/-- the loop src/mr_save.c:72–196; `none` if it has not ended after `fuel` passes -/
def loop (tds : List Td) (fl : List Flags) (M : Mem) (U : Un) : Nat → Cur → Option (Option Nat)
  | 0, _ => none
  | fuel + 1, c => do
    match ← step tds fl M U c with
    | .done m => some m
    | .go c => if c.ty = .none then some (dflt U) else loop tds fl M U fuel c

/-- src/mr_save.c:68–199 `mr_union_discriminator_by_type` for the discriminator field `f` at the address `a` -/
def byType (tds : List Td) (fl : List Flags) (M : Mem) (U : Un) (fuel : Nat) (f : Fd) (a : Nat) : Option (Option Nat) :=
  loop tds fl M U fuel { ty := f.type, fd := f, a := a }

end Verif.Model.Discr
