import Verif.Model.Discr
/-!
# What a discriminator selects
-/
namespace Verif.Spec.Discr
open Verif.Model.Discr

/-- The chain of first fields that begins with the type `t` ends in a number, an enumeration or a text. -/
inductive Ends (tds : List Td) : Nat → Prop
  | here {t : Nat} {d : Td} : tds[t]? = some d → d.first = none → resolvable d.type = true → Ends tds t
  | next {t u : Nat} {d : Td} {f : Fd} : tds[t]? = some d → d.first = some f → f.tdp = some u → Ends tds u → Ends tds t

/-- an object: something without a value, a bit field, an object of a type, a pointer, an array -/
inductive Obj
  | opaque
  | bits (f : Fd)
  | base (t : Ty) (tdp : Option Nat)
  | ptr (o : Obj)
  | arr (o : Obj)

/-- the object that a field descriptor describes -/
def shape (f : Fd) : Obj :=
  match f.type with
  | .pointer => if f.aux = .pointer then .ptr (.ptr (.base f.base f.tdp)) else .ptr (.base f.aux f.tdp)
  | .array => if f.aux = .pointer then .arr (.ptr (.base f.base f.tdp)) else .arr (.base f.aux f.tdp)
  | .bitfield => .bits f
  | .void =>
    -- a field that is not to be saved; `aux` is what it is
    if f.aux = .void ∨ f.aux = .array ∨ f.aux = .pointer then .opaque
    else if f.aux = .bitfield then .bits f
    else .base f.aux f.tdp
  | t => .base t f.tdp

/-- the value of a discriminator: nothing, a number, the value of an enumeration with the text given for it, a text -/
inductive Scalar
  | nothing
  | number (v : Int)
  | enum (v : Int) (text : Option String)
  | text (s : Option String)

/-- the value of a bit field -/
def bitsValue (tds : List Td) (M : Mem) (f : Fd) (a : Nat) : Scalar :=
  match f.tdp.bind fun t => tds[t]? with
  | some d => if d.type = .enum then .enum (M.bits f a) (metaOf d (M.bits f a)) else .number (M.bits f a)
  | none => .number (M.bits f a)

/-- the value of an object that is no structure -/
def plain (tds : List Td) (M : Mem) (t : Ty) (tdp : Option Nat) (a : Nat) : Scalar :=
  match t with
  | .bool => .number (if M.int .bool a = 0 then 0 else 1)
  | .int s b => .number (M.int (.int s b) a)
  | .charArray => .text (some (M.text a))
  | .string => .text (if M.ptr a = 0 then none else some (M.text (M.ptr a)))
  | .enum =>
    match tdp with
    | none => .nothing
    | some t => match tds[t]? with
      | none => .nothing
      | some d => .enum (M.enum t a) (metaOf d (M.enum t a))
  | _ => .nothing

/-- the value of an object at an address: of a pointer the value of its target, of an array the value of its first element, of a
structure the value of its first field -/
inductive Denotes (tds : List Td) (M : Mem) : Obj → Nat → Scalar → Prop
  | opaque {a : Nat} : Denotes tds M .opaque a .nothing
  | bits {f : Fd} {a : Nat} : Denotes tds M (.bits f) a (bitsValue tds M f a)
  | plain {t : Ty} {tdp : Option Nat} {a : Nat} : t ≠ .struct → Denotes tds M (.base t tdp) a (plain tds M t tdp a)
  | null {o : Obj} {a : Nat} : M.ptr a = 0 → Denotes tds M (.ptr o) a .nothing
  | target {o : Obj} {a : Nat} {r : Scalar} : M.ptr a ≠ 0 → Denotes tds M o (M.ptr a) r → Denotes tds M (.ptr o) a r
  | element {o : Obj} {a : Nat} {r : Scalar} : Denotes tds M o a r → Denotes tds M (.arr o) a r
  | first {t a : Nat} {d : Td} {f : Fd} {r : Scalar} : Ends tds t → tds[t]? = some d → d.first = some f → Denotes tds M (shape f) (a + f.offset) r → Denotes tds M (.base .struct (some t)) a r
  | empty {t a : Nat} {d : Td} : tds[t]? = some d → d.first = none → Denotes tds M (.base .struct (some t)) a .nothing
  | endless {t a : Nat} : ¬ Ends tds t → Denotes tds M (.base .struct (some t)) a .nothing
  | untyped {a : Nat} : Denotes tds M (.base .struct none) a .nothing

/-- the member with the number `n` counts as the first if there is none -/
def orFirst (U : Un) (m : Option Nat) : Option Nat := m.or (if U.members = [] then none else some 0)

/-- the member given for the value explicitly: by the first override of the value that names a member -/
def Given (U : Un) (v : Int) : Option Nat := U.overrides.findSome? fun o => if o.1 == v then o.2 else none

/-- The member that a value selects: what an override says; or the member with this number, the member with the name in the
text; or else the first. -/
def member (U : Un) : Scalar → Option Nat
  | .nothing => orFirst U none
  | .number v => (Given U v).or (orFirst U (if 0 ≤ v ∧ v < U.members.length then some v.toNat else none))
  | .enum v s => (Given U v).or (orFirst U (s.bind fun s => if s = "" then none else U.members.findIdx? fun m => m == s))
  | .text s => orFirst U (s.bind fun s => if s = "" then none else U.members.findIdx? fun m => m == s)

/-- the values that stay what they are when they are converted to `int` or 64 bits -/
def Fits : Scalar → Prop
  | .number v => -2 ^ 31 ≤ v ∧ v < 2 ^ 32
  | .enum v _ => -2 ^ 63 ≤ v ∧ v < 2 ^ 63
  | _ => True

/-- the type descriptors of fields exist, and pointers and arrays are such as `mr_validate_stype` (src/metaresc.c:1752–1851) leaves
them: no pointers to arrays or bit fields; the type of a type descriptor is no pointer, array or bit field -/
structure FdOk (tds : List Td) (f : Fd) : Prop where
  tdp : ∀ t, f.tdp = some t → t < tds.length
  aux : f.type = .pointer ∨ f.type = .array → f.aux ≠ .array ∧ f.aux ≠ .bitfield
  base : f.type = .pointer ∨ f.type = .array → f.aux = .pointer → f.base ≠ .array ∧ f.base ≠ .bitfield ∧ f.base ≠ .pointer

def Valid (tds : List Td) : Prop := ∀ d ∈ tds, ∀ f ∈ d.fields, FdOk tds f

end Verif.Spec.Discr
