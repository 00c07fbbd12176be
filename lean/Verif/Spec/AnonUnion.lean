import Verif.Model.AnonUnion
import Verif.Spec.Numeral

/-
What the extraction of anonymous unions has to achieve.
-/
namespace Verif.Spec.AnonUnion
open Verif.Model.AnonUnion Verif.Spec

/-- The declaration of the members of a structure: nothing more; a field and the rest; or
an anonymous union (its header record, its members, its end record) and the rest.
Numbers are field descriptors. -/
inductive Decl
  | nil
  | field (f : Nat) (rest : Decl)
  | union (header : Nat) (body : Decl) (endRecord : Nat) (rest : Decl)

/-- The records in the order in which they are declared. -/
def flat : Decl → List Nat
  | .nil => []
  | .field f r => f :: flat r
  | .union h b e r => h :: (flat b ++ e :: flat r)

/-- The members a user sees: fields, and each union as one member. -/
def top : Decl → List Nat
  | .nil => []
  | .field f r => f :: top r
  | .union h _ _ r => h :: top r

/-- All the fields at any depth. -/
def leaves : Decl → List Nat
  | .nil => []
  | .field f r => f :: leaves r
  | .union _ b _ r => leaves b ++ leaves r

/-- How deep unions are nested. -/
def depth : Decl → Nat
  | .nil => 0
  | .field _ r => depth r
  | .union _ b _ r => max (depth b + 1) (depth r)

def resOf (fds : List Fd) (h : Nat) : Nat := ((fds[h]?).map Fd.res).getD 0
def fieldOffset (fds : List Fd) (f : Nat) : Nat := ((fds[f]?).map Fd.offset).getD 0
def fieldSize (fds : List Fd) (f : Nat) : Nat := ((fds[f]?).map Fd.size).getD 0

/-- The descriptors allocated for the unions, inner ones first. -/
def unionTypes (fds : List Fd) : Decl → List Nat
  | .nil => []
  | .field _ r => unionTypes fds r
  | .union h b _ r => unionTypes fds b ++ resOf fds h :: unionTypes fds r

/-- Size of the largest field at any depth. -/
def largest (fds : List Fd) (d : Decl) : Nat := ((leaves d).map (fieldSize fds)).foldr max 0

/-- The records are what the declaration macros (/repo/src/metaresc.h:750-766) produce:
`len` is the length of the name of the structure. -/
def Records (fds : List Fd) (tds : List Td) (len : Nat) : Decl → Prop
  | .nil => True
  | .field f r =>
    (∃ fd, fds[f]? = some fd ∧ fd.kind ≠ .anonUnion ∧ fd.kind ≠ .namedAnonUnion ∧
      fd.kind ≠ .endAnonUnion) ∧ Records fds tds len r
  | .union h b e r =>
    (∃ hd, fds[h]? = some hd ∧ (hd.kind = .anonUnion ∨ hd.kind = .namedAnonUnion) ∧
      hd.size = 0 ∧ hd.offset = 0 ∧ hd.nameCap = len + 1 + 16 * 6 ∧
      ∃ ud, tds[hd.res]? = some ud ∧ ud.nameCap = len + 1 + 16 * 8) ∧
    (∃ ed, fds[e]? = some ed ∧ ed.kind = .endAnonUnion ∧ ed.size = 0 ∧ ed.offset = 0) ∧
    Records fds tds len b ∧ Records fds tds len r

/-- The fields of a type are exactly `l`, in this order, and the array ends with NULL. -/
def Holds (st : St) (td : Td) (l : List Nat) : Prop :=
  td.count = l.length ∧ ∀ k, k ≤ l.length → st.mem[td.fields + k]? = some (l[k]?)

/-- `o` is the place of a union: if all its fields have the same offset (or 0, for
fields without an address), and there is one with that offset, then `o` is it. -/
def Place (fds : List Fd) (b : Decl) (o : Nat) : Prop :=
  ∀ x, (∀ f ∈ leaves b, fieldOffset fds f = x ∨ fieldOffset fds f = 0) →
    (∃ f ∈ leaves b, fieldOffset fds f = x) → o = x

/-- The members of `d` in the final state `st`: `fds` are the original descriptors, `name`
is the name of the type with these members, `inner` says that this type is an extracted
union, and the number is the index of the next member.
 - A field is unchanged, but in a union its offset is relative to the union, hence 0.
 - A union got a type of its own, named after its parent and its index, of the kind of
   the header and the size of the largest field, which holds exactly the members of the
   union; the header refers to this type, has its size, the place of the union as its
   offset, and the attributes of the end record. -/
def Extracted (fds : List Fd) (st : St) : List Nat → Bool → Nat → Decl → Prop
  | _, _, _, .nil => True
  | name, inner, i, .field f r =>
    (∃ fd, fds[f]? = some fd ∧
      st.fds[f]? = some (if inner then { fd with offset := 0 } else fd)) ∧
    Extracted fds st name inner (i + 1) r
  | name, inner, i, .union h b e r =>
    (∃ hd ed td digits o, fds[h]? = some hd ∧ fds[e]? = some ed ∧ IsDecimal i digits ∧
      (if inner then o = 0 else Place fds b o) ∧
      st.fds[h]? = some
        { hd with name := if hd.name = [] then name ++ ascii "_" ++ digits else hd.name,
                  type := name ++ ascii "_" ++ digits ++ ascii "_t",
                  size := largest fds b, offset := o, info := ed.info, res := ed.res,
                  resType := ed.resType, mrSize := ed.mrSize } ∧
      st.tds[hd.res]? = some td ∧ td.kind = hd.kind ∧
      td.name = name ++ ascii "_" ++ digits ++ ascii "_t" ∧ td.size = largest fds b ∧
      td.producer = 3 ∧ Holds st td (top b) ∧ Extracted fds st td.name true 0 b) ∧
    Extracted fds st name inner (i + 1) r

end Verif.Spec.AnonUnion
