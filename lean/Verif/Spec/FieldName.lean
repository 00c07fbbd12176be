import Verif.Model.FieldName
/-!
# Names in declarations
-/
namespace Verif.Spec.FieldName
open Verif.Model.FieldName

/-- letters, digits and the underscore -/
def IdChar (c : Nat) : Prop := (65 ≤ c ∧ c ≤ 90) ∨ (97 ≤ c ∧ c ≤ 122) ∨ (48 ≤ c ∧ c ≤ 57) ∨ c = 95

/-- the text is `before ++ name ++ behind` where `name` is its first word -/
structure FirstWord (before name behind : List Nat) : Prop where
  skipped : ∀ c ∈ before, ¬ IdChar c
  word : ∀ c ∈ name, IdChar c
  nonempty : name ≠ []
  ends : ∀ c, behind.head? = some c → ¬ IdChar c

/-- the bytes from `p` on begin with the C string `s` -/
def StringAt (block : List Nat) (p : Nat) (s : List Nat) : Prop := 0 ∉ s ∧ ∃ rest, block.drop p = s ++ 0 :: rest

/-- what becomes of a field that is made void: its type is remembered unless the field is an array, a pointer or a bit-field
(for them the other type already describes what they consist of) or void already -/
def madeVoid (f : Fd) : Fd :=
  match f.ty with
  | .other n => { name := f.name, ty := .void, aux := .other n }
  | _ => { name := f.name, ty := .void, aux := f.aux }

end Verif.Spec.FieldName
