import Verif.Model.Udo
/-!
# Which type a discriminator has

A discriminator of a union is a member of the structure with the union or of a structure around it.
-/
namespace Verif.Spec.Udo
open Verif.Model.Udo

/-- types of fields exist; the fields of a type have different names -/
structure Described (tds : List Td) : Prop where
  range : ∀ (t : Nat) (d : Td) (f : Fd) (u : Nat), tds[t]? = some d → d.struct = true → f ∈ d.fields → f.td = some u → u < tds.length
  names : ∀ (t : Nat) (d : Td), tds[t]? = some d → d.struct = true → (d.fields.map Fd.name).Nodup

/-- `t` has a member called `name`, and `s` is the name of the type of this member -/
def Member (tds : List Td) (name : List Nat) (t s : Nat) : Prop :=
  ∃ d f u e, tds[t]? = some d ∧ d.struct = true ∧ f ∈ d.fields ∧ f.name = name ∧ f.td = some u ∧ tds[u]? = some e ∧ e.str = s

/-- `outer` has a field (or pointer, or array) of the type `inner` -/
def Around (tds : List Td) (outer inner : Nat) : Prop :=
  ∃ d f, tds[outer]? = some d ∧ d.struct = true ∧ f ∈ d.fields ∧ f.td = some inner

/-- the types in which a discriminator called `name` is looked for: the type `t` with the union, and if a type does not have
such a member, also the types around it -/
inductive Scope (tds : List Td) (name : List Nat) (t : Nat) : Nat → Prop
  | here : Scope tds name t t
  | around {inner outer : Nat} : Scope tds name t inner → (∀ s, ¬ Member tds name inner s) → Around tds outer inner → Scope tds name t outer

/-- `s` is the name of the type of a discriminator called `name` of a union in the type `t` -/
def Discriminator (tds : List Td) (name : List Nat) (t s : Nat) : Prop := ∃ u, Scope tds name t u ∧ Member tds name u s

/-- `s` is what all discriminators agree upon -/
def Unique (tds : List Td) (name : List Nat) (t s : Nat) : Prop :=
  Discriminator tds name t s ∧ ∀ r, Discriminator tds name t r → r = s

/-- an override afterwards: a type that was given is kept, a missing one is `s` -/
def Completed (s : Nat) (o o' : Over) : Prop :=
  o'.value = o.value ∧ match o.type with
    | some x => o'.type = some x ∧ o'.typed = o.typed
    | none => o'.type = some s ∧ o'.typed = true

/-- The field `f` of the type `t` afterwards: nothing but the overrides has changed, and these if there is a unique
discriminator only. -/
structure Decided (tds : List Td) (t : Nat) (f f' : Fd) : Prop where
  rest : f'.name = f.name ∧ f'.td = f.td ∧ f'.note = f.note
  found : ∀ (name : List Nat) (s : Nat) (l : List Over), f.over = some l → f.note = some name → f.td ≠ none → Unique tds name t s →
    ∃ l', f'.over = some l' ∧ l'.length = l.length ∧ ∀ (k : Nat) (o o' : Over), l[k]? = some o → l'[k]? = some o' → Completed s o o'
  missing : (∀ (name : List Nat) (s : Nat), f.note = some name → f.td ≠ none → ¬ Unique tds name t s) → f' = f

end Verif.Spec.Udo
