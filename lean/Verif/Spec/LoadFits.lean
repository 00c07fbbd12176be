import Verif.Spec.LoadSays
/-!
# Documents that fit the type of the object that is filled from them
-/
namespace Verif.Spec.LoadFits
open Verif.Model Verif.Model.Ptrs Verif.Model.Save Verif.Model.Copy Verif.Model.Load Verif.Spec.Save Verif.Spec.Load Verif.Spec.LoadSays
open Verif.Spec.Copy (Grown)
open Verif.Model.XdrGraph (tdAt)

/-- There is memory for `count` blocks of up to `size` bytes, if `live` is in use. -/
def Plenty (alloc : Blocks → Nat → Nat) (live : Blocks) (count size : Nat) : Prop :=
  ∀ (new : Blocks) (n : Nat), Grown alloc live new → new.length < count → (∀ b ∈ new, b.2 ≤ size) → 0 < n → n ≤ size → alloc (live ++ new) n ≠ 0

/-- `R i f`: the node `i` of the document can be read as an object of type `f`.  No object needs a block of more than `size` bytes. -/
structure Fits (E : Env) (size : Nat) (R : Nat → Fd → Prop) : Prop where
  /-- the name and the type that are mentioned in the document are those of the field -/
  named : ∀ (i : Nat) (f : Fd) (d : Doc), R i f → E.data[i]? = some d →
    (∀ n, d.name = some n → f.unnamed = false → f.name ≠ [] → n = f.name) ∧ ∀ t, d.typed = some t → t = f.td
  /-- types that exist -/
  kind : ∀ (i : Nat) (f : Fd), R i f → f.ty ≠ .endAnonUnion ∧ f.ty ≠ .last
  /-- values can be converted -/
  value : ∀ (i : Nat) (f : Fd) (d : Doc), R i f → valueType f.ty = true → E.data[i]? = some d → valueBytes E f i d ≠ none
  bits : ∀ (i : Nat) (f : Fd), R i f → f.ty = .bitfield → E.conv f i ≠ .fail
  /-- strings are NULL, references or texts -/
  text : ∀ (i : Nat) (f : Fd) (d : Doc), R i f → f.ty = .string → E.data[i]? = some d → d.null = true ∨ (∃ v, d.val = .int v) ∨ ∃ t, d.val = .text t ∧ t.length < size
  /-- the children of a structure have the names of fields, or there is a field for each of them -/
  members : ∀ (i : Nat) (f : Fd) (pd : Pd) (l : List Nat), R i f → f.ty = .struct → E.ra[i]? = some pd → Siblings E.ra pd.firstChild l →
    ∀ t, tdAt E.tds f.td = some t → ∀ (q c : Nat), l[q]? = some c →
      ∃ k g d, t.fields[k]? = some g ∧ E.data[c]? = some d ∧ (∀ n, d.name = some n → g.name = n) ∧ (d.name = none → k = q) ∧ R c g
  /-- an array is not empty, or has no dimension; it has enough elements -/
  elements : ∀ (i : Nat) (f : Fd) (pd : Pd) (l : List Nat), R i f → f.ty = .array → E.ra[i]? = some pd → Siblings E.ra pd.firstChild l →
    (f.dims.headD 0 ≠ 0 → f.size ≠ 0) ∧ l.length ≤ f.dims.headD 0 ∧ ∀ c ∈ l, R c (element E.tds f)
  /-- what a pointer leads to that is not NULL and no reference -/
  targets : ∀ (i : Nat) (f : Fd) (d : Doc) (pd : Pd) (l : List Nat), R i f → f.ty = .pointer → E.data[i]? = some d → E.ra[i]? = some pd → Siblings E.ra pd.firstChild l →
    d.null = false → (∀ v, d.val ≠ .int v) → l ≠ [] →
    (target E.tds f).size ≠ 0 ∧ l.length * (target E.tds f).size ≤ size ∧ ∀ c ∈ l, R c (target E.tds f)

end Verif.Spec.LoadFits
