import Verif.Model.Detect
import Verif.Spec.Detect
/-!
# When the description of a field makes sense
-/
namespace Verif.Spec.Validate
open Verif.Model.Detect Verif.Model.Ptrs

/-- kinds that cannot be used without a type descriptor -/
def needsType (t : MrType) : Prop := t = .struct ∨ t = .enum ∨ t = .union ∨ t = .anonUnion ∨ t = .namedAnonUnion

/-- kinds whose values are integers -/
def isInteger (t : MrType) : Prop := t ∈ Detect.integers ∨ t = .char ∨ t = .bool ∨ t = .enum

/-- the descriptor is of the kind `t`, and there is one if `t` needs it -/
def Fits (tdp : Option Td) (t : MrType) : Prop :=
  (∀ td, tdp = some td → td.ty = t) ∧ (needsType t → tdp ≠ none)

/-- The engines for saving, loading, copying can work with the field: its kind is one of data, and the descriptor of its type, or of
what it points to or consists of, is there where it is needed and is of the right kind.  Fields and targets that are opaque (`void`) and
functions are not looked into. -/
def Sound (st : Stype) : Prop :=
  match st.ty with
  | .none | .endAnonUnion | .last => False
  | .void | .func => True
  | .charArray => Fits st.tdp .charArray ∨ Fits st.tdp .char
  | .bitfield => isInteger st.aux ∧ (st.aux = .enum → Fits st.tdp .enum)
  | .pointer => st.aux = .void ∨ (st.aux = .pointer ∧ st.tdp ≠ none) ∨ (st.aux ≠ .none ∧ st.aux ≠ .pointer ∧ Fits st.tdp st.aux)
  | .array => st.aux ≠ .void ∧ ((st.aux = .pointer ∧ st.tdp ≠ none) ∨ (st.aux ≠ .none ∧ st.aux ≠ .pointer ∧ Fits st.tdp st.aux))
  | t => Fits st.tdp t

end Verif.Spec.Validate
