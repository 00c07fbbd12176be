import Verif.Model.PtrTypes
/-!
# What a member of `mr_ptr_t` is
-/
namespace Verif.Spec.PtrTypes
open Verif.Model.PtrTypes

/-- `f` is a pointer to an object of type `t`, named like it, at the place of the first member of the union -/
def PointsTo (first f : Fd) (t : Td) : Prop :=
  f.name = t.name ∧ f.type = t.name ∧ f.kind = pointerKind ∧ f.aux = t.kind ∧ f.td = some t.id ∧ f.base = t.kind ∧ f.rest = first.rest

/-- names of types differ: duplicates are left out before -/
def DistinctTypes (ts : List Td) : Prop := ts.Pairwise fun a b => a.name ≠ b.name

end Verif.Spec.PtrTypes
