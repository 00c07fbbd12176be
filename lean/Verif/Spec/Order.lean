/-!
# Comparators

What a user promises about a C comparator returning a negative, zero or positive `int`.
-/
namespace Verif.Spec

/-- `cmp x y ≤ 0` is a total preorder, and a positive result is reversed by swapping. -/
structure TotalPreorder {α : Type} (cmp : α → α → Int) : Prop where
  total : ∀ x y, cmp x y > 0 → cmp y x ≤ 0
  trans : ∀ x y z, cmp x y ≤ 0 → cmp y z ≤ 0 → cmp x z ≤ 0

/-- Every element compares `≤ 0` with each later element. -/
def Sorted {α : Type} (cmp : α → α → Int) (a : List α) : Prop :=
  a.Pairwise (fun x y => cmp x y ≤ 0)

end Verif.Spec
