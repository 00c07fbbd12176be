import Verif.Lemmas.Hsort
import Verif.Lemmas.BasicCmp
/-!
# C01, C02: sorting

`hsort cmp a = some b` says: `mr_hsort` on `a` returns, without any access outside the array,
leaving `b` in place of `a`.
-/
namespace Verif.Props.Sort
open Verif.Model Verif.Model.Hsort Verif.Model.BasicCmp Verif.Spec

/-- **C01** Sorting with a total preorder gives a sorted permutation.  The length bound is what
the 32-bit child indices of the code support. -/
theorem C01_sorted_permutation {α : Type} (cmp : α → α → Int) (a : List α)
    (hcmp : TotalPreorder cmp) (hlen : a.length ≤ 2 ^ 31) :
    ∃ b, hsort cmp a = some b ∧ b.Perm a ∧ Sorted cmp b := by
  obtain ⟨b, h1, h2, h3⟩ := Lemmas.Hsort.hsort_ok cmp a hlen
  exact ⟨b, h1, h2, h3 hcmp⟩

/-- **C01** for arrays of any integer type, sorted by `MR_GENERIC_SORT`. -/
theorem C01_sort_integers (a : List Int) (hlen : a.length ≤ 2 ^ 31) :
    ∃ b, hsort intCmp a = some b ∧ b.Perm a ∧ b.Pairwise (· ≤ ·) := by
  obtain ⟨b, h1, h2, h3⟩ := C01_sorted_permutation intCmp a Lemmas.BasicCmp.intCmp_pre hlen
  exact ⟨b, h1, h2, h3.imp fun h => (Lemmas.BasicCmp.intCmp_le _ _).mp h⟩

/-- **C01** for arrays of C strings (`char *`, NULL allowed): a NULL sorts before every string,
strings are in `strcmp` order. -/
theorem C01_sort_strings (a : List { s : CStr // ∀ b ∈ s.bytes, 0 < b })
    (hlen : a.length ≤ 2 ^ 31) :
    ∃ b, hsort (fun x y => stringCmp x.1 y.1) a = some b ∧ b.Perm a ∧
      Sorted (fun x y => stringCmp x.1 y.1) b :=
  C01_sorted_permutation _ a Lemmas.BasicCmp.stringCmp_pre hlen

/-- **C02** Whatever the comparator answers, sorting stops, stays inside the array and
loses no element. -/
theorem C02_any_comparator_permutes {α : Type} (cmp : α → α → Int) (a : List α)
    (hlen : a.length ≤ 2 ^ 31) :
    ∃ b, hsort cmp a = some b ∧ b.Perm a := by
  obtain ⟨b, h1, h2, _⟩ := Lemmas.Hsort.hsort_ok cmp a hlen
  exact ⟨b, h1, h2⟩

/-- Non-vacuity of C01/C02: the integer comparator is a total preorder, and the model really
sorts. -/
example : TotalPreorder intCmp := Lemmas.BasicCmp.intCmp_pre
example : hsort intCmp [5, 3, 9, -1, 3, 7, 0] = some [-1, 0, 3, 3, 5, 7, 9] := by decide +kernel
/-- an inconsistent comparator: the result is a permutation, not sorted -/
example : hsort (fun _ _ : Nat => 1) [1, 2, 3, 4] = some [3, 1, 2, 4] := by decide +kernel
example : (hsort (fun x y => stringCmp x y) [⟨8, [98, 97]⟩, ⟨0, []⟩, ⟨16, [98]⟩]).map
    (·.map CStr.addr) = some [0, 16, 8] := by decide +kernel

end Verif.Props.Sort
