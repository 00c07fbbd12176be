import Verif.Lemmas.CopyView
/-!
The separately allocated object that a node belongs to.
-/
namespace Verif.Lemmas.CopyTops
open Verif.Model Verif.Model.Ptrs Verif.Model.Save Verif.Model.Copy Verif.Spec.Ptrs Verif.Spec.Save Verif.Spec.Copy Verif.Lemmas.SaveTree Verif.Lemmas.SaveInv
  Verif.Lemmas.CopyLayout Verif.Lemmas.CopyView

variable {mem : Mem} {tds : List Td} {root : Obj} {st : St} {k : Forest} {n : Nat} {obj : Nat → Obj}

def topF (st : St) (obj : Nat → Obj) : Nat → Nat → Nat
  | 0, _ => 1
  | f + 1, i => if i = 1 then 1 else if isCell (obj (pa st i)) = true then i else topF st obj f (pa st i)

/-- the node of the block that node `i` belongs to -/
structure Tops (st : St) (n : Nat) (obj : Nat → Obj) (top : Nat → Nat) : Prop where
  root : top 1 = 1
  cell : ∀ c, 1 < c → c < n → isCell (obj (pa st c)) = true → top c = c
  up : ∀ c, 1 < c → c < n → isCell (obj (pa st c)) = false → top c = top (pa st c)

theorem tops_ok (V : View mem tds root st k n obj) : ∃ top, Tops st n obj top := by
  obtain ⟨d, hd⟩ := V.depth
  have hmono : ∀ f f' i, 1 ≤ i → i < n → d i ≤ f → d i ≤ f' → topF st obj f i = topF st obj f' i := by
    intro f
    induction f with
    | zero =>
      intro f' i h1 h2 h3 _
      have : i = 1 := by
        apply Classical.byContradiction
        intro h
        have := hd i (by omega) h2
        omega
      subst this
      cases f' with
      | zero => rfl
      | succ f' => simp [topF]
    | succ f ih =>
      intro f' i h1 h2 h3 h4
      by_cases hi : i = 1
      · subst hi
        cases f' with
        | zero => simp [topF]
        | succ f' => simp [topF]
      · have h5 := hd i (by omega) h2
        cases f' with
        | zero => omega
        | succ f' =>
          unfold topF
          rw [if_neg hi, if_neg hi]
          split
          · rfl
          · have := V.up i (by omega) h2
            exact ih f' _ this.1 this.2 (by omega) (by omega)
  refine ⟨fun i => topF st obj (d i + 1) i, by simp [topF], ?_, ?_⟩
  · intro c h1 h2 h3
    simp only [topF]
    rw [if_neg (by omega), if_pos h3]
  · intro c h1 h2 h3
    have := V.up c h1 h2
    rw [topF, if_neg (by omega), if_neg (by rw [h3]; simp)]
    exact hmono _ _ _ this.1 this.2 (by have := hd c h1 h2; omega) (by omega)

variable {top : Nat → Nat} (V : View mem tds root st k n obj) (T : Tops st n obj top)
include V T

theorem node_induction {motive : Nat → Prop} (h1 : motive 1) (hc : ∀ c, 1 < c → c < n → isCell (obj (pa st c)) = true → motive c)
    (hu : ∀ c, 1 < c → c < n → isCell (obj (pa st c)) = false → motive (pa st c) → motive c) : ∀ i, 1 ≤ i → i < n → motive i := by
  obtain ⟨d, hd⟩ := V.depth
  have : ∀ f i, d i ≤ f → 1 ≤ i → i < n → motive i := by
    intro f
    induction f with
    | zero =>
      intro i h3 h4 h5
      by_cases hi : i = 1
      · rw [hi]; exact h1
      · have := hd i (by omega) h5
        omega
    | succ f ih =>
      intro i h3 h4 h5
      by_cases hi : i = 1
      · rw [hi]; exact h1
      · have hl := hd i (by omega) h5
        have hp := V.up i (by omega) h5
        cases hb : isCell (obj (pa st i)) with
        | true => exact hc i (by omega) h5 hb
        | false => exact hu i (by omega) h5 hb (ih _ (by omega) hp.1 hp.2)
  exact fun i => this _ i (Nat.le_refl _)

/-- a node at which a block starts -/
def Start (st : St) (n : Nat) (obj : Nat → Obj) (t : Nat) : Prop := t = 1 ∨ (1 < t ∧ t < n ∧ isCell (obj (pa st t)) = true)

theorem top_start : ∀ i, 1 ≤ i → i < n → Start st n obj (top i) := by
  refine node_induction V T (motive := fun i => Start st n obj (top i)) ?_ ?_ ?_
  · rw [T.root]; exact Or.inl rfl
  · intro c h1 h2 h3
    rw [T.cell c h1 h2 h3]
    exact Or.inr ⟨h1, h2, h3⟩
  · intro c h1 h2 h3 ih
    rw [T.up c h1 h2 h3]
    exact ih

omit T in
theorem start_range {t : Nat} (h : Start st n obj t) : 1 ≤ t ∧ t < n := by
  rcases h with rfl | ⟨h1, h2, _⟩
  · exact ⟨Nat.le_refl _, V.n1⟩
  · omega

omit V in
theorem start_top {t : Nat} (h : Start st n obj t) : top t = t := by
  rcases h with rfl | ⟨h1, h2, h3⟩
  · exact T.root
  · exact T.cell t h1 h2 h3

theorem top_inside : ∀ i, 1 ≤ i → i < n → Inside tds (obj (top i)) (obj i) := by
  refine node_induction V T (motive := fun i => Inside tds (obj (top i)) (obj i)) ?_ ?_ ?_
  · rw [T.root]; exact .self
  · intro c h1 h2 h3
    rw [T.cell c h1 h2 h3]
    exact .self
  · intro c h1 h2 h3 ih
    rw [T.up c h1 h2 h3]
    exact .part ih (V.part h1 h2 h3)

omit T in
/-- parts of structures are below the node of the structure -/
theorem inside_tree : ∀ i, 1 ≤ i → i < n → (1 < i → isCell (obj (pa st i)) = false) → (i ≠ 1 → (obj (pa st i)).ty ≠ .string) := by
  intro i h1 h2 h3 hi h
  have := h3 (by omega)
  unfold isCell at this
  rw [h] at this
  cases this

end Verif.Lemmas.CopyTops
