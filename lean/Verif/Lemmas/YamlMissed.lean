import Verif.Model.Yaml
import Verif.Lemmas.TopDown
/-!
# Marks of the targets of references that are written as an alias
-/
namespace Verif.Lemmas.YamlMissed
open Verif.Model Verif.Model.Ptrs Verif.Model.Yaml Verif.Lemmas.TopDown
open Verif.Model.Scm (isRef)

/-- the nodes of the list that have no public index get their place as public index -/
def mark (l : List Nat) (ra : List Pd) : List Pd :=
  ra.mapIdx fun i pd => if i ∈ l ∧ pd.idx = 0 then { pd with idx := i, refd := true } else pd

theorem mark_get (l : List Nat) (ra : List Pd) (i : Nat) :
    (mark l ra)[i]? = (ra[i]?).map fun pd => if i ∈ l ∧ pd.idx = 0 then { pd with idx := i, refd := true } else pd := by
  simp [mark]

theorem mark_length (l : List Nat) (ra : List Pd) : (mark l ra).length = ra.length := by simp [mark]

theorem mark_nil (ra : List Pd) : mark [] ra = ra := by
  apply List.ext_getElem?
  intro i
  rw [mark_get]
  cases ra[i]? <;> simp

/-- the node is not changed by a mark: it has a public index already -/
theorem mark_skip {l : List Nat} {ra : List Pd} {r : Nat} {t : Pd} (h0 : r ≠ 0) (h : (mark l ra)[r]? = some t) (ht : t.idx ≠ 0) : mark (r :: l) ra = mark l ra := by
  apply List.ext_getElem?
  intro i
  rw [mark_get, mark_get]
  by_cases e : i = r
  · subst e
    rw [mark_get] at h
    cases hi : ra[i]? with
    | none => rfl
    | some pd =>
      rw [hi] at h
      simp only [Option.map_some, Option.some.injEq] at h ⊢
      by_cases hl : i ∈ l
      · simp [hl]
      · by_cases hz : pd.idx = 0
        · rw [if_neg (by simp [hl])] at h
          rw [← h] at ht
          exact absurd hz ht
        · simp [hz]
  · simp [e]

theorem mark_add {l : List Nat} {ra : List Pd} {r : Nat} {t : Pd} (h : (mark l ra)[r]? = some t) (ht : t.idx = 0) (h0 : r ≠ 0) :
    (mark l ra).modify r (fun p => { p with idx := r, refd := true }) = mark (r :: l) ra := by
  apply List.ext_getElem?
  intro i
  by_cases e : i = r
  · subst e
    rw [List.getElem?_modify_eq, h, mark_get]
    rw [mark_get] at h
    cases hi : ra[i]? with
    | none => rw [hi] at h; simp at h
    | some pd =>
      rw [hi] at h
      simp only [Option.map_some, Option.some.injEq] at h ⊢
      by_cases hl : i ∈ l ∧ pd.idx = 0
      · rw [if_pos hl] at h
        rw [← h] at ht
        exact absurd ht h0
      · rw [if_neg hl] at h
        subst h
        rw [if_pos ⟨by simp, ht⟩]
        rfl
  · rw [List.getElem?_modify_ne _ _ (Ne.symm e), mark_get, mark_get]
    simp [e]

/-- the descriptors the reader leaves for a document of the writer: public indices are places, references lead to
nodes -/
structure Good (ra : List Pd) : Prop where
  pos : 0 < ra.length
  count : ra.length < 2 ^ 31
  idx : ∀ (i : Nat) (pd : Pd), i ≠ 0 → ra[i]? = some pd → pd.idx = 0 ∨ pd.idx = i
  ref : ∀ (i : Nat) (pd : Pd), i ≠ 0 → ra[i]? = some pd → isRef pd = true → pd.firstChild ≠ 0 ∧ pd.firstChild < ra.length

theorem fold_max (l : List Pd) : ∀ m, m ≤ l.foldl (fun m pd => if pd.idx > m then pd.idx else m) m ∧
    (∀ pd ∈ l, pd.idx ≤ l.foldl (fun m pd => if pd.idx > m then pd.idx else m) m) ∧
    ∀ B, m ≤ B → (∀ pd ∈ l, pd.idx ≤ B) → l.foldl (fun m pd => if pd.idx > m then pd.idx else m) m ≤ B := by
  induction l with
  | nil => intro m; simp
  | cons a l ih =>
    intro m
    simp only [List.foldl_cons]
    obtain ⟨h1, h2, h3⟩ := ih (if a.idx > m then a.idx else m)
    refine ⟨?_, ?_, ?_⟩
    · exact Nat.le_trans (by split <;> omega) h1
    · intro pd hpd
      rcases List.mem_cons.1 hpd with rfl | h
      · have h1' : pd.idx ≤ (if pd.idx > m then pd.idx else m) := by split <;> omega
        exact Nat.le_trans h1' h1
      · exact h2 pd h
    · intro B hB hall
      have := hall a (by simp)
      exact h3 B (by split <;> omega) fun pd h => hall pd (by simp [h])

theorem max_ge {ra : List Pd} {i : Nat} {pd : Pd} (h0 : i ≠ 0) (h : ra[i]? = some pd) : pd.idx ≤ maxIdx ra := by
  refine (fold_max (ra.drop 1) 0).2.1 pd ?_
  refine List.mem_iff_getElem?.2 ⟨i - 1, ?_⟩
  rw [List.getElem?_drop]
  rw [show 1 + (i - 1) = i by omega]
  exact h

theorem max_lt {ra : List Pd} (h : Good ra) : maxIdx ra < ra.length := by
  have : maxIdx ra ≤ ra.length - 1 := by
    refine (fold_max (ra.drop 1) 0).2.2 _ (by omega) fun pd hpd => ?_
    obtain ⟨j, hj⟩ := List.mem_iff_getElem?.1 hpd
    rw [List.getElem?_drop] at hj
    have := (List.getElem?_eq_some_iff.1 hj).1
    rcases h.idx (1 + j) pd (by omega) hj with e | e <;> omega
  have := h.pos
  omega

theorem fill_eq (l : List Pd) : ∀ (i : Nat) (t : List Nat), (∀ (j : Nat) (pd : Pd), l[j]? = some pd → pd.idx = 0 ∨ (pd.idx = i + j ∧ pd.idx < t.length)) → i ≠ 0 →
    ∃ T, fillTable i l t = some T ∧ T.length = t.length ∧ (∀ m, m < i → T[m]? = t[m]?) ∧
      ∀ (j : Nat) (pd : Pd), l[j]? = some pd → T[i + j]? = if pd.idx ≠ 0 then some (i + j) else t[i + j]? := by
  induction l with
  | nil => intro i t _ _; exact ⟨t, rfl, rfl, fun _ _ => rfl, fun j pd h => by simp at h⟩
  | cons a l ih =>
    intro i t h hi
    have ha := h 0 a rfl
    simp only [Nat.add_zero] at ha
    unfold fillTable
    obtain ⟨t', ht', hl', hg⟩ : ∃ t', fillOne t a i = some t' ∧ t'.length = t.length ∧
        (∀ m, t'[m]? = if m = i ∧ a.idx ≠ 0 then some i else t[m]?) := by
      by_cases h0 : a.idx = 0
      · exact ⟨t, by simp [fillOne, h0], rfl, fun m => by simp [h0]⟩
      · have h1 : a.idx = i ∧ a.idx < t.length := ha.resolve_left h0
        refine ⟨t.set i i, ?_, by simp, fun m => ?_⟩
        · unfold fillOne
          rw [if_pos h0]
          unfold wr
          rw [if_pos h1.2, h1.1]
        · rw [List.getElem?_set]
          by_cases e : i = m
          · subst e
            simp [h0]
            omega
          · rw [if_neg e, if_neg (by omega)]
    simp only [ht', Option.bind_eq_bind, Option.bind_some]
    obtain ⟨T, h1, h2, h3, h4⟩ := ih (i + 1) t' (fun j pd hj => by
      have := h (j + 1) pd (by simpa using hj)
      rw [hl']
      omega) (by omega)
    refine ⟨T, h1, by omega, fun m hm => ?_, fun j pd hj => ?_⟩
    · rw [h3 m (by omega), hg, if_neg (by omega)]
    · cases j with
      | zero =>
        simp only [List.getElem?_cons_zero, Option.some.injEq] at hj
        subst hj
        rw [Nat.add_zero, h3 i (by omega), hg]
        simp
      | succ j =>
        have := h4 j pd (by simpa using hj)
        rw [show i + (j + 1) = i + 1 + j by omega, this, hg, if_neg (by omega : ¬ (i + 1 + j = i ∧ a.idx ≠ 0))]

/-- the table: an entry is zero if the node has no public index -/
structure Table (mx : Nat) (cur : List Pd) (table : List Nat) : Prop where
  length : table.length = mx + 1
  zero : ∀ (m : Nat) (pd : Pd), m ≠ 0 → m ≤ mx → cur[m]? = some pd → (table[m]? = some 0 ↔ pd.idx = 0)

theorem step_eq {ra : List Pd} (hg : Good ra) {l : List Nat} {table : List Nat} (ht : Table (maxIdx ra) (mark l ra) table) {i : Nat} {pd : Pd}
    (h0 : i ≠ 0) (hi : ra[i]? = some pd) :
    ∃ table', missedStep (maxIdx ra) (mark l ra, table) i = some (mark (if isRef pd then pd.firstChild :: l else l) ra, table') ∧
      Table (maxIdx ra) (mark (if isRef pd then pd.firstChild :: l else l) ra) table' := by
  obtain ⟨p', hp', hr', hf'⟩ : ∃ p', (mark l ra)[i]? = some p' ∧ isRef p' = isRef pd ∧ p'.firstChild = pd.firstChild := by
    rw [mark_get, hi]
    refine ⟨_, rfl, ?_, ?_⟩ <;> (dsimp only; split <;> rfl)
  unfold missedStep
  simp only [hp', Option.bind_eq_bind, Option.bind_some, hr', hf']
  cases hr : isRef pd with
  | false => exact ⟨table, by simp, by simpa using ht⟩
  | true =>
    obtain ⟨hr0, hrl⟩ := hg.ref i pd h0 hi hr
    have hcount := hg.count
    have hmx := max_lt hg
    generalize hrr : pd.firstChild = r at hr0 hrl
    simp only [if_true]
    obtain ⟨t, htg⟩ : ∃ t, (mark l ra)[r]? = some t := ⟨_, List.getElem?_eq_getElem (by rw [mark_length]; exact hrl)⟩
    -- nothing to do
    have skip : t.idx ≠ 0 → mark (r :: l) ra = mark l ra := mark_skip hr0 htg
    by_cases hm : r ≤ maxIdx ra
    · have hmiss : missing (maxIdx ra) table r = some (t.idx == 0) := by
        unfold missing
        rw [if_neg (by omega), if_neg (by omega)]
        have hlen : r < table.length := by rw [ht.length]; omega
        have := ht.zero r t hr0 hm htg
        rw [List.getElem?_eq_getElem hlen] at this ⊢
        simp only [Option.some.injEq] at this
        by_cases hz : t.idx = 0
        · simp [hz, this.2 hz]
        · have : ¬ table[r] = 0 := fun h => hz (this.1 h)
          show some (table[r] == 0) = some (t.idx == 0)
          rw [beq_eq_false_iff_ne.2 this, beq_eq_false_iff_ne.2 hz]
      rw [hmiss]
      by_cases hz : t.idx = 0
      · simp only [hz, beq_self_eq_true, Option.bind_some, if_true, mark_length, if_pos hrl, if_neg (by omega : ¬ 2 ^ 31 ≤ r), htg]
        rw [upd_eq _ (by rw [mark_length]; exact hrl), mark_add htg hz hr0]
        have hwr : wr table r r = some (table.set r r) := by
          unfold wr
          rw [if_pos (by rw [ht.length]; omega)]
        simp only [Option.bind_some, note, if_pos hm, hwr]
        refine ⟨_, rfl, by simp [ht.length], fun m pm hm0 hmm hpm => ?_⟩
        by_cases e : r = m
        · subst e
          rw [List.getElem?_set_self (by rw [ht.length]; omega)]
          rw [← mark_add htg hz hr0, List.getElem?_modify_eq, htg] at hpm
          cases hpm
          simp [hr0]
        · rw [List.getElem?_set_ne e]
          rw [← mark_add htg hz hr0, List.getElem?_modify_ne _ _ e] at hpm
          exact ht.zero m pm hm0 hmm hpm
      · have hb : (t.idx == 0) = false := by simpa using hz
        simp only [hb, Option.bind_some, Bool.false_eq_true, if_false]
        rw [skip hz]
        exact ⟨table, rfl, ht⟩
    · have hmiss : missing (maxIdx ra) table r = some true := by
        unfold missing
        rw [if_pos (by omega)]
      rw [hmiss]
      simp only [Option.bind_some, if_true, mark_length, if_pos hrl, if_neg (by omega : ¬ 2 ^ 31 ≤ r), htg]
      by_cases hz : t.idx = 0
      · simp only [hz, if_true]
        rw [upd_eq _ (by rw [mark_length]; exact hrl), mark_add htg hz hr0]
        simp only [Option.bind_some, note, if_neg hm]
        refine ⟨table, rfl, ht.length, fun m pm hm0 hmm hpm => ?_⟩
        rw [← mark_add htg hz hr0, List.getElem?_modify_ne _ _ (by omega)] at hpm
        exact ht.zero m pm hm0 hmm hpm
      · simp only [if_neg hz]
        rw [skip hz]
        exact ⟨table, rfl, ht⟩

theorem loop_eq {ra : List Pd} (hg : Good ra) : ∀ (n i : Nat) (l table : List Nat), Table (maxIdx ra) (mark l ra) table → i ≠ 0 → i + n = ra.length →
    ∃ l' table', missedLoop (maxIdx ra) n i (mark l ra, table) = some (mark l' ra, table') ∧
      ∀ r, r ∈ l' ↔ (r ∈ l ∨ ∃ (j : Nat) (pd : Pd), i ≤ j ∧ ra[j]? = some pd ∧ isRef pd = true ∧ pd.firstChild = r) := by
  intro n
  induction n with
  | zero =>
    intro i l table _ _ hi
    refine ⟨l, table, rfl, fun r => ⟨.inl, fun h => ?_⟩⟩
    rcases h with h | ⟨j, pd, h1, h2, _⟩
    · exact h
    · have := (List.getElem?_eq_some_iff.1 h2).1
      omega
  | succ n ih =>
    intro i l table ht h0 hi
    have hlt : i < ra.length := by omega
    obtain ⟨t1, h1, h2⟩ := step_eq hg ht h0 (List.getElem?_eq_getElem hlt)
    obtain ⟨l', t', h3, h4⟩ := ih (i + 1) _ t1 h2 (by omega) (by omega)
    refine ⟨l', t', ?_, fun r => ?_⟩
    · unfold missedLoop
      rw [h1]
      exact h3
    · rw [h4]
      constructor
      · rintro (h | ⟨j, pd, a, b, c⟩)
        · split at h
          · rename_i hr
            rcases List.mem_cons.1 h with h | h
            · exact .inr ⟨i, _, Nat.le_refl _, List.getElem?_eq_getElem hlt, hr, h.symm⟩
            · exact .inl h
          · exact .inl h
        · exact .inr ⟨j, pd, by omega, b, c⟩
      · rintro (h | ⟨j, pd, a, b, c, d⟩)
        · left
          split
          · exact List.mem_cons_of_mem _ h
          · exact h
        · by_cases e : j = i
          · subst e
            left
            rw [List.getElem?_eq_getElem hlt] at b
            cases b
            rw [if_pos c, ← d]
            simp
          · exact .inr ⟨j, pd, by omega, b, c, d⟩

/-- **The targets of references get marks.** -/
theorem missed_eq {ra : List Pd} (hg : Good ra) :
    ∃ l, addMissed ra = some (mark l ra) ∧ ∀ r, r ∈ l ↔ ∃ (j : Nat) (pd : Pd), j ≠ 0 ∧ ra[j]? = some pd ∧ isRef pd = true ∧ pd.firstChild = r := by
  have hmx := max_lt hg
  have hcount := hg.count
  have hpos := hg.pos
  obtain ⟨T, h1, h2, h3, h4⟩ := fill_eq (ra.drop 1) 1 (List.replicate ((maxIdx ra + 1) % 2 ^ 32) 0) (fun j pd hj => by
    rw [List.getElem?_drop] at hj
    have hle := max_ge (by omega) hj
    rcases hg.idx (1 + j) pd (by omega) hj with e | e
    · exact .inl e
    · right
      refine ⟨e, ?_⟩
      rw [List.length_replicate, Nat.mod_eq_of_lt (by omega)]
      omega) (by omega)
  have hT : Table (maxIdx ra) (mark [] ra) T := by
    rw [mark_nil]
    refine ⟨by rw [h2, List.length_replicate, Nat.mod_eq_of_lt (by omega)], fun m pd hm0 hmm hpd => ?_⟩
    have := h4 (m - 1) pd (by rw [List.getElem?_drop, show 1 + (m - 1) = m by omega]; exact hpd)
    rw [show 1 + (m - 1) = m by omega] at this
    rw [this]
    by_cases hz : pd.idx = 0
    · rw [if_neg (by simp [hz]), List.getElem?_replicate, Nat.mod_eq_of_lt (by omega), if_pos (by omega)]
      simp [hz]
    · rw [if_pos hz]
      simp [hz, hm0]
  obtain ⟨l, t', h5, h6⟩ := loop_eq hg (ra.length - 1) 1 [] T hT (by omega) (by omega)
  refine ⟨l, ?_, fun r => ?_⟩
  · unfold addMissed
    rw [h1]
    simp only [Option.bind_eq_bind, Option.bind_some]
    rw [mark_nil] at h5
    rw [h5]
    rfl
  · rw [h6]
    simp only [List.not_mem_nil, false_or]
    constructor
    · rintro ⟨j, pd, a, b⟩
      exact ⟨j, pd, by omega, b⟩
    · rintro ⟨j, pd, a, b⟩
      exact ⟨j, pd, by omega, b⟩

end Verif.Lemmas.YamlMissed
