import Verif.Spec.Udo
/-!
# Lemmas about the search for discriminators
-/
namespace Verif.Lemmas.Udo
open Verif.Model.Udo

/-! ## depth first search -/

/-- positions the search starting from `i` comes to -/
inductive Reach (member : Nat → Option (Option Nat)) (refs : List (List Nat)) : Nat → Nat → Prop
  | refl (i : Nat) : Reach member refs i i
  | step {i j k : Nat} {r : List Nat} : member i = some none → refs[i]? = some r → k ∈ r → Reach member refs k j → Reach member refs i j

/-- the graph has `n` nodes -/
structure Graph (member : Nat → Option (Option Nat)) (refs : List (List Nat)) (n : Nat) : Prop where
  member : ∀ i, i < n → ∃ x, member i = some x
  length : refs.length = n
  range : ∀ (i : Nat) (r : List Nat) (k : Nat), refs[i]? = some r → k ∈ r → k < n

/-- how many nodes have not been visited -/
def unvisited (l : List Bool) : Nat := (l.filter fun b => !b).length

theorem unvisited_set {l : List Bool} {i : Nat} (h : l[i]? = some false) : unvisited (l.set i true) + 1 = unvisited l := by
  induction l generalizing i with
  | nil => cases h
  | cons a l ih =>
    cases i with
    | zero =>
      simp only [List.getElem?_cons_zero, Option.some.injEq] at h
      subst h
      simp [unvisited]
    | succ i =>
      simp only [List.getElem?_cons_succ] at h
      have := ih h
      cases a <;> simp [unvisited, List.set_cons_succ] at this ⊢ <;> omega

/-- newly visited between two states -/
def New (s s' : St) (j : Nat) : Prop := s.visited[j]? = some false ∧ s'.visited[j]? = some true

/-- what a search from the nodes `l` does -/
structure Post (mb : Nat → Option (Option Nat)) (refs : List (List Nat)) (n : Nat) (l : List Nat) (s : St) (ok : Bool) (s' : St) : Prop where
  length : s'.visited.length = n
  less : unvisited s'.visited ≤ unvisited s.visited
  mono : ∀ j : Nat, s.visited[j]? = some true → s'.visited[j]? = some true
  reach : ∀ j, New s s' j → ∃ i ∈ l, Reach mb refs i j
  start : ok = true → ∀ i ∈ l, s'.visited[i]? = some true
  closed : ok = true → ∀ (j : Nat) (r : List Nat) (k : Nat), New s s' j → mb j = some none → refs[j]? = some r → k ∈ r → s'.visited[k]? = some true
  agree : ok = true → ∀ j x, New s s' j → mb j = some (some x) → s'.disc = some x
  keep : ∀ x, s.disc = some x → s'.disc = some x
  found : ∀ x, s'.disc = some x → s.disc = some x ∨ ∃ j, New s s' j ∧ mb j = some (some x)
  clash : ok = false → ∃ x y, x ≠ y ∧ (s.disc = some x ∨ ∃ i ∈ l, ∃ j, Reach mb refs i j ∧ mb j = some (some x)) ∧ ∃ i ∈ l, ∃ j, Reach mb refs i j ∧ mb j = some (some y)

variable {mb : Nat → Option (Option Nat)} {refs : List (List Nat)} {n : Nat}

theorem bool_at {l : List Bool} {j : Nat} (h : j < l.length) : l[j]? = some true ∨ l[j]? = some false := by
  rw [List.getElem?_eq_getElem h]
  cases l[j] <;> simp

theorem new_split {s s1 s2 : St} {j : Nat} (hl : s.visited.length = n) (hl1 : s1.visited.length = n) (h : New s s2 j) : New s s1 j ∨ New s1 s2 j := by
  have hj : j < n := by
    rw [← hl]
    exact (List.getElem?_eq_some_iff.1 h.1).1
  rcases bool_at (l := s1.visited) (j := j) (by omega) with h1 | h1
  · exact .inl ⟨h.1, h1⟩
  · exact .inr ⟨h1, h.2⟩

theorem dfsAll_ok {inner : St → Nat → Option (Bool × St)} {c : Nat}
    (hin : ∀ s i, s.visited.length = n → i < n → unvisited s.visited < c → ∃ ok s', inner s i = some (ok, s') ∧ Post mb refs n [i] s ok s') :
    ∀ (l : List Nat) (s : St), s.visited.length = n → (∀ i ∈ l, i < n) → unvisited s.visited < c →
      ∃ ok s', dfsAll inner l s = some (ok, s') ∧ Post mb refs n l s ok s' := by
  intro l
  induction l with
  | nil =>
    intro s hl _ _
    refine ⟨true, s, rfl, ⟨hl, Nat.le_refl _, fun _ h => h, ?_, ?_, ?_, ?_, fun _ h => h, fun x h => .inl h, fun h => by cases h⟩⟩
    · intro j h; have := h.1.symm.trans h.2; cases this
    · intro _ i hi; cases hi
    · intro _ j r k h; have := h.1.symm.trans h.2; cases this
    · intro _ j r h; have := h.1.symm.trans h.2; cases this
  | cons i l ih =>
    intro s hl hr hc
    obtain ⟨ok1, s1, e1, p1⟩ := hin s i hl (hr i (by simp)) hc
    simp only [dfsAll, e1, bind, Option.bind]
    cases ok1 with
    | false =>
      refine ⟨false, s1, rfl, ⟨p1.length, p1.less, p1.mono, ?_, (fun h => by cases h), (fun h => by cases h), (fun h => by cases h), p1.keep, p1.found, ?_⟩⟩
      · intro j h
        obtain ⟨i', hi, hre⟩ := p1.reach j h
        exact ⟨i', by simp at hi; simp [hi], hre⟩
      · intro _
        obtain ⟨x, y, hne, hx, i', hi, j, hj, hy⟩ := p1.clash rfl
        refine ⟨x, y, hne, ?_, i', by simp at hi; simp [hi], j, hj, hy⟩
        rcases hx with hx | ⟨i', hi, j, hj, hy⟩
        · exact .inl hx
        · exact .inr ⟨i', by simp at hi; simp [hi], j, hj, hy⟩
    | true =>
      obtain ⟨ok, s2, e2, p2⟩ := ih s1 p1.length (fun k hk => hr k (by simp [hk])) (by have := p1.less; omega)
      refine ⟨ok, s2, e2, ⟨p2.length, Nat.le_trans p2.less p1.less, fun j h => p2.mono j (p1.mono j h), ?_, ?_, ?_, ?_, fun x h => p2.keep x (p1.keep x h), ?_, ?_⟩⟩
      · intro j h
        rcases new_split hl p1.length h with h | h
        · obtain ⟨i', hi, hre⟩ := p1.reach j h
          exact ⟨i', by simp at hi; simp [hi], hre⟩
        · obtain ⟨i', hi, hre⟩ := p2.reach j h
          exact ⟨i', by simp [hi], hre⟩
      · intro ho k hk
        rcases List.mem_cons.1 hk with rfl | hk
        · exact p2.mono _ (p1.start rfl _ (by simp))
        · exact p2.start ho k hk
      · intro ho j r k h hm hr' hk
        rcases new_split hl p1.length h with h | h
        · exact p2.mono _ (p1.closed rfl j r k h hm hr' hk)
        · exact p2.closed ho j r k h hm hr' hk
      · intro ho j x h hm
        rcases new_split hl p1.length h with h | h
        · exact p2.keep _ (p1.agree rfl j x h hm)
        · exact p2.agree ho j x h hm
      · intro x h
        rcases p2.found x h with h | ⟨j, hj, hm⟩
        · rcases p1.found x h with h | ⟨j, hj, hm⟩
          · exact .inl h
          · exact .inr ⟨j, ⟨hj.1, p2.mono j hj.2⟩, hm⟩
        · refine .inr ⟨j, ⟨?_, hj.2⟩, hm⟩
          have hjn : j < n := by
            rw [← p1.length]
            exact (List.getElem?_eq_some_iff.1 hj.1).1
          rcases bool_at (l := s.visited) (j := j) (by omega) with h1 | h1
          · have := (p1.mono j h1).symm.trans hj.1; cases this
          · exact h1
      · intro ho
        obtain ⟨x, y, hne, hx, i', hi, j, hj, hy⟩ := p2.clash ho
        refine ⟨x, y, hne, ?_, i', by simp [hi], j, hj, hy⟩
        rcases hx with hx | ⟨i', hi, j, hj, hy⟩
        · rcases p1.found x hx with h | ⟨j, hj, hm⟩
          · exact .inl h
          · obtain ⟨i', hi, hre⟩ := p1.reach j hj
            exact .inr ⟨i', by simp at hi; simp [hi], j, hre, hm⟩
        · exact .inr ⟨i', by simp [hi], j, hj, hy⟩

theorem new_set {s : St} {i j : Nat} {d : Option Nat} (h : New s { visited := s.visited.set i true, disc := d } j) : j = i := by
  obtain ⟨h1, h2⟩ := h
  by_cases hji : i = j
  · exact hji.symm
  · simp only [List.getElem?_set_ne hji] at h2
    rw [h1] at h2
    cases h2

theorem set_mono {l : List Bool} {i j : Nat} (h : l[j]? = some true) : (l.set i true)[j]? = some true := by
  by_cases hji : i = j
  · subst hji
    rw [List.getElem?_set_self (List.getElem?_eq_some_iff.1 h).1]
  · rw [List.getElem?_set_ne hji, h]

theorem dfs_ok (G : Graph mb refs n) : ∀ (fuel : Nat) (s : St) (i : Nat), s.visited.length = n → i < n → unvisited s.visited < fuel →
    ∃ ok s', dfs mb refs fuel s i = some (ok, s') ∧ Post mb refs n [i] s ok s' := by
  intro fuel
  induction fuel with
  | zero => intro s i _ _ h; omega
  | succ fuel ih =>
    intro s i hl hi hc
    rcases bool_at (l := s.visited) (j := i) (by omega) with hv | hv
    · refine ⟨true, s, by simp [dfs, hv], ⟨hl, Nat.le_refl _, fun _ h => h, ?_, ?_, ?_, ?_, fun _ h => h, fun x h => .inl h, fun h => by cases h⟩⟩
      · intro j h; have := h.1.symm.trans h.2; cases this
      · intro _ k hk; simp at hk; subst hk; exact hv
      · intro _ j r k h; have := h.1.symm.trans h.2; cases this
      · intro _ j r h; have := h.1.symm.trans h.2; cases this
    · obtain ⟨x, hx⟩ := G.member i hi
      have hcnt := unvisited_set hv
      have hiv : (s.visited.set i true)[i]? = some true := by rw [List.getElem?_set_self (by omega)]
      cases x with
      | some x =>
        have e : dfs mb refs (fuel + 1) s i = some (agree { s with visited := s.visited.set i true } x) := by simp [dfs, hv, hx]
        cases hd : s.disc with
        | none =>
          have e2 : agree { s with visited := s.visited.set i true } x = (true, { visited := s.visited.set i true, disc := some x }) := by simp [agree, hd]
          rw [e, e2]
          refine ⟨_, _, rfl, ⟨by simp [hl], by show unvisited (s.visited.set i true) ≤ _; omega, fun j h => set_mono h, ?_, ?_, ?_, ?_, ?_, ?_, fun h => by cases h⟩⟩
          · intro j h; exact ⟨i, by simp, by rw [new_set h]; exact .refl i⟩
          · intro _ k hk; simp at hk; subst hk; exact hiv
          · intro _ j r k h hm; rw [new_set h, hx] at hm; cases hm
          · intro _ j y h hm; rw [new_set h, hx] at hm; cases hm; rfl
          · intro y h; rw [hd] at h; cases h
          · intro y h; cases h; exact .inr ⟨i, ⟨hv, hiv⟩, hx⟩
        | some z =>
          have e2 : agree { s with visited := s.visited.set i true } x = (decide (z = x), { visited := s.visited.set i true, disc := some z }) := by
            simp [agree, hd]
          rw [e, e2]
          refine ⟨_, _, rfl, ⟨by simp [hl], by show unvisited (s.visited.set i true) ≤ _; omega, fun j h => set_mono h, ?_, ?_, ?_, ?_, ?_, ?_, ?_⟩⟩
          · intro j h; exact ⟨i, by simp, by rw [new_set h]; exact .refl i⟩
          · intro _ k hk; simp at hk; subst hk; exact hiv
          · intro _ j r k h hm; rw [new_set h, hx] at hm; cases hm
          · intro ho j y h hm; rw [new_set h, hx] at hm; cases hm; simp at ho; rw [ho]
          · intro y h; rw [hd] at h; exact h
          · intro y h; exact .inl (hd.trans h)
          · intro ho
            simp at ho
            exact ⟨z, x, ho, .inl hd, i, by simp, i, .refl i, hx⟩
      | none =>
        obtain ⟨r, hr⟩ : ∃ r, refs[i]? = some r := ⟨_, List.getElem?_eq_getElem (by rw [G.length]; exact hi)⟩
        obtain ⟨ok, s', e, p⟩ := dfsAll_ok (c := fuel) (fun s i h1 h2 h3 => ih s i h1 h2 h3) r { s with visited := s.visited.set i true } (by simp [hl]) (fun k hk => G.range i r k hr hk)
          (by show unvisited (s.visited.set i true) < _; omega)
        have hnew : ∀ j, New s s' j → j = i ∨ New { s with visited := s.visited.set i true } s' j := by
          intro j h
          by_cases hji : i = j
          · exact .inl hji.symm
          · exact .inr ⟨by show (s.visited.set i true)[j]? = _; rw [List.getElem?_set_ne hji]; exact h.1, h.2⟩
        refine ⟨ok, s', by simp [dfs, hv, hx, hr, e], ⟨p.length, ?_, fun j h => p.mono j (set_mono h), ?_, ?_, ?_, ?_, p.keep, ?_, ?_⟩⟩
        · have := p.less
          have h2 : unvisited ({ s with visited := s.visited.set i true } : St).visited = unvisited (s.visited.set i true) := rfl
          omega
        · intro j h
          refine ⟨i, by simp, ?_⟩
          rcases hnew j h with rfl | h
          · exact .refl _
          · obtain ⟨k, hk, hre⟩ := p.reach j h
            exact .step hx hr hk hre
        · intro ho k hk; simp at hk; subst hk; exact p.mono _ hiv
        · intro ho j r' k h hm hr' hk
          rcases hnew j h with rfl | h
          · rw [hr] at hr'; cases hr'
            exact p.start ho k hk
          · exact p.closed ho j r' k h hm hr' hk
        · intro ho j x h hm
          rcases hnew j h with rfl | h
          · rw [hx] at hm; cases hm
          · exact p.agree ho j x h hm
        · intro x h
          rcases p.found x h with h | ⟨j, hj, hm⟩
          · exact .inl h
          · refine .inr ⟨j, ⟨?_, hj.2⟩, hm⟩
            have h1 : (s.visited.set i true)[j]? = some false := hj.1
            by_cases hji : i = j
            · subst hji; rw [hiv] at h1; cases h1
            · rw [List.getElem?_set_ne hji] at h1; exact h1
        · intro ho
          obtain ⟨x, y, hne, h1, k, hk, j, hre, hm⟩ := p.clash ho
          refine ⟨x, y, hne, ?_, i, by simp, j, .step hx hr hk hre, hm⟩
          rcases h1 with h1 | ⟨k, hk, j, hre, hm⟩
          · exact .inl h1
          · exact .inr ⟨i, by simp, j, .step hx hr hk hre, hm⟩

theorem unvisited_replicate (n : Nat) : unvisited (List.replicate n false) = n := by
  induction n with
  | zero => rfl
  | succ n ih => simp [unvisited, List.replicate_succ] at ih ⊢

/-- The search from the beginning: either all types that are found agree, or two are different. -/
theorem search (G : Graph mb refs n) {i : Nat} (hi : i < n) : ∃ ok s', dfs mb refs (n + 1) { visited := List.replicate n false } i = some (ok, s') ∧
    (ok = true → (∀ j x, Reach mb refs i j → mb j = some (some x) → s'.disc = some x) ∧ ∀ x, s'.disc = some x → ∃ j, Reach mb refs i j ∧ mb j = some (some x)) ∧
    (ok = false → ∃ x y, x ≠ y ∧ (∃ j, Reach mb refs i j ∧ mb j = some (some x)) ∧ ∃ j, Reach mb refs i j ∧ mb j = some (some y)) := by
  obtain ⟨ok, s', e, p⟩ := dfs_ok G (n + 1) { visited := List.replicate n false } i (by simp) hi (by show unvisited (List.replicate n false) < _; rw [unvisited_replicate]; omega)
  refine ⟨ok, s', e, ?_, ?_⟩
  · intro ho
    have fresh : ∀ j, s'.visited[j]? = some true → New { visited := List.replicate n false } s' j := by
      intro j h
      have : j < n := by
        rw [← p.length]
        exact (List.getElem?_eq_some_iff.1 h).1
      exact ⟨by simp [this], h⟩
    have hall : ∀ k j, Reach mb refs k j → s'.visited[k]? = some true → s'.visited[j]? = some true := by
      intro k j h
      induction h with
      | refl => exact fun h => h
      | step hm hr hk _ ih => exact fun h => ih (p.closed ho _ _ _ (fresh _ h) hm hr hk)
    refine ⟨fun j x hj hm => p.agree ho j x (fresh j (hall i j hj (p.start ho i (by simp)))) hm, fun x hx => ?_⟩
    rcases p.found x hx with h | ⟨j, hj, hm⟩
    · cases h
    · obtain ⟨k, hk, hre⟩ := p.reach j hj
      simp at hk; subst hk
      exact ⟨j, hre, hm⟩
  · intro ho
    obtain ⟨x, y, hne, h1, k, hk, j, hre, hm⟩ := p.clash ho
    rw [List.mem_singleton.1 hk] at hre
    refine ⟨x, y, hne, ?_, j, hre, hm⟩
    rcases h1 with h1 | ⟨k, hk, j, hre, hm⟩
    · cases h1
    · rw [List.mem_singleton.1 hk] at hre
      exact ⟨j, hre, hm⟩

end Verif.Lemmas.Udo
