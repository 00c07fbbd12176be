import Verif.Spec.Collection
namespace Verif.Lemmas.Collection
open Verif.Spec

variable {α : Type} {cmp : α → α → Int}

theorem cmp_self (hc : Comparator cmp) (x : α) : cmp x x = 0 := by
  have := hc.anti x x; omega

theorem cmp_le_swap (hc : Comparator cmp) {x y : α} (h : cmp x y ≤ 0) : 0 ≤ cmp y x := by
  have := hc.anti y x; have := hc.anti x y; omega

theorem cmp_symm (hc : Comparator cmp) {x y : α} (h : cmp x y = 0) : cmp y x = 0 := by
  have := hc.anti y x; have := hc.anti x y; omega

theorem cmp_eq_trans (hc : Comparator cmp) {x y z : α} (h1 : cmp x y = 0) (h2 : cmp y z = 0) :
    cmp x z = 0 := by
  have a := hc.trans x y z (by omega) (by omega)
  have b := hc.trans z y x (by have := cmp_symm hc h2; omega) (by have := cmp_symm hc h1; omega)
  have := cmp_le_swap hc b
  omega

theorem cmp_lt_of_lt_of_le (hc : Comparator cmp) {x y z : α} (h1 : cmp x y < 0) (h2 : cmp y z ≤ 0) :
    cmp x z < 0 := by
  have a := hc.trans x y z (by omega) h2
  by_cases h : cmp x z = 0
  · have h3 := cmp_symm hc h
    have := hc.trans y z x h2 (by omega)
    have := hc.anti y x
    omega
  · omega

theorem cmp_lt_of_le_of_lt (hc : Comparator cmp) {x y z : α} (h1 : cmp x y ≤ 0) (h2 : cmp y z < 0) :
    cmp x z < 0 := by
  have a := hc.trans x y z h1 (by omega)
  by_cases h : cmp x z = 0
  · have h3 := cmp_symm hc h
    have := hc.trans z x y (by omega) h1
    have := hc.anti z y
    omega
  · omega

theorem cmp_lt_congr (hc : Comparator cmp) {x y z : α} (h : cmp x y = 0) :
    (cmp x z < 0 ↔ cmp y z < 0) := by
  constructor
  · intro h1; exact cmp_lt_of_le_of_lt hc (by have := cmp_symm hc h; omega) h1
  · intro h1; exact cmp_lt_of_le_of_lt hc (by omega) h1

theorem cmp_eq_congr (hc : Comparator cmp) {x y z : α} (h : cmp x y = 0) :
    (cmp x z = 0 ↔ cmp y z = 0) :=
  ⟨fun h1 => cmp_eq_trans hc (cmp_symm hc h) h1, fun h1 => cmp_eq_trans hc h h1⟩

theorem comparator_pre (hc : Comparator cmp) : TotalPreorder cmp :=
  ⟨fun x y h => by have := (hc.anti x y).mp h; omega, hc.trans⟩

/-! ### lookup -/

theorem lookup_nil (k : α) : lookup cmp [] k = none := rfl

theorem lookup_cons (r : α) (s : List α) (k : α) :
    lookup cmp (r :: s) k = if cmp k r = 0 then some r else lookup cmp s k := by
  unfold lookup
  rw [List.find?_cons]
  by_cases h : cmp k r = 0 <;> simp [h]

theorem lookup_append (s t : List α) (k : α) :
    lookup cmp (s ++ t) k = (lookup cmp s k).or (lookup cmp t k) := by
  unfold lookup; rw [List.find?_append]

theorem lookup_some_mem {s : List α} {k r : α} (h : lookup cmp s k = some r) :
    r ∈ s ∧ cmp k r = 0 := by
  unfold lookup at h
  exact ⟨List.mem_of_find?_eq_some h, by simpa using List.find?_some h⟩

theorem lookup_none {s : List α} {k : α} : lookup cmp s k = none ↔ ∀ r ∈ s, cmp k r ≠ 0 := by
  unfold lookup; simp [List.find?_eq_none]

theorem lookup_congr (hc : Comparator cmp) (s : List α) {k k' : α} (h : cmp k k' = 0) :
    lookup cmp s k = lookup cmp s k' := by
  induction s with
  | nil => rfl
  | cons r s ih =>
    rw [lookup_cons, lookup_cons, ih]
    have := cmp_eq_congr hc (z := r) h
    by_cases h1 : cmp k r = 0
    · rw [if_pos h1, if_pos (this.mp h1)]
    · rw [if_neg h1, if_neg (fun h2 => h1 (this.mpr h2))]

theorem distinct_unique (hc : Comparator cmp) {s : List α} (hd : Distinct cmp s) {x y : α}
    (hx : x ∈ s) (hy : y ∈ s) (h : cmp x y = 0) : x = y := by
  induction s with
  | nil => cases hx
  | cons a s ih =>
    unfold Distinct at hd
    rw [List.pairwise_cons] at hd
    rw [List.mem_cons] at hx hy
    rcases hx with hx | hx <;> rcases hy with hy | hy
    · rw [hx, hy]
    · subst hx; exact absurd h (hd.1 y hy)
    · subst hy; exact absurd (cmp_symm hc h) (hd.1 x hx)
    · exact ih hd.2 hx hy

theorem lookup_eq_some_iff (hc : Comparator cmp) {s : List α} (hd : Distinct cmp s) {k r : α} :
    lookup cmp s k = some r ↔ r ∈ s ∧ cmp k r = 0 := by
  constructor
  · exact lookup_some_mem
  · rintro ⟨h1, h2⟩
    cases h : lookup cmp s k with
    | none => exact absurd h2 (lookup_none.mp h r h1)
    | some r' =>
      obtain ⟨h3, h4⟩ := lookup_some_mem h
      rw [distinct_unique hc hd h3 h1 (cmp_eq_trans hc (cmp_symm hc h4) h2)]

theorem distinct_perm (hc : Comparator cmp) {s t : List α} (h : s.Perm t) (hd : Distinct cmp s) :
    Distinct cmp t :=
  h.pairwise hd fun h1 h2 => h1 (cmp_symm hc h2)

theorem lookup_perm (hc : Comparator cmp) {s t : List α} (h : s.Perm t) (hd : Distinct cmp s)
    (k : α) : lookup cmp s k = lookup cmp t k := by
  cases h1 : lookup cmp s k with
  | none =>
    symm; rw [lookup_none] at h1 ⊢
    intro r hr; exact h1 r (h.mem_iff.mpr hr)
  | some r =>
    symm
    rw [lookup_eq_some_iff hc (distinct_perm hc h hd)]
    obtain ⟨h2, h3⟩ := lookup_some_mem h1
    exact ⟨h.mem_iff.mp h2, h3⟩

theorem distinct_nodup (hc : Comparator cmp) {s : List α} (hd : Distinct cmp s) : s.Nodup :=
  hd.imp fun {a b} h (he : a = b) => h (he ▸ cmp_self hc _)

/-- Two collections with the same lookups hold the same keys. -/
theorem perm_of_lookup (hc : Comparator cmp) {s t : List α} (hs : Distinct cmp s)
    (ht : Distinct cmp t) (h : ∀ k, lookup cmp s k = lookup cmp t k) : s.Perm t := by
  rw [List.perm_ext_iff_of_nodup (distinct_nodup hc hs) (distinct_nodup hc ht)]
  intro a
  have h1 := lookup_eq_some_iff hc hs (k := a) (r := a)
  have h2 := lookup_eq_some_iff hc ht (k := a) (r := a)
  have h0 := cmp_self hc a
  rw [h a] at h1
  simp only [h0, and_true] at h1 h2
  exact h1.symm.trans h2

theorem distinct_append_singleton (hc : Comparator cmp) {s : List α} {k : α} (hd : Distinct cmp s)
    (h : lookup cmp s k = none) : Distinct cmp (s ++ [k]) := by
  unfold Distinct at *
  rw [List.pairwise_append]
  refine ⟨hd, List.pairwise_singleton _ _, ?_⟩
  intro x hx y hy
  simp only [List.mem_singleton] at hy
  subst hy
  exact fun h0 => lookup_none.mp h x hx (cmp_symm hc h0)

theorem refStep_add_some {s : List α} {k r : α} (h : lookup cmp s k = some r) :
    refStep cmp s (.add k) = (s, .key (some r)) := by simp only [refStep, h]

theorem refStep_add_none {s : List α} {k : α} (h : lookup cmp s k = none) :
    refStep cmp s (.add k) = (s ++ [k], .key (some k)) := by simp only [refStep, h]

theorem refStep_del_some {s : List α} {k r : α} (h : lookup cmp s k = some r) :
    refStep cmp s (.del k) = (s.filter (fun r => decide (cmp k r ≠ 0)), .status true) := by
  simp only [refStep, h]

theorem refStep_del_none {s : List α} {k : α} (h : lookup cmp s k = none) :
    refStep cmp s (.del k) = (s, .status false) := by simp only [refStep, h]

theorem refStep_distinct (hc : Comparator cmp) {s : List α} (hd : Distinct cmp s) (op : Op α) :
    Distinct cmp (refStep cmp s op).1 := by
  cases op with
  | find k => exact hd
  | add k =>
    cases h : lookup cmp s k with
    | some r => rw [refStep_add_some h]; exact hd
    | none => rw [refStep_add_none h]; exact distinct_append_singleton hc hd h
  | del k =>
    cases h : lookup cmp s k with
    | none => rw [refStep_del_none h]; exact hd
    | some r => rw [refStep_del_some h]; exact List.Pairwise.filter _ hd

theorem refRun_distinct (hc : Comparator cmp) (ops : List (Op α)) : ∀ {s : List α},
    Distinct cmp s → Distinct cmp (refRun cmp s ops).1 := by
  induction ops with
  | nil => intro s h; exact h
  | cons op ops ih =>
    intro s h
    exact ih (refStep_distinct hc h op)

/-- the reference step depends on the state only up to order -/
theorem refStep_perm (hc : Comparator cmp) {s t : List α} (h : s.Perm t) (hd : Distinct cmp s)
    (op : Op α) : (refStep cmp s op).1.Perm (refStep cmp t op).1 ∧
      (refStep cmp s op).2 = (refStep cmp t op).2 := by
  cases op with
  | find k => exact ⟨h, by simp only [refStep, lookup_perm hc h hd k]⟩
  | add k =>
    unfold refStep
    simp only [← lookup_perm hc h hd k]
    cases lookup cmp s k with
    | some r => exact ⟨h, rfl⟩
    | none => exact ⟨h.append_right _, rfl⟩
  | del k =>
    unfold refStep
    simp only [← lookup_perm hc h hd k]
    cases lookup cmp s k with
    | none => exact ⟨h, rfl⟩
    | some r => exact ⟨h.filter _, rfl⟩

theorem filter_eq_erase (hc : Comparator cmp) [DecidableEq α] {s : List α} (hd : Distinct cmp s)
    {k r : α} (hr : r ∈ s) (hk : cmp k r = 0) :
    s.filter (fun x => decide (cmp k x ≠ 0)) = s.erase r := by
  rw [(distinct_nodup hc hd).erase_eq_filter]
  apply List.filter_congr
  intro x hx
  by_cases h : cmp k x = 0
  · have : x = r := distinct_unique hc hd hx hr (cmp_eq_trans hc (cmp_symm hc h) hk)
    simp [this, hk]
  · have : x ≠ r := fun he => h (he ▸ hk)
    simp [h, this]

/-- adding keys one by one keeps the first of each class -/
theorem refRun_adds_lookup (hc : Comparator cmp) (vs : List α) : ∀ (s : List α) (k : α),
    lookup cmp (refRun cmp s (vs.map Op.add)).1 k = (lookup cmp s k).or (lookup cmp vs k) := by
  induction vs with
  | nil => intro s k; simp [refRun, lookup_nil]
  | cons v vs ih =>
    intro s k
    show lookup cmp (refRun cmp (refStep cmp s (.add v)).1 (vs.map Op.add)).1 k = _
    rw [ih, lookup_cons]
    cases h : lookup cmp s v with
    | some r =>
      rw [refStep_add_some h]
      show (lookup cmp s k).or _ = _
      by_cases hk : cmp k v = 0
      · rw [lookup_congr hc s hk, h]; rfl
      · rw [if_neg hk]
    | none =>
      rw [refStep_add_none h]
      show (lookup cmp (s ++ [v]) k).or _ = _
      rw [lookup_append, lookup_cons, lookup_nil]
      by_cases hk : cmp k v = 0
      · rw [lookup_congr hc s hk, h, if_pos hk, if_pos hk]; rfl
      · rw [if_neg hk, if_neg hk]; simp

end Verif.Lemmas.Collection
