import Verif.Lemmas.TypeName

namespace Verif.Lemmas.TypeName
open Verif.Model Verif.Model.TypeName Verif.Spec.TypeName

theorem qualifiers_word : ∀ w ∈ qualifiers, Word w := by
  have h : ∀ w ∈ qualifiers, w ≠ [] ∧ (w.all (fun c => isDelimiter c == false)) = true := by
    decide +kernel
  intro w hw
  refine ⟨(h w hw).1, ?_⟩
  have := (h w hw).2
  rw [List.all_eq_true] at this
  intro c hc
  simpa using this c hc

theorem keywords_iff (w : List Nat) : w ∈ keywords ↔ w ∈ qualifiers := by
  have h1 : ∀ w ∈ keywords, w ∈ qualifiers := by decide +kernel
  have h2 : ∀ w ∈ qualifiers, w ∈ keywords := by decide +kernel
  exact ⟨h1 w, h2 w⟩

theorem inQ_iff {s : List Nat} {j : Nat} : inQualifier s j = true ↔ CovAny s qualifiers j := by
  unfold inQualifier CovAny
  simp only [List.any_eq_true, List.mem_range, Bool.and_eq_true, decide_eq_true_eq]
  constructor
  · rintro ⟨w, hw, a, _, ⟨h2, h3⟩, h4⟩; exact ⟨w, hw, a, h2, h3, h4⟩
  · rintro ⟨w, hw, a, h2, h3, h4⟩
    refine ⟨w, hw, a, ?_, ⟨h2, h3⟩, h4⟩
    have hword := qualifiers_word w hw
    have := (stands_iff.1 h4).1.le hword.pos
    have := hword.pos
    omega

theorem covAny_keywords {s : List Nat} {j : Nat} : CovAny s keywords j ↔ CovAny s qualifiers j := by
  unfold CovAny
  constructor
  · rintro ⟨w, hw, h⟩; exact ⟨w, (keywords_iff w).1 hw, h⟩
  · rintro ⟨w, hw, h⟩; exact ⟨w, (keywords_iff w).2 hw, h⟩

theorem blanked_get (s : List Nat) (j : Nat) :
    (blanked s)[j]? = s[j]?.map (fun c => if inQualifier s j then 32 else c) := by
  simp [blanked]

theorem dropAll_blanked {s : List Nat} (hs : Text s) : dropAll keywords s = some (blanked s) := by
  obtain ⟨t, e, hl, hp⟩ := dropAll_eq keywords s
    (fun w hw => qualifiers_word w ((keywords_iff w).1 hw)) hs
  rw [e]
  congr 1
  apply List.ext_getElem?
  intro j
  rw [hp j, blanked_get]
  by_cases h : CovAny s keywords j
  · rw [if_pos h]
    have hq : inQualifier s j = true := inQ_iff.2 (covAny_keywords.1 h)
    obtain ⟨w, hw, a, h1, h2, h3⟩ := h
    obtain ⟨c, hc⟩ := (stands_iff.1 h3).1.some (qualifiers_word w ((keywords_iff w).1 hw)) h2
    simp [hq, hc]
  · rw [if_neg h]
    have hq : inQualifier s j = false := by
      rw [Bool.eq_false_iff]; intro hh; exact h (covAny_keywords.2 (inQ_iff.1 hh))
    simp [hq]

theorem blanked_length (s : List Nat) : (blanked s).length = s.length := by simp [blanked]

theorem blanked_text {s : List Nat} (hs : Text s) : Text (blanked s) := by
  intro c hc
  obtain ⟨i, hi⟩ := List.mem_iff_getElem?.1 hc
  rw [blanked_get] at hi
  cases e : s[i]? with
  | none => rw [e] at hi; simp at hi
  | some d =>
    rw [e] at hi
    simp only [Option.map_some, Option.some.injEq] at hi
    by_cases h : inQualifier s i = true
    · rw [if_pos h] at hi; omega
    · rw [if_neg h] at hi; subst hi; exact hs _ (List.mem_of_getElem? e)

/-! ## Cutting a text at a word boundary -/

/-- The cut between `u` and `v` is next to a separator. -/
def Cut (u v : List Nat) : Prop :=
  u = [] ∨ v = [] ∨ (∃ c, u.getLast? = some c ∧ separator c = true) ∨
    (∃ c, v.head? = some c ∧ separator c = true)

theorem get_left {u v : List Nat} {i : Nat} (h : i < u.length) : (u ++ v)[i]? = u[i]? :=
  List.getElem?_append_left h

theorem get_right {u v : List Nat} {i : Nat} : (u ++ v)[u.length + i]? = v[i]? := by
  rw [List.getElem?_append_right (by omega)]; congr 1; omega

/-- A whole word does not lie across a cut. -/
theorem no_cross {u v w : List Nat} {a : Nat} (hw : Word w) (hc : Cut u v)
    (h : M (u ++ v) w a) : a + w.length ≤ u.length ∨ u.length ≤ a := by
  apply Classical.byContradiction
  intro hn
  have hle := h.le hw.pos
  simp only [List.length_append] at hle
  rcases hc with rfl | rfl | ⟨c, hc, hs⟩ | ⟨c, hc, hs⟩
  · simp at hn
  · simp at hle; omega
  · rw [List.getLast?_eq_getElem?] at hc
    have : (u ++ v)[u.length - 1]? = some c := by rw [get_left (by omega)]; exact hc
    have := (h.nonsep hw (p := u.length - 1) (by omega) (by omega) this).1
    rw [hs] at this; simp at this
  · rw [List.head?_eq_getElem?] at hc
    have : (u ++ v)[u.length]? = some c := by
      have := get_right (u := u) (v := v) (i := 0); simpa [hc] using this
    have := (h.nonsep hw (p := u.length) (by omega) (by omega) this).1
    rw [hs] at this; simp at this

theorem stands_left {u v w : List Nat} {a : Nat} (hw : Word w) (hc : Cut u v)
    (ha : a + w.length ≤ u.length) :
    standsAt (u ++ v) w a = true ↔ standsAt u w a = true := by
  have hpos := hw.pos
  have hM : M (u ++ v) w a ↔ M u w a := by
    rw [M_iff hpos, M_iff hpos]
    constructor <;> intro h j hj
    · rw [← h j hj, get_left (by omega)]
    · rw [← h j hj, get_left (by omega)]
  have hL : L (u ++ v) a ↔ L u a := by
    unfold L
    by_cases h0 : a = 0
    · simp [h0]
    · rw [get_left (by omega)]
  rw [stands_iff, stands_iff, hM, hL]
  by_cases hlt : a + w.length < u.length
  · have : R (u ++ v) (a + w.length) ↔ R u (a + w.length) := by
      unfold R; rw [get_left hlt]
    rw [this]
  · have heq : a + w.length = u.length := by omega
    constructor
    · rintro ⟨m, l, _⟩
      refine ⟨m, l, ?_⟩
      intro c hc
      rw [heq] at hc; simp at hc
    · rintro ⟨m, l, _⟩
      refine ⟨m, l, ?_⟩
      intro c hc'
      rw [heq] at hc'
      have hv : v[0]? = some c := by
        have := get_right (u := u) (v := v) (i := 0); rw [Nat.add_zero] at this; rw [← this]; exact hc'
      rcases hc with rfl | rfl | ⟨d, hd, hs⟩ | ⟨d, hd, hs⟩
      · simp only [List.length_nil] at heq; omega
      · simp at hv
      · exfalso
        rw [List.getLast?_eq_getElem?] at hd
        have := (m.nonsep hw (p := u.length - 1) (by omega) (by omega) hd).1
        rw [hs] at this; simp at this
      · rw [List.head?_eq_getElem?, hv] at hd
        cases hd; exact hs

theorem stands_right {u v w : List Nat} {a : Nat} (hw : Word w) (hc : Cut u v) :
    standsAt (u ++ v) w (u.length + a) = true ↔ standsAt v w a = true := by
  have hpos := hw.pos
  have hM : M (u ++ v) w (u.length + a) ↔ M v w a := by
    rw [M_iff hpos, M_iff hpos]
    constructor <;> intro h j hj
    · rw [← h j hj, Nat.add_assoc, get_right]
    · rw [← h j hj, Nat.add_assoc, get_right]
  have hR : R (u ++ v) (u.length + a + w.length) ↔ R v (a + w.length) := by
    unfold R; rw [Nat.add_assoc, get_right]
  rw [stands_iff, stands_iff, hM, hR]
  by_cases h0 : a = 0
  · subst h0
    constructor
    · rintro ⟨m, _, r⟩; exact ⟨m, Or.inl rfl, r⟩
    · rintro ⟨m, _, r⟩
      refine ⟨m, ?_, r⟩
      by_cases hu : u.length = 0
      · exact Or.inl (by omega)
      · right
        rcases hc with rfl | rfl | ⟨d, hd, hs⟩ | ⟨d, hd, hs⟩
        · simp at hu
        · have := m.le hpos; simp only [List.length_nil] at this; omega
        · rw [List.getLast?_eq_getElem?] at hd
          exact ⟨d, by rw [Nat.add_zero, get_left (by omega)]; exact hd, hs⟩
        · exfalso
          rw [List.head?_eq_getElem?] at hd
          have := (m.nonsep hw (p := 0) (by omega) (by omega) hd).1
          rw [hs] at this; simp at this
  · have hL : L (u ++ v) (u.length + a) ↔ L v a := by
      unfold L
      rw [show u.length + a - 1 = u.length + (a - 1) by omega, get_right]
      simp [h0, show ¬ (u.length + a = 0) by omega]
    rw [hL]

theorem inQ_left {u v : List Nat} {j : Nat} (hc : Cut u v) (hj : j < u.length) :
    inQualifier (u ++ v) j = inQualifier u j := by
  rw [Bool.eq_iff_iff, inQ_iff, inQ_iff]
  unfold CovAny
  constructor
  · rintro ⟨w, hw, a, h1, h2, h3⟩
    have hword := qualifiers_word w hw
    rcases no_cross hword hc (stands_iff.1 h3).1 with h | h
    · exact ⟨w, hw, a, h1, h2, (stands_left hword hc h).1 h3⟩
    · omega
  · rintro ⟨w, hw, a, h1, h2, h3⟩
    have hword := qualifiers_word w hw
    have := (stands_iff.1 h3).1.le hword.pos
    exact ⟨w, hw, a, h1, h2, (stands_left hword hc this).2 h3⟩

theorem inQ_right {u v : List Nat} {j : Nat} (hc : Cut u v) :
    inQualifier (u ++ v) (u.length + j) = inQualifier v j := by
  rw [Bool.eq_iff_iff, inQ_iff, inQ_iff]
  unfold CovAny
  constructor
  · rintro ⟨w, hw, a, h1, h2, h3⟩
    have hword := qualifiers_word w hw
    rcases no_cross hword hc (stands_iff.1 h3).1 with h | h
    · omega
    · refine ⟨w, hw, a - u.length, by omega, by omega, ?_⟩
      rw [← stands_right (u := u) hword hc, show u.length + (a - u.length) = a by omega]
      exact h3
  · rintro ⟨w, hw, a, h1, h2, h3⟩
    have hword := qualifiers_word w hw
    exact ⟨w, hw, u.length + a, by omega, by omega, (stands_right hword hc).2 h3⟩

/-- Blanking works on each side of a cut. -/
theorem blanked_append {u v : List Nat} (hc : Cut u v) :
    blanked (u ++ v) = blanked u ++ blanked v := by
  apply List.ext_getElem?
  intro j
  by_cases hj : j < u.length
  · rw [blanked_get, get_left hj, inQ_left hc hj, ← blanked_get,
      List.getElem?_append_left (by rw [blanked_length]; exact hj)]
  · obtain ⟨i, rfl⟩ : ∃ i, j = u.length + i := ⟨j - u.length, by omega⟩
    rw [blanked_get, get_right, inQ_right hc, ← blanked_get,
      List.getElem?_append_right (by rw [blanked_length]; omega), blanked_length]
    congr 1; omega

theorem blanked_nil : blanked [] = [] := rfl

/-- A text without separators is blanked if and only if it is a qualifier. -/
theorem blanked_word {w : List Nat} (h : ∀ c ∈ w, separator c = false) :
    blanked w = if w ∈ qualifiers then List.replicate w.length 32 else w := by
  have hst : ∀ q ∈ qualifiers, ∀ a, standsAt w q a = true → a = 0 ∧ q = w := by
    intro q hq a hst
    have hword := qualifiers_word q hq
    obtain ⟨m, l, r⟩ := stands_iff.1 hst
    have hle := m.le hword.pos
    have ha : a = 0 := by
      rcases l with l | ⟨c, hc, hs⟩
      · exact l
      · have := h c (List.mem_of_getElem? hc)
        rw [hs] at this; simp at this
    refine ⟨ha, ?_⟩
    subst ha
    have hlen : q.length = w.length := by
      apply Classical.byContradiction
      intro hne
      have hlt : 0 + q.length < w.length := by omega
      have := r _ (List.getElem?_eq_getElem hlt)
      rw [h _ (List.getElem_mem _)] at this; simp at this
    unfold M at m
    rw [List.drop_zero, hlen, List.take_length] at m
    exact m.symm
  by_cases hq : w ∈ qualifiers
  · rw [if_pos hq]
    apply List.ext_getElem?
    intro j
    rw [blanked_get]
    by_cases hj : j < w.length
    · have : inQualifier w j = true := inQ_iff.2 ⟨w, hq, 0, Nat.zero_le _, by omega, by
        rw [stands_iff]
        refine ⟨by simp [M], Or.inl rfl, ?_⟩
        intro c hc; simp at hc⟩
      rw [List.getElem?_eq_getElem hj]
      simp [this, hj]
    · rw [List.getElem?_eq_none (by omega), List.getElem?_eq_none (by simp; omega)]
      rfl
  · rw [if_neg hq]
    apply List.ext_getElem?
    intro j
    rw [blanked_get]
    have : inQualifier w j = false := by
      rw [Bool.eq_false_iff]
      intro hh
      obtain ⟨q, hqm, a, _, _, h3⟩ := inQ_iff.1 hh
      obtain ⟨_, e⟩ := hst q hqm a h3
      exact hq (e ▸ hqm)
    simp [this]

theorem blanked_sep {c : Nat} {s : List Nat} (h : separator c = true) :
    blanked (c :: s) = c :: blanked s := by
  have : c :: s = [c] ++ s := rfl
  rw [this, blanked_append (Or.inr (Or.inr (Or.inl ⟨c, rfl, h⟩)))]
  suffices e : blanked [c] = [c] by rw [e]; rfl
  apply List.ext_getElem?
  intro j
  rw [blanked_get]
  cases j with
  | zero =>
    have : inQualifier [c] 0 = false := by
      rw [Bool.eq_false_iff]
      intro hh
      obtain ⟨q, hqm, a, h1, h2, h3⟩ := inQ_iff.1 hh
      have := ((stands_iff.1 h3).1.nonsep (qualifiers_word q hqm) (p := 0) h1 h2 rfl).1
      rw [h] at this; simp at this
    simp [this]
  | succ j => simp

theorem mem_takeWhile {p : Nat → Bool} {s : List Nat} {c : Nat} (h : c ∈ s.takeWhile p) :
    p c = true := by
  have := List.all_takeWhile (l := s) (p := p)
  rw [List.all_eq_true] at this
  exact this c h

/-- Induction on the separators and the words of a text. -/
theorem runs_induction {P : List Nat → Prop} (h0 : P [])
    (h1 : ∀ c s, separator c = true → P s → P (c :: s))
    (h2 : ∀ w s, w ≠ [] → (∀ c ∈ w, separator c = false) →
      (s = [] ∨ ∃ c, s.head? = some c ∧ separator c = true) → P s → P (w ++ s)) :
    ∀ s, P s := by
  have go : ∀ n (s : List Nat), s.length ≤ n → P s := by
    intro n
    induction n with
    | zero =>
      intro s h
      have : s = [] := List.length_eq_zero_iff.1 (by omega)
      subst this; exact h0
    | succ n ih =>
      intro s h
      cases s with
      | nil => exact h0
      | cons c s =>
        simp only [List.length_cons] at h
        by_cases hs : separator c = true
        · exact h1 c s hs (ih s (by omega))
        · have e : c :: s = (c :: s.takeWhile (fun c => !separator c)) ++
              s.dropWhile (fun c => !separator c) := by
            rw [List.cons_append, List.takeWhile_append_dropWhile]
          rw [e]
          apply h2
          · simp
          · intro d hd
            rcases List.mem_cons.1 hd with rfl | hd
            · simpa using hs
            · have := mem_takeWhile hd
              simpa using this
          · have h3 := List.head?_dropWhile_not (fun c => !separator c) s
            cases e2 : s.dropWhile (fun c => !separator c) with
            | nil => exact Or.inl rfl
            | cons d t =>
              rw [e2] at h3
              exact Or.inr ⟨d, rfl, by simpa using h3⟩
          · apply ih
            have := (List.dropWhile_sublist (l := s) (fun c => !separator c)).length_le
            omega
  exact fun s => go s.length s (Nat.le_refl _)

theorem cut_of_head {u v : List Nat} (h : v = [] ∨ ∃ c, v.head? = some c ∧ separator c = true) :
    Cut u v := by
  rcases h with rfl | h
  · exact Or.inr (Or.inl rfl)
  · exact Or.inr (Or.inr (Or.inr h))

theorem blanked_head {s : List Nat} (h : s = [] ∨ ∃ c, s.head? = some c ∧ separator c = true) :
    blanked s = [] ∨ ∃ c, (blanked s).head? = some c ∧ separator c = true := by
  rcases h with rfl | ⟨c, hc, hs⟩
  · exact Or.inl rfl
  · cases s with
    | nil => simp at hc
    | cons d s =>
      simp only [List.head?_cons, Option.some.injEq] at hc
      subst hc
      rw [blanked_sep hs]
      exact Or.inr ⟨d, rfl, hs⟩

theorem blanked_replicate (n : Nat) (s : List Nat) :
    blanked (List.replicate n 32 ++ s) = List.replicate n 32 ++ blanked s := by
  induction n with
  | zero => rfl
  | succ n ih => rw [List.replicate_succ, List.cons_append, blanked_sep rfl, ih]; rfl

/-- Blanking leaves no qualifier. -/
theorem blanked_idem (s : List Nat) : blanked (blanked s) = blanked s := by
  induction s using runs_induction with
  | h0 => rfl
  | h1 c s hs ih => rw [blanked_sep hs, blanked_sep hs, ih]
  | h2 w s hw hsep hhd ih =>
    rw [blanked_append (cut_of_head hhd), blanked_word hsep]
    by_cases hq : w ∈ qualifiers
    · rw [if_pos hq, blanked_replicate, ih]
    · rw [if_neg hq, blanked_append (cut_of_head (blanked_head hhd)), blanked_word hsep, if_neg hq, ih]

/-! ## Words -/

/-- White space is only blanks and tabs. -/
def Plain (s : List Nat) : Prop := ∀ c ∈ s, space c = true → separator c = true

theorem space_sep {c : Nat} (h : space c = true) (h2 : separator c = true) : c = 32 ∨ c = 9 := by
  simp [space, separator] at h h2
  omega

theorem words_append_word {w s : List Nat} (hw : w ≠ []) (hn : ∀ c ∈ w, space c = false)
    (hs : s = [] ∨ ∃ c, s.head? = some c ∧ space c = true) : words (w ++ s) = w :: words s := by
  cases w with
  | nil => exact absurd rfl hw
  | cons c w =>
    rw [List.cons_append, words_cons (hn c List.mem_cons_self)]
    have h1 : (w ++ s).takeWhile (fun c => !space c) = w := by
      rw [List.takeWhile_append_of_pos (fun d hd => by simp [hn d (List.mem_cons_of_mem _ hd)])]
      rcases hs with rfl | ⟨d, hd, hsd⟩
      · simp
      · cases s with
        | nil => simp at hd
        | cons e s => simp at hd; subst hd; simp [hsd]
    have h2 : (w ++ s).dropWhile (fun c => !space c) = s := by
      rw [List.dropWhile_append_of_pos (fun d hd => by simp [hn d (List.mem_cons_of_mem _ hd)])]
      rcases hs with rfl | ⟨d, hd, hsd⟩
      · simp
      · cases s with
        | nil => simp at hd
        | cons e s => simp at hd; subst hd; simp [hsd]
    rw [h1, h2]

/-- Induction on the white space and the words of a text. -/
theorem words_induction {P : List Nat → Prop} (h0 : P [])
    (h1 : ∀ c s, space c = true → P s → P (c :: s))
    (h2 : ∀ w s, w ≠ [] → (∀ c ∈ w, space c = false) →
      (s = [] ∨ ∃ c, s.head? = some c ∧ space c = true) → P s → P (w ++ s)) :
    ∀ s, P s := by
  have go : ∀ n (s : List Nat), s.length ≤ n → P s := by
    intro n
    induction n with
    | zero =>
      intro s h
      have : s = [] := List.length_eq_zero_iff.1 (by omega)
      subst this; exact h0
    | succ n ih =>
      intro s h
      cases s with
      | nil => exact h0
      | cons c s =>
        simp only [List.length_cons] at h
        by_cases hs : space c = true
        · exact h1 c s hs (ih s (by omega))
        · have e : c :: s = (c :: s.takeWhile (fun c => !space c)) ++
              s.dropWhile (fun c => !space c) := by
            rw [List.cons_append, List.takeWhile_append_dropWhile]
          rw [e]
          apply h2
          · simp
          · intro d hd
            rcases List.mem_cons.1 hd with rfl | hd
            · simpa using hs
            · have := mem_takeWhile hd
              simpa using this
          · have h3 := List.head?_dropWhile_not (fun c => !space c) s
            cases e2 : s.dropWhile (fun c => !space c) with
            | nil => exact Or.inl rfl
            | cons d t =>
              rw [e2] at h3
              exact Or.inr ⟨d, rfl, by simpa using h3⟩
          · apply ih
            have := (List.dropWhile_sublist (l := s) (fun c => !space c)).length_le
            omega
  exact fun s => go s.length s (Nat.le_refl _)

/-- Every word is not empty and has no white space. -/
theorem words_mem (s : List Nat) : ∀ w ∈ words s, w ≠ [] ∧ ∀ c ∈ w, space c = false := by
  induction s using words_induction with
  | h0 => simp [words_nil]
  | h1 c s hs ih => rw [words_space hs]; exact ih
  | h2 w s hw hn hhd ih =>
    rw [words_append_word hw hn hhd]
    intro v hv
    rcases List.mem_cons.1 hv with rfl | hv
    · exact ⟨hw, hn⟩
    · exact ih v hv

theorem words_join : ∀ (ws : List (List Nat)), (∀ w ∈ ws, w ≠ [] ∧ ∀ c ∈ w, space c = false) →
    words (joinWords ws) = ws := by
  intro ws
  induction ws with
  | nil => intro _; simp [joinWords, words_nil]
  | cons w ws ih =>
    intro h
    rw [join_cons]
    have hw := h w List.mem_cons_self
    have ih' := ih (fun v hv => h v (List.mem_cons_of_mem _ hv))
    by_cases e : ws = []
    · subst e
      rw [if_pos rfl, words_append_word hw.1 hw.2 (Or.inl rfl), words_nil]
    · rw [if_neg e, words_append_word hw.1 hw.2 (Or.inr ⟨32, rfl, rfl⟩), words_space rfl, ih']

/-- All words of a text of which nothing is blanked are themselves such texts. -/
theorem words_unblanked (s : List Nat) (hp : Plain s) (h : blanked s = s) :
    ∀ w ∈ words s, blanked w = w := by
  induction s using words_induction with
  | h0 => simp [words_nil]
  | h1 c s hs ih =>
    rw [words_space hs]
    have hsep := hp c List.mem_cons_self hs
    rw [blanked_sep hsep] at h
    simp only [List.cons.injEq, true_and] at h
    exact ih (fun d hd => hp d (List.mem_cons_of_mem _ hd)) h
  | h2 w s hw hn hhd ih =>
    have hhd' : s = [] ∨ ∃ c, s.head? = some c ∧ separator c = true := by
      rcases hhd with rfl | ⟨c, hc, hs⟩
      · exact Or.inl rfl
      · refine Or.inr ⟨c, hc, hp c ?_ hs⟩
        exact List.mem_append.2 (Or.inr (List.mem_of_mem_head? hc))
    rw [blanked_append (cut_of_head hhd')] at h
    obtain ⟨e1, e2⟩ := List.append_inj h (blanked_length w)
    rw [words_append_word hw hn hhd]
    intro v hv
    rcases List.mem_cons.1 hv with rfl | hv
    · exact e1
    · exact ih (fun d hd => hp d (List.mem_append.2 (Or.inr hd))) e2 v hv

theorem join_unblanked : ∀ (ws : List (List Nat)), (∀ w ∈ ws, blanked w = w) →
    blanked (joinWords ws) = joinWords ws := by
  intro ws
  induction ws with
  | nil => intro _; simp [joinWords, blanked_nil]
  | cons w ws ih =>
    intro h
    have ih' := ih (fun v hv => h v (List.mem_cons_of_mem _ hv))
    rw [join_cons]
    by_cases e : ws = []
    · rw [if_pos e, List.append_nil]; exact h w List.mem_cons_self
    · rw [if_neg e, blanked_append (Or.inr (Or.inr (Or.inr ⟨32, rfl, rfl⟩))), blanked_sep rfl, ih',
        h w List.mem_cons_self]

theorem blanked_plain {s : List Nat} (h : Plain s) : Plain (blanked s) := by
  intro c hc hs
  obtain ⟨i, hi⟩ := List.mem_iff_getElem?.1 hc
  rw [blanked_get] at hi
  cases e : s[i]? with
  | none => rw [e] at hi; simp at hi
  | some d =>
    rw [e] at hi
    simp only [Option.map_some, Option.some.injEq] at hi
    by_cases hq : inQualifier s i = true
    · rw [if_pos hq] at hi; subst hi; rfl
    · rw [if_neg hq] at hi; subst hi; exact h _ (List.mem_of_getElem? e) hs

theorem words_replicate (n : Nat) (s : List Nat) : words (List.replicate n 32 ++ s) = words s := by
  induction n with
  | zero => rfl
  | succ n ih => rw [List.replicate_succ, List.cons_append, words_space rfl, ih]

/-- Without stars the words that stay are the words that are not qualifiers. -/
theorem words_blanked (s : List Nat) (hp : Plain s) (hstar : 42 ∉ s) :
    words (blanked s) = (words s).filter (fun w => decide (w ∉ qualifiers)) := by
  have hsp : ∀ c ∈ s, separator c = true → space c = true := by
    intro c hc h
    have : c ≠ 42 := fun e => hstar (e ▸ hc)
    simp [separator, space] at h ⊢
    omega
  have key : ∀ s : List Nat, (∀ c ∈ s, separator c = true → space c = true) →
      (∀ c ∈ s, space c = true → separator c = true) →
      words (blanked s) = (words s).filter (fun w => decide (w ∉ qualifiers)) := by
    intro s
    induction s using runs_induction with
    | h0 => intro _ _; simp [words_nil, blanked_nil]
    | h1 c s hs ih =>
      intro h1 h2
      have hc := h1 c List.mem_cons_self hs
      rw [blanked_sep hs, words_space hc, words_space hc]
      exact ih (fun d hd => h1 d (List.mem_cons_of_mem _ hd)) (fun d hd => h2 d (List.mem_cons_of_mem _ hd))
    | h2 w s hw hsep hhd ih =>
      intro h1 h2
      have ih' := ih (fun d hd => h1 d (List.mem_append.2 (Or.inr hd)))
        (fun d hd => h2 d (List.mem_append.2 (Or.inr hd)))
      have hn : ∀ c ∈ w, space c = false := by
        intro c hc
        rw [Bool.eq_false_iff]
        intro hh
        have := h2 c (List.mem_append.2 (Or.inl hc)) hh
        rw [hsep c hc] at this; simp at this
      have hsps : s = [] ∨ ∃ c, s.head? = some c ∧ space c = true := by
        rcases hhd with rfl | ⟨c, hc, hs⟩
        · exact Or.inl rfl
        · exact Or.inr ⟨c, hc, h1 c (List.mem_append.2 (Or.inr (List.mem_of_mem_head? hc))) hs⟩
      rw [blanked_append (cut_of_head hhd), blanked_word hsep, words_append_word hw hn hsps]
      by_cases hq : w ∈ qualifiers
      · rw [if_pos hq, words_replicate, ih']
        simp [hq]
      · rw [if_neg hq]
        have hb : blanked s = [] ∨ ∃ c, (blanked s).head? = some c ∧ space c = true := by
          rcases hhd with rfl | ⟨c, hc, hs⟩
          · exact Or.inl rfl
          · cases s with
            | nil => simp at hc
            | cons d s =>
              simp only [List.head?_cons, Option.some.injEq] at hc
              subst hc
              rw [blanked_sep hs]
              exact Or.inr ⟨d, rfl, h1 d (by simp) hs⟩
        rw [words_append_word hw hn hb, ih']
        simp [hq]
  exact key s hsp hp

end Verif.Lemmas.TypeName
