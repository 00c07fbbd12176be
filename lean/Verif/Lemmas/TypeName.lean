import Verif.Model.TypeName
import Verif.Spec.TypeName

namespace Verif.Lemmas.TypeName
open Verif.Model Verif.Model.TypeName Verif.Spec.TypeName

/-- A keyword: not empty, no byte of it is a delimiter. -/
def Word (kw : List Nat) : Prop := kw ≠ [] ∧ ∀ c ∈ kw, isDelimiter c = false

/-- The bytes of a C string. -/
def Text (s : List Nat) : Prop := ∀ c ∈ s, c ≠ 0

theorem Word.ne_zero {kw : List Nat} (h : Word kw) : ∀ c ∈ kw, c ≠ 0 := by
  intro c hc e
  have := h.2 c hc
  subst e
  simp [isDelimiter] at this

theorem Word.pos {kw : List Nat} (h : Word kw) : 0 < kw.length :=
  List.length_pos_iff.2 h.1

theorem sep_delim {c : Nat} (h : c ≠ 0) : separator c = isDelimiter c := by
  have : (c == 0) = false := by simp [h]
  simp [separator, isDelimiter, this]

theorem cAt_lt {s : List Nat} {i : Nat} (h : i < s.length) : cAt s i = s[i]? := by simp [cAt, h]

theorem cAt_len (s : List Nat) : cAt s s.length = some 0 := by simp [cAt]

/-- The bytes of `kw` are at `i`. -/
def M (s kw : List Nat) (i : Nat) : Prop := (s.drop i).take kw.length = kw

instance (s kw : List Nat) (i : Nat) : Decidable (M s kw i) := by unfold M; infer_instance

theorem M.le {s kw : List Nat} {i : Nat} (h : M s kw i) (hk : 0 < kw.length) :
    i + kw.length ≤ s.length := by
  have := congrArg List.length h
  simp at this
  omega

theorem M.get {s kw : List Nat} {i : Nat} (h : M s kw i) {j : Nat} (hj : j < kw.length) :
    s[i + j]? = kw[j]? := by
  have := congrArg (fun l => l[j]?) h
  simp only [List.getElem?_take_of_lt hj, List.getElem?_drop] at this
  exact this

theorem M_iff {s kw : List Nat} {i : Nat} (hk : 0 < kw.length) :
    M s kw i ↔ ∀ j, j < kw.length → s[i + j]? = kw[j]? := by
  constructor
  · intro h j hj; exact h.get hj
  · intro h
    apply List.ext_getElem?
    intro j
    by_cases hj : j < kw.length
    · rw [List.getElem?_take_of_lt hj, List.getElem?_drop]; exact h j hj
    · rw [List.getElem?_eq_none (by simp; omega), List.getElem?_eq_none (by omega)]

theorem matchAt_eq {s : List Nat} : ∀ (kw : List Nat) (i : Nat), (∀ c ∈ kw, c ≠ 0) →
    i ≤ s.length → matchAt s kw i = some (decide (M s kw i)) := by
  intro kw
  induction kw with
  | nil => intro i _ _; simp [matchAt, M]
  | cons k kw ih =>
    intro i hz hi
    by_cases hlt : i < s.length
    · have hd : s.drop i = s[i] :: s.drop (i + 1) := List.drop_eq_getElem_cons hlt
      have hiff : M s (k :: kw) i ↔ s[i] = k ∧ M s kw (i + 1) := by
        unfold M; rw [hd, List.length_cons, List.take_succ_cons, List.cons.injEq]
      simp only [matchAt, cAt_lt hlt, List.getElem?_eq_getElem hlt, Option.bind_eq_bind,
        Option.bind_some]
      by_cases e : s[i] = k
      · rw [if_pos e, ih (i + 1) (fun c hc => hz c (List.mem_cons_of_mem _ hc)) (by omega)]
        simp only [hiff, e, true_and]
      · rw [if_neg e]
        simp only [hiff, e, false_and, decide_false]
    · have hi' : i = s.length := by omega
      subst hi'
      have : (0 : Nat) ≠ k := fun e => hz k List.mem_cons_self e.symm
      simp [matchAt, cAt_len, this, M]

theorem strstr_eq {s kw : List Nat} (hw : Word kw) (hs : Text s) :
    ∀ (fuel i : Nat), i ≤ s.length → s.length < i + fuel →
    (∃ f, strstr s kw fuel i = some (some f) ∧ i ≤ f ∧ M s kw f ∧ ∀ j, i ≤ j → j < f → ¬ M s kw j) ∨
    (strstr s kw fuel i = some none ∧ ∀ j, i ≤ j → ¬ M s kw j) := by
  intro fuel
  induction fuel with
  | zero => intro i h1 h2; omega
  | succ fuel ih =>
    intro i h1 h2
    have hm := matchAt_eq (s := s) kw i hw.ne_zero h1
    by_cases h : M s kw i
    · left
      refine ⟨i, ?_, Nat.le_refl _, h, fun j a b => by omega⟩
      simp [strstr, hm, h]
    · by_cases hlt : i < s.length
      · have hc : s[i] ≠ 0 := hs _ (List.getElem_mem hlt)
        have hstep : strstr s kw (fuel + 1) i = strstr s kw fuel (i + 1) := by
          conv => lhs; unfold strstr
          simp [hm, h, cAt_lt hlt, List.getElem?_eq_getElem hlt, hc]
        rw [hstep]
        rcases ih (i + 1) (by omega) (by omega) with ⟨f, e, a, b, c⟩ | ⟨e, c⟩
        · left
          refine ⟨f, e, by omega, b, ?_⟩
          intro j hj hjf
          by_cases hji : j = i
          · subst hji; exact h
          · exact c j (by omega) hjf
        · right
          refine ⟨e, ?_⟩
          intro j hj
          by_cases hji : j = i
          · subst hji; exact h
          · exact c j (by omega)
      · have hi' : i = s.length := by omega
        right
        constructor
        · subst hi'
          simp [strstr, hm, h, cAt_len]
        · intro j hj hM
          have := hM.le hw.pos
          have := hw.pos
          omega

theorem blankOut_eq : ∀ (n : Nat) (s : List Nat) (i : Nat), i + n ≤ s.length →
    ∃ t, blankOut s i n = some t ∧ t.length = s.length ∧
      ∀ j, t[j]? = if i ≤ j ∧ j < i + n then some 32 else s[j]? := by
  intro n
  induction n with
  | zero => intro s i _; exact ⟨s, rfl, rfl, fun j => by rw [if_neg (by omega)]⟩
  | succ n ih =>
    intro s i h
    obtain ⟨t, e, hl, hp⟩ := ih (s.set i 32) (i + 1) (by simp; omega)
    refine ⟨t, ?_, by simpa using hl, ?_⟩
    · simp [blankOut, wr, show i < s.length by omega, e]
    · intro j
      rw [hp j]
      by_cases h1 : i + 1 ≤ j ∧ j < i + 1 + n
      · rw [if_pos h1, if_pos (by omega)]
      · rw [if_neg h1]
        by_cases h2 : j = i
        · subst h2
          rw [List.getElem?_set_self (by omega), if_pos (by omega)]
        · rw [List.getElem?_set_ne (by omega), if_neg (by omega)]

/-- Left end of a whole word. -/
def L (s : List Nat) (a : Nat) : Prop := a = 0 ∨ ∃ c, s[a - 1]? = some c ∧ separator c = true

/-- Right end of a whole word. -/
def R (s : List Nat) (b : Nat) : Prop := ∀ c, s[b]? = some c → separator c = true

theorem stands_iff {s w : List Nat} {a : Nat} :
    standsAt s w a = true ↔ M s w a ∧ L s a ∧ R s (a + w.length) := by
  unfold standsAt M L R
  simp only [Bool.and_eq_true, beq_iff_eq, Bool.or_eq_true]
  constructor
  · rintro ⟨⟨h1, h2⟩, h3⟩
    refine ⟨h1, ?_, ?_⟩
    · rcases h2 with h2 | h2
      · exact Or.inl h2
      · right
        cases e : s[a - 1]? with
        | none => rw [e] at h2; simp at h2
        | some c => rw [e] at h2; exact ⟨c, rfl, h2⟩
    · intro c hc; rw [hc] at h3; exact h3
  · rintro ⟨h1, h2, h3⟩
    refine ⟨⟨h1, ?_⟩, ?_⟩
    · rcases h2 with h2 | ⟨c, hc, h2⟩
      · exact Or.inl h2
      · right; rw [hc]; exact h2
    · cases e : s[a + w.length]? with
      | none => rfl
      | some c => exact h3 c e

theorem word_get {kw : List Nat} (hw : Word kw) {j : Nat} {c : Nat} (h : kw[j]? = some c) :
    separator c = false ∧ c ≠ 32 ∧ c ≠ 0 := by
  have hm := List.mem_of_getElem? h
  have hd := hw.2 c hm
  have hz := hw.ne_zero c hm
  refine ⟨by rw [sep_delim hz]; exact hd, ?_, hz⟩
  intro e; subst e; simp [isDelimiter] at hd

/-- No byte of an occurrence is a separator. -/
theorem M.nonsep {s kw : List Nat} {a p c : Nat} (hw : Word kw) (h : M s kw a) (h1 : a ≤ p)
    (h2 : p < a + kw.length) (hc : s[p]? = some c) : separator c = false ∧ c ≠ 32 := by
  have := h.get (j := p - a) (by omega)
  rw [show a + (p - a) = p by omega, hc] at this
  exact ⟨(word_get hw this.symm).1, (word_get hw this.symm).2.1⟩

theorem M.some {s kw : List Nat} {a p : Nat} (hw : Word kw) (h : M s kw a)
    (h2 : p < a + kw.length) : ∃ c, s[p]? = some c := by
  have := h.le hw.pos
  exact ⟨s[p], List.getElem?_eq_getElem (by omega)⟩

/-- Two whole words that share a position are the same. -/
theorem stands_overlap {s w w' : List Nat} {a a' p : Nat} (hw : Word w) (hw' : Word w')
    (h : standsAt s w a = true) (h' : standsAt s w' a' = true) (h1 : a ≤ p) (h2 : p < a + w.length)
    (h3 : a' ≤ p) (h4 : p < a' + w'.length) : a = a' ∧ w.length = w'.length := by
  rw [stands_iff] at h h'
  obtain ⟨m, l, r⟩ := h
  obtain ⟨m', l', r'⟩ := h'
  have key : ∀ {w w' : List Nat} {a a' : Nat}, Word w → M s w a → L s a' → a ≤ p →
      p < a + w.length → a' ≤ p → ¬ a < a' := by
    intro w w' a a' hw m l' h1 h2 h3 hlt
    rcases l' with l' | ⟨c, hc, hs⟩
    · omega
    · have := (m.nonsep hw (p := a' - 1) (by omega) (by omega) hc).1
      rw [hs] at this; simp at this
  have k1 := key (w' := w') hw m l' h1 h2 h3
  have k2 := key (w' := w) hw' m' l h3 h4 h1
  have ea : a = a' := by omega
  refine ⟨ea, ?_⟩
  subst ea
  have key2 : ∀ {w w' : List Nat}, Word w' → M s w' a → R s (a + w.length) →
      ¬ w.length < w'.length := by
    intro w w' hw' m' r hlt
    obtain ⟨c, hc⟩ := m'.some hw' (p := a + w.length) (by omega)
    have := (m'.nonsep hw' (by omega) (by omega) hc).1
    rw [r c hc] at this; simp at this
  have := key2 hw' m' r
  have := key2 hw m r'
  omega

/-- `j` belongs to an occurrence of `kw` as a whole word that starts at or after `ptr`. -/
def Cov (s kw : List Nat) (ptr j : Nat) : Prop :=
  ∃ a, ptr ≤ a ∧ a ≤ j ∧ j < a + kw.length ∧ standsAt s kw a = true

open Classical in
theorem dropKeyword_eq {kw : List Nat} (hw : Word kw) : ∀ (fuel : Nat) (s : List Nat) (ptr : Nat),
    Text s → ptr ≤ s.length → s.length < ptr + fuel →
    ∃ t, dropKeyword kw fuel s ptr = some t ∧ t.length = s.length ∧
      ∀ j, t[j]? = if Cov s kw ptr j then some 32 else s[j]? := by
  intro fuel
  induction fuel with
  | zero => intro s ptr _ h1 h2; omega
  | succ fuel ih =>
    intro s ptr hs h1 h2
    have hkpos := hw.pos
    unfold dropKeyword
    rcases strstr_eq hw hs (s.length + 1) ptr h1 (by omega) with ⟨f, e, hpf, hM, hfirst⟩ | ⟨e, hnone⟩
    · have hle := hM.le hkpos
      simp only [e, Option.bind_eq_bind, Option.bind_some]
      -- the byte after the occurrence
      obtain ⟨after, hafter⟩ : ∃ c, cAt s (f + kw.length) = some c := by
        by_cases h : f + kw.length < s.length
        · exact ⟨_, by rw [cAt_lt h]; exact List.getElem?_eq_getElem h⟩
        · rw [show f + kw.length = s.length by omega]; exact ⟨_, cAt_len s⟩
      have hR : R s (f + kw.length) ↔ isDelimiter after = true := by
        by_cases h : f + kw.length < s.length
        · rw [cAt_lt h] at hafter
          have hz : after ≠ 0 := hs _ (List.mem_of_getElem? hafter)
          constructor
          · intro r; rw [← sep_delim hz]; exact r _ hafter
          · intro d c hc; rw [hafter] at hc; cases hc; rw [sep_delim hz]; exact d
        · rw [show f + kw.length = s.length by omega, cAt_len] at hafter
          cases hafter
          constructor
          · intro _; rfl
          · intro _ c hc
            rw [show f + kw.length = s.length by omega] at hc
            simp at hc
      have hsep : ∃ b : Bool, separate s f kw.length = some b ∧
          (b = true ↔ standsAt s kw f = true) := by
        simp only [separate, hafter, Option.bind_eq_bind, Option.bind_some]
        by_cases hd : isDelimiter after = true
        · simp only [hd, ↓reduceIte]
          by_cases hf : f = 0
          · refine ⟨true, by simp [hf], by
              simp only [true_iff]
              exact stands_iff.2 ⟨hM, Or.inl hf, hR.2 hd⟩⟩
          · have hlt : f - 1 < s.length := by omega
            refine ⟨isDelimiter s[f - 1], by
              simp [hf, cAt_lt hlt, List.getElem?_eq_getElem hlt], ?_⟩
            have hz : s[f - 1] ≠ 0 := hs _ (List.getElem_mem hlt)
            rw [stands_iff]
            constructor
            · intro hh
              exact ⟨hM, Or.inr ⟨_, List.getElem?_eq_getElem hlt, by rw [sep_delim hz]; exact hh⟩,
                hR.2 hd⟩
            · rintro ⟨_, l, _⟩
              rcases l with l | ⟨c, hc, hsc⟩
              · exact absurd l hf
              · rw [List.getElem?_eq_getElem hlt] at hc
                cases hc
                rw [← sep_delim hz]; exact hsc
        · refine ⟨false, by simp [hd], ?_⟩
          simp only [Bool.false_eq_true, false_iff]
          intro hh
          exact hd (hR.1 (stands_iff.1 hh).2.2)
      obtain ⟨b, hb, hbs⟩ := hsep
      rw [hb]
      simp only [Option.bind_some]
      -- occurrences before `f + kw.length` other than `f`
      have hno : ∀ a, ptr ≤ a → a < f + kw.length → standsAt s kw a = true → a = f := by
        intro a ha hb hst
        obtain ⟨m, l, _⟩ := stands_iff.1 hst
        rcases Nat.lt_trichotomy a f with h | h | h
        · exact absurd m (hfirst a ha h)
        · exact h
        · rcases l with l | ⟨c, hc, hsc⟩
          · omega
          · have := (hM.nonsep hw (p := a - 1) (by omega) (by omega) hc).1
            rw [hsc] at this; simp at this
      cases b with
      | false =>
        simp only [Bool.false_eq_true, ↓reduceIte, Option.bind_some]
        obtain ⟨t, et, hl, hp⟩ := ih s (f + kw.length) hs hle (by omega)
        refine ⟨t, et, hl, ?_⟩
        intro j
        rw [hp j]
        have : Cov s kw (f + kw.length) j ↔ Cov s kw ptr j := by
          constructor
          · rintro ⟨a, h1, h2, h3, h4⟩; exact ⟨a, by omega, h2, h3, h4⟩
          · rintro ⟨a, h1, h2, h3, h4⟩
            by_cases hlt : a < f + kw.length
            · have := hno a h1 hlt h4
              subst this
              exact absurd (hbs.2 h4) (by simp)
            · exact ⟨a, by omega, h2, h3, h4⟩
        simp only [this]
      | true =>
        simp only [↓reduceIte]
        obtain ⟨s', es, hl', hp'⟩ := blankOut_eq kw.length s f hle
        rw [es]
        simp only [Option.bind_some]
        have hst := hbs.1 rfl
        have hs' : Text s' := by
          intro c hc
          obtain ⟨i, hi⟩ := List.mem_iff_getElem?.1 hc
          rw [hp' i] at hi
          by_cases h : f ≤ i ∧ i < f + kw.length
          · rw [if_pos h] at hi; cases hi; omega
          · rw [if_neg h] at hi; exact hs c (List.mem_of_getElem? hi)
        obtain ⟨t, et, hl, hp⟩ := ih s' (f + kw.length) hs' (by omega) (by omega)
        refine ⟨t, et, by omega, ?_⟩
        have hge : ∀ j, f + kw.length ≤ j → s'[j]? = s[j]? := by
          intro j hj; rw [hp' j, if_neg (by omega)]
        have hM' : ∀ a, f + kw.length ≤ a → (M s' kw a ↔ M s kw a) := by
          intro a ha
          rw [M_iff hkpos, M_iff hkpos]
          constructor
          · intro h j hj; rw [← hge (a + j) (by omega)]; exact h j hj
          · intro h j hj; rw [hge (a + j) (by omega)]; exact h j hj
        have hR' : ∀ a, f + kw.length ≤ a → (R s' (a + kw.length) ↔ R s (a + kw.length)) := by
          intro a ha
          unfold R; rw [hge _ (by omega)]
        have hstand : ∀ a, f + kw.length ≤ a → (standsAt s' kw a = true ↔ standsAt s kw a = true) := by
          intro a ha
          rw [stands_iff, stands_iff, hM' a ha, hR' a ha]
          by_cases hlt : f + kw.length < a
          · have : L s' a ↔ L s a := by unfold L; rw [hge _ (by omega)]
            rw [this]
          · have ea : a = f + kw.length := by omega
            have hnM : ¬ M s kw a := by
              intro hM2
              obtain ⟨c, hc⟩ := hM2.some hw (p := a) (by omega)
              have := (hM2.nonsep hw (by omega) (by omega) hc).1
              have hr := (stands_iff.1 hst).2.2 c (by rw [← ea]; exact hc)
              rw [hr] at this; simp at this
            constructor <;> (rintro ⟨x, _⟩; exact absurd x hnM)
        intro j
        rw [hp j]
        have hcov : Cov s' kw (f + kw.length) j ↔ Cov s kw (f + kw.length) j := by
          constructor
          · rintro ⟨a, h1, h2, h3, h4⟩; exact ⟨a, h1, h2, h3, (hstand a h1).1 h4⟩
          · rintro ⟨a, h1, h2, h3, h4⟩; exact ⟨a, h1, h2, h3, (hstand a h1).2 h4⟩
        have hcov2 : Cov s kw ptr j ↔ Cov s kw (f + kw.length) j ∨ (f ≤ j ∧ j < f + kw.length) := by
          constructor
          · rintro ⟨a, h1, h2, h3, h4⟩
            by_cases hlt : a < f + kw.length
            · have := hno a h1 hlt h4
              subst this
              exact Or.inr ⟨h2, h3⟩
            · exact Or.inl ⟨a, by omega, h2, h3, h4⟩
          · rintro (⟨a, h1, h2, h3, h4⟩ | ⟨h1, h2⟩)
            · exact ⟨a, by omega, h2, h3, h4⟩
            · exact ⟨f, hpf, h1, h2, hst⟩
        simp only [hcov, hcov2]
        by_cases h1 : Cov s kw (f + kw.length) j
        · simp [h1]
        · rw [if_neg h1, hp' j]
          by_cases h2 : f ≤ j ∧ j < f + kw.length
          · rw [if_pos h2, if_pos (Or.inr h2)]
          · rw [if_neg h2, if_neg (by simp only [h1, h2, or_self, not_false_iff])]
    · refine ⟨s, by simp [e], rfl, ?_⟩
      intro j
      rw [if_neg]
      rintro ⟨a, h1, _, _, h4⟩
      exact hnone a h1 (stands_iff.1 h4).1

/-- `j` belongs to a whole word of the list. -/
def CovAny (s : List Nat) (ks : List (List Nat)) (j : Nat) : Prop :=
  ∃ w ∈ ks, ∃ a, a ≤ j ∧ j < a + w.length ∧ standsAt s w a = true

open Classical in
theorem dropAll_eq : ∀ (ks : List (List Nat)) (s : List Nat), (∀ w ∈ ks, Word w) → Text s →
    ∃ t, dropAll ks s = some t ∧ t.length = s.length ∧
      ∀ j, t[j]? = if CovAny s ks j then some 32 else s[j]? := by
  intro ks
  induction ks with
  | nil =>
    intro s _ _
    exact ⟨s, rfl, rfl, fun j => by rw [if_neg]; rintro ⟨w, hw, _⟩; simp at hw⟩
  | cons kw ks ih =>
    intro s hks hs
    have hw : Word kw := hks kw List.mem_cons_self
    obtain ⟨s1, e1, hl1, hp1⟩ := dropKeyword_eq hw (s.length + 1) s 0 hs (by omega) (by omega)
    have hs1 : Text s1 := by
      intro c hc
      obtain ⟨i, hi⟩ := List.mem_iff_getElem?.1 hc
      rw [hp1 i] at hi
      by_cases h : Cov s kw 0 i
      · rw [if_pos h] at hi; cases hi; omega
      · rw [if_neg h] at hi; exact hs c (List.mem_of_getElem? hi)
    obtain ⟨t, e2, hl2, hp2⟩ := ih s1 (fun w hw => hks w (List.mem_cons_of_mem _ hw)) hs1
    refine ⟨t, by simp [dropAll, e1, e2], by omega, ?_⟩
    intro j
    rw [hp2 j]
    -- an occurrence after blanking was one before
    have hback : ∀ w a, Word w → standsAt s1 w a = true → standsAt s w a = true := by
      intro w a hww hst
      obtain ⟨m, l, r⟩ := stands_iff.1 hst
      have hnc : ∀ p, a ≤ p → p < a + w.length → ¬ Cov s kw 0 p := by
        intro p h1 h2 hc
        obtain ⟨c, hc'⟩ := m.some hww h2
        have := (m.nonsep hww h1 h2 hc').2
        rw [hp1 p, if_pos hc] at hc'
        cases hc'; exact this rfl
      have hpos := hww.pos
      have m0 : M s w a := by
        rw [M_iff hpos] at m ⊢
        intro j hj
        rw [← m j hj, hp1 (a + j), if_neg (hnc (a + j) (by omega) (by omega))]
      -- a blanked byte next to the occurrence is impossible
      refine stands_iff.2 ⟨m0, ?_, ?_⟩
      · rcases l with l | ⟨c, hc, hsc⟩
        · exact Or.inl l
        · by_cases ha0 : a = 0
          · exact Or.inl ha0
          right
          by_cases hcov : Cov s kw 0 (a - 1)
          · exfalso
            obtain ⟨a1, _, h2, h3, h4⟩ := hcov
            have hend : a1 + kw.length = a := by
              apply Classical.byContradiction
              intro hne
              exact hnc a (Nat.le_refl _) (by omega) ⟨a1, by omega, by omega, by omega, h4⟩
            obtain ⟨d, hd⟩ := m0.some hww (p := a) (by omega)
            have h5 := (m0.nonsep hww (Nat.le_refl _) (by omega) hd).1
            have h6 := (stands_iff.1 h4).2.2 d (by rw [hend]; exact hd)
            rw [h6] at h5; simp at h5
          · rw [hp1 (a - 1), if_neg hcov] at hc
            exact ⟨c, hc, hsc⟩
      · intro c hc
        by_cases hcov : Cov s kw 0 (a + w.length)
        · exfalso
          obtain ⟨a1, _, h2, h3, h4⟩ := hcov
          have hge : a1 = a + w.length := by
            apply Classical.byContradiction
            intro hne
            exact hnc (a + w.length - 1) (by omega) (by omega) ⟨a1, by omega, by omega, by omega, h4⟩
          have l4 := (stands_iff.1 h4).2.1
          rcases l4 with l4 | ⟨d, hd, hsd⟩
          · omega
          · have := (m0.nonsep hww (p := a1 - 1) (by omega) (by omega) hd).1
            rw [hsd] at this; simp at this
        · exact r c (by rw [hp1, if_neg hcov]; exact hc)
    -- an occurrence before blanking is either a blanked one or still there
    have hfwd : ∀ w a, Word w → standsAt s w a = true →
        (standsAt s kw a = true ∧ kw.length = w.length) ∨ standsAt s1 w a = true := by
      intro w a hww hst
      by_cases hov : ∃ p, a ≤ p ∧ p < a + w.length ∧ Cov s kw 0 p
      · left
        obtain ⟨p, h1, h2, a1, _, h4, h5, h6⟩ := hov
        obtain ⟨e1, e2⟩ := stands_overlap hw hww h6 hst h4 h5 h1 h2
        subst e1
        exact ⟨h6, e2⟩
      · right
        have hnc : ∀ p, a ≤ p → p < a + w.length → ¬ Cov s kw 0 p :=
          fun p h1 h2 hc => hov ⟨p, h1, h2, hc⟩
        obtain ⟨m, l, r⟩ := stands_iff.1 hst
        have hpos := hww.pos
        refine stands_iff.2 ⟨?_, ?_, ?_⟩
        · rw [M_iff hpos] at m ⊢
          intro j hj
          rw [← m j hj, hp1 (a + j), if_neg (hnc (a + j) (by omega) (by omega))]
        · rcases l with l | ⟨c, hc, hsc⟩
          · exact Or.inl l
          · right
            by_cases hcov : Cov s kw 0 (a - 1)
            · exact ⟨32, by rw [hp1, if_pos hcov], rfl⟩
            · exact ⟨c, by rw [hp1, if_neg hcov]; exact hc, hsc⟩
        · intro c hc
          rw [hp1] at hc
          by_cases hcov : Cov s kw 0 (a + w.length)
          · rw [if_pos hcov] at hc; cases hc; rfl
          · rw [if_neg hcov] at hc; exact r c hc
    have hiff : CovAny s (kw :: ks) j ↔ CovAny s1 ks j ∨ Cov s kw 0 j := by
      constructor
      · rintro ⟨w, hwm, a, h1, h2, h3⟩
        rcases List.mem_cons.1 hwm with rfl | hwm
        · exact Or.inr ⟨a, Nat.zero_le _, h1, h2, h3⟩
        · rcases hfwd w a (hks w (List.mem_cons_of_mem _ hwm)) h3 with ⟨h4, h5⟩ | h4
          · exact Or.inr ⟨a, Nat.zero_le _, h1, by omega, h4⟩
          · exact Or.inl ⟨w, hwm, a, h1, h2, h4⟩
      · rintro (⟨w, hwm, a, h1, h2, h3⟩ | ⟨a, _, h1, h2, h3⟩)
        · exact ⟨w, List.mem_cons_of_mem _ hwm, a, h1, h2,
            hback w a (hks w (List.mem_cons_of_mem _ hwm)) h3⟩
        · exact ⟨kw, List.mem_cons_self, a, h1, h2, h3⟩
    simp only [hiff]
    by_cases h1 : CovAny s1 ks j
    · simp [h1]
    · rw [if_neg h1, hp1 j]
      by_cases h2 : Cov s kw 0 j
      · rw [if_pos h2, if_pos (Or.inr h2)]
      · rw [if_neg h2, if_neg (by simp only [h1, h2, or_self, not_false_iff])]

/-! ## Squeezing of white space -/

theorem space_eq (c : Nat) : isspace c = space c := by
  unfold isspace space
  rw [Bool.eq_iff_iff]
  simp
  omega

/-- The text the squeezing loop still has to write; `p`: a space is due. -/
def rest : List Nat → Bool → List Nat
  | [], _ => []
  | c :: s, p => if space c then rest s true
    else (if p then [32] else []) ++ c :: rest s false

theorem drop_set_lt {l : List Nat} {i k v : Nat} (h : i < k) : (l.set i v).drop k = l.drop k := by
  apply List.ext_getElem?
  intro j
  rw [List.getElem?_drop, List.getElem?_drop, List.getElem?_set_ne (by omega)]

theorem take_set_succ {l : List Nat} {p v : Nat} (h : p < l.length) :
    (l.set p v).take (p + 1) = l.take p ++ [v] := by
  rw [List.take_add_one, List.getElem?_set_self h]
  congr 1
  apply List.ext_getElem?
  intro j
  by_cases hj : j < p
  · rw [List.getElem?_take_of_lt hj, List.getElem?_take_of_lt hj, List.getElem?_set_ne (by omega)]
  · rw [List.getElem?_eq_none (by simp; omega), List.getElem?_eq_none (by simp; omega)]

theorem squeeze_eq : ∀ (r : List Nat) (fuel : Nat) (buf : List Nat) (i ptr : Nat) (p : Bool),
    buf.drop i = r ++ [0] → Text r → Text (buf.take ptr) → ptr ≤ i → (p = true → ptr < i) →
    r.length < fuel →
    ∃ buf', squeeze fuel buf i ptr p = some buf' ∧ cString buf' = buf.take ptr ++ rest r p := by
  intro r
  induction r with
  | nil =>
    intro fuel buf i ptr p hd _ ht hle _ hf
    cases fuel with
    | zero => simp at hf
    | succ fuel =>
      have hlen : i < buf.length := by
        have := congrArg List.length hd; simp at this; omega
      have hget : buf[i]? = some 0 := by
        have := congrArg (fun l => l[0]?) hd
        simpa using this
      refine ⟨buf.set ptr 0, ?_, ?_⟩
      · simp [squeeze, hget, wr, show ptr < buf.length by omega]
      · have e : buf.set ptr 0 = (buf.take ptr ++ [0]) ++ (buf.set ptr 0).drop (ptr + 1) := by
          conv => lhs; rw [← List.take_append_drop (ptr + 1) (buf.set ptr 0)]
          rw [take_set_succ (by omega)]
        rw [cString, e, List.append_assoc, List.takeWhile_append_of_pos]
        · simp [rest]
        · intro c hc; simpa using ht c hc
  | cons c r ih =>
    intro fuel buf i ptr p hd hr ht hle hp hf
    cases fuel with
    | zero => simp at hf
    | succ fuel =>
      have hlen : i + 1 < buf.length := by
        have := congrArg List.length hd; simp at this; omega
      have hget : buf[i]? = some c := by
        have := congrArg (fun l => l[0]?) hd
        simpa using this
      have hd1 : buf.drop (i + 1) = r ++ [0] := by
        have h1 : buf.drop i = buf[i] :: buf.drop (i + 1) := List.drop_eq_getElem_cons (by omega)
        rw [h1] at hd
        simp only [List.cons_append, List.cons.injEq] at hd
        exact hd.2
      have hc : c ≠ 0 := hr c List.mem_cons_self
      have hr' : Text r := fun x hx => hr x (List.mem_cons_of_mem _ hx)
      by_cases hsp : space c = true
      · obtain ⟨b, e, hcs⟩ := ih fuel buf (i + 1) ptr true hd1 hr' ht (by omega) (by omega)
          (by simpa using hf)
        refine ⟨b, ?_, ?_⟩
        · simp [squeeze, hget, hc, space_eq, hsp, e]
        · rw [hcs]; simp [rest, hsp]
      · cases p with
        | true =>
          have hlt := hp rfl
          have hg1 : (buf.set ptr 32)[i]? = some c := by rw [List.getElem?_set_ne (by omega)]; exact hget
          have ht1 : ((buf.set ptr 32).set (ptr + 1) c).take (ptr + 1 + 1) =
              buf.take ptr ++ [32, c] := by
            rw [take_set_succ (by simp; omega), take_set_succ (by omega), List.append_assoc]; rfl
          obtain ⟨b, e, hcs⟩ := ih fuel ((buf.set ptr 32).set (ptr + 1) c) (i + 1) (ptr + 1 + 1) false
            (by rw [drop_set_lt (by omega), drop_set_lt (by omega)]; exact hd1) hr'
            (by
              rw [ht1]
              intro x hx
              rcases List.mem_append.1 hx with hx | hx
              · exact ht x hx
              · simp at hx; rcases hx with rfl | rfl
                · omega
                · exact hc)
            (by omega) (by simp) (by simpa using hf)
          refine ⟨b, ?_, ?_⟩
          · simp only [squeeze, hget, Option.bind_eq_bind, Option.bind_some, hc, ↓reduceIte,
              space_eq, hsp, wr, show ptr < buf.length by omega, hg1, List.length_set,
              show ptr + 1 < buf.length by omega, Bool.false_eq_true]
            exact e
          · rw [hcs, ht1]; simp [rest, hsp]
        | false =>
          have ht1 : (buf.set ptr c).take (ptr + 1) = buf.take ptr ++ [c] := take_set_succ (by omega)
          obtain ⟨b, e, hcs⟩ := ih fuel (buf.set ptr c) (i + 1) (ptr + 1) false
            (by rw [drop_set_lt (by omega)]; exact hd1) hr'
            (by
              rw [ht1]
              intro x hx
              rcases List.mem_append.1 hx with hx | hx
              · exact ht x hx
              · simp at hx; subst hx; exact hc)
            (by omega) (by simp) (by simpa using hf)
          refine ⟨b, ?_, ?_⟩
          · simp only [squeeze, hget, Option.bind_eq_bind, Option.bind_some, hc, ↓reduceIte,
              space_eq, hsp, wr, show ptr < buf.length by omega, Bool.false_eq_true]
            exact e
          · rw [hcs, ht1]; simp [rest, hsp]

theorem skipSpaces_eq : ∀ (r : List Nat) (fuel : Nat) (buf : List Nat) (i : Nat),
    buf.drop i = r ++ [0] → r.length < fuel →
    skipSpaces buf fuel i = some (i + (r.takeWhile space).length) := by
  intro r
  induction r with
  | nil =>
    intro fuel buf i hd hf
    cases fuel with
    | zero => simp at hf
    | succ fuel =>
      have hget : buf[i]? = some 0 := by
        have := congrArg (fun l => l[0]?) hd
        simpa using this
      simp [skipSpaces, hget, isspace]
  | cons c r ih =>
    intro fuel buf i hd hf
    cases fuel with
    | zero => simp at hf
    | succ fuel =>
      have hlen : i < buf.length := by
        have := congrArg List.length hd; simp at this; omega
      have hget : buf[i]? = some c := by
        have := congrArg (fun l => l[0]?) hd
        simpa using this
      have hd1 : buf.drop (i + 1) = r ++ [0] := by
        have h1 : buf.drop i = buf[i] :: buf.drop (i + 1) := List.drop_eq_getElem_cons (by omega)
        rw [h1] at hd
        simp only [List.cons_append, List.cons.injEq] at hd
        exact hd.2
      by_cases hsp : space c = true
      · simp only [skipSpaces, hget, Option.bind_eq_bind, Option.bind_some, space_eq, hsp, ↓reduceIte,
          List.takeWhile_cons, List.length_cons]
        rw [ih fuel buf (i + 1) hd1 (by simpa using hf)]
        congr 1; omega
      · simp [skipSpaces, hget, space_eq, hsp, List.takeWhile_cons]

theorem words_nil : words [] = [] := by unfold words; rfl

theorem words_space {c : Nat} {s : List Nat} (h : space c = true) : words (c :: s) = words s := by
  conv => lhs; unfold words
  rw [if_pos h]

theorem words_cons {c : Nat} {s : List Nat} (h : space c = false) :
    words (c :: s) = (c :: s.takeWhile (fun c => !space c)) ::
      words (s.dropWhile (fun c => !space c)) := by
  conv => lhs; unfold words
  rw [if_neg (by simp [h])]

theorem join_cons (w : List Nat) (ws : List (List Nat)) :
    joinWords (w :: ws) = w ++ (if ws = [] then [] else 32 :: joinWords ws) := by
  cases ws with
  | nil => simp [joinWords]
  | cons v vs => simp [joinWords, List.intercalate]

theorem rest_eq : ∀ (n : Nat) (s : List Nat), s.length ≤ n →
    (rest s true = if words s = [] then [] else 32 :: joinWords (words s)) ∧
    (rest s false = s.takeWhile (fun c => !space c) ++
      (if words (s.dropWhile (fun c => !space c)) = [] then []
        else 32 :: joinWords (words (s.dropWhile (fun c => !space c))))) := by
  intro n
  induction n with
  | zero =>
    intro s h
    have : s = [] := List.length_eq_zero_iff.1 (by omega)
    subst this
    simp [rest, words_nil]
  | succ n ih =>
    intro s h
    cases s with
    | nil => simp [rest, words_nil]
    | cons c s =>
      simp only [List.length_cons] at h
      have ihs := ih s (by omega)
      by_cases hsp : space c = true
      · simp only [rest, hsp, ↓reduceIte, ihs.1, words_space hsp, List.takeWhile_cons,
          Bool.not_true, Bool.false_eq_true, List.nil_append, List.dropWhile_cons, and_self]
      · have hsp' : space c = false := by simpa using hsp
        simp only [rest, hsp', Bool.false_eq_true, ↓reduceIte, List.nil_append, ihs.2,
          words_cons hsp', List.takeWhile_cons, Bool.not_false, List.dropWhile_cons,
          List.cons_append, List.cons_ne_nil, join_cons, and_self]

theorem words_dropSpaces (s : List Nat) : words (s.dropWhile space) = words s := by
  induction s with
  | nil => rfl
  | cons c s ih =>
    by_cases h : space c = true
    · simp only [List.dropWhile_cons, h, ↓reduceIte, ih, words_space h]
    · simp [List.dropWhile_cons, h]

theorem rest_drop (s : List Nat) : rest (s.dropWhile space) false = joinWords (words s) := by
  rw [← words_dropSpaces s]
  have hhd : ∀ c r, s.dropWhile space = c :: r → space c = false := by
    intro c r h
    have h2 := List.head?_dropWhile_not space s
    rw [h] at h2
    simpa using h2
  cases e : s.dropWhile space with
  | nil => simp [rest, words_nil, joinWords]
  | cons c r =>
    have hc := hhd c r e
    rw [words_cons hc, join_cons, (rest_eq _ (c :: r) (Nat.le_refl _)).2]
    simp [List.takeWhile_cons, List.dropWhile_cons, hc]

end Verif.Lemmas.TypeName
