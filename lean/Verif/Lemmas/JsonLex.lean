import Verif.Model.Json
import Verif.Spec.Json
import Verif.Lemmas.Flex
import Verif.Lemmas.Escape
import Verif.Lemmas.Decimal
import Verif.Lemmas.Enum
/-!
# The tokens of a JSON document
-/
namespace Verif.Lemmas.JsonLex
open Verif.Model Verif.Model.Json Verif.Model.Flex Verif.Model.Flex.Re Verif.Spec Verif.Spec.Json Verif.Lemmas.Flex Verif.Lemmas.Decimal
open Verif.Lemmas.Escape

/-- the bytes of numbers and keywords -/
def Word (c : Nat) : Prop := isalnum c = true ∨ c = 43 ∨ c = 45 ∨ c = 46

theorem word_iff (c : Nat) : Word c ↔ ((48 ≤ c ∧ c ≤ 57) ∨ (65 ≤ c ∧ c ≤ 90) ∨ (97 ≤ c ∧ c ≤ 122) ∨ c = 43 ∨ c = 45 ∨ c = 46) := by
  unfold Word isalnum isalpha isupper islower isdigit
  simp only [Bool.or_eq_true, Bool.and_eq_true, decide_eq_true_eq]
  omega

theorem space_iff (c : Nat) : isspace c = true ↔ (c = 32 ∨ (9 ≤ c ∧ c ≤ 13)) := by
  unfold isspace
  simp only [Bool.or_eq_true, Bool.and_eq_true, decide_eq_true_eq, beq_iff_eq]

theorem over_word : ∀ r ∈ rules.take 5, Over Word r := by
  intro r hr
  simp only [rules, List.take_succ_cons, List.take_zero, List.mem_cons, List.not_mem_nil, or_false] at hr
  rcases hr with rfl | rfl | rfl | rfl | rfl <;>
    simp only [Over, str, one, intNumber, floatNumber, floatNan, floatInf, sign, opt, plus, digit, letter, word_iff, beq_iff_eq, Bool.or_eq_true, isdigit, Bool.and_eq_true, decide_eq_true_eq, and_true, true_and] <;>
    (and_intros <;> (intro c h; omega))

theorem first_word : ∀ r ∈ rules.take 5, ∀ c t, Lang r (c :: t) → Word c := fun r hr c t h =>
  lang_over h (over_word r hr) c (by simp)

theorem lang_string_first {c : Nat} {t : List Nat} (h : Lang stringRe (c :: t)) : c = 34 := by
  refine lang_first h (p := fun c => c = 34) ?_ c t rfl
  simp [stringRe, First, one, nullable]

theorem over_space : Over (fun c => isspace c = true) (.plus (.cls isspace)) := by
  simp only [plus, Over]
  exact ⟨fun c h => h, fun c h => h⟩

/-- a text of two or more bytes is only matched by one of the first seven rules -/
theorem noMatch_long {c d : Nat} {t : List Nat} (h : ∀ r ∈ rules.take 5, ¬ Lang r (c :: d :: t)) (h5 : ¬ Lang stringRe (c :: d :: t))
    (h6 : ¬ Lang (.plus (.cls isspace)) (c :: d :: t)) : NoMatch rules (c :: d :: t) := by
  intro r hr
  have e : rules = rules.take 5 ++ ([stringRe, .plus (.cls isspace)] ++ [one 58, one 123, one 125, one 91, one 93, one 44, dot]) := rfl
  rw [e] at hr
  rcases List.mem_append.1 hr with hr | hr
  · exact h r hr
  rcases List.mem_append.1 hr with hr | hr
  · simp only [List.mem_cons, List.not_mem_nil, or_false] at hr
    rcases hr with rfl | rfl
    · exact h5
    · exact h6
  · have : ∃ p, r = .cls p := by
      simp only [List.mem_cons, List.not_mem_nil, or_false] at hr
      rcases hr with rfl | rfl | rfl | rfl | rfl | rfl | rfl <;> exact ⟨_, rfl⟩
    obtain ⟨p, rfl⟩ := this
    intro hl
    obtain ⟨x, hx, _⟩ := lang_cls.1 hl
    cases hx

/-! ### tokens of one byte -/

/-- a byte that only starts a token of one byte -/
def Single (c : Nat) : Prop := ¬ Word c ∧ c ≠ 34 ∧ isspace c = false

theorem single_noMatch {c : Nat} (hc : Single c) {e : List Nat} (he : e ≠ []) : NoMatch rules ([c] ++ e) := by
  cases e with
  | nil => exact absurd rfl he
  | cons d e =>
    refine noMatch_long (fun r hr hl => hc.1 (first_word r hr c _ hl)) (fun hl => hc.2.1 (lang_string_first hl)) fun hl => ?_
    have := lang_over hl over_space c (by simp)
    rw [hc.2.2] at this
    cases this

theorem single_not7 {c : Nat} (hc : Single c) : ∀ (j : Nat) (r : Re), j < 7 → rules[j]? = some r → ¬ Lang r [c] := by
  intro j r hj hr hl
  by_cases h5 : j < 5
  · exact hc.1 (first_word r (by
      rw [List.mem_iff_getElem?]
      exact ⟨j, by rw [List.getElem?_take, if_pos h5]; exact hr⟩) c _ hl)
  · have : j = 5 ∨ j = 6 := by omega
    rcases this with rfl | rfl
    · cases hr
      exact hc.2.1 (lang_string_first hl)
    · cases hr
      have := lang_over hl over_space c (by simp)
      rw [hc.2.2] at this
      cases this

/-- the punctuation marks with their rules and tokens -/
def punct : List (Nat × Nat × Tok) :=
  [(58, 7, .colon), (123, 8, .lbrace), (125, 9, .rbrace), (91, 10, .lbracket), (93, 11, .rbracket), (44, 12, .comma)]

theorem lex_cons {k : Nat} {w rest : List Nat} {ts : List Tok} (hw : w ≠ []) (hk : FirstMatch rules w k)
    (hmax : ∀ e : List Nat, e ≠ [] → e <+: rest → NoMatch rules (w ++ e)) (h : lex rest = some ts) :
    lex (w ++ rest) = some ((action k w).toList ++ ts) := by
  unfold lex at h ⊢
  obtain ⟨l, h1, h2⟩ := Option.bind_eq_some_iff.1 h
  cases h2
  refine Option.bind_eq_some_iff.2 ⟨_, scan_step rules k w rest l hw hk hmax h1, ?_⟩
  cases ha : action k w <;> simp [List.filterMap_cons, ha]

theorem lex_back {k : Nat} {w rest : List Nat} {ts : List Tok} (hw : w ≠ []) (hk : FirstMatch rules w k)
    (hmax : ∀ e : List Nat, e ≠ [] → e <+: rest → NoMatch rules (w ++ e)) (h : lex (w ++ rest) = some ts) :
    ∃ ts', ts = (action k w).toList ++ ts' ∧ lex rest = some ts' := by
  unfold lex at h ⊢
  obtain ⟨l, h1, h2⟩ := Option.bind_eq_some_iff.1 h
  cases h2
  obtain ⟨l', rfl, h3⟩ := scan_back rules k w rest l hw hk hmax h1
  refine ⟨l'.filterMap fun m => action m.1 m.2, ?_, Option.bind_eq_some_iff.2 ⟨l', h3, rfl⟩⟩
  cases ha : action k w <;> simp [List.filterMap_cons, ha]

theorem punct_single : ∀ x ∈ punct, Single x.1 := by
  intro x hx
  simp only [punct, List.mem_cons, List.not_mem_nil, or_false] at hx
  rcases hx with rfl | rfl | rfl | rfl | rfl | rfl <;> (unfold Single; rw [word_iff]; simp; rfl)

theorem punct_first : ∀ x ∈ punct, FirstMatch rules [x.1] x.2.1 := by
  intro x hx
  have hs := punct_single x hx
  simp only [punct, List.mem_cons, List.not_mem_nil, or_false] at hx
  rcases hx with rfl | rfl | rfl | rfl | rfl | rfl
  all_goals
    refine ⟨⟨_, rfl, lang_one.2 rfl⟩, fun j r hj hr => ?_⟩
    by_cases h7 : j < 7
    · exact single_not7 hs j r h7 hr
    · intro hl
      simp only at hj
      have hj' : j = 7 ∨ j = 8 ∨ j = 9 ∨ j = 10 ∨ j = 11 := by omega
      rcases hj' with rfl | rfl | rfl | rfl | rfl <;> first | omega | (cases hr; have := lang_one.1 hl; simp at this)

theorem lex_punct {x : Nat × Nat × Tok} (hx : x ∈ punct) {rest : List Nat} {ts : List Tok} (h : lex rest = some ts) :
    lex (x.1 :: rest) = some (x.2.2 :: ts) := by
  have := lex_cons (by simp) (punct_first x hx) (fun e he _ => single_noMatch (punct_single x hx) he) h
  simp only [List.cons_append, List.nil_append] at this
  rw [this]
  simp only [punct, List.mem_cons, List.not_mem_nil, or_false] at hx
  rcases hx with rfl | rfl | rfl | rfl | rfl | rfl <;> rfl

theorem lex_colon {rest : List Nat} {ts : List Tok} (h : lex rest = some ts) : lex (58 :: rest) = some (.colon :: ts) :=
  lex_punct (x := (58, 7, .colon)) (by simp [punct]) h
theorem lex_lbrace {rest : List Nat} {ts : List Tok} (h : lex rest = some ts) : lex (123 :: rest) = some (.lbrace :: ts) :=
  lex_punct (x := (123, 8, .lbrace)) (by simp [punct]) h
theorem lex_rbrace {rest : List Nat} {ts : List Tok} (h : lex rest = some ts) : lex (125 :: rest) = some (.rbrace :: ts) :=
  lex_punct (x := (125, 9, .rbrace)) (by simp [punct]) h
theorem lex_lbracket {rest : List Nat} {ts : List Tok} (h : lex rest = some ts) : lex (91 :: rest) = some (.lbracket :: ts) :=
  lex_punct (x := (91, 10, .lbracket)) (by simp [punct]) h
theorem lex_rbracket {rest : List Nat} {ts : List Tok} (h : lex rest = some ts) : lex (93 :: rest) = some (.rbracket :: ts) :=
  lex_punct (x := (93, 11, .rbracket)) (by simp [punct]) h
theorem lex_comma {rest : List Nat} {ts : List Tok} (h : lex rest = some ts) : lex (44 :: rest) = some (.comma :: ts) :=
  lex_punct (x := (44, 12, .comma)) (by simp [punct]) h

/-! ### white space -/

theorem space_first {w : List Nat} (hw : w ≠ []) (h : ∀ c ∈ w, isspace c = true) : FirstMatch rules w 6 := by
  refine ⟨⟨_, rfl, lang_plus_cls hw h⟩, fun j r hj hr hl => ?_⟩
  cases w with
  | nil => exact hw rfl
  | cons c t =>
    have hc := (space_iff c).1 (h c (by simp))
    by_cases h5 : j < 5
    · have := (word_iff c).1 (first_word r (by
        rw [List.mem_iff_getElem?]
        exact ⟨j, by rw [List.getElem?_take, if_pos h5]; exact hr⟩) c _ hl)
      omega
    · have : j = 5 := by omega
      subst this
      cases hr
      have := lang_string_first hl
      omega

theorem space_max {w rest : List Nat} (hw : w ≠ []) (h : ∀ c ∈ w, isspace c = true) (hr : ∀ c t, rest = c :: t → isspace c = false) :
    ∀ e : List Nat, e ≠ [] → e <+: rest → NoMatch rules (w ++ e) := by
  intro e he hp
  cases w with
  | nil => exact absurd rfl hw
  | cons c w =>
    cases e with
    | nil => exact absurd rfl he
    | cons d e =>
      have hd : isspace d = false := by
        obtain ⟨t, ht⟩ := hp
        exact hr d (e ++ t) (by rw [← ht]; rfl)
      have hc := (space_iff c).1 (h c (by simp))
      obtain ⟨x, y, hxy⟩ : ∃ x y, (c :: w) ++ d :: e = c :: x :: y := by
        cases w with
        | nil => exact ⟨d, e, rfl⟩
        | cons x w => exact ⟨x, w ++ d :: e, rfl⟩
      rw [hxy]
      refine noMatch_long (fun r hr hl => ?_) (fun hl => ?_) (fun hl => ?_)
      · have := (word_iff c).1 (first_word r hr c _ hl)
        omega
      · have := lang_string_first hl
        omega
      · have := lang_over hl over_space d (by rw [← hxy]; simp)
        rw [hd] at this
        cases this

theorem split_space (l : List Nat) : ∃ u v, l = u ++ v ∧ (∀ c ∈ u, isspace c = true) ∧ ∀ c t, v = c :: t → isspace c = false := by
  induction l with
  | nil => exact ⟨[], [], rfl, by simp, by intro c t h; cases h⟩
  | cons c l ih =>
    cases hc : isspace c with
    | false => exact ⟨[], c :: l, rfl, by simp, by intro d t h; cases h; exact hc⟩
    | true =>
      obtain ⟨u, v, rfl, h1, h2⟩ := ih
      refine ⟨c :: u, v, rfl, ?_, h2⟩
      intro d hd
      rcases List.mem_cons.1 hd with rfl | hd
      · exact hc
      · exact h1 d hd

theorem lex_space {c : Nat} (hc : isspace c = true) {rest : List Nat} {ts : List Tok} (h : lex rest = some ts) :
    lex (c :: rest) = some ts := by
  obtain ⟨u, v, rfl, h1, h2⟩ := split_space rest
  have hv : lex v = some ts := by
    cases u with
    | nil => exact h
    | cons d u =>
      obtain ⟨ts', h3, h4⟩ := lex_back (by simp) (space_first (by simp) h1) (space_max (by simp) h1 h2) h
      have : ts = ts' := h3
      rw [this]; exact h4
  have hall : ∀ d ∈ c :: u, isspace d = true := by
    intro d hd
    rcases List.mem_cons.1 hd with rfl | hd
    · exact hc
    · exact h1 d hd
  exact lex_cons (w := c :: u) (by simp) (space_first (by simp) hall) (space_max (by simp) hall h2) hv

theorem lex_spaces {w : List Nat} (hw : ∀ c ∈ w, isspace c = true) {rest : List Nat} {ts : List Tok} (h : lex rest = some ts) :
    lex (w ++ rest) = some ts := by
  induction w with
  | nil => exact h
  | cons c w ih => exact lex_space (hw c (by simp)) (ih fun d hd => hw d (by simp [hd]))

/-! ### strings -/

theorem body_lexable_aux {r : Re} {w : List Nat} (h : Lang r w) :
    r = .star (.alt (.cls fun c => c != 34 && c != 92) (.seq (.one 92) .dot)) → Lexable w := by
  induction h with
  | nil => intro _; exact trivial
  | @more a s t h1 h2 _ ih2 =>
    intro hr
    cases hr
    refine Lexable_append s t ?_ (ih2 rfl)
    rcases lang_alt.1 h1 with h1 | h1
    · obtain ⟨c, rfl, hc⟩ := lang_cls.1 h1
      simp only [Bool.and_eq_true, bne_iff_ne] at hc
      rw [Lexable_lit c [] hc.2]
      exact ⟨hc.1, trivial⟩
    · obtain ⟨x, y, rfl, hx, hy⟩ := lang_seq.1 h1
      obtain ⟨c, rfl, hc⟩ := lang_cls.1 hy
      rw [lang_one.1 hx]
      show Lexable [92, c]
      rw [Lexable_esc]
      exact ⟨by simpa using hc, trivial⟩
  | _ => intro hr; cases hr

theorem lexable_body : ∀ (w : List Nat), Lexable w → Lang (.star (.alt (.cls fun c => c != 34 && c != 92) (.seq (.one 92) .dot))) w
  | [], _ => .nil
  | [c], h => by
    by_cases hc : c = 92
    · subst hc; exact absurd h not_Lexable_92
    · rw [Lexable_lit _ _ hc] at h
      exact Lang.more (s := [c]) (.left (.cls (by simp [h.1, hc]))) .nil
  | c :: d :: w, h => by
    by_cases hc : c = 92
    · subst hc
      rw [Lexable_esc] at h
      exact Lang.more (s := [92, d]) (.right (Lang.seq (s := [92]) (lang_one.2 rfl) (.cls (by simp [h.1])))) (lexable_body w h.2)
    · rw [Lexable_lit _ _ hc] at h
      exact Lang.more (s := [c]) (.left (.cls (by simp [h.1, hc]))) (lexable_body (d :: w) h.2)

theorem lang_string {w : List Nat} : Lang stringRe w ↔ ∃ b, w = 34 :: (b ++ [34]) ∧ Lexable b := by
  unfold stringRe
  rw [lang_seq]
  constructor
  · rintro ⟨s, t, rfl, h1, h2⟩
    obtain ⟨b, q, rfl, h3, h4⟩ := lang_seq.1 h2
    rw [lang_one.1 h1, lang_one.1 h4]
    exact ⟨b, rfl, body_lexable_aux h3 rfl⟩
  · rintro ⟨b, rfl, hb⟩
    exact ⟨[34], b ++ [34], rfl, lang_one.2 rfl, .seq (lexable_body b hb) (lang_one.2 rfl)⟩

theorem lex_string {b : List Nat} (hb : Lexable b) {rest : List Nat} {ts : List Tok} (h : lex rest = some ts) :
    lex (34 :: (b ++ 34 :: rest)) = some (.string b :: ts) := by
  have hw : 34 :: (b ++ 34 :: rest) = (34 :: (b ++ [34])) ++ rest := by simp
  rw [hw]
  have h34 : ¬ Word 34 := by rw [word_iff]; omega
  have := lex_cons (k := 5) (w := 34 :: (b ++ [34])) (by simp) ⟨⟨_, rfl, lang_string.2 ⟨b, rfl, hb⟩⟩, fun j r hj hr hl => ?_⟩ ?_ h
  · rw [this]
    simp [action]
  · exact h34 (first_word r (by
      rw [List.mem_iff_getElem?]
      exact ⟨j, by rw [List.getElem?_take, if_pos hj]; exact hr⟩) 34 _ hl)
  · intro e he _
    obtain ⟨x, y, hxy⟩ : ∃ x y, (34 :: (b ++ [34])) ++ e = 34 :: x :: y := by
      cases b with
      | nil => exact ⟨34, e, rfl⟩
      | cons x b => exact ⟨x, b ++ [34] ++ e, rfl⟩
    rw [hxy]
    refine noMatch_long (fun r hr hl => h34 (first_word r hr 34 _ hl)) (fun hl => ?_) (fun hl => ?_)
    · rw [← hxy] at hl
      obtain ⟨b', h1, h2⟩ := lang_string.1 hl
      have h3 : b ++ 34 :: e = b' ++ 34 :: [] := by simpa using h1
      have h4 := lexBody_of_lexable b e hb
      rw [h3, lexBody_of_lexable b' [] h2] at h4
      simp at h4
      exact he h4.2
    · have := lang_over hl over_space 34 (by simp)
      rw [space_iff] at this
      omega

/-! ### numbers and keywords -/

/-- the text ends a number or a keyword -/
def Ends (rest : List Nat) : Prop := ∀ c t, rest = c :: t → ¬ Word c

theorem word_max {w rest : List Nat} (hw : w ≠ []) (h : ∀ c ∈ w, Word c) (hr : Ends rest) :
    ∀ e : List Nat, e ≠ [] → e <+: rest → NoMatch rules (w ++ e) := by
  intro e he hp
  cases w with
  | nil => exact absurd rfl hw
  | cons c w =>
    cases e with
    | nil => exact absurd rfl he
    | cons d e =>
      have hd : ¬ Word d := by
        obtain ⟨t, ht⟩ := hp
        exact hr d (e ++ t) (by rw [← ht]; rfl)
      have hc := (word_iff c).1 (h c (by simp))
      obtain ⟨x, y, hxy⟩ : ∃ x y, (c :: w) ++ d :: e = c :: x :: y := by
        cases w with
        | nil => exact ⟨d, e, rfl⟩
        | cons x w => exact ⟨x, w ++ d :: e, rfl⟩
      rw [hxy]
      refine noMatch_long (fun r hr hl => ?_) (fun hl => ?_) (fun hl => ?_)
      · exact hd (lang_over hl (over_word r hr) d (by rw [← hxy]; simp))
      · have := lang_string_first hl
        omega
      · have := lang_over hl over_space c (by simp)
        rw [space_iff] at this
        omega

theorem lex_word {k : Nat} {w rest : List Nat} {ts : List Tok} (hw : w ≠ []) (h : ∀ c ∈ w, Word c) (hk : FirstMatch rules w k)
    (hr : Ends rest) (ht : lex rest = some ts) : lex (w ++ rest) = some ((action k w).toList ++ ts) :=
  lex_cons hw hk (word_max hw h hr) ht

theorem lang_sign {w : List Nat} : Lang sign w ↔ w = [] ∨ w = [45] ∨ w = [43] := by
  unfold sign
  rw [lang_opt, lang_cls]
  constructor
  · rintro (⟨c, rfl, h⟩ | h)
    · simp only [Bool.or_eq_true, beq_iff_eq] at h
      rcases h with rfl | rfl
      · exact .inr (.inr rfl)
      · exact .inr (.inl rfl)
    · exact .inl h
  · rintro (h | h | h)
    · exact .inr h
    · exact .inl ⟨45, h, rfl⟩
    · exact .inl ⟨43, h, rfl⟩

theorem isdigit_iff (c : Nat) : isdigit c = true ↔ Digit c := by
  unfold isdigit Digit
  simp

theorem lang_int {sg d : List Nat} (h : sg = [] ∨ sg = [45] ∨ sg = [43]) (hd : d ≠ []) (hc : ∀ c ∈ d, Digit c) : Lang intNumber (sg ++ d) :=
  .seq (lang_sign.2 h) (lang_plus_cls hd fun c hc' => (isdigit_iff c).2 (hc c hc'))

theorem over_int : Over (fun c => Digit c ∨ c = 43 ∨ c = 45) intNumber := by
  simp only [Over, intNumber, sign, opt, plus, digit, beq_iff_eq, Bool.or_eq_true, isdigit_iff, and_true, true_and]
  exact ⟨fun c h => .inr h, fun c h => .inl h, fun c h => .inl h⟩

/-- not the keywords -/
theorem not_keyword {w : List Nat} (h0 : w ≠ [110, 117, 108, 108]) (h1 : w ≠ [102, 97, 108, 115, 101]) (h2 : w ≠ [116, 114, 117, 101]) :
    ∀ (j : Nat) (r : Re), j < 3 → rules[j]? = some r → ¬ Lang r w := by
  intro j r hj hr hl
  have : j = 0 ∨ j = 1 ∨ j = 2 := by omega
  rcases this with rfl | rfl | rfl
  · cases hr; exact h0 (lang_str.1 hl)
  · cases hr; exact h1 (lang_str.1 hl)
  · cases hr; exact h2 (lang_str.1 hl)

theorem int_first {sg d : List Nat} (h : sg = [] ∨ sg = [45] ∨ sg = [43]) (hd : d ≠ []) (hc : ∀ c ∈ d, Digit c) : FirstMatch rules (sg ++ d) 3 := by
  have hall : ∀ c ∈ sg ++ d, c < 58 := by
    intro c hm
    rcases List.mem_append.1 hm with hm | hm
    · rcases h with rfl | rfl | rfl <;> simp at hm <;> omega
    · have := hc c hm; unfold Digit at this; omega
  refine ⟨⟨_, rfl, lang_int h hd hc⟩, not_keyword ?_ ?_ ?_⟩
  · intro e; rw [e] at hall; have := hall 110 (by simp); omega
  · intro e; rw [e] at hall; have := hall 102 (by simp); omega
  · intro e; rw [e] at hall; have := hall 116 (by simp); omega

theorem digit_word {c : Nat} (h : Digit c) : Word c := by
  rw [word_iff]; unfold Digit at h; omega

theorem sign_word {sg : List Nat} (h : sg = [] ∨ sg = [45] ∨ sg = [43]) : ∀ c ∈ sg, Word c := by
  intro c hm
  rw [word_iff]
  rcases h with rfl | rfl | rfl <;> simp at hm <;> omega

theorem lex_int {sg d rest : List Nat} {ts : List Tok} (h : sg = [] ∨ sg = [45] ∨ sg = [43]) (hd : d ≠ []) (hc : ∀ c ∈ d, Digit c)
    (hr : Ends rest) (ht : lex rest = some ts) : lex (sg ++ d ++ rest) = some (.int (Decimal.strtouintmax (sg ++ d) 0).1 :: ts) := by
  refine lex_word (k := 3) (by simp [hd]) (fun c hm => ?_) (int_first h hd hc) hr ht
  rcases List.mem_append.1 hm with hm | hm
  · exact sign_word h c hm
  · exact digit_word (hc c hm)

theorem lex_keyword {k : Nat} {w rest : List Nat} {ts : List Tok} (h : (k, w) ∈ [(0, [110, 117, 108, 108]), (1, [102, 97, 108, 115, 101]), (2, [116, 114, 117, 101])])
    (hr : Ends rest) (ht : lex rest = some ts) : lex (w ++ rest) = some ((action k w).toList ++ ts) := by
  simp only [List.mem_cons, List.not_mem_nil, or_false, Prod.mk.injEq] at h
  refine lex_word ?_ ?_ ⟨?_, ?_⟩ hr ht
  · rcases h with ⟨rfl, rfl⟩ | ⟨rfl, rfl⟩ | ⟨rfl, rfl⟩ <;> simp
  · intro c hm
    rw [word_iff]
    rcases h with ⟨rfl, rfl⟩ | ⟨rfl, rfl⟩ | ⟨rfl, rfl⟩ <;> simp at hm <;> omega
  · rcases h with ⟨rfl, rfl⟩ | ⟨rfl, rfl⟩ | ⟨rfl, rfl⟩ <;> exact ⟨_, rfl, lang_str.2 rfl⟩
  · intro j r hj hr hl
    have hj2 : j = 0 ∨ j = 1 := by omega
    rcases h with ⟨rfl, rfl⟩ | ⟨rfl, rfl⟩ | ⟨rfl, rfl⟩
    · omega
    · have : j = 0 := by omega
      subst this
      cases hr
      exact absurd (lang_str.1 hl) (by decide)
    · rcases hj2 with rfl | rfl
      · cases hr; exact absurd (lang_str.1 hl) (by decide)
      · cases hr; exact absurd (lang_str.1 hl) (by decide)

/-! ### floating point numbers -/

theorem lang_letter {c d : Nat} (h : d = c ∨ d = c + 32) : Lang (letter c) [d] := by
  unfold letter
  rw [lang_cls]
  exact ⟨d, rfl, by simpa using h⟩

theorem float_lang {t : List Nat} (h : FloatText t) : Lang floatNumber t := by
  obtain ⟨sg, m, rfl, hs, h⟩ := h
  unfold floatNumber
  rcases h with rfl | rfl | ⟨ip, fr, ex, rfl, h1, h2, h3, h4, h5⟩
  · exact .left (.seq (lang_sign.2 hs) (Lang.seq (s := [110]) (lang_letter (.inr rfl)) (Lang.seq (s := [97]) (lang_letter (.inr rfl)) (lang_letter (.inr rfl)))))
  · exact .right (.left (.seq (lang_sign.2 hs) (Lang.seq (s := [105]) (lang_letter (.inr rfl)) (Lang.seq (s := [110]) (lang_letter (.inr rfl)) (lang_letter (.inr rfl))))))
  · refine .right (.right ?_)
    rw [show sg ++ (ip ++ fr ++ ex) = (sg ++ ip) ++ (fr ++ ex) by simp]
    refine .seq (lang_int hs h1 h2) (.seq (lang_opt.2 ?_) (lang_opt.2 ?_))
    · rcases h4 with rfl | ⟨d, rfl, hd⟩
      · exact .inr rfl
      · exact .inl (Lang.seq (s := [46]) (lang_one.2 rfl) (lang_star_cls fun c hc => (isdigit_iff c).2 (hd c hc)))
    · rcases h5 with rfl | ⟨e, sg2, d, rfl, he, hs2, hd0, hd⟩
      · exact .inr rfl
      · refine .inl (Lang.seq (s := [e]) (lang_letter ?_) (lang_int hs2 hd0 hd))
        omega

/-- a byte that is not part of an integer -/
theorem float_mark {t : List Nat} (h : FloatText t) : ∃ c ∈ t, ¬ (Digit c ∨ c = 43 ∨ c = 45) := by
  obtain ⟨sg, m, rfl, hs, h⟩ := h
  rcases h with rfl | rfl | ⟨ip, fr, ex, rfl, h1, h2, h3, h4, h5⟩
  · exact ⟨110, by simp [ascii], by unfold Digit; omega⟩
  · exact ⟨105, by simp [ascii], by unfold Digit; omega⟩
  · rcases h4 with rfl | ⟨d, rfl, hd⟩
    · rcases h5 with rfl | ⟨e, sg2, d, rfl, he, hs2, hd0, hd⟩
      · exact absurd ⟨rfl, rfl⟩ h3
      · exact ⟨e, by simp, by unfold Digit; omega⟩
    · exact ⟨46, by simp, by unfold Digit; omega⟩

theorem float_head {t : List Nat} (h : FloatText t) : ∃ c r, t = c :: r ∧ (Digit c ∨ c = 43 ∨ c = 45 ∨ (c = 110 ∧ r = [97, 110]) ∨ c = 105) := by
  obtain ⟨sg, m, rfl, hs, h⟩ := h
  rcases hs with rfl | rfl | rfl
  · rcases h with rfl | rfl | ⟨ip, fr, ex, rfl, h1, h2, _⟩
    · exact ⟨110, [97, 110], rfl, by simp⟩
    · exact ⟨105, [110, 102], rfl, by simp⟩
    · cases ip with
      | nil => exact absurd rfl h1
      | cons c ip => exact ⟨c, ip ++ fr ++ ex, rfl, .inl (h2 c (by simp))⟩
  · exact ⟨45, m, rfl, by simp⟩
  · exact ⟨43, m, rfl, by simp⟩

theorem float_words {t : List Nat} (h : FloatText t) : ∀ c ∈ t, Word c :=
  lang_over (float_lang h) (over_word floatNumber (by simp [rules]))

theorem lex_float {t rest : List Nat} {ts : List Tok} (h : FloatText t) (hr : Ends rest) (ht : lex rest = some ts) :
    lex (t ++ rest) = some (.float t :: ts) := by
  obtain ⟨c, r, hcr, hh⟩ := float_head h
  refine lex_word (k := 4) (by rw [hcr]; simp) (float_words h) ⟨⟨_, rfl, float_lang h⟩, fun j r' hj hr' hl => ?_⟩ hr ht
  by_cases h3 : j < 3
  · refine not_keyword ?_ ?_ ?_ j r' h3 hr' hl <;> (intro e; rw [hcr] at e; cases e; unfold Digit at hh; simp at hh)
  · have : j = 3 := by omega
    subst this
    cases hr'
    obtain ⟨x, hx, hx'⟩ := float_mark h
    exact hx' (lang_over hl over_int x hx)

/-! ### values -/

/-- the decimal numeral with an optional sign -/
def numeral (neg : Bool) (n : Nat) : List Nat := (if neg then [45] else []) ++ (natDigits n).map (· + 48)

theorem digits_digit (n : Nat) : ∀ c ∈ (natDigits n).map (· + 48), Digit c := by
  intro c hc
  obtain ⟨d, hd, rfl⟩ := List.mem_map.1 hc
  have := (natDigits_spec n).1 d hd
  unfold Digit
  omega

theorem lex_numeral {neg : Bool} {n : Nat} (hn : n < 2 ^ 128) {rest : List Nat} {ts : List Tok} (hr : Ends rest) (ht : lex rest = some ts) :
    lex (numeral neg n ++ rest) = some (.int (if neg then (2 ^ 128 - n) % 2 ^ 128 else n) :: ts) := by
  have hs : (if neg then [45] else [] : List Nat) = [] ∨ (if neg then [45] else [] : List Nat) = [45] ∨ (if neg then [45] else [] : List Nat) = [43] := by
    cases neg <;> simp
  have := lex_int hs (d := (natDigits n).map (· + 48)) (by simpa using (natDigits_spec n).2.2.1) (digits_digit n) hr ht
  unfold numeral
  rw [this]
  have h := strto_core n hn [] (by intro c hc; simp at hc) neg
  rw [List.append_nil] at h
  rw [h]

theorem positional_pos {ds : List Nat} (hne : ds ≠ []) (h : ds.head? ≠ some 0) : 0 < positional 10 ds := by
  cases ds with
  | nil => exact absurd rfl hne
  | cons d t =>
    have hd : 0 < d := by
      rcases Nat.eq_zero_or_pos d with h0 | h0
      · subst h0; simp at h
      · exact h0
    unfold positional
    rw [List.foldl_cons, positional_foldl]
    have : 0 < 10 ^ t.length := Nat.pow_pos (by omega)
    have : 0 < (0 * 10 + d) * 10 ^ t.length := Nat.mul_pos (by omega) this
    omega

theorem digits_unique : ∀ (m : Nat) (ds : List Nat), ds.length ≤ m → (∀ d ∈ ds, d < 10) → ds ≠ [] → (ds.head? = some 0 → ds = [0]) →
    natDigits (positional 10 ds) = ds := by
  intro m
  induction m with
  | zero => intro ds h _ hne _; exact absurd (List.eq_nil_of_length_eq_zero (by omega)) hne
  | succ m ih =>
    intro ds h hd hne h0
    obtain ⟨init, d, rfl⟩ : ∃ init d, ds = init ++ [d] := ⟨ds.dropLast, ds.getLast hne, (List.dropLast_concat_getLast hne).symm⟩
    rw [positional_append]
    have hd' : d < 10 := hd d (by simp)
    by_cases hi : init = []
    · subst hi
      simp only [positional, List.foldl_nil, Nat.zero_mul, Nat.zero_add, List.nil_append]
      exact natDigits_lt hd'
    · have hh : init.head? ≠ some 0 := by
        intro e
        have e' : (init ++ [d]).head? = some 0 := by rw [List.head?_append, e]; rfl
        have := congrArg List.length (h0 e')
        simp at this
        exact hi this
      have hp := positional_pos hi hh
      rw [natDigits_ge (by omega)]
      have e1 : (positional 10 init * 10 + d) / 10 = positional 10 init := by omega
      have e2 : (positional 10 init * 10 + d) % 10 = d := by omega
      rw [e1, e2, ih init (by simp at h; omega) (fun x hx => hd x (by simp [hx])) hi (fun e => absurd e hh)]

theorem isDecimal_numeral {n : Nat} {t : List Nat} (h : IsDecimal n t) : t = (natDigits n).map (· + 48) := by
  obtain ⟨ds, rfl, h1, rfl, h3, h4⟩ := h
  rw [digits_unique ds.length ds (Nat.le_refl _) h1 h3 h4]
  rfl

theorem isDecimalInt_numeral {v : Int} {t : List Nat} (h : IsDecimalInt v t) : t = numeral (decide (v < 0)) v.natAbs := by
  unfold IsDecimalInt at h
  unfold numeral
  split at h
  · rename_i hv
    obtain ⟨u, rfl, hu⟩ := h
    rw [isDecimal_numeral hu]
    simp [hv]
  · rename_i hv
    rw [isDecimal_numeral h]
    simp [hv]

theorem word_numeral {v : Int} (h1 : -(2 ^ 127 : Int) ≤ v) (h2 : v < 2 ^ 128) :
    v.natAbs < 2 ^ 128 ∧ (if decide (v < 0) then (2 ^ 128 - v.natAbs) % 2 ^ 128 else v.natAbs) = word v := by
  unfold word
  by_cases hv : v < 0
  · simp only [hv, decide_true, if_true]; omega
  · simp only [hv, decide_false, Bool.false_eq_true, if_false]; omega

/-- what a scalar token stores -/
def meaning : Tok → Option (Bool × Value)
  | .string b => (stringValue b).map fun v => (false, .string v)
  | .int v => some (false, .int v)
  | .float t => some (false, .float t)
  | .null => some (true, .int 0)
  | _ => none

theorem stringValue_plain {s : List Nat} (h : ∀ c ∈ s, c ≠ 92) : stringValue s = some s := by
  unfold stringValue
  rw [if_neg fun hm => h 92 hm rfl]

theorem quoteByte_cases (c : Nat) : Escape.quoteByte Escape.jsonPattern c = [c] ∨ 92 ∈ Escape.quoteByte Escape.jsonPattern c := by
  unfold Escape.quoteByte
  simp only
  generalize (if c = ch '"' then ch '"' else Escape.escMap c) = m
  split
  · right; simp [ch]
  · split
    · exact .inl rfl
    · right; simp [Escape.jsonPattern, ch]

theorem quoteBody_no_backslash (s : List Nat) (h : 92 ∉ Escape.quoteBody Escape.jsonPattern s) : Escape.quoteBody Escape.jsonPattern s = s := by
  induction s with
  | nil => rfl
  | cons c s ih =>
    have hb : Escape.quoteBody Escape.jsonPattern (c :: s) = Escape.quoteByte Escape.jsonPattern c ++ Escape.quoteBody Escape.jsonPattern s := by
      simp [Escape.quoteBody]
    rw [hb] at h ⊢
    rw [ih fun hm => h (List.mem_append.2 (.inr hm))]
    rcases quoteByte_cases c with h1 | h1
    · rw [h1]; rfl
    · exact absurd (List.mem_append.2 (.inl h1)) h

theorem stringValue_quoted {s : List Nat} (hs : ∀ c ∈ s, 0 < c ∧ c < 256) :
    stringValue (Escape.quoteBody Escape.jsonPattern s) = some s := by
  unfold stringValue
  split
  · have hp : ∀ c, Escape.jsonPattern c ≠ [] := by intro c; simp [Escape.jsonPattern]
    have hl := quoteBody_length Escape.jsonPattern hp s
    exact unquote_body Escape.jsonFmt Escape.jsonPattern json_quote s [34] hs
      (fun p c q h => json_step c (hs c (by simp [h])).2 _) _ (by omega)
  · rename_i h
    rw [quoteBody_no_backslash s h]

theorem plain_lexable {s : List Nat} (h : ∀ c ∈ s, c ≠ 34 ∧ c ≠ 92) : Lexable s := by
  induction s with
  | nil => exact trivial
  | cons c s ih =>
    rw [Lexable_lit _ _ (h c (by simp)).2]
    exact ⟨(h c (by simp)).1, ih fun d hd => h d (by simp [hd])⟩

/-- **The tokens of a value.** -/
theorem lex_leaf {l : Leaf} (hl : LeafOK l) : ∃ t toks, leafText l = some t ∧
    (∀ rest ts, Ends rest → lex rest = some ts → lex (t ++ rest) = some (toks ++ ts)) ∧
    ((toks = [.lbrace, .rbrace] ∧ ReadAs l false .none) ∨ ∃ tok n v, toks = [tok] ∧ meaning tok = some (n, v) ∧ ReadAs l n v) := by
  have num : ∀ (v : Int), -(2 ^ 127 : Int) ≤ v → v < 2 ^ 128 → ∀ rest ts, Ends rest → lex rest = some ts →
      lex (numeral (decide (v < 0)) v.natAbs ++ rest) = some ([Tok.int (word v)] ++ ts) := by
    intro v h1 h2 rest ts hr ht
    obtain ⟨h3, h4⟩ := word_numeral h1 h2
    rw [lex_numeral h3 hr ht, h4]
    rfl
  cases l with
  | bool b =>
    cases b with
    | false =>
      refine ⟨_, [.int 0], rfl, fun rest ts hr ht => ?_, .inr ⟨_, _, _, rfl, rfl, .false⟩⟩
      exact lex_keyword (k := 1) (by simp) hr ht
    | true =>
      refine ⟨_, [.int 1], rfl, fun rest ts hr ht => ?_, .inr ⟨_, _, _, rfl, rfl, .true⟩⟩
      exact lex_keyword (k := 2) (by simp) hr ht
  | int v =>
    simp only [LeafOK] at hl
    refine ⟨_, [.int (word v)], rfl, fun rest ts hr ht => ?_, .inr ⟨_, _, _, rfl, rfl, .int v⟩⟩
    have hn : v.natAbs ≤ 2 ^ 64 := by omega
    rw [Enum.fmtInt_eq (by omega)]
    exact num v (by omega) (by omega) rest ts hr ht
  | int128 v =>
    refine ⟨_, [.int (word v.toInt)], printInt128_eq _ (by simp) v, fun rest ts hr ht => ?_, .inr ⟨_, _, _, rfl, rfl, .int128 v⟩⟩
    have := num v.toInt (by have := BitVec.le_toInt v; omega) (by have := BitVec.toInt_lt (x := v); omega) rest ts hr ht
    unfold numeral at this
    simpa using this
  | uint128 v =>
    refine ⟨_, [.int v.toNat], printUint128_eq _ (by simp) v, fun rest ts hr ht => ?_, .inr ⟨_, _, _, rfl, rfl, .uint128 v⟩⟩
    have := lex_numeral (neg := false) v.isLt hr ht
    unfold numeral at this
    simpa using this
  | real t =>
    rcases hl with hl | ⟨v, h1, h2, h3⟩
    · exact ⟨t, [.float t], rfl, fun rest ts hr ht => lex_float hl hr ht, .inr ⟨_, _, _, rfl, rfl, .float t hl⟩⟩
    · refine ⟨t, [.int (word v)], rfl, fun rest ts hr ht => ?_, .inr ⟨_, _, _, rfl, rfl, .whole t v h3⟩⟩
      rw [isDecimalInt_numeral h3]
      exact num v h1 h2 rest ts hr ht
  | text s =>
    refine ⟨_, [.string (Escape.quoteBody Escape.jsonPattern s)], rfl, fun rest ts _ ht => ?_, .inr ⟨_, _, _, rfl, ?_, .text s⟩⟩
    · have := lex_string (quoteBody_lexable Escape.jsonPattern s (fun c hc => (hl c hc).2) json_lexable) ht
      simpa [Escape.quoteString, ch] using this
    · simp only [meaning, stringValue_quoted hl]
      rfl
  | quoted s =>
    refine ⟨_, [.string s], rfl, fun rest ts _ ht => ?_, .inr ⟨_, _, _, rfl, ?_, .quoted s⟩⟩
    · have := lex_string (plain_lexable hl) ht
      simpa using this
    · simp only [meaning, stringValue_plain fun c hc => (hl c hc).2]
      rfl
  | void c =>
    cases c with
    | pointer =>
      refine ⟨_, [.null], rfl, fun rest ts hr ht => ?_, .inr ⟨_, _, _, rfl, rfl, .pointer⟩⟩
      exact lex_keyword (k := 0) (by simp) hr ht
    | aggregate =>
      exact ⟨_, [.lbrace, .rbrace], rfl, fun rest ts _ ht => lex_lbrace (lex_rbrace ht), .inl ⟨rfl, .aggregate⟩⟩
    | other =>
      refine ⟨_, [.int 0], rfl, fun rest ts hr ht => ?_, .inr ⟨_, _, _, rfl, rfl, .other⟩⟩
      have := num 0 (by omega) (by omega) rest ts hr ht
      have e : numeral (decide ((0 : Int) < 0)) (0 : Int).natAbs = [48] := by
        unfold numeral
        rw [show (0 : Int).natAbs = 0 from rfl, natDigits_lt (by omega)]
        rfl
      rw [e] at this
      exact this
  | undefined => exact hl.elim

end Verif.Lemmas.JsonLex
