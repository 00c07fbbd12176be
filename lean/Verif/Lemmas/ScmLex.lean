import Verif.Spec.Scm
import Verif.Lemmas.CinitTok
/-!
# The scanner of Scheme documents
-/
namespace Verif.Lemmas.ScmLex
open Verif.Model Verif.Model.Flex Verif.Model.Scm Verif.Lemmas.Flex
open Verif.Spec Verif.Spec.Scm
open Verif.Spec.Json (Digit FloatText word)
open Verif.Spec.Xml1 (Name)
open Verif.Model.Json (sign digit letter floatNan floatInf stringRe intNumber)
open Verif.Model.Xml1 (idStart idNext spaces sRef sContent sIdx number)
open Verif.Model.Cinit (idRe xdigit)
open Verif.Lemmas.JsonLex (space_iff lang_sign lang_letter lang_string isdigit_iff lang_int over_int numeral digits_digit)
open Verif.Lemmas.CinitLex (first_of lang_nan lang_inf alpha_iff lang_id name_head)
open Verif.Lemmas.Escape (Lexable)

/-! ### steps of the scanner -/

theorem lex_cons {k : Nat} {w rest : List Nat} {ts : List Tok} (hw : w ≠ []) (hk : FirstMatch rules w k)
    (hmax : ∀ e : List Nat, e ≠ [] → e <+: rest → NoMatch rules (w ++ e)) (h : lex rest = some ts) :
    lex (w ++ rest) = some ((action k w).toList ++ ts) := by
  unfold lex at h ⊢
  obtain ⟨l, h1, h2⟩ := Option.bind_eq_some_iff.1 h
  cases h2
  refine Option.bind_eq_some_iff.2 ⟨_, scan_step rules k w rest l hw hk hmax h1, ?_⟩
  cases ha : action k w <;> simp [List.filterMap_cons, ha]

/-! ### what the rules match -/

/-- bytes of numbers and identifiers -/
def Word (c : Nat) : Prop := isalnum c = true ∨ c = 95 ∨ c = 43 ∨ c = 45 ∨ c = 46 ∨ c = 35 ∨ c = 91 ∨ c = 93

theorem word_iff (c : Nat) : Word c ↔ ((48 ≤ c ∧ c ≤ 57) ∨ (65 ≤ c ∧ c ≤ 90) ∨ (97 ≤ c ∧ c ≤ 122) ∨ c = 95 ∨ c = 43 ∨ c = 45 ∨ c = 46 ∨ c = 35 ∨ c = 91 ∨ c = 93) := by
  unfold Word isalnum isalpha isupper islower isdigit
  simp only [Bool.or_eq_true, Bool.and_eq_true, decide_eq_true_eq]
  omega

/-- rules 1 to 6 and 14 -/
def words : List Re := [intNumber, hexNumber, octNumber, floatNumber, .str sNil, .str [116], idRe]

theorem over_word : ∀ r ∈ words, Over Word r := by
  intro r hr
  simp only [words, List.mem_cons, List.not_mem_nil, or_false] at hr
  rcases hr with rfl | rfl | rfl | rfl | rfl | rfl | rfl <;>
    simp only [Over, Re.str, Re.one, Re.opt, Re.plus, sNil, intNumber, hexNumber, octNumber, xdigit, floatNumber, floatNan, floatInf, sign, digit, letter, idRe, idStart, idNext,
      word_iff, beq_iff_eq, Bool.or_eq_true, isdigit, isalpha, isalnum, isupper, islower, Bool.and_eq_true, decide_eq_true_eq, and_true, true_and] <;>
    (try repeat' constructor) <;> (try (intro c h; omega))

/-- the first byte of a word -/
def Start (c : Nat) : Prop := isalnum c = true ∨ c = 95 ∨ c = 43 ∨ c = 45 ∨ c = 35

theorem start_iff (c : Nat) : Start c ↔ ((48 ≤ c ∧ c ≤ 57) ∨ (65 ≤ c ∧ c ≤ 90) ∨ (97 ≤ c ∧ c ≤ 122) ∨ c = 95 ∨ c = 43 ∨ c = 45 ∨ c = 35) := by
  unfold Start isalnum isalpha isupper islower isdigit
  simp only [Bool.or_eq_true, Bool.and_eq_true, decide_eq_true_eq]
  omega

theorem over_wss : Over (fun c => isspace c = true) wss := by
  simp only [wss, ws, Re.plus, Over]
  exact ⟨fun c h => h, fun c h => h⟩

theorem over_ws : Over (fun c => isspace c = true) ws := by
  simp only [ws, Re.plus, Over]
  exact ⟨fun c h => h, fun c h => h⟩

theorem over_wsp : Over (fun c => isspace c = true) (.plus ws) := by
  simp only [ws, Re.plus, Over]
  exact ⟨⟨fun c h => h, fun c h => h⟩, fun c h => h, fun c h => h⟩

theorem lang_ws {w : List Nat} (hw : w ≠ []) (h : ∀ c ∈ w, isspace c = true) : Lang ws w := lang_plus_cls hw h

theorem lang_wss {w : List Nat} (h : ∀ c ∈ w, isspace c = true) : Lang wss w := by
  by_cases hw : w = []
  · subst hw; exact .nil
  · have := Lang.more (lang_ws hw h) (Lang.nil (a := ws))
    rwa [List.append_nil] at this

theorem not_word_space {r : Re} (hr : r ∈ words) {w : List Nat} (h : Lang r w) : ∀ c ∈ w, isspace c = false := by
  intro c hc
  have h1 := (word_iff c).1 (lang_over h (over_word r hr) c hc)
  have hn : ¬ isspace c = true := by rw [space_iff]; omega
  simpa using hn

theorem word_first {r : Re} (hr : r ∈ words) {c : Nat} {t : List Nat} (h : Lang r (c :: t)) : Start c := by
  refine lang_first h (p := Start) ?_ c t rfl
  simp only [words, List.mem_cons, List.not_mem_nil, or_false] at hr
  rcases hr with rfl | rfl | rfl | rfl | rfl | rfl | rfl <;>
    simp only [First, Re.str, Re.one, Re.opt, Re.plus, Re.nullable, sNil, intNumber, hexNumber, octNumber, xdigit, floatNumber, floatNan, floatInf, sign, digit, letter, idRe, idStart, idNext,
      start_iff, beq_iff_eq, Bool.or_eq_true, isdigit, isalpha, isalnum, isupper, islower, Bool.and_eq_true, decide_eq_true_eq, and_true, true_and] <;>
    (try repeat' constructor) <;> (try (intro c h; omega)) <;> (try simp) <;> (try omega)

theorem word_second {r : Re} (hr : r ∈ words) {d : Nat} {t : List Nat} (h : Lang r (35 :: d :: t)) : d ≠ 92 := by
  have := (word_iff d).1 (lang_over h (over_word r hr) d (by simp))
  omega

/-- `{WS}*")"` -/
theorem lang_rpar {w : List Nat} (h : Lang (.seq wss (.one 41)) w) : ∃ s, w = s ++ [41] ∧ ∀ c ∈ s, isspace c = true := by
  obtain ⟨s, t, rfl, h1, h2⟩ := lang_seq.1 h
  rw [lang_one.1 h2]
  exact ⟨s, rfl, lang_over h1 over_wss⟩

theorem lang_lpar {w : List Nat} (h : Lang (.seq (.one 40) wss) w) : ∃ s, w = 40 :: s ∧ ∀ c ∈ s, isspace c = true := by
  obtain ⟨s, t, rfl, h1, h2⟩ := lang_seq.1 h
  rw [lang_one.1 h1]
  exact ⟨t, rfl, lang_over h2 over_wss⟩

theorem lang_dot {w : List Nat} (h : Lang (.seq (.plus ws) (.seq (.one 46) (.plus ws))) w) :
    ∃ s t, w = s ++ 46 :: t ∧ s ≠ [] ∧ (∀ c ∈ s, isspace c = true) ∧ ∀ c ∈ t, isspace c = true := by
  obtain ⟨s, t, rfl, h1, h2⟩ := lang_seq.1 h
  obtain ⟨a, b, rfl, h3, h4⟩ := lang_seq.1 h2
  rw [lang_one.1 h3]
  refine ⟨s, b, rfl, ?_, lang_over h1 over_wsp, lang_over h4 over_wsp⟩
  rintro rfl
  have := (lang_nullable _).2 h1
  simp [Re.plus, ws, Re.nullable] at this

theorem lang_hash {w : List Nat} (h : Lang (.seq (.str [35, 92]) .dot) w) : ∃ c, w = [35, 92, c] := by
  obtain ⟨s, t, rfl, h1, h2⟩ := lang_seq.1 h
  obtain ⟨c, rfl, _⟩ := lang_cls.1 h2
  rw [lang_str.1 h1]
  exact ⟨c, rfl⟩

theorem lang_hashx {w : List Nat} (h : Lang (.seq (.str [35, 92, 120]) (.seq xdigit xdigit)) w) : ∃ c d, w = [35, 92, 120, c, d] := by
  obtain ⟨s, t, rfl, h1, h2⟩ := lang_seq.1 h
  obtain ⟨a, b, rfl, h3, h4⟩ := lang_seq.1 h2
  obtain ⟨c, rfl, _⟩ := lang_cls.1 h3
  obtain ⟨d, rfl, _⟩ := lang_cls.1 h4
  rw [lang_str.1 h1]
  exact ⟨c, d, rfl⟩

theorem lang_ivalue_first {c : Nat} {t : List Nat} (h : Lang ivalueRe (c :: t)) : c = 59 := by
  refine lang_first h (p := fun c => c = 59) ?_ c t rfl
  simp [ivalueRe, First, Re.plus, Re.one, Re.nullable]

theorem lang_comment_first {c : Nat} {t : List Nat} (h : Lang commentRe (c :: t)) : c = 59 := by
  refine lang_first h (p := fun c => c = 59) ?_ c t rfl
  simp [commentRe, First, Re.one, Re.nullable]

/-- which rule can match a text of two or more bytes -/
theorem class_of {j : Nat} {r : Re} (hr : rules[j]? = some r) {c d : Nat} {t : List Nat} (h : Lang r (c :: d :: t)) :
    (r ∈ words ∧ ((1 ≤ j ∧ j ≤ 6) ∨ j = 14) ∧ Start c ∧ ¬ (c = 35 ∧ d = 92)) ∨
    (isspace c = true ∧ (j = 0 ∨ j = 13 ∨ j = 15)) ∨ (c = 34 ∧ j = 7) ∨ (c = 35 ∧ d = 92 ∧ (j = 8 ∨ j = 9)) ∨
    (c = 59 ∧ (j = 10 ∨ j = 11)) ∨ (c = 40 ∧ j = 12) := by
  have wd : r ∈ words → ((1 ≤ j ∧ j ≤ 6) ∨ j = 14) → (r ∈ words ∧ ((1 ≤ j ∧ j ≤ 6) ∨ j = 14) ∧ Start c ∧ ¬ (c = 35 ∧ d = 92)) := by
    intro h1 h2
    refine ⟨h1, h2, word_first h1 h, ?_⟩
    rintro ⟨rfl, h3⟩
    exact word_second h1 h h3
  have hj : j < 17 := by
    have := (List.getElem?_eq_some_iff.1 hr).1
    exact this
  have hcases : j = 0 ∨ j = 1 ∨ j = 2 ∨ j = 3 ∨ j = 4 ∨ j = 5 ∨ j = 6 ∨ j = 7 ∨ j = 8 ∨ j = 9 ∨ j = 10 ∨ j = 11 ∨ j = 12 ∨ j = 13 ∨ j = 14 ∨ j = 15 ∨ j = 16 := by omega
  rcases hcases with rfl | rfl | rfl | rfl | rfl | rfl | rfl | rfl | rfl | rfl | rfl | rfl | rfl | rfl | rfl | rfl | rfl <;> cases hr
  · exact .inr (.inl ⟨lang_over h over_ws c (by simp), by simp⟩)
  · exact .inl (wd (by simp [words]) (by omega))
  · exact .inl (wd (by simp [words]) (by omega))
  · exact .inl (wd (by simp [words]) (by omega))
  · exact .inl (wd (by simp [words]) (by omega))
  · exact .inl (wd (by simp [words]) (by omega))
  · exact .inl (wd (by simp [words]) (by omega))
  · exact .inr (.inr (.inl ⟨JsonLex.lang_string_first h, rfl⟩))
  · obtain ⟨x, e⟩ := lang_hash h
    cases e
    exact .inr (.inr (.inr (.inl ⟨rfl, rfl, .inl rfl⟩)))
  · obtain ⟨x, y, e⟩ := lang_hashx h
    cases e
    exact .inr (.inr (.inr (.inl ⟨rfl, rfl, .inr rfl⟩)))
  · exact .inr (.inr (.inr (.inr (.inl ⟨lang_ivalue_first h, .inl rfl⟩))))
  · exact .inr (.inr (.inr (.inr (.inl ⟨lang_comment_first h, .inr rfl⟩))))
  · obtain ⟨s, e, _⟩ := lang_lpar h
    cases e
    exact .inr (.inr (.inr (.inr (.inr ⟨rfl, rfl⟩))))
  · obtain ⟨s, e, hs⟩ := lang_rpar h
    cases s with
    | nil => cases e
    | cons x s =>
      have : c = x := (List.cons.inj e).1
      subst this
      exact .inr (.inl ⟨hs c (by simp), by simp⟩)
  · exact .inl (wd (by simp [words]) (by omega))
  · obtain ⟨s, u, e, h0, hs, _⟩ := lang_dot h
    cases s with
    | nil => exact absurd rfl h0
    | cons x s =>
      have : c = x := (List.cons.inj e).1
      subst this
      exact .inr (.inl ⟨hs c (by simp), by simp⟩)
  · obtain ⟨x, e, _⟩ := lang_cls.1 h
    cases e

theorem noMatch_of {w : List Nat} (h : ∀ (j : Nat) (r : Re), rules[j]? = some r → ¬ Lang r w) : NoMatch rules w := by
  intro r hr
  obtain ⟨j, hj⟩ := List.mem_iff_getElem?.1 hr
  exact h j r hj

theorem split_unique {x : Nat} : ∀ {a b c d : List Nat}, x ∉ a → x ∉ c → a ++ x :: b = c ++ x :: d → a = c ∧ b = d
  | [], b, [], d, _, _, h => by cases h; exact ⟨rfl, rfl⟩
  | [], b, y :: c, d, _, h2, h => by cases h; exact absurd (by simp) h2
  | y :: a, b, [], d, h1, _, h => by cases h; exact absurd (by simp) h1
  | y :: a, b, z :: c, d, h1, h2, h => by
    simp only [List.cons_append, List.cons.injEq] at h
    obtain ⟨rfl, h⟩ := h
    obtain ⟨h3, h4⟩ := split_unique (fun hm => h1 (by simp [hm])) (fun hm => h2 (by simp [hm])) h
    exact ⟨by rw [h3], h4⟩

theorem not_space {c : Nat} {w : List Nat} (hw : ∀ d ∈ w, isspace d = true) (hc : isspace c = false) : c ∉ w := by
  intro h
  have := hw c h
  rw [hc] at this; cases this

theorem two (c : Nat) (w : List Nat) (d : Nat) (e : List Nat) : ∃ x y, c :: (w ++ d :: e) = c :: x :: y := by
  cases w with
  | nil => exact ⟨d, e, rfl⟩
  | cons x w => exact ⟨x, w ++ d :: e, rfl⟩

theorem head_of {e rest : List Nat} {d : Nat} {e' : List Nat} (he : e = d :: e') (hp : e <+: rest) : ∃ t, rest = d :: t := by
  obtain ⟨t, ht⟩ := hp
  exact ⟨e' ++ t, by rw [← ht, he]; rfl⟩

/-! ### white space and parentheses -/

/-- a text that starts a value -/
def Head (rest : List Nat) : Prop := ∃ c t, rest = c :: t ∧ isspace c = false ∧ c ≠ 41 ∧ c ≠ 46

theorem lex_ws {w rest : List Nat} {ts : List Tok} (hw : w ≠ []) (h : ∀ c ∈ w, isspace c = true) (hr : rest = [] ∨ Head rest)
    (ht : lex rest = some ts) : lex (w ++ rest) = some (.ws :: ts) := by
  refine lex_cons (k := 0) hw ⟨⟨_, rfl, lang_ws hw h⟩, fun j r hj => by omega⟩ (fun e he hp => ?_) ht
  cases e with
  | nil => exact absurd rfl he
  | cons d e =>
    obtain ⟨u, hu⟩ := head_of rfl hp
    rcases hr with hr | ⟨c, t, hr, h1, h2, h3⟩
    · rw [hr] at hu; cases hu
    · rw [hr] at hu
      have hdc : d = c := (List.cons.inj hu).1.symm
      subst hdc
      cases w with
      | nil => exact absurd rfl hw
      | cons x w =>
        obtain ⟨y, z, hyz⟩ := two x w d e
        refine noMatch_of fun j r hj hl => ?_
        have hl' : Lang r (x :: (w ++ d :: e)) := hl
        rw [hyz] at hl'
        have hx := (space_iff x).1 (h x (by simp))
        rcases class_of hj hl' with ⟨_, _, h4, _⟩ | ⟨_, h4⟩ | h4 | h4 | h4 | h4
        · have := (start_iff x).1 h4; omega
        · rcases h4 with rfl | rfl | rfl <;> cases hj
          · have := lang_over hl over_ws d (by simp)
            rw [h1] at this; cases this
          · obtain ⟨s, hs, hs'⟩ := lang_rpar hl
            have hm : d ∈ s ++ [41] := by rw [← hs]; simp
            rcases List.mem_append.1 hm with hm | hm
            · have := hs' d hm; rw [h1] at this; cases this
            · exact h2 (by simpa using hm)
          · obtain ⟨s, u, hs, _, hs', hu'⟩ := lang_dot hl
            have hm : d ∈ s ++ 46 :: u := by rw [← hs]; simp
            rcases List.mem_append.1 hm with hm | hm
            · have := hs' d hm; rw [h1] at this; cases this
            · rcases List.mem_cons.1 hm with hm | hm
              · exact h3 hm
              · have := hu' d hm; rw [h1] at this; cases this
        all_goals omega

theorem lex_rpar {w rest : List Nat} {ts : List Tok} (h : ∀ c ∈ w, isspace c = true)
    (ht : lex rest = some ts) : lex (w ++ 41 :: rest) = some (.rpar :: ts) := by
  have e0 : w ++ 41 :: rest = (w ++ [41]) ++ rest := by simp
  rw [e0]
  have h41 : isspace 41 = false := by decide
  refine lex_cons (k := 13) (by simp) ⟨⟨_, rfl, .seq (lang_wss h) (lang_one.2 rfl)⟩, ?_⟩ (fun e he hp => ?_) ht
  · cases w with
    | nil => exact (first_of (rs := rules) (w := [41]) (k := 13) (by decide +kernel)).2
    | cons x w =>
      intro j r hj hr hl
      obtain ⟨y, z, hyz⟩ := two x w 41 []
      have hl' : Lang r (x :: (w ++ 41 :: [])) := hl
      rw [hyz] at hl'
      have hx := (space_iff x).1 (h x (by simp))
      rcases class_of hr hl' with ⟨_, _, h4, _⟩ | ⟨_, h4⟩ | h4 | h4 | h4 | h4
      · have := (start_iff x).1 h4; omega
      · have : j = 0 := by omega
        subst this
        cases hr
        have := lang_over hl over_ws 41 (by simp)
        rw [h41] at this; cases this
      all_goals omega
  · refine noMatch_of fun j r hj hl => ?_
    cases e with
    | nil => exact absurd rfl he
    | cons d e =>
    have hl2 : Lang r (w ++ 41 :: d :: e) := by simpa using hl
    have hcl : (j = 0 ∨ j = 13 ∨ j = 15) := by
      cases w with
      | nil =>
        rcases class_of hj (c := 41) (d := d) (t := e) hl2 with ⟨_, _, h4, _⟩ | ⟨_, h4⟩ | h4 | h4 | h4 | h4
        · have := (start_iff 41).1 h4; omega
        · exact h4
        all_goals omega
      | cons x w =>
        obtain ⟨y, z, hyz⟩ := two x w 41 (d :: e)
        have hl' : Lang r (x :: (w ++ 41 :: d :: e)) := hl2
        rw [hyz] at hl'
        have hx := (space_iff x).1 (h x (by simp))
        rcases class_of hj hl' with ⟨_, _, h4, _⟩ | ⟨_, h4⟩ | h4 | h4 | h4 | h4
        · have := (start_iff x).1 h4; omega
        · exact h4
        all_goals omega
    rcases hcl with rfl | rfl | rfl <;> cases hj
    · have := lang_over hl over_ws 41 (by simp)
      rw [h41] at this; cases this
    · obtain ⟨s, hs, hs'⟩ := lang_rpar hl2
      have := split_unique (not_space h h41) (not_space hs' h41) hs
      cases this.2
    · obtain ⟨s, u, hs, _, hs', hu'⟩ := lang_dot hl
      have hm : 41 ∈ s ++ 46 :: u := by rw [← hs]; simp
      rcases List.mem_append.1 hm with hm | hm
      · have := hs' 41 hm; rw [h41] at this; cases this
      · rcases List.mem_cons.1 hm with hm | hm
        · omega
        · have := hu' 41 hm; rw [h41] at this; cases this

theorem lex_lpar {w rest : List Nat} {ts : List Tok} (h : ∀ c ∈ w, isspace c = true) (hr : ∀ c t, rest = c :: t → isspace c = false)
    (ht : lex rest = some ts) : lex (40 :: (w ++ rest)) = some (.lpar :: ts) := by
  refine lex_cons (k := 12) (w := 40 :: w) (by simp) ⟨⟨_, rfl, Lang.seq (s := [40]) (lang_one.2 rfl) (lang_wss h)⟩, ?_⟩ (fun e he hp => ?_) ht
  · cases w with
    | nil => exact (first_of (rs := rules) (w := [40]) (k := 12) (by decide +kernel)).2
    | cons x w =>
      intro j r hj hr hl
      rcases class_of hr hl with ⟨_, _, h4, _⟩ | ⟨h4, _⟩ | h4 | h4 | h4 | h4
      · have := (start_iff 40).1 h4; omega
      · cases h4
      all_goals omega
  · cases e with
    | nil => exact absurd rfl he
    | cons d e =>
      obtain ⟨u, hu⟩ := head_of rfl hp
      have hd := hr d u hu
      refine noMatch_of fun j r hj hl => ?_
      obtain ⟨y, z, hyz⟩ := two 40 w d e
      have hl' : Lang r (40 :: (w ++ d :: e)) := hl
      rw [hyz] at hl'
      rcases class_of hj hl' with ⟨_, _, h4, _⟩ | ⟨h4, _⟩ | h4 | h4 | h4 | h4
      · have := (start_iff 40).1 h4; omega
      · cases h4
      · omega
      · omega
      · omega
      · obtain ⟨_, rfl⟩ := h4
        cases hj
        obtain ⟨s, hs, hs'⟩ := lang_lpar hl
        cases hs
        have := hs' d (by simp)
        rw [hd] at this; cases this

theorem lex_dot {rest : List Nat} {ts : List Tok} (hr : ∀ c t, rest = c :: t → isspace c = false)
    (ht : lex rest = some ts) : lex (32 :: 46 :: 32 :: rest) = some (.dot :: ts) := by
  refine lex_cons (k := 15) (w := [32, 46, 32]) (by simp) (first_of (by decide +kernel)) (fun e he hp => ?_) ht
  cases e with
  | nil => exact absurd rfl he
  | cons d e =>
    obtain ⟨u, hu⟩ := head_of rfl hp
    have hd := hr d u hu
    refine noMatch_of fun j r hj hl => ?_
    have h46 : isspace 46 = false := by decide
    rcases class_of hj hl with ⟨_, _, h4, _⟩ | ⟨_, h4⟩ | h4 | h4 | h4 | h4
    · have := (start_iff 32).1 h4; omega
    · rcases h4 with rfl | rfl | rfl <;> cases hj
      · have := lang_over hl over_ws 46 (by simp)
        rw [h46] at this; cases this
      · obtain ⟨s, hs, hs'⟩ := lang_rpar hl
        have hm : 46 ∈ s ++ [41] := by rw [← hs]; simp
        rcases List.mem_append.1 hm with hm | hm
        · have := hs' 46 hm; rw [h46] at this; cases this
        · simp at hm
      · obtain ⟨s, u, hs, _, hs', hu'⟩ := lang_dot hl
        have := split_unique (x := 46) (a := [32]) (b := 32 :: d :: e) (by simp) (not_space hs' h46) hs
        have h5 := hu' d (by rw [← this.2]; simp)
        rw [hd] at h5; cases h5
    all_goals omega

/-! ### words -/

/-- the text ends a value -/
def Ends (rest : List Nat) : Prop := ∀ c t, rest = c :: t → isspace c = true ∨ c = 41

theorem ends_word {rest : List Nat} (h : Ends rest) : ∀ c t, rest = c :: t → ¬ Word c := by
  intro c t e
  rw [word_iff]
  rcases h c t e with h | h
  · rw [space_iff] at h; omega
  · omega

theorem lex_word {w rest : List Nat} {k : Nat} {ts : List Tok} (hw : w ≠ []) (hh : ∀ c t, w = c :: t → Start c) (h35 : ∀ d t, w = 35 :: d :: t → d ≠ 92) (hone : w ≠ [35])
    (hf : FirstMatch rules w k) (hr : Ends rest) (ht : lex rest = some ts) : lex (w ++ rest) = some ((action k w).toList ++ ts) := by
  refine lex_cons hw hf (fun e he hp => ?_) ht
  cases w with
  | nil => exact absurd rfl hw
  | cons c w =>
    cases e with
    | nil => exact absurd rfl he
    | cons d e =>
      obtain ⟨u, hu⟩ := head_of rfl hp
      have hd := ends_word hr d u hu
      refine noMatch_of fun j r hj hl => ?_
      obtain ⟨y, z, hyz⟩ := two c w d e
      have hl' : Lang r (c :: (w ++ d :: e)) := hl
      rw [hyz] at hl'
      have hc := (start_iff c).1 (hh c w rfl)
      rcases class_of hj hl' with ⟨h4, _⟩ | ⟨h4, _⟩ | h4 | h4 | h4 | h4
      · exact hd (lang_over hl (over_word r h4) d (by simp))
      · rw [space_iff] at h4; omega
      · omega
      · obtain ⟨rfl, h5, _⟩ := h4
        cases w with
        | nil => exact hone rfl
        | cons x w =>
          cases hyz
          exact h35 _ _ rfl h5
      · omega
      · omega

theorem lex_literal {k : Nat} {w rest : List Nat} {ts : List Tok} (hk : (derivs w rules).findIdx? Re.nullable = some k) (hw : w ≠ [])
    (hh : ∀ c t, w = c :: t → Start c ∧ c ≠ 35) (hr : Ends rest) (h : lex rest = some ts) :
    lex (w ++ rest) = some ((action k w).toList ++ ts) :=
  lex_word hw (fun c t e => (hh c t e).1) (fun d t e => absurd rfl (hh _ _ e).2) (fun e => absurd rfl (hh _ _ e).2) (first_of hk) hr h

theorem lex_nil {rest : List Nat} {ts : List Tok} (hr : Ends rest) (h : lex rest = some ts) : lex (sNil ++ rest) = some (.false :: ts) :=
  lex_literal (k := 5) (by decide +kernel) (by decide) (fun c t e => by cases e; rw [start_iff]; omega) hr h

theorem lex_t {rest : List Nat} {ts : List Tok} (hr : Ends rest) (h : lex rest = some ts) : lex ([116] ++ rest) = some (.int 1 :: ts) :=
  lex_literal (k := 6) (by decide +kernel) (by decide) (fun c t e => by cases e; rw [start_iff]; omega) hr h

theorem alpha_first {c : Nat} {t : List Nat} (hc : (65 ≤ c ∧ c ≤ 90) ∨ (97 ≤ c ∧ c ≤ 122) ∨ c = 95) {r : Re}
    (hr : r = intNumber ∨ r = hexNumber ∨ r = octNumber) : ¬ Lang r (c :: t) := by
  intro h
  have := lang_first h (p := fun c => (48 ≤ c ∧ c ≤ 57) ∨ c = 43 ∨ c = 45 ∨ c = 35) (by
    rcases hr with rfl | rfl | rfl <;>
      simp [First, intNumber, hexNumber, octNumber, sign, Re.plus, Re.opt, Re.one, Re.nullable, digit, isdigit] <;> omega) c t rfl
  omega

theorem lang_float {w : List Nat} (h : Lang floatNumber w) : (∃ a b, w = a ++ b ∧ Lang intNumber a) ∨ ∃ sg a b c, w = sg ++ [a, b, c] ∧ (sg = [] ∨ sg = [45] ∨ sg = [43]) ∧
    (((a = 78 ∨ a = 110) ∧ (b = 65 ∨ b = 97) ∧ (c = 78 ∨ c = 110)) ∨ ((a = 73 ∨ a = 105) ∧ (b = 78 ∨ b = 110) ∧ (c = 70 ∨ c = 102))) := by
  rcases lang_alt.1 h with h | h
  · obtain ⟨sg, a, b, c, h1, h2, h3⟩ := lang_nan h
    exact .inr ⟨sg, a, b, c, h1, h2, .inl h3⟩
  · rcases lang_alt.1 h with h | h
    · obtain ⟨sg, a, b, c, h1, h2, h3⟩ := lang_inf h
      exact .inr ⟨sg, a, b, c, h1, h2, .inr h3⟩
    · obtain ⟨a, b, h1, h2, _⟩ := lang_seq.1 h
      exact .inl ⟨a, b, h1, h2⟩

theorem ident_first {n : List Nat} (h : Ident n) : FirstMatch rules n 14 := by
  obtain ⟨h1, h2⟩ := h
  refine ⟨⟨_, rfl, lang_id h1⟩, fun j r hj hr hl => ?_⟩
  obtain ⟨c, t, rfl, hc⟩ := name_head h1
  have hc' : (65 ≤ c ∧ c ≤ 90) ∨ (97 ≤ c ∧ c ≤ 122) ∨ c = 95 := by rw [alpha_iff] at hc; omega
  have hsp : isspace c = false := Xml1Lex.name_space hc
  have hcases : j = 0 ∨ j = 1 ∨ j = 2 ∨ j = 3 ∨ j = 4 ∨ j = 5 ∨ j = 6 ∨ j = 7 ∨ j = 8 ∨ j = 9 ∨ j = 10 ∨ j = 11 ∨ j = 12 ∨ j = 13 := by omega
  rcases hcases with rfl | rfl | rfl | rfl | rfl | rfl | rfl | rfl | rfl | rfl | rfl | rfl | rfl | rfl <;> cases hr
  · have := lang_over hl over_ws c (by simp)
    rw [hsp] at this; cases this
  · exact alpha_first hc' (.inl rfl) hl
  · exact alpha_first hc' (.inr (.inl rfl)) hl
  · exact alpha_first hc' (.inr (.inr rfl)) hl
  · rcases lang_float hl with ⟨a, b, e1, e2⟩ | ⟨sg, a, b, d, e1, e2, e3⟩
    · cases a with
      | nil =>
        have := (lang_nullable _).2 e2
        simp [intNumber, sign, Re.plus, Re.opt, Re.nullable, digit] at this
      | cons x a =>
        cases e1
        exact alpha_first hc' (.inl rfl) e2
    · rcases e2 with rfl | rfl | rfl
      · rw [e1] at h2
        refine h2 (.inr (.inr ?_))
        rcases e3 with ⟨rfl | rfl, rfl | rfl, rfl | rfl⟩ | ⟨rfl | rfl, rfl | rfl, rfl | rfl⟩ <;> decide
      all_goals
        simp only [List.cons_append, List.cons.injEq] at e1
        omega
  · exact h2 (.inr (.inl (by rw [lang_str.1 hl]; decide)))
  · exact h2 (.inl (by rw [lang_str.1 hl]; decide))
  · have := JsonLex.lang_string_first hl; omega
  · obtain ⟨x, e⟩ := lang_hash hl; cases e; omega
  · obtain ⟨x, y, e⟩ := lang_hashx hl; cases e; omega
  · have := lang_ivalue_first hl; omega
  · have := lang_comment_first hl; omega
  · obtain ⟨s, e, _⟩ := lang_lpar hl; cases e; omega
  · obtain ⟨s, e, hs⟩ := lang_rpar hl
    cases s with
    | nil => cases e; omega
    | cons x s =>
      cases e
      have := hs c (by simp)
      rw [hsp] at this; cases this

theorem name_start {c : Nat} (hc : isalpha c = true ∨ c = 95) : Start c ∧ c ≠ 35 := by
  rw [start_iff]
  rw [alpha_iff] at hc
  omega

theorem lex_ident {n rest : List Nat} {ts : List Tok} (hn : Ident n) (hr : Ends rest) (h : lex rest = some ts) :
    lex (n ++ rest) = some (.id n :: ts) := by
  obtain ⟨c, t, e, hc⟩ := name_head hn.1
  have key : ∀ d u, n = d :: u → Start d ∧ d ≠ 35 := by
    intro d u hd
    rw [e] at hd; cases hd
    exact name_start hc
  exact lex_word (k := 14) (by rw [e]; simp) (fun d u hd => (key d u hd).1) (fun d u hd => absurd rfl (key _ _ hd).2) (fun hd => absurd rfl (key _ _ hd).2) (ident_first hn) hr h

/-! ### numbers -/

theorem int_start {sg d : List Nat} (h : sg = [] ∨ sg = [45] ∨ sg = [43]) (hc : ∀ c ∈ d, Digit c) : ∀ c t, sg ++ d = c :: t → Start c ∧ c ≠ 35 := by
  intro c t e
  have hm : c ∈ sg ++ d := by rw [e]; simp
  rw [start_iff]
  rcases List.mem_append.1 hm with hm | hm
  · rcases h with rfl | rfl | rfl <;> simp at hm <;> omega
  · have := hc c hm; unfold Digit at this; omega

theorem start_space {c : Nat} (h : Start c) : isspace c = false := by
  have := (start_iff c).1 h
  have hn : ¬ isspace c = true := by rw [space_iff]; omega
  simpa using hn

theorem lex_int {sg d rest : List Nat} {ts : List Tok} (h : sg = [] ∨ sg = [45] ∨ sg = [43]) (hd : d ≠ []) (hc : ∀ c ∈ d, Digit c)
    (hr : Ends rest) (ht : lex rest = some ts) : lex (sg ++ d ++ rest) = some (.int (Decimal.strtouintmax (sg ++ d) 10).1 :: ts) := by
  have hs := int_start h hc
  have hne : sg ++ d ≠ [] := by simp [hd]
  refine lex_word (k := 1) hne (fun c t e => (hs c t e).1) (fun d u hd => absurd rfl (hs _ _ hd).2) (fun hd => absurd rfl (hs _ _ hd).2)
    ⟨⟨_, rfl, lang_int h hd hc⟩, fun j r hj hr hl => ?_⟩ hr ht
  have : j = 0 := by omega
  subst this
  cases hr
  cases hw : sg ++ d with
  | nil => exact hne hw
  | cons c t =>
    have h1 := lang_over hl over_ws c (by rw [hw]; simp)
    rw [start_space (hs c t hw).1] at h1; cases h1

open Verif.Model.Decimal (strtouintmax strtoLoop)
open Verif.Lemmas.Decimal (natDigits natDigits_spec map_digitOf_natDigits head_facts strtoLoop_digits positional_foldl)

/-- base 10 -/
theorem strto_ten (n : Nat) (hn : n < 2 ^ 128) (neg : Bool) :
    (strtouintmax (numeral neg n) 10).1 = if neg then (2 ^ 128 - n) % 2 ^ 128 else n := by
  obtain ⟨h1, h2, h3, h4⟩ := natDigits_spec n
  have hmap := map_digitOf_natDigits _ h1
  unfold numeral
  cases hds : natDigits n with
  | nil => exact absurd hds h3
  | cons d ds =>
    rw [hds] at h1 h2 h4 hmap
    obtain ⟨f1, f2, f3, f4⟩ := head_facts (h1 d (by simp))
    have key : strtoLoop 10 ((d :: ds).map (· + 48)) 0 = (n, []) := by
      have := strtoLoop_digits 10 _ (d :: ds) [] 0 hmap h1 (by decide) (by intro c hc; cases hc)
      rw [List.append_nil] at this
      rw [this]
      have : (d :: ds).foldl (fun a d => a * 10 + d) 0 = n := h2
      rw [this, Nat.mod_eq_of_lt hn]
    simp only [List.map_cons] at key ⊢
    cases neg with
    | false =>
      simp only [Bool.false_eq_true, if_false, List.nil_append]
      unfold strtouintmax
      have hdw : List.dropWhile isspace ((d + 48) :: ds.map (· + 48)) = (d + 48) :: ds.map (· + 48) := by simp [f1]
      simp only [hdw]
      have e1 : (((d + 48) :: ds.map (· + 48)).head? == some (ch '-')) = false := by simp [ch]
      have e2 : (((d + 48) :: ds.map (· + 48)).head? == some (ch '+')) = false := by simp [ch]
      simp only [e1, e2, Bool.or_false, Bool.false_eq_true, if_false, f2, if_true]
      simp [key]
    | true =>
      simp only [if_true, List.cons_append, List.nil_append]
      unfold strtouintmax
      have hdw : List.dropWhile isspace (45 :: (d + 48) :: ds.map (· + 48)) = 45 :: (d + 48) :: ds.map (· + 48) := by simp [isspace]
      simp only [hdw]
      have e1 : ((45 :: (d + 48) :: ds.map (· + 48)).head? == some (ch '-')) = true := by simp [ch]
      simp only [e1, Bool.or_true, if_true, List.tail_cons, f2]
      simp [key]

theorem lex_numeral {neg : Bool} {n : Nat} (hn : n < 2 ^ 128) {rest : List Nat} {ts : List Tok} (hr : Ends rest) (ht : lex rest = some ts) :
    lex (numeral neg n ++ rest) = some (.int (if neg then (2 ^ 128 - n) % 2 ^ 128 else n) :: ts) := by
  have hs : (if neg then [45] else [] : List Nat) = [] ∨ (if neg then [45] else [] : List Nat) = [45] ∨ (if neg then [45] else [] : List Nat) = [43] := by
    cases neg <;> simp
  have := lex_int hs (d := (natDigits n).map (· + 48)) (by simpa using (natDigits_spec n).2.2.1) (digits_digit n) hr ht
  have h2 := strto_ten n hn neg
  unfold numeral at h2 ⊢
  rw [this, h2]

theorem float_lang {t : List Nat} (h : FloatText t) : Lang floatNumber t := by
  obtain ⟨sg, m, rfl, hs, h⟩ := h
  unfold floatNumber
  rcases h with rfl | rfl | ⟨ip, fr, ex, rfl, h1, h2, h3, h4, h5⟩
  · exact .left (.seq (lang_sign.2 hs) (Lang.seq (s := [110]) (lang_letter (.inr rfl)) (Lang.seq (s := [97]) (lang_letter (.inr rfl)) (lang_letter (.inr rfl)))))
  · exact .right (.left (.seq (lang_sign.2 hs) (Lang.seq (s := [105]) (lang_letter (.inr rfl)) (Lang.seq (s := [110]) (lang_letter (.inr rfl)) (lang_letter (.inr rfl))))))
  · refine .right (.right ?_)
    rw [show sg ++ (ip ++ fr ++ ex) = (sg ++ ip) ++ (fr ++ ex) by simp]
    refine .seq (lang_int hs h1 h2) (.seq (lang_opt.2 ?_) (lang_opt.2 ?_))
    · rcases h4 with rfl | ⟨d, rfl, hd⟩
      · exact .inr rfl
      · exact .inl (Lang.seq (s := [46]) (lang_one.2 rfl) (lang_star_cls fun c hc => (isdigit_iff c).2 (hd c hc)))
    · rcases h5 with rfl | ⟨e, sg2, d, rfl, he, hs2, hd0, hd⟩
      · exact .inr rfl
      · exact .inl (Lang.seq (s := [e]) (lang_letter (by omega)) (Lang.seq (s := []) (lang_sign.2 (.inl rfl)) (lang_int hs2 hd0 hd)))

theorem lex_float {t rest : List Nat} {ts : List Tok} (h : FloatText t) (hr : Ends rest) (ht : lex rest = some ts) :
    lex (t ++ rest) = some (.float t :: ts) := by
  obtain ⟨c, u, hcu, hh⟩ := JsonLex.float_head h
  have hc : Start c ∧ c ≠ 35 := by rw [start_iff]; unfold Digit at hh; omega
  have key : ∀ d v, t = d :: v → Start d ∧ d ≠ 35 := by
    intro d v e
    rw [hcu] at e; cases e
    exact hc
  refine lex_word (k := 4) (by rw [hcu]; simp) (fun c t e => (key c t e).1) (fun d u hd => absurd rfl (key _ _ hd).2) (fun hd => absurd rfl (key _ _ hd).2)
    ⟨⟨_, rfl, float_lang h⟩, fun j r hj hr' hl => ?_⟩ hr ht
  have h35 : 35 ∉ t := by
    intro hm
    have := JsonLex.float_words h 35 hm
    rw [JsonLex.word_iff] at this
    omega
  have hash : ∀ {a b : List Nat} {q : Re}, t = a ++ b → Lang (.seq (.one 35) q) b → False := by
    intro a b q e hb
    obtain ⟨x, y, e2, h3, _⟩ := lang_seq.1 hb
    rw [lang_one.1 h3] at e2
    exact h35 (by rw [e, e2]; simp)
  have hcases : j = 0 ∨ j = 1 ∨ j = 2 ∨ j = 3 := by omega
  rcases hcases with rfl | rfl | rfl | rfl <;> cases hr'
  · have h1 := lang_over hl over_ws c (by rw [hcu]; simp)
    rw [start_space hc.1] at h1; cases h1
  · obtain ⟨x, hx, hx'⟩ := JsonLex.float_mark h
    exact hx' (lang_over hl over_int x hx)
  · obtain ⟨a, b, e, _, h2⟩ := lang_seq.1 hl
    exact hash e h2
  · obtain ⟨a, b, e, _, h2⟩ := lang_seq.1 hl
    exact hash e h2

/-! ### strings -/

theorem lex_string {b : List Nat} (hb : Lexable b) {rest : List Nat} {ts : List Tok} (h : lex rest = some ts) :
    lex (34 :: (b ++ 34 :: rest)) = some (.string b :: ts) := by
  have hw : 34 :: (b ++ 34 :: rest) = (34 :: (b ++ [34])) ++ rest := by simp
  rw [hw]
  have hcl : ∀ (e : List Nat) (j : Nat) (r : Re), rules[j]? = some r → Lang r (34 :: (b ++ 34 :: e)) → j = 7 := by
    intro e j r hr hl
    obtain ⟨y, z, hyz⟩ := two 34 b 34 e
    rw [hyz] at hl
    rcases class_of hr hl with ⟨_, _, h4, _⟩ | ⟨h4, _⟩ | h4 | h4 | h4 | h4
    · have := (start_iff 34).1 h4; omega
    · cases h4
    all_goals omega
  have := lex_cons (k := 7) (w := 34 :: (b ++ [34])) (by simp) ⟨⟨_, rfl, lang_string.2 ⟨b, rfl, hb⟩⟩, fun j r hj hr hl => ?_⟩ ?_ h
  · rw [this]
    simp [action]
  · have := hcl [] j r hr hl
    omega
  · intro e he _
    refine noMatch_of fun j r hr hl => ?_
    have := hcl e j r hr (by simpa using hl)
    subst this
    cases hr
    obtain ⟨b', h1, h2⟩ := lang_string.1 hl
    have h3 : b ++ 34 :: e = b' ++ 34 :: [] := by simpa using h1
    have h4 := Escape.lexBody_of_lexable b e hb
    rw [h3, Escape.lexBody_of_lexable b' [] h2] at h4
    simp at h4
    exact he h4.2

end Verif.Lemmas.ScmLex
