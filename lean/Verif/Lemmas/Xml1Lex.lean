import Verif.Spec.Xml1
import Verif.Lemmas.Flex
import Verif.Lemmas.Escape
import Verif.Lemmas.Decimal
import Verif.Lemmas.JsonLex
/-!
# The scanner of XML documents
-/
namespace Verif.Lemmas.Xml1Lex
open Verif.Model Verif.Model.Flex Verif.Model.Xml1 Verif.Lemmas.Flex
open Verif.Spec.Xml1 (Name)

/-- what the expressions match -/
theorem star_over {p : Nat → Bool} {w : List Nat} (h : Lang (.star (.cls p)) w) : ∀ c ∈ w, p c = true :=
  lang_over (p := fun c => p c = true) h (by simp [Over])

theorem lang_ws {w : List Nat} (h : Lang (.plus (.cls isspace)) w) : ∀ c ∈ w, isspace c = true :=
  lang_over (p := fun c => isspace c = true) h (by simp [Over, Re.plus])

theorem id_first {c : Nat} {t : List Nat} (h : Lang idRe (c :: t)) : c = 95 ∨ isalpha c = true := by
  obtain ⟨s, t', e, h1, _⟩ := lang_seq.1 h
  obtain ⟨d, rfl, hd⟩ := lang_cls.1 h1
  simp only [List.cons_append, List.nil_append, List.cons.injEq] at e
  simpa [e.1] using hd

theorem id_over {w : List Nat} (h : Lang idRe w) : ∀ c ∈ w, c = 95 ∨ isalnum c = true ∨ c = 58 := by
  refine lang_over (p := fun c => c = 95 ∨ isalnum c = true ∨ c = 58) h ?_
  simp only [idRe, idStart, idNext, Re.opt, Re.one, Over]
  simp only [Bool.or_eq_true, beq_iff_eq, isalnum]
  refine ⟨?_, ?_, ⟨?_, ?_, ?_⟩, ?_⟩ <;> first | trivial | (intro c h; rcases h with h | h <;> simp [h]) | (intro c h; simp [h]) | skip

theorem lang_id {n : List Nat} (h : Name n) : Lang idRe n := by
  obtain ⟨⟨c, hc, hc'⟩, h2⟩ := h
  cases n with
  | nil => simp at hc
  | cons d n =>
    simp only [List.head?_cons, Option.some.injEq] at hc
    subst hc
    have h3 : Lang (.star idNext) n := lang_star_cls fun e he => by
      have := h2 e (List.mem_cons_of_mem _ he)
      simpa [or_comm] using this
    have := Lang.seq (lang_cls.2 ⟨d, rfl, by simpa [or_comm] using hc'⟩ : Lang idStart [d]) (Lang.seq h3 (lang_opt.2 (.inr rfl) : Lang (.opt (.seq (.one 58) (.seq idStart (.star idNext)))) []))
    rw [List.append_nil] at this
    exact this

theorem lang_assign {w : List Nat} (h : Lang (.seq spaces (.seq (.one 61) spaces)) w) :
    ∃ u v, w = u ++ 61 :: v ∧ (∀ c ∈ u, isspace c = true) ∧ ∀ c ∈ v, isspace c = true := by
  obtain ⟨u, v, rfl, h1, h2⟩ := lang_seq.1 h
  obtain ⟨a, b, rfl, h3, h4⟩ := lang_seq.1 h2
  rw [lang_one.1 h3]
  exact ⟨u, b, rfl, star_over h1, star_over h4⟩

theorem lang_prop {w : List Nat} (h : Lang (.seq (.one 34) (.seq (.star (.cls (· != 34))) (.one 34))) w) :
    ∃ v, w = 34 :: (v ++ [34]) ∧ ∀ c ∈ v, c ≠ 34 := by
  obtain ⟨u, v, rfl, h1, h2⟩ := lang_seq.1 h
  obtain ⟨a, b, rfl, h3, h4⟩ := lang_seq.1 h2
  rw [lang_one.1 h1, lang_one.1 h4]
  exact ⟨a, rfl, fun c hc => by simpa using star_over h3 c hc⟩

theorem lang_chars {w : List Nat} (h : Lang chars w) : ∀ c ∈ w, c ≠ 60 := fun c hc => by simpa using star_over h c hc

theorem lang_end1 {a : Nat} {w : List Nat} (h : Lang (.seq spaces (.seq (.one a) chars)) w) :
    ∃ u v, w = u ++ a :: v ∧ (∀ c ∈ u, isspace c = true) ∧ ∀ c ∈ v, c ≠ 60 := by
  obtain ⟨u, v, rfl, h1, h2⟩ := lang_seq.1 h
  obtain ⟨x, y, rfl, h3, h4⟩ := lang_seq.1 h2
  rw [lang_one.1 h3]
  exact ⟨u, y, rfl, star_over h1, lang_chars h4⟩

theorem lang_end2 {a b : Nat} {w : List Nat} (h : Lang (.seq spaces (.seq (.one a) (.seq (.one b) chars))) w) :
    ∃ u v, w = u ++ a :: b :: v ∧ (∀ c ∈ u, isspace c = true) ∧ ∀ c ∈ v, c ≠ 60 := by
  obtain ⟨u, v, rfl, h1, h2⟩ := lang_seq.1 h
  obtain ⟨x, y, rfl, h3, h4⟩ := lang_seq.1 h2
  obtain ⟨x', y', rfl, h5, h6⟩ := lang_seq.1 h4
  rw [lang_one.1 h3, lang_one.1 h5]
  exact ⟨u, y', rfl, star_over h1, lang_chars h6⟩

theorem lang_open {w : List Nat} (h : Lang (.seq (.one 60) idRe) w) : ∃ v, w = 60 :: v ∧ Lang idRe v := by
  obtain ⟨u, v, rfl, h1, h2⟩ := lang_seq.1 h
  rw [lang_one.1 h1]
  exact ⟨v, rfl, h2⟩

theorem lang_close {w : List Nat} (h : Lang (.seq (.one 60) (.seq (.one 47) idRe)) w) : ∃ v, w = 60 :: 47 :: v ∧ Lang idRe v := by
  obtain ⟨u, v, rfl, h1, h2⟩ := lang_seq.1 h
  obtain ⟨a, b, rfl, h3, h4⟩ := lang_seq.1 h2
  rw [lang_one.1 h1, lang_one.1 h3]
  exact ⟨b, rfl, h4⟩

/-- what a match of a rule looks like -/
def Shape (k : Nat) (w : List Nat) : Prop :=
  match k with
  | 0 => ∀ c ∈ w, isspace c = true
  | 1 => (∀ c t, w = c :: t → c = 95 ∨ isalpha c = true) ∧ ∀ c ∈ w, c = 95 ∨ isalnum c = true ∨ c = 58
  | 2 => ∃ u v, w = u ++ 61 :: v ∧ (∀ c ∈ u, isspace c = true) ∧ ∀ c ∈ v, isspace c = true
  | 3 => ∃ v, w = 34 :: (v ++ [34]) ∧ ∀ c ∈ v, c ≠ 34
  | 4 => w = [60, 63, 120, 109, 108]
  | 5 => ∃ u v, w = u ++ 63 :: 62 :: v ∧ (∀ c ∈ u, isspace c = true) ∧ ∀ c ∈ v, c ≠ 60
  | 6 => ∃ v, w = 60 :: v ∧ (∀ c t, v = c :: t → c = 95 ∨ isalpha c = true) ∧ ∀ c ∈ v, c = 95 ∨ isalnum c = true ∨ c = 58
  | 7 => ∃ v, w = 60 :: 47 :: v ∧ ∀ c ∈ v, c = 95 ∨ isalnum c = true ∨ c = 58
  | 8 => ∃ u v, w = u ++ 47 :: 62 :: v ∧ (∀ c ∈ u, isspace c = true) ∧ ∀ c ∈ v, c ≠ 60
  | 9 => ∃ u v, w = u ++ 62 :: v ∧ (∀ c ∈ u, isspace c = true) ∧ ∀ c ∈ v, c ≠ 60
  | _ => ∃ c, w = [c] ∧ c ≠ 10

theorem shape {k : Nat} {r : Re} {w : List Nat} (hk : rules[k]? = some r) (h : Lang r w) : Shape k w := by
  match k with
  | 0 => cases hk; exact lang_ws h
  | 1 => cases hk; exact ⟨fun c t e => by subst e; exact id_first h, id_over h⟩
  | 2 => cases hk; exact lang_assign h
  | 3 => cases hk; exact lang_prop h
  | 4 => cases hk; exact lang_str.1 h
  | 5 => cases hk; exact lang_end2 h
  | 6 =>
    cases hk
    obtain ⟨v, rfl, h'⟩ := lang_open h
    exact ⟨v, rfl, (fun c t e => by subst e; exact id_first h'), id_over h'⟩
  | 7 =>
    cases hk
    obtain ⟨v, rfl, h'⟩ := lang_close h
    exact ⟨v, rfl, id_over h'⟩
  | 8 => cases hk; exact lang_end2 h
  | 9 => cases hk; exact lang_end1 h
  | 10 =>
    cases hk
    obtain ⟨c, rfl, hc⟩ := lang_cls.1 h
    exact ⟨c, rfl, by simpa using hc⟩
  | n + 11 => simp [rules] at hk

/-- a match that begins with a byte that is not white space, by this byte -/
def Shape' (k c : Nat) (t : List Nat) : Prop :=
  match k with
  | 0 => False
  | 1 => (c = 95 ∨ isalpha c = true) ∧ ∀ d ∈ t, d = 95 ∨ isalnum d = true ∨ d = 58
  | 2 => c = 61 ∧ ∀ d ∈ t, isspace d = true
  | 3 => c = 34 ∧ ∃ v, t = v ++ [34] ∧ ∀ d ∈ v, d ≠ 34
  | 4 => c = 60 ∧ t = [63, 120, 109, 108]
  | 5 => c = 63 ∧ ∃ v, t = 62 :: v ∧ ∀ d ∈ v, d ≠ 60
  | 6 => c = 60 ∧ (∀ d u, t = d :: u → d = 95 ∨ isalpha d = true) ∧ ∀ d ∈ t, d = 95 ∨ isalnum d = true ∨ d = 58
  | 7 => c = 60 ∧ ∃ v, t = 47 :: v ∧ ∀ d ∈ v, d = 95 ∨ isalnum d = true ∨ d = 58
  | 8 => c = 47 ∧ ∃ v, t = 62 :: v ∧ ∀ d ∈ v, d ≠ 60
  | 9 => c = 62 ∧ ∀ d ∈ t, d ≠ 60
  | _ => t = []

theorem lead {u t v : List Nat} {c a : Nat} (hc : isspace c = false) (hu : ∀ d ∈ u, isspace d = true) (h : c :: t = u ++ a :: v) : c = a ∧ t = v := by
  cases u with
  | nil => simpa using h
  | cons d u =>
    simp only [List.cons_append, List.cons.injEq] at h
    have := hu d (by simp)
    rw [← h.1, hc] at this
    cases this

theorem shape' {k c : Nat} {r : Re} {t : List Nat} (hc : isspace c = false) (hk : rules[k]? = some r) (h : Lang r (c :: t)) : Shape' k c t := by
  have hs := shape hk h
  match k with
  | 0 =>
    have := hs c (by simp)
    rw [hc] at this; cases this
  | 1 => exact ⟨hs.1 c t rfl, fun d hd => hs.2 d (by simp [hd])⟩
  | 2 =>
    obtain ⟨u, v, e, h1, h2⟩ := hs
    obtain ⟨rfl, rfl⟩ := lead hc h1 e
    exact ⟨rfl, h2⟩
  | 3 =>
    obtain ⟨v, e, h1⟩ := hs
    cases e
    exact ⟨rfl, v, rfl, h1⟩
  | 4 => cases hs; exact ⟨rfl, rfl⟩
  | 5 =>
    obtain ⟨u, v, e, h1, h2⟩ := hs
    obtain ⟨rfl, rfl⟩ := lead hc h1 e
    exact ⟨rfl, v, rfl, h2⟩
  | 6 =>
    obtain ⟨v, e, h1, h2⟩ := hs
    cases e
    exact ⟨rfl, h1, h2⟩
  | 7 =>
    obtain ⟨v, e, h1⟩ := hs
    cases e
    exact ⟨rfl, v, rfl, h1⟩
  | 8 =>
    obtain ⟨u, v, e, h1, h2⟩ := hs
    obtain ⟨rfl, rfl⟩ := lead hc h1 e
    exact ⟨rfl, v, rfl, h2⟩
  | 9 =>
    obtain ⟨u, v, e, h1, h2⟩ := hs
    obtain ⟨rfl, rfl⟩ := lead hc h1 e
    exact ⟨rfl, h2⟩
  | 10 =>
    obtain ⟨d, e, _⟩ := hs
    cases e
    rfl
  | n + 11 => simp [rules] at hk

theorem lex_cons {k : Nat} {w rest : List Nat} {ts : List Tok} (hw : w ≠ []) (hk : FirstMatch rules w k)
    (hmax : ∀ e : List Nat, e ≠ [] → e <+: rest → NoMatch rules (w ++ e)) (h : lex rest = some ts) :
    lex (w ++ rest) = some (action k w :: ts) := by
  unfold lex at h ⊢
  obtain ⟨l, h1, h2⟩ := Option.bind_eq_some_iff.1 h
  cases h2
  exact Option.bind_eq_some_iff.2 ⟨_, scan_step rules k w rest l hw hk hmax h1, rfl⟩

/-- the scanner takes `c :: t` as a match of rule `k`: no earlier rule matches it, none matches more -/
theorem lex_take {k c : Nat} {r : Re} {t rest : List Nat} {ts : List Tok} (hc : isspace c = false) (hk : rules[k]? = some r)
    (hm : Lang r (c :: t)) (hf : ∀ j, j < k → ¬ Shape' j c t)
    (hmax : ∀ (d : Nat) (e : List Nat), d :: e <+: rest → ∀ j < 11, ¬ Shape' j c (t ++ d :: e)) (h : lex rest = some ts) :
    lex (c :: (t ++ rest)) = some (action k (c :: t) :: ts) := by
  refine lex_cons (w := c :: t) (by simp) ⟨⟨r, hk, hm⟩, fun j r' hj hr' hl => hf j hj (shape' hc hr' hl)⟩ ?_ h
  intro e he hp r' hr' hl
  cases e with
  | nil => exact he rfl
  | cons d e =>
    obtain ⟨j, hj⟩ := List.mem_iff_getElem?.1 hr'
    exact hmax d e hp j (by have := (List.getElem?_eq_some_iff.1 hj).1; simpa [rules] using this) (shape' hc hj hl)

theorem cases11 {P : Nat → Prop} (h : ∀ j, j = 0 ∨ j = 1 ∨ j = 2 ∨ j = 3 ∨ j = 4 ∨ j = 5 ∨ j = 6 ∨ j = 7 ∨ j = 8 ∨ j = 9 ∨ j = 10 → P j) :
    ∀ j < 11, P j := fun j hj => h j (by omega)

/-- nothing follows, or a tag -/
def Opens (rest : List Nat) : Prop := rest = [] ∨ ∃ t, rest = 60 :: t

theorem opens_head {rest : List Nat} {d : Nat} {e : List Nat} (h : Opens rest) (hp : d :: e <+: rest) : d = 60 := by
  obtain ⟨t, ht⟩ := hp
  rcases h with rfl | ⟨u, rfl⟩
  · simp at ht
  · simp only [List.cons_append, List.cons.injEq] at ht; exact ht.1

theorem head_of {rest : List Nat} {a d : Nat} {u e : List Nat} (h : rest = a :: u) (hp : d :: e <+: rest) : d = a := by
  obtain ⟨t, ht⟩ := hp
  subst h
  simp only [List.cons_append, List.cons.injEq] at ht
  exact ht.1

theorem afterGt_one (c : List Nat) : afterGt (62 :: c) = c := by simp [afterGt]
theorem afterGt_two {a : Nat} (ha : a ≠ 62) (c : List Nat) : afterGt (a :: 62 :: c) = c := by simp [afterGt, ha]

theorem lex_content {c rest : List Nat} {ts : List Tok} (hc : ∀ d ∈ c, d ≠ 60) (hr : Opens rest) (h : lex rest = some ts) :
    lex (62 :: (c ++ rest)) = some (.content c :: ts) := by
  have := lex_take (k := 9) (c := 62) (t := c) (r := .seq spaces (.seq (.one 62) chars)) rfl rfl
    (by
      have := Lang.seq (Lang.nil : Lang spaces []) (Lang.seq (lang_one.2 rfl : Lang (.one 62) [62]) (lang_star_cls (p := (· != 60)) fun d hd => by simpa using hc d hd))
      exact this)
    (by
      intro j hj hs
      match j with
      | 0 | 1 | 2 | 3 | 4 | 5 | 6 | 7 | 8 => simp [Shape'] at hs <;> exact absurd hs.1 (by decide)
      | n + 9 => omega)
    (by
      intro d e hp
      have hd := opens_head hr hp
      subst hd
      refine cases11 fun j hj => ?_
      rcases hj with rfl | rfl | rfl | rfl | rfl | rfl | rfl | rfl | rfl | rfl | rfl <;> intro hs <;> simp [Shape'] at hs
      · exact absurd hs.1 (by decide)
      · exact hs 60 (by simp) rfl)
    h
  rwa [show action 9 (62 :: c) = .content c by simp [action, afterGt_one]] at this

theorem lex_empty {c rest : List Nat} {ts : List Tok} (hc : ∀ d ∈ c, d ≠ 60) (hr : Opens rest) (h : lex rest = some ts) :
    lex (47 :: 62 :: (c ++ rest)) = some (.closeEmpty c :: ts) := by
  have := lex_take (k := 8) (c := 47) (t := 62 :: c) (r := .seq spaces (.seq (.one 47) (.seq (.one 62) chars))) rfl rfl
    (by
      have := Lang.seq (Lang.nil : Lang spaces []) (Lang.seq (lang_one.2 rfl : Lang (.one 47) [47]) (Lang.seq (lang_one.2 rfl : Lang (.one 62) [62]) (lang_star_cls (p := (· != 60)) fun d hd => by simpa using hc d hd)))
      exact this)
    (by
      intro j hj hs
      match j with
      | 0 | 1 | 2 | 3 | 4 | 5 | 6 | 7 => simp [Shape'] at hs <;> exact absurd hs.1 (by decide)
      | n + 8 => omega)
    (by
      intro d e hp
      have hd := opens_head hr hp
      subst hd
      refine cases11 fun j hj => ?_
      rcases hj with rfl | rfl | rfl | rfl | rfl | rfl | rfl | rfl | rfl | rfl | rfl <;> intro hs <;> simp [Shape'] at hs
      · exact absurd hs.1 (by decide)
      · exact hs 60 (by simp) rfl)
    h
  rwa [show action 8 (47 :: 62 :: c) = .closeEmpty c by simp [action, afterGt_two]] at this

theorem lex_docClose {c rest : List Nat} {ts : List Tok} (hc : ∀ d ∈ c, d ≠ 60) (hr : Opens rest) (h : lex rest = some ts) :
    lex (63 :: 62 :: (c ++ rest)) = some (.docClose :: ts) := by
  have := lex_take (k := 5) (c := 63) (t := 62 :: c) (r := .seq spaces (.seq (.one 63) (.seq (.one 62) chars))) rfl rfl
    (by
      have := Lang.seq (Lang.nil : Lang spaces []) (Lang.seq (lang_one.2 rfl : Lang (.one 63) [63]) (Lang.seq (lang_one.2 rfl : Lang (.one 62) [62]) (lang_star_cls (p := (· != 60)) fun d hd => by simpa using hc d hd)))
      exact this)
    (by
      intro j hj hs
      match j with
      | 0 | 1 | 2 | 3 | 4 => simp [Shape'] at hs <;> exact absurd hs.1 (by decide)
      | n + 5 => omega)
    (by
      intro d e hp
      have hd := opens_head hr hp
      subst hd
      refine cases11 fun j hj => ?_
      rcases hj with rfl | rfl | rfl | rfl | rfl | rfl | rfl | rfl | rfl | rfl | rfl <;> intro hs <;> simp [Shape'] at hs
      · exact absurd hs.1 (by decide)
      · exact hs 60 (by simp) rfl)
    h
  exact this

theorem lex_docOpen {rest : List Nat} {ts : List Tok} (h : lex (32 :: rest) = some ts) :
    lex (60 :: 63 :: 120 :: 109 :: 108 :: 32 :: rest) = some (.docOpen :: ts) := by
  have := lex_take (k := 4) (c := 60) (t := [63, 120, 109, 108]) (r := .str [60, 63, 120, 109, 108]) rfl rfl (lang_str.2 rfl)
    (by
      intro j hj hs
      match j with
      | 0 | 1 | 2 | 3 => simp [Shape'] at hs <;> exact absurd hs.1 (by decide)
      | n + 4 => omega)
    (by
      intro d e hp
      refine cases11 fun j hj => ?_
      rcases hj with rfl | rfl | rfl | rfl | rfl | rfl | rfl | rfl | rfl | rfl | rfl <;> intro hs <;> simp [Shape'] at hs
      · exact absurd hs.1 (by decide)
      · exact absurd hs.1 (by decide))
    h
  exact this

theorem lex_assign {rest : List Nat} {ts : List Tok} (h : lex (34 :: rest) = some ts) :
    lex (61 :: 34 :: rest) = some (.assign :: ts) := by
  have := lex_take (k := 2) (c := 61) (t := []) (r := .seq spaces (.seq (.one 61) spaces)) rfl rfl
    (Lang.seq (Lang.nil : Lang spaces []) (Lang.seq (lang_one.2 rfl : Lang (.one 61) [61]) Lang.nil))
    (by
      intro j hj hs
      match j with
      | 0 | 1 => simp [Shape'] at hs <;> exact absurd hs (by decide)
      | n + 2 => omega)
    (by
      intro d e hp
      have hd := head_of rfl hp
      subst hd
      refine cases11 fun j hj => ?_
      rcases hj with rfl | rfl | rfl | rfl | rfl | rfl | rfl | rfl | rfl | rfl | rfl <;> intro hs <;> simp [Shape'] at hs
      · exact absurd hs.1 (by decide)
      · exact absurd hs.1 (by decide))
    h
  exact this

theorem lex_prop {v rest : List Nat} {ts : List Tok} (hv : ∀ d ∈ v, d ≠ 34) (h : lex rest = some ts) :
    lex (34 :: (v ++ 34 :: rest)) = some (.prop v :: ts) := by
  have := lex_take (k := 3) (c := 34) (t := v ++ [34]) (r := .seq (.one 34) (.seq (.star (.cls (· != 34))) (.one 34))) rfl rfl
    (by
      have := Lang.seq (lang_one.2 rfl : Lang (.one 34) [34]) (Lang.seq (lang_star_cls (p := (· != 34)) fun d hd => by simpa using hv d hd) (lang_one.2 rfl : Lang (.one 34) [34]))
      simpa using this)
    (by
      intro j hj hs
      match j with
      | 0 | 1 | 2 => simp [Shape'] at hs <;> exact absurd hs.1 (by decide)
      | n + 3 => omega)
    (by
      intro d e hp
      refine cases11 fun j hj => ?_
      rcases hj with rfl | rfl | rfl | rfl | rfl | rfl | rfl | rfl | rfl | rfl | rfl <;> intro hs
      · simp [Shape'] at hs
      · exact absurd hs.1 (by decide)
      · exact absurd hs.1 (by decide)
      · obtain ⟨_, u, hu, hu'⟩ := hs
        have e1 : v ++ [34] ++ d :: e = (v ++ 34 :: (d :: e).dropLast) ++ [(d :: e).getLast (by simp)] := by
          have := List.dropLast_concat_getLast (l := d :: e) (by simp)
          simp only [List.append_assoc, List.cons_append, List.nil_append]
          rw [this]
        rw [e1] at hu
        have := (List.append_inj' hu rfl).1
        exact hu' 34 (by rw [← this]; simp) rfl
      · exact absurd hs.1 (by decide)
      · exact absurd hs.1 (by decide)
      · exact absurd hs.1 (by decide)
      · exact absurd hs.1 (by decide)
      · exact absurd hs.1 (by decide)
      · exact absurd hs.1 (by decide)
      · simp [Shape'] at hs)
    h
  rw [show action 3 (34 :: (v ++ [34])) = .prop v by simp [action]] at this
  simpa using this

theorem name_space {c : Nat} (h : isalpha c = true ∨ c = 95) : isspace c = false := by
  rcases h with h | rfl
  · simp only [isalpha, isupper, islower, Bool.or_eq_true, Bool.and_eq_true, decide_eq_true_eq] at h
    simp only [isspace, Bool.or_eq_false_iff, Bool.and_eq_false_iff, beq_eq_false_iff_ne, decide_eq_false_iff_not]
    omega
  · rfl

theorem name_start {c a : Nat} (h : isalpha c = true ∨ c = 95) (ha : (isalpha a || a == 95) = false) : c ≠ a := by
  rintro rfl
  rcases h with h | rfl
  · simp [h] at ha
  · simp at ha

theorem lex_id {n rest : List Nat} {ts : List Tok} (hn : Name n) (h : lex (61 :: rest) = some ts) :
    lex (n ++ 61 :: rest) = some (.id n :: ts) := by
  have hl := lang_id hn
  obtain ⟨⟨c, hc, hc'⟩, h2⟩ := hn
  cases n with
  | nil => simp at hc
  | cons d n =>
    simp only [List.head?_cons, Option.some.injEq] at hc
    subst hc
    have := lex_take (k := 1) (c := d) (t := n) (r := idRe) (name_space hc') rfl hl
      (by
        intro j hj hs
        match j with
        | 0 => exact hs
        | n + 1 => omega)
      (by
        intro a e hp
        have ha := head_of rfl hp
        subst ha
        refine cases11 fun j hj => ?_
        rcases hj with rfl | rfl | rfl | rfl | rfl | rfl | rfl | rfl | rfl | rfl | rfl <;> intro hs
        · exact hs
        · rcases hs.2 61 (by simp) with h | h | h
          · cases h
          · exact absurd h (by decide)
          · cases h
        · exact name_start hc' (by decide) hs.1
        · exact name_start hc' (by decide) hs.1
        · exact name_start hc' (by decide) hs.1
        · exact name_start hc' (by decide) hs.1
        · exact name_start hc' (by decide) hs.1
        · exact name_start hc' (by decide) hs.1
        · exact name_start hc' (by decide) hs.1
        · exact name_start hc' (by decide) hs.1
        · simp [Shape'] at hs)
      h
    exact this

/-- what may follow a name in a tag -/
def Ends (rest : List Nat) : Prop := ∃ a t, rest = a :: t ∧ (a = 32 ∨ a = 47 ∨ a = 62)

theorem ends_id {a : Nat} (h : a = 32 ∨ a = 47 ∨ a = 62) : ¬ (a = 95 ∨ isalnum a = true ∨ a = 58) := by
  rcases h with rfl | rfl | rfl <;> decide

theorem lex_open {n rest : List Nat} {ts : List Tok} (hn : Name n) (hr : Ends rest) (h : lex rest = some ts) :
    lex (60 :: (n ++ rest)) = some (.openTag n :: ts) := by
  obtain ⟨a, u, hu, ha⟩ := hr
  have hl := lang_id hn
  obtain ⟨⟨c, hc, hc'⟩, h2⟩ := hn
  cases n with
  | nil => simp at hc
  | cons d n =>
    simp only [List.head?_cons, Option.some.injEq] at hc
    subst hc
    have := lex_take (k := 6) (c := 60) (t := d :: n) (r := .seq (.one 60) idRe) rfl rfl
      (Lang.seq (lang_one.2 rfl : Lang (.one 60) [60]) hl)
      (by
        intro j hj hs
        match j with
        | 0 => exact hs
        | 1 => exact absurd hs.1 (by decide)
        | 2 => exact absurd hs.1 (by decide)
        | 3 => exact absurd hs.1 (by decide)
        | 4 =>
          have := hs.2
          simp only [List.cons.injEq] at this
          exact name_start hc' (by decide) this.1
        | 5 => exact absurd hs.1 (by decide)
        | n + 6 => omega)
      (by
        intro b e hp
        have hb := head_of hu hp
        subst hb
        refine cases11 fun j hj => ?_
        rcases hj with rfl | rfl | rfl | rfl | rfl | rfl | rfl | rfl | rfl | rfl | rfl <;> intro hs
        · exact hs
        · exact absurd hs.1 (by decide)
        · exact absurd hs.1 (by decide)
        · exact absurd hs.1 (by decide)
        · have := hs.2
          simp only [List.cons_append, List.cons.injEq] at this
          exact name_start hc' (by decide) this.1
        · exact absurd hs.1 (by decide)
        · exact ends_id ha (hs.2.2 b (by simp))
        · obtain ⟨_, v, hv, _⟩ := hs
          simp only [List.cons_append, List.cons.injEq] at hv
          exact name_start hc' (by decide) hv.1
        · exact absurd hs.1 (by decide)
        · exact absurd hs.1 (by decide)
        · simp [Shape'] at hs)
      h
    simpa [action] using this

theorem lex_close {n rest : List Nat} {ts : List Tok} (hn : Name n) (h : lex (62 :: rest) = some ts) :
    lex (60 :: 47 :: (n ++ 62 :: rest)) = some (.closeTag n :: ts) := by
  have hl := lang_id hn
  have := lex_take (k := 7) (c := 60) (t := 47 :: n) (r := .seq (.one 60) (.seq (.one 47) idRe)) rfl rfl
    (Lang.seq (lang_one.2 rfl : Lang (.one 60) [60]) (Lang.seq (lang_one.2 rfl : Lang (.one 47) [47]) hl))
    (by
      intro j hj hs
      match j with
      | 0 => exact hs
      | 1 => exact absurd hs.1 (by decide)
      | 2 => exact absurd hs.1 (by decide)
      | 3 => exact absurd hs.1 (by decide)
      | 4 => simp [Shape'] at hs
      | 5 => exact absurd hs.1 (by decide)
      | 6 => exact absurd (hs.2.1 _ _ rfl) (by decide)
      | n + 7 => omega)
    (by
      intro b e hp
      have hb := head_of rfl hp
      subst hb
      refine cases11 fun j hj => ?_
      rcases hj with rfl | rfl | rfl | rfl | rfl | rfl | rfl | rfl | rfl | rfl | rfl <;> intro hs
      · exact hs
      · exact absurd hs.1 (by decide)
      · exact absurd hs.1 (by decide)
      · exact absurd hs.1 (by decide)
      · simp [Shape'] at hs
      · exact absurd hs.1 (by decide)
      · exact absurd (hs.2.1 _ _ rfl) (by decide)
      · obtain ⟨_, v, hv, hv'⟩ := hs
        simp only [List.cons_append, List.cons.injEq, true_and] at hv
        exact ends_id (.inr (.inr rfl)) (hv' 62 (by rw [← hv]; simp))
      · exact absurd hs.1 (by decide)
      · exact absurd hs.1 (by decide)
      · simp [Shape'] at hs)
    h
  simpa [action] using this

/-- a blank before a name -/
theorem lex_ws {n rest : List Nat} {ts : List Tok} (hn : Name n) (h : lex (n ++ rest) = some ts) :
    lex (32 :: (n ++ rest)) = some (.ws :: ts) := by
  obtain ⟨⟨c, hc, hc'⟩, h2⟩ := hn
  cases n with
  | nil => simp at hc
  | cons d n =>
    simp only [List.head?_cons, Option.some.injEq] at hc
    subst hc
    refine lex_cons (k := 0) (w := [32]) (by simp) ⟨⟨_, rfl, lang_plus_cls (by simp) (by simp; rfl)⟩, fun j r hj => by omega⟩ ?_ h
    intro e he hp r hr hl
    cases e with
    | nil => exact he rfl
    | cons a e =>
      have ha : a = d := head_of rfl hp
      subst ha
      obtain ⟨j, hj⟩ := List.mem_iff_getElem?.1 hr
      have hj11 : j < 11 := by have := (List.getElem?_eq_some_iff.1 hj).1; simpa [rules] using this
      have hs := shape hj hl
      have hsp := name_space hc'
      -- white space before another byte
      have key : ∀ (b : Nat) (u v : List Nat), [32] ++ a :: e = u ++ b :: v → (∀ c ∈ u, isspace c = true) → b ≠ 32 → a = b := by
        intro b u v h1 h2 h3
        cases u with
        | nil =>
          simp only [List.cons_append, List.nil_append, List.cons.injEq] at h1
          exact absurd h1.1.symm h3
        | cons x u =>
          simp only [List.cons_append, List.nil_append, List.cons.injEq] at h1
          cases u with
          | nil =>
            simp only [List.nil_append, List.cons.injEq] at h1
            exact h1.2.1
          | cons y u =>
            simp only [List.cons_append, List.cons.injEq] at h1
            have := h2 y (by simp)
            rw [← h1.2.1, hsp] at this
            cases this
      have hj' : j = 0 ∨ j = 1 ∨ j = 2 ∨ j = 3 ∨ j = 4 ∨ j = 5 ∨ j = 6 ∨ j = 7 ∨ j = 8 ∨ j = 9 ∨ j = 10 := by omega
      rcases hj' with rfl | rfl | rfl | rfl | rfl | rfl | rfl | rfl | rfl | rfl | rfl
      · have := hs a (by simp)
        rw [hsp] at this; cases this
      · have := hs.1 32 (a :: e) rfl
        exact absurd this (by decide)
      · obtain ⟨u, v, e1, e2, _⟩ := hs
        exact name_start hc' (by decide) (key 61 u v e1 e2 (by decide))
      · obtain ⟨v, e1, _⟩ := hs
        simp at e1
      · simp [Shape] at hs
      · obtain ⟨u, v, e1, e2, _⟩ := hs
        exact name_start hc' (by decide) (key 63 u _ e1 e2 (by decide))
      · obtain ⟨v, e1, _⟩ := hs
        simp at e1
      · obtain ⟨v, e1, _⟩ := hs
        simp at e1
      · obtain ⟨u, v, e1, e2, _⟩ := hs
        exact name_start hc' (by decide) (key 47 u _ e1 e2 (by decide))
      · obtain ⟨u, v, e1, e2, _⟩ := hs
        exact name_start hc' (by decide) (key 62 u _ e1 e2 (by decide))
      · obtain ⟨c, e1, _⟩ := hs
        simp at e1

/-- an attribute -/
theorem lex_attr {n v rest : List Nat} {ts : List Tok} (hn : Name n) (hv : ∀ d ∈ v, d ≠ 34) (h : lex rest = some ts) :
    lex (attr n v ++ rest) = some (.ws :: .id n :: .assign :: .prop v :: ts) := by
  have h1 := lex_ws hn (lex_id hn (lex_assign (lex_prop hv h)))
  simpa [attr] using h1

end Verif.Lemmas.Xml1Lex
