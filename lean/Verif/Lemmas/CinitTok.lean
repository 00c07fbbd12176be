import Verif.Lemmas.CinitLex
import Verif.Lemmas.CinitLoad
/-!
# Strings, characters, casts, attributes and values in C initializers
-/
namespace Verif.Lemmas.CinitTok
open Verif.Model Verif.Model.Flex Verif.Model.Cinit Verif.Lemmas.Flex
open Verif.Spec Verif.Spec.Cinit Verif.Lemmas.CinitLex
open Verif.Spec.Json (Digit)
open Verif.Spec.Xml1 (Name)
open Verif.Model.Json (stringRe)
open Verif.Model.Xml1 (idStart idNext spaces sRef sContent sIdx)
open Verif.Lemmas.JsonLex (space_iff lang_string isdigit_iff)
open Verif.Lemmas.Escape (Lexable lexBody_of_lexable lexBody_lit lexBody_esc lexBody_nil_quote)

variable {K : Value.Floats}

theorem two_more {c x : Nat} (b : List Nat) (e : List Nat) : ∃ y z, (c :: (b ++ [x])) ++ e = c :: y :: z := by
  cases b with
  | nil => exact ⟨x, e, rfl⟩
  | cons y b => exact ⟨y, b ++ [x] ++ e, rfl⟩

/-! ### strings -/

theorem lex_string {b : List Nat} (hb : Lexable b) {rest : List Nat} {ts : List (Tok K)} (h : lex K rest = some ts) :
    lex K (34 :: (b ++ 34 :: rest)) = some (.string b :: ts) := by
  have hw : 34 :: (b ++ 34 :: rest) = (34 :: (b ++ [34])) ++ rest := by simp
  rw [hw]
  have := lex_cons (K := K) (k := 11) (w := 34 :: (b ++ [34])) (rest := rest) ⟨by simp, ⟨⟨_, rfl, lang_string.2 ⟨b, rfl, hb⟩⟩, fun j r hj hr hl => ?_⟩, ?_⟩ (by decide) h
  · rw [this]
    simp only [action, List.take_left]
    simp
  · rcases early hj hr hl (by decide) with h | ⟨h, _⟩
    · exact absurd h (by decide)
    · omega
  · intro e he _
    obtain ⟨x, y, hxy⟩ := two_more (c := 34) (x := 34) b e
    rw [hxy]
    refine noMatch_long (not_spaces (by decide)) (fun r hr hl => ?_) (fun hl => ?_) (fun hl => ?_) (fun hl => ?_) (fun hl => ?_) (by omega)
    · rcases word_first hr hl with h | ⟨h, _⟩
      · exact absurd h (by decide)
      · omega
    · rw [← hxy] at hl
      obtain ⟨b', h1, h2⟩ := lang_string.1 hl
      have h3 : b ++ 34 :: e = b' ++ 34 :: [] := by simpa using h1
      have h4 := lexBody_of_lexable b e hb
      rw [h3, lexBody_of_lexable b' [] h2] at h4
      simp at h4
      exact he h4.2
    · have := lang_char_first hl; omega
    · have := lang_cast_first hl; omega
    · have := lang_ivalue_first hl; omega

/-! ### characters -/

/-- the text between the quotes of a character -/
inductive Body39 : List Nat → Prop
  | nil : Body39 []
  | lit (c : Nat) (b : List Nat) : c ≠ 39 → c ≠ 92 → Body39 b → Body39 (c :: b)
  | esc (d : Nat) (b : List Nat) : d ≠ 10 → Body39 b → Body39 (92 :: d :: b)

theorem body39_lex {b : List Nat} (h : Body39 b) (rest : List Nat) : Escape.lexBody 39 (b ++ 39 :: rest) = some (b, rest) := by
  induction h with
  | nil => exact lexBody_nil_quote 39 rest
  | lit c b h1 h2 _ ih => rw [List.cons_append, lexBody_lit 39 c _ h1 h2, ih]; rfl
  | esc d b h1 _ ih =>
    rw [List.cons_append, List.cons_append, lexBody_esc 39 d _ (by decide) h1, ih]; rfl

theorem body39_lang {b : List Nat} (h : Body39 b) : Lang (.star (.alt (.cls fun c => c != 39 && c != 92) (.seq (.one 92) .dot))) b := by
  induction h with
  | nil => exact .nil
  | lit c b h1 h2 _ ih => exact Lang.more (s := [c]) (.left (.cls (by simp [h1, h2]))) ih
  | esc d b h1 _ ih => exact Lang.more (s := [92, d]) (.right (Lang.seq (s := [92]) (lang_one.2 rfl) (.cls (by simp [h1])))) ih

theorem lang_body39 {r : Re} {w : List Nat} (h : Lang r w) : r = .star (.alt (.cls fun c => c != 39 && c != 92) (.seq (.one 92) .dot)) → Body39 w := by
  induction h with
  | nil => intro _; exact .nil
  | @more a s t h1 h2 _ ih2 =>
    intro hr
    cases hr
    rcases lang_alt.1 h1 with h1 | h1
    · obtain ⟨c, rfl, hc⟩ := lang_cls.1 h1
      simp only [Bool.and_eq_true, bne_iff_ne] at hc
      exact .lit c t hc.1 hc.2 (ih2 rfl)
    · obtain ⟨x, y, rfl, hx, hy⟩ := lang_seq.1 h1
      obtain ⟨c, rfl, hc⟩ := lang_cls.1 hy
      rw [lang_one.1 hx]
      exact .esc c t (by simpa using hc) (ih2 rfl)
  | _ => intro hr; cases hr

theorem lang_char {w : List Nat} : Lang charRe w ↔ ∃ b, w = 39 :: (b ++ [39]) ∧ Body39 b := by
  unfold charRe
  rw [lang_seq]
  constructor
  · rintro ⟨s, t, rfl, h1, h2⟩
    obtain ⟨b, q, rfl, h3, h4⟩ := lang_seq.1 h2
    rw [lang_one.1 h1, lang_one.1 h4]
    exact ⟨b, rfl, lang_body39 h3 rfl⟩
  · rintro ⟨b, rfl, hb⟩
    exact ⟨[39], b ++ [39], rfl, lang_one.2 rfl, .seq (body39_lang hb) (lang_one.2 rfl)⟩

theorem lex_char {b : List Nat} (hb : Body39 b) {rest : List Nat} {ts : List (Tok K)} (h : lex K rest = some ts) :
    lex K (39 :: (b ++ 39 :: rest)) = some (.char b :: ts) := by
  have hw : 39 :: (b ++ 39 :: rest) = (39 :: (b ++ [39])) ++ rest := by simp
  rw [hw]
  have := lex_cons (K := K) (k := 12) (w := 39 :: (b ++ [39])) (rest := rest) ⟨by simp, ⟨⟨_, rfl, lang_char.2 ⟨b, rfl, hb⟩⟩, fun j r hj hr hl => ?_⟩, ?_⟩ (by decide) h
  · rw [this]
    simp only [action, List.take_left]
    simp
  · by_cases h11 : j = 11
    · subst h11
      cases hr
      have := lang_string_first hl
      omega
    · rcases early (by omega) hr hl (by decide) with h | ⟨h, _⟩
      · exact absurd h (by decide)
      · omega
  · intro e he _
    obtain ⟨x, y, hxy⟩ := two_more (c := 39) (x := 39) b e
    rw [hxy]
    refine noMatch_long (not_spaces (by decide)) (fun r hr hl => ?_) (fun hl => ?_) (fun hl => ?_) (fun hl => ?_) (fun hl => ?_) (by omega)
    · rcases word_first hr hl with h | ⟨h, _⟩
      · exact absurd h (by decide)
      · omega
    · have := lang_string_first hl; omega
    · rw [← hxy] at hl
      obtain ⟨b', h1, h2⟩ := lang_char.1 hl
      have h3 : b ++ 39 :: e = b' ++ 39 :: [] := by simpa using h1
      have h4 := body39_lex hb e
      rw [h3, body39_lex h2 []] at h4
      simp at h4
      exact he h4.2
    · have := lang_cast_first hl; omega
    · have := lang_ivalue_first hl; omega

/-- what is between the quotes of a character -/
def charBody (c : Nat) : List Nat :=
  let mapped := if c = 39 then c else Escape.escMap c
  if mapped ≠ 0 then [92, mapped] else if isprint c then [c] else Escape.cinitPattern c

theorem charText_eq (c : Nat) : charText c = 39 :: (charBody c ++ [39]) := rfl

def body39B : List Nat → Bool
  | [] => true
  | [c] => c != 39 && c != 92
  | c :: d :: b => if c = 92 then d != 10 && body39B b else c != 39 && body39B (d :: b)

theorem body39_of : ∀ b, body39B b = true → Body39 b
  | [], _ => .nil
  | [c], h => by
    simp only [body39B, Bool.and_eq_true, bne_iff_ne] at h
    exact .lit c [] h.1 h.2 .nil
  | c :: d :: b, h => by
    rw [body39B] at h
    by_cases hc : c = 92
    · subst hc
      simp only [if_true, Bool.and_eq_true, bne_iff_ne] at h
      exact .esc d b h.1 (body39_of b h.2)
    · simp only [hc, if_false, Bool.and_eq_true, bne_iff_ne] at h
      exact .lit c _ h.1 hc (body39_of (d :: b) h.2)

theorem char_table : ∀ c < 256, body39B (charBody c) = true ∧ charValue (charBody c) = some c := by decide +kernel

/-! ### casts -/

theorem cast_shape {w : List Nat} (h : Lang castRe w) : ∃ u, w = 40 :: (u ++ [41]) ∧ ∀ c ∈ u, c ≠ 41 := by
  have sp : ∀ {w : List Nat}, Lang spaces w → ∀ c ∈ w, c ≠ 41 := by
    intro w h c hc e
    have := Xml1Lex.star_over h c hc
    rw [e] at this; cases this
  have idh : ∀ {w : List Nat}, Lang idRe w → ∀ c ∈ w, c ≠ 41 := by
    intro w h c hc
    have := lang_over (p := fun c => c ≠ 41) h (by
      simp only [idRe, idStart, idNext, Over, Bool.or_eq_true, beq_iff_eq, isalpha, isalnum, isupper, islower, isdigit, Bool.and_eq_true, decide_eq_true_eq]
      constructor <;> (intro c h; omega)) c hc
    exact this
  obtain ⟨a, t1, rfl, h1, g1⟩ := lang_seq.1 h
  obtain ⟨b, t2, rfl, h2, g2⟩ := lang_seq.1 g1
  obtain ⟨c, t3, rfl, h3, g3⟩ := lang_seq.1 g2
  obtain ⟨d, t4, rfl, h4, g4⟩ := lang_seq.1 g3
  obtain ⟨e, t5, rfl, h5, g5⟩ := lang_seq.1 g4
  obtain ⟨f, t6, rfl, h6, g6⟩ := lang_seq.1 g5
  obtain ⟨g, t7, rfl, h7, g7⟩ := lang_seq.1 g6
  obtain ⟨i, t8, rfl, h8, g8⟩ := lang_seq.1 g7
  obtain ⟨j, t9, rfl, h9, g9⟩ := lang_seq.1 g8
  rw [lang_one.1 h1, lang_one.1 g9]
  refine ⟨b ++ (c ++ (d ++ (e ++ (f ++ (g ++ (i ++ j)))))), by simp, ?_⟩
  have hc' : ∀ x ∈ c, x ≠ 41 := fun x hx => lang_over (p := fun c => c ≠ 41) h3 (by
      simp only [idRe, idStart, idNext, spaces, Over, Bool.or_eq_true, beq_iff_eq, isalpha, isalnum, isupper, islower, isdigit, isspace, Bool.and_eq_true, decide_eq_true_eq]
      exact ⟨⟨by intro c h; omega, by intro c h; omega⟩, by intro c h; omega⟩) x hx
  have hf' : ∀ x ∈ f, x ≠ 41 := by
    rcases lang_opt.1 h6 with h6 | rfl
    · rw [lang_one.1 h6]; simp
    · simp
  have hi' : ∀ x ∈ i, x ≠ 41 := by
    rcases lang_opt.1 h8 with h8 | rfl
    · obtain ⟨p, q, rfl, k1, k2⟩ := lang_seq.1 h8
      obtain ⟨r, s, rfl, k3, k4⟩ := lang_seq.1 k2
      rw [lang_one.1 k1, lang_one.1 k4]
      intro x hx
      simp only [List.mem_append, List.mem_cons, List.not_mem_nil, or_false] at hx
      rcases hx with rfl | hx | rfl
      · omega
      · exact sp k3 x hx
      · omega
    · simp
  intro x hx
  simp only [List.mem_append] at hx
  rcases hx with hx | hx | hx | hx | hx | hx | hx | hx
  · exact sp h2 x hx
  · exact hc' x hx
  · exact idh h4 x hx
  · exact sp h5 x hx
  · exact hf' x hx
  · exact sp h7 x hx
  · exact hi' x hx
  · exact sp h9 x hx

/-- the text between the parentheses of a cast -/
def castBody (t : List Nat) (ptr : Bool) : List Nat := t ++ ((if ptr then [42] else []) ++ [91, 93])

theorem lang_type {t : List Nat} (h : TypeName t) : ∃ a b, t = a ++ b ∧ Lang (.star (.seq idRe spaces)) a ∧ Lang idRe b := by
  induction h with
  | one n hn => exact ⟨[], n, rfl, .nil, lang_id hn⟩
  | more n t hn _ ih =>
    obtain ⟨a, b, rfl, h1, h2⟩ := ih
    refine ⟨(n ++ [32]) ++ a, b, by simp, .more (.seq (lang_id hn) (lang_star_cls (by simp [isspace]))) h1, h2⟩

theorem lang_cast {t : List Nat} (h : TypeName t) (ptr : Bool) : Lang castRe (40 :: (castBody t ptr ++ [41])) := by
  obtain ⟨a, b, rfl, h1, h2⟩ := lang_type h
  have hsp : Lang spaces [] := .nil
  have := Lang.seq (lang_one.2 rfl : Lang (.one 40) [40]) (.seq hsp (.seq h1 (.seq h2 (.seq hsp (.seq (s := if ptr then [42] else []) (a := .opt (.one 42)) ?_ (.seq hsp
    (.seq (s := [91, 93]) (a := .opt (.seq (.one 91) (.seq spaces (.one 93)))) ?_ (.seq hsp (lang_one.2 rfl : Lang (.one 41) [41])))))))))
  · have e : [40] ++ ([] ++ (a ++ (b ++ ([] ++ ((if ptr then [42] else []) ++ ([] ++ ([91, 93] ++ ([] ++ [41])))))))) = 40 :: (castBody (a ++ b) ptr ++ [41]) := by
      simp [castBody]
    rw [e] at this
    exact this
  · cases ptr
    · exact lang_opt.2 (.inr rfl)
    · exact lang_opt.2 (.inl (lang_one.2 rfl))
  · exact lang_opt.2 (.inl (Lang.seq (s := [91]) (lang_one.2 rfl) (Lang.seq hsp (lang_one.2 rfl : Lang (.one 93) [93]))))

/-- the bytes of names of types, and its last one -/
theorem type_chars {t : List Nat} (h : TypeName t) : (∀ c ∈ t, isalnum c = true ∨ c = 95 ∨ c = 32) ∧ (∃ c u, t = c :: u ∧ (isalpha c = true ∨ c = 95)) ∧
    ∃ u c, t = u ++ [c] ∧ (isalnum c = true ∨ c = 95) := by
  have hname : ∀ {n : List Nat}, Name n → (∀ c ∈ n, isalnum c = true ∨ c = 95 ∨ c = 32) ∧ (∃ c u, n = c :: u ∧ (isalpha c = true ∨ c = 95)) ∧
      ∃ u c, n = u ++ [c] ∧ (isalnum c = true ∨ c = 95) := by
    intro n hn
    have h1 : ∀ c ∈ n, isalnum c = true ∨ c = 95 ∨ c = 32 := fun c hc => by
      rcases hn.2 c hc with h | h
      · exact .inl h
      · exact .inr (.inl h)
    obtain ⟨c, u, e, hc⟩ := name_head hn
    refine ⟨h1, ⟨c, u, e, hc⟩, n.dropLast, n.getLast (by rw [e]; simp), (List.dropLast_concat_getLast _).symm, ?_⟩
    exact hn.2 _ (List.getLast_mem _)
  induction h with
  | one n hn => exact hname hn
  | more n t hn _ ih =>
    obtain ⟨a1, ⟨c, u, e, hc⟩, _⟩ := hname hn
    obtain ⟨b1, _, ⟨v, d, e', hd⟩⟩ := ih
    refine ⟨fun x hx => ?_, ⟨c, u ++ 32 :: t, by rw [e]; rfl, hc⟩, ⟨n ++ 32 :: v, d, by rw [e']; simp, hd⟩⟩
    simp only [List.mem_append, List.mem_cons] at hx
    rcases hx with hx | rfl | hx
    · exact a1 x hx
    · exact .inr (.inr rfl)
    · exact b1 x hx

theorem dropWhile_all {p : Nat → Bool} : ∀ (l r : List Nat), (∀ c ∈ l, p c = true) → (l ++ r).dropWhile p = r.dropWhile p
  | [], _, _ => rfl
  | c :: l, r, h => by
    rw [List.cons_append, List.dropWhile_cons, if_pos (h c (by simp))]
    exact dropWhile_all l r fun d hd => h d (by simp [hd])

theorem takeWhile_all {p : Nat → Bool} : ∀ (l : List Nat) (x : Nat) (r : List Nat), (∀ c ∈ l, p c = true) → p x = false → (l ++ x :: r).takeWhile p = l
  | [], x, r, _, hx => by simp [hx]
  | c :: l, x, r, h, hx => by
    rw [List.cons_append, List.takeWhile_cons, if_pos (h c (by simp)), takeWhile_all l x r (fun d hd => h d (by simp [hd])) hx]

theorem getType_eq {t : List Nat} (h : TypeName t) (ptr : Bool) : getType (castBody t ptr ++ [41]) = t := by
  obtain ⟨h1, ⟨c, u, e, hc⟩, v, d, e', hd⟩ := type_chars h
  have hsp : isspace c = false := Xml1Lex.name_space hc
  have hdrop : (castBody t ptr ++ [41]).dropWhile isspace = castBody t ptr ++ [41] := by
    rw [e]
    simp [castBody, hsp]
  have h41 : ∀ x ∈ castBody t ptr, x ≠ 41 := by
    intro x hx
    simp only [castBody, List.mem_append] at hx
    rcases hx with hx | hx | hx
    · rcases h1 x hx with h | h | h
      · intro e; subst e; simp [isalnum, isalpha, isupper, islower, isdigit] at h
      · omega
      · omega
    · cases ptr <;> simp at hx
      omega
    · simp at hx; omega
  have htake : (castBody t ptr ++ [41]).takeWhile (· ≠ 41) = castBody t ptr :=
    takeWhile_all _ 41 [] (fun x hx => by simpa using h41 x hx) (by simp)
  unfold getType
  simp only
  rw [hdrop, htake]
  have hd' : (isspace d || d == 91 || d == 93 || d == 42) = false := by
    have : ¬ isspace d = true := by
      intro hs
      rw [space_iff] at hs
      rcases hd with h | h
      · simp only [isalnum, isalpha, isupper, islower, isdigit, Bool.or_eq_true, Bool.and_eq_true, decide_eq_true_eq] at h; omega
      · omega
    have h2 : d ≠ 91 ∧ d ≠ 93 ∧ d ≠ 42 := by
      rcases hd with h | h
      · simp only [isalnum, isalpha, isupper, islower, isdigit, Bool.or_eq_true, Bool.and_eq_true, decide_eq_true_eq] at h; omega
      · omega
    simp [this, h2]
  have hsuf : ∀ x ∈ ((if ptr then [42] else []) ++ [91, 93] : List Nat).reverse, (isspace x || x == 91 || x == 93 || x == 42) = true := by
    cases ptr <;> decide
  have hcast : castBody t ptr = c :: (u ++ ((if ptr then [42] else []) ++ [91, 93])) := by
    unfold castBody; rw [e]; rfl
  rw [hcast]
  simp only [List.take_succ_cons, List.take_zero, List.drop_succ_cons, List.drop_zero]
  rw [List.reverse_append, dropWhile_all _ _ hsuf, e]
  cases u with
  | nil => rfl
  | cons x u =>
    have hlast : ∃ w, x :: u = w ++ [d] := by
      rw [e] at e'
      cases v with
      | nil => simp at e'
      | cons y v =>
        simp only [List.cons_append, List.cons.injEq] at e'
        exact ⟨v, e'.2⟩
    obtain ⟨w, hw⟩ := hlast
    rw [hw, List.reverse_append]
    simp [hd']

theorem lex_cast {t : List Nat} (ht : TypeName t) (ptr : Bool) {rest : List Nat} {ts : List (Tok K)} (h : lex K rest = some ts) :
    lex K (40 :: (castBody t ptr ++ 41 :: rest)) = some (.cast t :: ts) := by
  have hw : 40 :: (castBody t ptr ++ 41 :: rest) = (40 :: (castBody t ptr ++ [41])) ++ rest := by simp
  rw [hw]
  have := lex_cons (K := K) (k := 13) (w := 40 :: (castBody t ptr ++ [41])) (rest := rest) ⟨by simp, ⟨⟨_, rfl, lang_cast ht ptr⟩, fun j r hj hr hl => ?_⟩, ?_⟩ (by decide) h
  · rw [this]
    have e : (List.take (40 :: (castBody t ptr ++ [41])).length (40 :: (castBody t ptr ++ [41]) ++ rest)).drop 1 = castBody t ptr ++ [41] := by
      rw [List.take_left]; rfl
    simp only [action]
    rw [e, getType_eq ht]
    rfl
  · by_cases h11 : j = 11
    · subst h11
      cases hr
      have := lang_string_first hl
      omega
    · by_cases h12 : j = 12
      · subst h12
        cases hr
        have := lang_char_first hl
        omega
      · rcases early (by omega) hr hl (by decide) with h | ⟨h, _⟩
        · exact absurd h (by decide)
        · omega
  · intro e he _
    obtain ⟨x, y, hxy⟩ := two_more (c := 40) (x := 41) (castBody t ptr) e
    rw [hxy]
    refine noMatch_long (not_spaces (by decide)) (fun r hr hl => ?_) (fun hl => ?_) (fun hl => ?_) (fun hl => ?_) (fun hl => ?_) (by omega)
    · rcases word_first hr hl with h | ⟨h, _⟩
      · exact absurd h (by decide)
      · omega
    · have := lang_string_first hl; omega
    · have := lang_char_first hl; omega
    · rw [← hxy] at hl
      obtain ⟨v, h1, h2⟩ := cast_shape hl
      have h3 : castBody t ptr ++ 41 :: e = v ++ [41] := by simpa using h1
      rcases List.append_eq_append_iff.1 h3 with ⟨a, ha, hb⟩ | ⟨a, ha, hb⟩
      · cases a with
        | nil => simp at hb; exact he hb
        | cons z a =>
          simp only [List.cons_append, List.cons.injEq] at hb
          exact h2 41 (by rw [ha, ← hb.1]; simp) rfl
      · cases a with
        | nil => simp at hb; exact he hb
        | cons z a =>
          have := congrArg List.length hb
          simp at this
    · have := lang_ivalue_first hl; omega

/-! ### attributes -/

theorem ivalue_shape {w : List Nat} (h : Lang ivalueRe w) : ∃ u, w = 47 :: 42 :: (u ++ [42, 47]) ∧ ∀ c ∈ u, c ≠ 42 := by
  have sp : ∀ {w : List Nat}, Lang spaces w → ∀ c ∈ w, c ≠ 42 := by
    intro w h c hc e
    have := Xml1Lex.star_over h c hc
    rw [e] at this; cases this
  have idh : ∀ {w : List Nat}, Lang idRe w → ∀ c ∈ w, c ≠ 42 := by
    intro w h c hc
    have := lang_over (p := fun c => c ≠ 42) h (by
      simp only [idRe, idStart, idNext, Over, Bool.or_eq_true, beq_iff_eq, isalpha, isalnum, isupper, islower, isdigit, Bool.and_eq_true, decide_eq_true_eq]
      constructor <;> (intro c h; omega)) c hc
    exact this
  obtain ⟨a, t1, rfl, h1, g1⟩ := lang_seq.1 h
  obtain ⟨b, t2, rfl, h2, g2⟩ := lang_seq.1 g1
  obtain ⟨c, t3, rfl, h3, g3⟩ := lang_seq.1 g2
  obtain ⟨d, t4, rfl, h4, g4⟩ := lang_seq.1 g3
  obtain ⟨e, t5, rfl, h5, g5⟩ := lang_seq.1 g4
  obtain ⟨f, t6, rfl, h6, g6⟩ := lang_seq.1 g5
  obtain ⟨g, t7, rfl, h7, g7⟩ := lang_seq.1 g6
  obtain ⟨i, t8, rfl, h8, g8⟩ := lang_seq.1 g7
  rw [lang_str.1 h1, lang_str.1 g8, lang_one.1 h5]
  refine ⟨b ++ (c ++ (d ++ ([61] ++ (f ++ (g ++ i))))), by simp, ?_⟩
  have hg' : ∀ x ∈ g, x ≠ 42 := fun x hx => lang_over (p := fun c => c ≠ 42) h7 (by
    simp only [Re.plus, Json.digit, Over, isdigit, Bool.and_eq_true, decide_eq_true_eq]
    exact ⟨by intro c h; omega, by intro c h; omega⟩) x hx
  intro x hx
  simp only [List.mem_append, List.mem_cons, List.not_mem_nil, or_false] at hx
  rcases hx with hx | hx | hx | hx | hx | hx | hx
  · exact sp h2 x hx
  · exact idh h3 x hx
  · exact sp h4 x hx
  · omega
  · exact sp h6 x hx
  · exact hg' x hx
  · exact sp h8 x hx

/-- an attribute without the blank after it -/
def ivalueText (name : List Nat) (n : Nat) : List Nat := 47 :: 42 :: ((32 :: (name ++ 32 :: 61 :: 32 :: (Xml1.number n ++ [32]))) ++ [42, 47])

theorem attr_eq (name : List Nat) (n : Nat) : attr name n = ivalueText name n ++ [32] := by
  simp [attr, ivalueText]

theorem lang_ivalue {name : List Nat} (hn : Name name) {n : Nat} (h : n < 2 ^ 32) : Lang ivalueRe (ivalueText name n) := by
  have sp : Lang spaces [32] := lang_star_cls (by simp [isspace])
  have hd : Lang (.plus Json.digit) (Xml1.number n) := by
    rw [Xml1Load.number_eq h]
    refine lang_plus_cls (by simpa using (Decimal.natDigits_spec n).2.2.1) fun c hc => (isdigit_iff c).2 (JsonLex.digits_digit n c hc)
  have := Lang.seq (lang_str.2 rfl : Lang (.str [47, 42]) [47, 42]) (.seq sp (.seq (lang_id hn) (.seq sp (.seq (lang_one.2 rfl : Lang (.one 61) [61]) (.seq sp (.seq hd (.seq sp
    (lang_str.2 rfl : Lang (.str [42, 47]) [42, 47]))))))))
  have e : [47, 42] ++ ([32] ++ (name ++ ([32] ++ ([61] ++ ([32] ++ (Xml1.number n ++ ([32] ++ [42, 47]))))))) = ivalueText name n := by
    simp [ivalueText]
  rw [e] at this
  exact this

theorem name_next {name : List Nat} (hn : Name name) : ∀ c ∈ name, (isalnum c || c == 95) = true := by
  intro c hc
  rcases hn.2 c hc with h | h <;> simp [h]

theorem getId_eq {name : List Nat} (hn : Name name) (n : Nat) : getId ((ivalueText name n).drop 2) = name := by
  obtain ⟨c, u, e, hc⟩ := name_head hn
  have hsp : isspace c = false := Xml1Lex.name_space hc
  have h1 : (ivalueText name n).drop 2 = 32 :: (name ++ 32 :: (61 :: 32 :: (Xml1.number n ++ [32]) ++ [42, 47])) := by simp [ivalueText]
  unfold getId
  rw [h1, List.dropWhile_cons, if_pos (by decide)]
  have h2 : (name ++ 32 :: (61 :: 32 :: (Xml1.number n ++ [32]) ++ [42, 47])).dropWhile isspace = name ++ 32 :: (61 :: 32 :: (Xml1.number n ++ [32]) ++ [42, 47]) := by
    rw [e]; simp [hsp]
  rw [h2]
  exact takeWhile_all _ _ _ (name_next hn) (by decide)

theorem digits_stop (ds : List Nat) (hd : ∀ d ∈ ds, d < 10) (x : Nat) (hx : Xml1.digitOf x = none) (rest : List Nat) : ∀ (n acc : Nat),
    Xml1.digits 10 (ds.map (· + 48) ++ x :: rest) n acc = (n + ds.length, ds.foldl (fun a d => a * 10 + d) acc, x :: rest) := by
  induction ds with
  | nil => intro n acc; simp [Xml1.digits, hx]
  | cons d ds ih =>
    intro n acc
    have h0 := hd d (by simp)
    rw [List.map_cons, List.cons_append, Xml1.digits, Xml1Load.digitOf_dec h0]
    simp only [if_pos h0]
    rw [ih (fun e he => hd e (by simp [he]))]
    simp [Nat.add_comm, Nat.add_left_comm]

theorem strtoull_blank (n : Nat) (h : n < 2 ^ 64) (x : Nat) (hx : x = 32 ∨ x = 41) (rest : List Nat) :
    (Xml1.strtoull (32 :: ((Decimal.natDigits n).map (· + 48) ++ x :: rest))).1 = n := by
  obtain ⟨h1, h2, h3, h4⟩ := Lemmas.Decimal.natDigits_spec n
  have hdig : Xml1.digitOf x = none := by rcases hx with rfl | rfl <;> rfl
  cases hds : Decimal.natDigits n with
  | nil => exact absurd hds h3
  | cons d ds =>
    rw [hds] at h1 h2 h4
    have hd := h1 d (by simp)
    obtain ⟨f1, f2, _⟩ := Lemmas.Decimal.head_facts hd
    have hdrop : (32 :: ((d :: ds).map (· + 48) ++ x :: rest)).dropWhile isspace = (d :: ds).map (· + 48) ++ x :: rest := by
      rw [List.dropWhile_cons, if_pos (by decide)]
      simp [f1]
    unfold Xml1.strtoull
    rw [hdrop]
    have hne1 : d + 48 ≠ 43 := by omega
    have hne2 : d + 48 ≠ 45 := by omega
    simp only [List.map_cons, List.cons_append, List.head?_cons]
    have e1 : (some (d + 48) == some 43) = false := by simp [hne1]
    have e2 : (some (d + 48) == some 45) = false := by simp [hne2]
    simp only [e1, e2, Bool.or_self, Bool.false_eq_true, if_false, List.head?_cons, List.tail_cons]
    by_cases h0 : d = 0
    · subst h0
      have := h4 rfl
      simp only [List.cons.injEq, true_and] at this
      subst this
      simp only [positional, List.foldl] at h2
      rcases hx with rfl | rfl <;> simp [Xml1.digits, Xml1.digitOf, isdigit, isalpha, isupper, islower] <;> omega
    · have e3 : (some (d + 48) == some 48) = false := by simp [h0]
      simp only [e3, Bool.false_and, Bool.false_eq_true, if_false]
      have := digits_stop (d :: ds) h1 x hdig rest 0 0
      rw [List.map_cons, List.cons_append] at this
      rw [this]
      simp only [List.length_cons]
      have hv : (d :: ds).foldl (fun a d => a * 10 + d) 0 = n := by
        rw [← h2]; rfl
      rw [hv, if_neg (by omega), if_neg (by omega)]

theorem getIvalue_eq {name : List Nat} (hn : Name name) {n : Nat} (h : n < 2 ^ 32) : getIvalue (ivalueText name n) = n := by
  have h61 : ∀ c ∈ name, c ≠ 61 := by
    intro c hc e
    subst e
    rcases hn.2 61 hc with h | h
    · simp [isalnum, isalpha, isupper, islower, isdigit] at h
    · cases h
  have hall : ∀ c ∈ 47 :: 42 :: 32 :: (name ++ [32]), decide (c ≠ 61) = true := by
    intro c hc
    simp only [List.mem_cons, List.mem_append, List.not_mem_nil, or_false] at hc
    simp only [ne_eq, decide_eq_true_eq]
    rcases hc with rfl | rfl | rfl | hc | rfl
    · omega
    · omega
    · omega
    · exact h61 c hc
    · omega
  have e : ivalueText name n = (47 :: 42 :: 32 :: (name ++ [32])) ++ (61 :: 32 :: ((Decimal.natDigits n).map (· + 48) ++ 32 :: [42, 47])) := by
    simp [ivalueText, Xml1Load.number_eq h]
  unfold getIvalue
  rw [e, dropWhile_all _ _ hall, List.dropWhile_cons, if_neg (by simp), List.tail_cons, strtoull_blank n (by omega) 32 (.inl rfl), Nat.mod_eq_of_lt h]

theorem lex_ivalue {name : List Nat} (hn : Name name) {n : Nat} (h : n < 2 ^ 32) {rest : List Nat} {ts : List (Tok K)} (ht : lex K rest = some ts) :
    lex K (attr name n ++ rest) = some (.ivalue name n :: ts) := by
  rw [attr_eq, List.append_assoc]
  have hsp : lex K ([32] ++ rest) = some ts := lex_space rfl ht
  have := lex_cons (K := K) (k := 14) (w := ivalueText name n) (rest := [32] ++ rest) ⟨by simp [ivalueText], ⟨⟨_, rfl, lang_ivalue hn h⟩, fun j r hj hr hl => ?_⟩, ?_⟩ (by decide) hsp
  · rw [this]
    simp only [action, List.take_left]
    rw [getId_eq hn, getIvalue_eq hn h]
    rfl
  · by_cases h11 : j = 11
    · subst h11
      cases hr
      have := lang_string_first hl
      omega
    · by_cases h12 : j = 12
      · subst h12
        cases hr
        have := lang_char_first hl
        omega
      · by_cases h13 : j = 13
        · subst h13
          cases hr
          have := lang_cast_first hl
          omega
        · rcases early (by omega) hr hl (by decide) with h | ⟨h, _⟩
          · exact absurd h (by decide)
          · omega
  · intro e he _
    generalize hu : 32 :: (name ++ 32 :: 61 :: 32 :: (Xml1.number n ++ [32])) = u
    have hw : ivalueText name n = 47 :: 42 :: (u ++ [42, 47]) := by rw [← hu]; rfl
    have hu42 : ∀ c ∈ u, c ≠ 42 := by
      obtain ⟨u', h1, h2⟩ := ivalue_shape (lang_ivalue hn h)
      rw [hw] at h1
      have : u = u' := by simpa using h1
      rw [this]; exact h2
    rw [hw]
    show NoMatch rules (47 :: 42 :: (u ++ [42, 47] ++ e))
    refine noMatch_long (not_spaces (by decide)) (fun r hr hl => ?_) (fun hl => ?_) (fun hl => ?_) (fun hl => ?_) (fun hl => ?_) (fun hl => by simp at hl)
    · rcases word_first hr hl with h | ⟨h, _⟩
      · exact absurd h (by decide)
      · omega
    · have := lang_string_first hl; omega
    · have := lang_char_first hl; omega
    · have := lang_cast_first hl; omega
    · obtain ⟨v, h1, h2⟩ := ivalue_shape hl
      have h3 : u ++ (42 :: 47 :: e) = v ++ [42, 47] := by simpa using h1
      rcases List.append_eq_append_iff.1 h3 with ⟨a, ha, hb⟩ | ⟨a, ha, hb⟩
      · cases a with
        | nil => simp at hb; exact he hb
        | cons z a =>
          simp only [List.cons_append, List.cons.injEq] at hb
          exact h2 42 (by rw [ha, ← hb.1]; simp) rfl
      · cases a with
        | nil => simp at hb; exact he hb
        | cons z a =>
          simp only [List.cons_append, List.cons.injEq] at hb
          exact hu42 42 (by rw [ha, ← hb.1]; simp) rfl

end Verif.Lemmas.CinitTok
