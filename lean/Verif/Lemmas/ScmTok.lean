import Verif.Lemmas.ScmLex
import Verif.Lemmas.ScmLoad
/-!
# Characters, addresses, attributes and values of Scheme documents
-/
namespace Verif.Lemmas.ScmTok
open Verif.Model Verif.Model.Flex Verif.Model.Scm Verif.Lemmas.Flex
open Verif.Spec Verif.Spec.Scm Verif.Lemmas.ScmLex Verif.Lemmas.ScmLoad
open Verif.Spec.Json (Digit FloatText word)
open Verif.Spec.Xml1 (Name)
open Verif.Model.Json (sign digit letter stringRe intNumber)
open Verif.Model.Xml1 (idStart idNext spaces sRef sContent sIdx number)
open Verif.Model.Cinit (idRe xdigit)
open Verif.Lemmas.JsonLex (space_iff lang_sign lang_letter isdigit_iff numeral digits_digit)
open Verif.Lemmas.CinitLex (first_of lang_id name_head)
open Verif.Lemmas.Escape (Lexable)

/-! ### characters -/

theorem hash_class {j : Nat} {r : Re} (hr : rules[j]? = some r) {t : List Nat} (h : Lang r (35 :: 92 :: t)) : j = 8 ∨ j = 9 := by
  rcases class_of hr h with ⟨_, _, _, h4⟩ | ⟨h4, _⟩ | h4 | ⟨_, _, h4⟩ | h4 | h4
  · exact absurd ⟨rfl, rfl⟩ h4
  · cases h4
  · omega
  · exact h4
  · omega
  · omega

/-- a printable character: two digits after an `x` are not possible, because the text ends -/
theorem lex_printable {c : Nat} (hc : c ≠ 10) {rest : List Nat} {ts : List Tok} (hr : Ends rest) (h : lex rest = some ts) :
    lex (35 :: 92 :: c :: rest) = some (.char c :: ts) := by
  refine lex_cons (k := 8) (w := [35, 92, c]) (by simp) ⟨⟨_, rfl, Lang.seq (s := [35, 92]) (lang_str.2 rfl) (.cls (by simpa using hc))⟩, fun j r hj hr hl => ?_⟩ (fun e he hp => ?_) h
  · have := hash_class hr hl
    omega
  · cases e with
    | nil => exact absurd rfl he
    | cons d e =>
      obtain ⟨u, hu⟩ := head_of rfl hp
      refine noMatch_of fun j r hj hl => ?_
      rcases hash_class hj hl with rfl | rfl <;> cases hj
      · obtain ⟨x, e⟩ := lang_hash hl
        cases e
      · obtain ⟨s, t, e1, h1, h2⟩ := lang_seq.1 hl
        rw [lang_str.1 h1] at e1
        obtain ⟨a, b, rfl, h3, _⟩ := lang_seq.1 h2
        obtain ⟨x, rfl, hx⟩ := lang_cls.1 h3
        simp only [List.cons_append, List.nil_append, List.cons.injEq] at e1
        obtain ⟨_, _, _, rfl, _⟩ := e1
        have h4 : ∀ y, (isspace y = true ∨ y = 41) → ¬ ((isdigit y || (65 ≤ y && y ≤ 70) || (97 ≤ y && y ≤ 102)) = true) := by
          intro y hy
          rw [space_iff] at hy
          simp only [isdigit, Bool.or_eq_true, Bool.and_eq_true, decide_eq_true_eq]
          omega
        exact h4 _ (hr _ _ hu) (by simpa using hx)

theorem lex_hexChar {c : Nat} (hc : c < 256) {rest : List Nat} {ts : List Tok} (h : lex rest = some ts) :
    lex (35 :: 92 :: 120 :: (Scanf.printRadix 16 2 false c ++ rest)) = some (.char c :: ts) := by
  obtain ⟨h1, h2, _⟩ := Escape.hex2_table c hc
  have hx : ∀ c < 256, (Scanf.printRadix 16 2 false c).all (fun y => isdigit y || (65 ≤ y && y ≤ 70) || (97 ≤ y && y ≤ 102)) = true := by decide +kernel
  have hx := hx c hc
  have hv : hexChar (35 :: 92 :: 120 :: Scanf.printRadix 16 2 false c) = some c := by
    unfold hexChar
    have := Escape.scanInt_eq 16 (Scanf.noWidth (Scanf.printRadix 16 2 false c)) (Scanf.printRadix 16 2 false c) [] c h1 (by omega) (by omega)
      (by simp [Scanf.noWidth]) (Or.inr (by intro c d h; cases h))
    rw [List.append_nil] at this
    simp only [List.drop_succ_cons, List.drop_zero]
    rw [this]
    simp only [Option.map_some, Option.some.injEq]
    omega
  generalize hp : Scanf.printRadix 16 2 false c = p at h1 h2 hx hv ⊢
  obtain ⟨a, b, rfl⟩ : ∃ a b, p = [a, b] := by
    match p, h2 with
    | [a, b], _ => exact ⟨a, b, rfl⟩
  simp only [List.all_cons, List.all_nil, Bool.and_true, Bool.and_eq_true] at hx
  have hl : Lang (.seq (.str [35, 92, 120]) (.seq xdigit xdigit)) [35, 92, 120, a, b] :=
    Lang.seq (s := [35, 92, 120]) (lang_str.2 rfl) (Lang.seq (s := [a]) (.cls (by simpa using hx.1)) (.cls (by simpa using hx.2)))
  have := lex_cons (k := 9) (w := [35, 92, 120, a, b]) (by simp) ⟨⟨_, rfl, hl⟩, fun j r hj hr hl => ?_⟩ (fun e he hp => ?_) h
  · simp only [List.cons_append, List.nil_append] at this ⊢
    rw [this]
    simp [action, hv]
  · rcases hash_class hr hl with rfl | rfl
    · cases hr
      obtain ⟨x, e⟩ := lang_hash hl
      cases e
    · omega
  · refine noMatch_of fun j r hj hl => ?_
    rcases hash_class hj hl with rfl | rfl <;> cases hj
    · obtain ⟨x, e⟩ := lang_hash hl
      cases e
    · obtain ⟨x, y, e⟩ := lang_hashx hl
      simp only [List.cons_append, List.nil_append, List.cons.injEq] at e
      exact he e.2.2.2.2.2

theorem lex_char {c : Nat} (hc : c < 256) {rest : List Nat} {ts : List Tok} (hr : Ends rest) (h : lex rest = some ts) :
    lex (charText c ++ rest) = some (.char c :: ts) := by
  unfold charText
  by_cases hp : isprint c = true
  · rw [if_pos hp]
    refine lex_printable (fun e => ?_) hr h
    subst e
    cases hp
  · rw [if_neg hp]
    exact lex_hexChar hc h

/-! ### addresses -/

theorem radix_spec : ∀ (f n : Nat), n < 16 ^ (f + 1) → (∀ d ∈ Scanf.radix 16 (f + 1) n, d < 16) ∧ positional 16 (Scanf.radix 16 (f + 1) n) = n ∧
    Scanf.radix 16 (f + 1) n ≠ []
  | 0, n, h => by
    have h : n < 16 := by simpa using h
    simp [Scanf.radix, positional, h]
  | f + 1, n, h => by
    rw [Scanf.radix]
    split
    · rename_i h1
      simp [positional, h1]
    · obtain ⟨h1, h2, h3⟩ := radix_spec f (n / 16) (by rw [Nat.pow_succ] at h; omega)
      refine ⟨?_, ?_, by simp⟩
      · intro d hd
        rcases List.mem_append.1 hd with hd | hd
        · exact h1 d hd
        · simp at hd; omega
      · rw [Decimal.positional_append, h2]
        omega

theorem digitChar_table : ∀ d < 16, Decimal.digitOf (Scanf.digitChar false d) = some d ∧
    (isdigit (Scanf.digitChar false d) || (65 ≤ Scanf.digitChar false d && Scanf.digitChar false d ≤ 70) || (97 ≤ Scanf.digitChar false d && Scanf.digitChar false d ≤ 102)) = true := by decide +kernel

theorem strto_hex16 (txt ds : List Nat) (h : txt.map Decimal.digitOf = ds.map some) (hb : ∀ d ∈ ds, d < 16) :
    Decimal.strtouintmax (48 :: 120 :: txt) 16 = (positional 16 ds % 2 ^ 128, []) := by
  unfold Decimal.strtouintmax
  have hdw : List.dropWhile isspace (48 :: 120 :: txt) = 48 :: 120 :: txt := by simp [isspace]
  have hl := Decimal.strtoLoop_digits 16 txt ds [] 0 h hb (by decide) (by intro c hc; cases hc)
  rw [List.append_nil] at hl
  have e1 : ((48 :: 120 :: txt).head? == some (ch '-')) = false := by simp [ch]
  have e2 : ((48 :: 120 :: txt).head? == some (ch '+')) = false := by simp [ch]
  have e3 : isdigit 48 = true := by decide
  simp only [hdw, e1, e2, Bool.or_false, Bool.false_eq_true, if_false, e3, if_true]
  have e4 : (((16 : Nat) == 0 || (16 : Nat) == 16) && (48 : Nat) == ch '0' &&
      ((120 :: txt).head? == some (ch 'x') || (120 :: txt).head? == some (ch 'X'))) = true := by simp [ch]
  simp only [e4, if_true, List.tail_cons, (by decide : ¬ (16 : Nat) = 0), if_false, hl]
  simp [positional]

theorem lex_address {v : Nat} (hv : v < 2 ^ 64) {rest : List Nat} {ts : List Tok} (hr : Ends rest) (h : lex rest = some ts) :
    lex (35 :: 120 :: hexDigits v ++ rest) = some (.int v :: ts) := by
  obtain ⟨h1, h2, h3⟩ := radix_spec 32 v (by omega)
  have e : hexDigits v = (Scanf.radix 16 33 v).map (Scanf.digitChar false) := by
    simp [hexDigits, Scanf.printRadix]
  rw [e]
  generalize Scanf.radix 16 33 v = ds at h1 h2 h3
  have hne : ds.map (Scanf.digitChar false) ≠ [] := by simpa using h3
  have hx : ∀ c ∈ ds.map (Scanf.digitChar false), (isdigit c || (65 ≤ c && c ≤ 70) || (97 ≤ c && c ≤ 102)) = true := by
    intro c hc
    obtain ⟨d, hd, rfl⟩ := List.mem_map.1 hc
    exact (digitChar_table d (h1 d hd)).2
  have hmap : (ds.map (Scanf.digitChar false)).map Decimal.digitOf = ds.map some := by
    rw [List.map_map]
    exact List.map_congr_left fun d hd => (digitChar_table d (h1 d hd)).1
  generalize ds.map (Scanf.digitChar false) = p at hne hx hmap
  have hl : Lang hexNumber (35 :: 120 :: p) :=
    Lang.seq (s := []) (lang_sign.2 (.inl rfl)) (Lang.seq (s := [35]) (lang_one.2 rfl) (Lang.seq (s := [120]) (lang_letter (.inr rfl))
      (lang_plus_cls hne (by simpa using hx))))
  have := lex_word (k := 2) (w := 35 :: 120 :: p) (by simp) (fun c t e => by cases e; rw [start_iff]; omega) (fun d t e => by cases e; omega) (by simp)
    ⟨⟨_, rfl, hl⟩, fun j r hj hr hl => ?_⟩ hr h
  · rw [this]
    simp only [action, dropHash, List.head?_cons, if_true, List.drop_succ_cons, List.drop_zero]
    rw [strto_hex16 p ds hmap h1, h2, Nat.mod_eq_of_lt (by omega)]
    rfl
  · have : j = 0 ∨ j = 1 := by omega
    rcases this with rfl | rfl <;> cases hr
    · have := lang_over hl over_ws 35 (by simp)
      cases this
    · have := lang_over hl JsonLex.over_int 35 (by simp)
      unfold Digit at this
      omega

/-! ### attributes -/

theorem ivalue_shape {w : List Nat} (h : Lang ivalueRe w) : ∃ u v, w = u ++ 41 :: v ∧ 41 ∉ u ∧ ∀ c ∈ v, isspace c = true := by
  have sp : ∀ {w : List Nat}, Lang wss w → 41 ∉ w := fun h => not_space (lang_over h over_wss) (by decide)
  have idh : ∀ {w : List Nat}, Lang idRe w → 41 ∉ w := by
    intro w h hc
    have := lang_over (p := fun c => c ≠ 41) h (by
      simp only [idRe, idStart, idNext, Over, Bool.or_eq_true, beq_iff_eq, isalpha, isalnum, isupper, islower, isdigit, Bool.and_eq_true, decide_eq_true_eq]
      constructor <;> (intro c h; omega)) 41 hc
    exact this rfl
  have dgh : ∀ {w : List Nat}, Lang (.plus digit) w → 41 ∉ w := by
    intro w h hc
    have := lang_over (p := fun c => c ≠ 41) h (by
      simp only [Re.plus, digit, Over, isdigit, Bool.and_eq_true, decide_eq_true_eq]
      exact ⟨by intro c h; omega, by intro c h; omega⟩) 41 hc
    exact this rfl
  have smh : ∀ {w : List Nat}, Lang (.plus (.one 59)) w → 41 ∉ w := by
    intro w h hc
    have := lang_over (p := fun c => c ≠ 41) h (by
      simp only [Re.plus, Re.one, Over, beq_iff_eq]
      exact ⟨by intro c h; omega, by intro c h; omega⟩) 41 hc
    exact this rfl
  obtain ⟨a, t1, rfl, h1, g1⟩ := lang_seq.1 h
  obtain ⟨b, t2, rfl, h2, g2⟩ := lang_seq.1 g1
  obtain ⟨c, t3, rfl, h3, g3⟩ := lang_seq.1 g2
  obtain ⟨d, t4, rfl, h4, g4⟩ := lang_seq.1 g3
  obtain ⟨e, t5, rfl, h5, g5⟩ := lang_seq.1 g4
  obtain ⟨f, t6, rfl, h6, g6⟩ := lang_seq.1 g5
  obtain ⟨g, t7, rfl, h7, g7⟩ := lang_seq.1 g6
  obtain ⟨i, t8, rfl, h8, g8⟩ := lang_seq.1 g7
  obtain ⟨k, t9, rfl, h9, g9⟩ := lang_seq.1 g8
  obtain ⟨l, t10, rfl, h10, g10⟩ := lang_seq.1 g9
  obtain ⟨m, n, rfl, h11, g11⟩ := lang_seq.1 g10
  rw [lang_one.1 h11, lang_one.1 h3, lang_one.1 h7]
  refine ⟨a ++ (b ++ ([40] ++ (d ++ (e ++ (f ++ ([46] ++ (i ++ (k ++ l)))))))), n, by simp, ?_, lang_over g11 over_wss⟩
  simp only [List.mem_append, not_or]
  exact ⟨smh h1, sp h2, by simp, sp h4, idh h5, sp h6, by simp, sp h8, dgh h9, sp h10⟩

theorem comment_shape {u v : List Nat} (hu : 10 ∉ u) (h : Lang commentRe (u ++ 10 :: v)) : ∀ c ∈ v, isspace c = true := by
  obtain ⟨a, t1, e1, h1, g1⟩ := lang_seq.1 h
  obtain ⟨b, c, rfl, h2, h3⟩ := lang_seq.1 g1
  rw [lang_one.1 h1] at e1
  have hb : 10 ∉ b := fun hc => by
    have := lang_over (p := fun c => c ≠ 10) h2 (by simp only [Over]; intro c h; simpa using h) 10 hc
    exact this rfl
  have hc := lang_over h3 over_wss
  have hm : 10 ∈ c := by
    have hm : 10 ∈ [59] ++ (b ++ c) := by rw [← e1]; simp
    simpa [hb] using hm
  obtain ⟨c1, c2, hcc, hc1⟩ : ∃ c1 c2, c = c1 ++ 10 :: c2 ∧ 10 ∉ c1 := by
    clear h3 e1 hc g1
    induction c with
    | nil => cases hm
    | cons x c ih =>
      by_cases hx : x = 10
      · subst hx; exact ⟨[], c, rfl, by simp⟩
      · obtain ⟨c1, c2, h1, h2⟩ := ih (by simpa [Ne.symm hx] using hm)
        exact ⟨x :: c1, c2, by rw [h1]; rfl, by simp [Ne.symm hx, h2]⟩
  have e2 : u ++ 10 :: v = ([59] ++ (b ++ c1)) ++ 10 :: c2 := by rw [e1, hcc]; simp
  have := split_unique hu (by simp [hb, hc1]) e2
  intro y hy
  rw [this.2] at hy
  exact hc y (by rw [hcc]; simp [hy])

/-- an attribute without the newline after it -/
def ivalueText (name : List Nat) (n : Nat) : List Nat := 59 :: 40 :: (name ++ 32 :: 46 :: 32 :: (number n ++ [41]))

theorem attr_eq (name : List Nat) (n : Nat) : attr name n = ivalueText name n ++ [10] := by
  simp [attr, ivalueText]

theorem name_chars {name : List Nat} (hn : Name name) : ∀ c ∈ name, (48 ≤ c ∧ c ≤ 57) ∨ (65 ≤ c ∧ c ≤ 90) ∨ (97 ≤ c ∧ c ≤ 122) ∨ c = 95 := by
  intro c hc
  have := hn.2 c hc
  simp only [isalnum, isalpha, isupper, islower, isdigit, Bool.or_eq_true, Bool.and_eq_true, decide_eq_true_eq] at this
  omega

theorem ivalueText_chars {name : List Nat} (hn : Name name) {n : Nat} (h : n < 2 ^ 32) : 10 ∉ ivalueText name n := by
  intro hm
  simp only [ivalueText, List.mem_cons, List.mem_append, Xml1Load.number_eq h, List.not_mem_nil, or_false] at hm
  rcases hm with hm | hm | hm | hm | hm | hm | hm | hm
  · omega
  · omega
  · have := name_chars hn 10 hm; omega
  · omega
  · omega
  · omega
  · have := digits_digit n 10 hm; unfold Digit at this; omega
  · omega

theorem lang_ivalue {name : List Nat} (hn : Name name) {n : Nat} (h : n < 2 ^ 32) {w : List Nat} (hw : ∀ c ∈ w, isspace c = true) :
    Lang ivalueRe (ivalueText name n ++ w) := by
  have sp : Lang wss [32] := lang_wss (by simp [isspace])
  have hd : Lang (.plus Json.digit) (Xml1.number n) := by
    rw [Xml1Load.number_eq h]
    refine lang_plus_cls (by simpa using (Decimal.natDigits_spec n).2.2.1) fun c hc => (isdigit_iff c).2 (digits_digit n c hc)
  have := Lang.seq (lang_plus_cls (by simp) (by simp) : Lang (.plus (.one 59)) [59]) (.seq (.nil : Lang wss []) (.seq (lang_one.2 rfl : Lang (.one 40) [40]) (.seq (.nil : Lang wss [])
    (.seq (lang_id hn) (.seq sp (.seq (lang_one.2 rfl : Lang (.one 46) [46]) (.seq sp (.seq hd (.seq (.nil : Lang wss []) (.seq (lang_one.2 rfl : Lang (.one 41) [41]) (lang_wss hw)))))))))))
  have e : [59] ++ ([] ++ ([40] ++ ([] ++ (name ++ ([32] ++ ([46] ++ ([32] ++ (Xml1.number n ++ ([] ++ ([41] ++ w)))))))))) = ivalueText name n ++ w := by
    simp [ivalueText]
  rw [e] at this
  exact this

theorem getId_eq {name : List Nat} (hn : Name name) (n : Nat) (w : List Nat) : Cinit.getId ((((ivalueText name n) ++ w).dropWhile (· ≠ 40)).tail) = name := by
  obtain ⟨c, u, e, hc⟩ := name_head hn
  have hsp : isspace c = false := Xml1Lex.name_space hc
  have h1 : (((ivalueText name n) ++ w).dropWhile (· ≠ 40)).tail = name ++ 32 :: (46 :: 32 :: (number n ++ [41]) ++ w) := by
    simp [ivalueText]
  unfold Cinit.getId
  have h2 : (name ++ 32 :: (46 :: 32 :: (number n ++ [41]) ++ w)).dropWhile isspace = name ++ 32 :: (46 :: 32 :: (number n ++ [41]) ++ w) := by
    rw [e]; simp [hsp]
  rw [h1, h2]
  exact CinitTok.takeWhile_all _ _ _ (CinitTok.name_next hn) (by decide)

theorem getIvalue_eq {name : List Nat} (hn : Name name) {n : Nat} (h : n < 2 ^ 32) (w : List Nat) : getIvalue (ivalueText name n ++ w) = n := by
  have hall : ∀ c ∈ 59 :: 40 :: (name ++ [32]), decide (c ≠ 46) = true := by
    intro c hc
    simp only [List.mem_cons, List.mem_append, List.not_mem_nil, or_false] at hc
    simp only [ne_eq, decide_eq_true_eq]
    rcases hc with rfl | rfl | hc | rfl
    · omega
    · omega
    · have := name_chars hn c hc; omega
    · omega
  have e : ivalueText name n ++ w = (59 :: 40 :: (name ++ [32])) ++ (46 :: 32 :: ((Decimal.natDigits n).map (· + 48) ++ 41 :: w)) := by
    simp [ivalueText, Xml1Load.number_eq h]
  unfold getIvalue
  rw [e, CinitTok.dropWhile_all _ _ hall, List.dropWhile_cons, if_neg (by simp), List.tail_cons, CinitTok.strtoull_blank n (by omega) 41 (.inr rfl), Nat.mod_eq_of_lt h]

/-- an attribute and the line after it up to the first byte that is not a blank -/
theorem lex_attr {name : List Nat} (hn : Name name) {n : Nat} (h : n < 2 ^ 32) {w rest : List Nat} (hw : ∀ c ∈ w, isspace c = true)
    (hr : ∀ c t, rest = c :: t → isspace c = false) {ts : List Tok} (ht : lex rest = some ts) :
    lex (attr name n ++ (w ++ rest)) = some (.ivalue name n :: ts) := by
  have hw10 : ∀ c ∈ 10 :: w, isspace c = true := by
    intro c hc
    rcases List.mem_cons.1 hc with rfl | hc
    · rfl
    · exact hw c hc
  have hcl : ∀ (e : List Nat) (j : Nat) (r : Re), rules[j]? = some r → Lang r (ivalueText name n ++ e) → j = 10 ∨ j = 11 := by
    intro e j r hr hl
    have hl' : Lang r (59 :: 40 :: (name ++ 32 :: 46 :: 32 :: (number n ++ [41]) ++ e)) := hl
    rcases class_of hr hl' with ⟨_, _, h4, _⟩ | ⟨h4, _⟩ | h4 | h4 | h4 | h4
    · have := (start_iff 59).1 h4; omega
    · cases h4
    · omega
    · omega
    · exact h4.2
    · omega
  have := lex_cons (k := 10) (w := ivalueText name n ++ 10 :: w) (rest := rest) (by simp [ivalueText]) ⟨⟨_, rfl, lang_ivalue hn h hw10⟩, fun j r hj hr hl => ?_⟩ (fun e he hp => ?_) ht
  · rw [attr_eq]
    simp only [List.append_assoc, List.cons_append, List.nil_append] at this ⊢
    rw [this]
    simp only [action, getId_eq hn, getIvalue_eq hn h]
    rfl
  · have := hcl _ j r hr hl
    omega
  · cases e with
    | nil => exact absurd rfl he
    | cons d e =>
      obtain ⟨u, hu⟩ := head_of rfl hp
      have hd := hr d u hu
      refine noMatch_of fun j r hj hl => ?_
      have hl2 : Lang r (ivalueText name n ++ 10 :: (w ++ d :: e)) := by simpa using hl
      rcases hcl _ j r hj hl2 with rfl | rfl <;> cases hj
      · obtain ⟨u1, v1, e1, hu1, hv1⟩ := ivalue_shape hl2
        obtain ⟨u2, v2, e2, hu2, hv2⟩ := ivalue_shape (lang_ivalue hn h (w := []) (by simp))
        rw [List.append_nil] at e2
        have e3 : ivalueText name n = (59 :: 40 :: (name ++ 32 :: 46 :: 32 :: number n)) ++ 41 :: [] := by simp [ivalueText]
        have hno : 41 ∉ (59 :: 40 :: (name ++ 32 :: 46 :: 32 :: number n)) := by
          intro hm
          simp only [List.mem_cons, List.mem_append, Xml1Load.number_eq h] at hm
          rcases hm with hm | hm | hm | hm | hm | hm | hm
          · omega
          · omega
          · have := name_chars hn 41 hm; omega
          · omega
          · omega
          · omega
          · have := digits_digit n 41 hm; unfold Digit at this; omega
        rw [e3, List.append_assoc] at e1
        have := split_unique hno hu1 e1
        have h5 := hv1 d (by rw [← this.2]; simp)
        rw [hd] at h5; cases h5
      · have h5 := comment_shape (ivalueText_chars hn h) hl2 d (by simp)
        rw [hd] at h5; cases h5

/-! ### values -/

theorem quoteByte_cases (c : Nat) : Escape.quoteByte Escape.scmPattern c = [c] ∨ 92 ∈ Escape.quoteByte Escape.scmPattern c := by
  unfold Escape.quoteByte
  simp only
  generalize (if c = ch '"' then ch '"' else Escape.escMap c) = m
  split
  · right; simp [ch]
  · split
    · exact .inl rfl
    · right; simp [Escape.scmPattern, ch]

theorem quoteBody_no_backslash (s : List Nat) (h : 92 ∉ Escape.quoteBody Escape.scmPattern s) : Escape.quoteBody Escape.scmPattern s = s := by
  induction s with
  | nil => rfl
  | cons c s ih =>
    have hb : Escape.quoteBody Escape.scmPattern (c :: s) = Escape.quoteByte Escape.scmPattern c ++ Escape.quoteBody Escape.scmPattern s := by
      simp [Escape.quoteBody]
    rw [hb] at h ⊢
    rw [ih fun hm => h (List.mem_append.2 (.inr hm))]
    rcases quoteByte_cases c with h1 | h1
    · rw [h1]; rfl
    · exact absurd (List.mem_append.2 (.inl h1)) h

theorem stringValue_quoted {s : List Nat} (hs : ∀ c ∈ s, 0 < c ∧ c < 256) :
    stringValue (Escape.quoteBody Escape.scmPattern s) = some s := by
  unfold stringValue
  split
  · have hp : ∀ c, Escape.scmPattern c ≠ [] := by intro c; simp [Escape.scmPattern]
    have hl := Escape.quoteBody_length Escape.scmPattern hp s
    exact Escape.unquote_body Escape.scmFmt Escape.scmPattern Escape.scm_quote s [34] hs
      (fun p c q h => Escape.scm_step c (hs c (by simp [h])).2 _) _ (by omega)
  · rename_i h
    rw [quoteBody_no_backslash s h]

theorem stringValue_plain {s : List Nat} (h : ∀ c ∈ s, c ≠ 92) : stringValue s = some s := by
  unfold stringValue
  rw [if_neg fun hm => h 92 hm rfl]

/-- the first byte of a value -/
theorem head_start {c : Nat} {t : List Nat} (h : Start c) : Head (c :: t) := by
  have := (start_iff c).1 h
  exact ⟨c, t, rfl, start_space h, by omega, by omega⟩

theorem numeral_head (neg : Bool) (n : Nat) (rest : List Nat) : Head (numeral neg n ++ rest) := by
  have hs : (if neg then [45] else [] : List Nat) = [] ∨ (if neg then [45] else [] : List Nat) = [45] ∨ (if neg then [45] else [] : List Nat) = [43] := by
    cases neg <;> simp
  have hne : numeral neg n ≠ [] := by simpa [numeral] using fun _ => (Decimal.natDigits_spec n).2.2.1
  cases hw : numeral neg n with
  | nil => exact absurd hw hne
  | cons c t => exact head_start (int_start hs (digits_digit n) c t hw).1

theorem numeral_last (neg : Bool) (n : Nat) : (numeral neg n).getLast? ≠ some 10 := by
  intro h
  have hm := List.mem_of_getLast? h
  unfold numeral at hm
  rcases List.mem_append.1 hm with hm | hm
  · cases neg <;> simp at hm
  · have := digits_digit n 10 hm; unfold Digit at this; omega

/-- **The tokens of a value.** -/
theorem lex_leaf {l : Leaf} (hl : LeafOK l) : ∃ t tok n v, leafText l = some t ∧ (∀ rest, Head (t ++ rest)) ∧ t.getLast? ≠ some 10 ∧
    meaning tok = some (n, v) ∧ ReadAs l n v ∧ ∀ rest ts, Ends rest → lex rest = some ts → lex (t ++ rest) = some (tok :: ts) := by
  have num : ∀ (v : Int), -(2 ^ 127 : Int) ≤ v → v < 2 ^ 128 → ∀ rest ts, Ends rest → lex rest = some ts →
      lex (numeral (decide (v < 0)) v.natAbs ++ rest) = some (Tok.int (word v) :: ts) := by
    intro v h1 h2 rest ts hr ht
    obtain ⟨h3, h4⟩ := JsonLex.word_numeral h1 h2
    rw [lex_numeral h3 hr ht, h4]
  have str : ∀ (b rest : List Nat), Head (34 :: b ++ rest) := fun b rest => ⟨34, b ++ rest, rfl, by decide, by decide, by decide⟩
  have last : ∀ (b : List Nat), (34 :: (b ++ [34])).getLast? ≠ some 10 := by
    intro b
    rw [show 34 :: (b ++ [34]) = (34 :: b) ++ [34] from rfl, List.getLast?_append]
    simp
  cases l with
  | bool b =>
    cases b with
    | false => exact ⟨_, .false, true, .int 0, rfl, fun rest => ⟨110, _, rfl, by decide, by decide, by decide⟩, by decide, rfl, .false, fun rest ts => lex_nil⟩
    | true => exact ⟨_, .int 1, false, .int 1, rfl, fun rest => ⟨116, _, rfl, by decide, by decide, by decide⟩, by decide, rfl, .true, fun rest ts => lex_t⟩
  | int v =>
    simp only [LeafOK] at hl
    have hn : v.natAbs ≤ 2 ^ 64 := by omega
    have e : Enum.fmtInt v = numeral (decide (v < 0)) v.natAbs := Enum.fmtInt_eq (by omega)
    refine ⟨_, .int (word v), _, _, rfl, fun rest => ?_, ?_, rfl, .int v, fun rest ts hr ht => ?_⟩
    · rw [e]; exact numeral_head ..
    · rw [e]; exact numeral_last _ _
    · rw [e]; exact num v (by omega) (by omega) rest ts hr ht
  | int128 v =>
    have e := Decimal.printInt128_eq (List.replicate Decimal.bufSize 0) (by simp) v
    have e2 : (if v.toInt < 0 then [45] else []) ++ (Decimal.natDigits v.toInt.natAbs).map (· + 48) = numeral (decide (v.toInt < 0)) v.toInt.natAbs := by
      unfold numeral; simp
    rw [e2] at e
    exact ⟨_, .int (word v.toInt), _, _, e, fun rest => numeral_head .., numeral_last _ _, rfl, .int128 v,
      fun rest ts hr ht => num v.toInt (by have := BitVec.le_toInt v; omega) (by have := BitVec.toInt_lt (x := v); omega) rest ts hr ht⟩
  | uint128 v =>
    have e := Decimal.printUint128_eq (List.replicate Decimal.bufSize 0) (by simp) v
    have e2 : (Decimal.natDigits v.toNat).map (· + 48) = numeral false v.toNat := by
      unfold numeral; simp
    rw [e2] at e
    exact ⟨_, .int v.toNat, _, _, e, fun rest => numeral_head .., numeral_last _ _, rfl, .uint128 v, fun rest ts hr ht => lex_numeral (neg := false) v.isLt hr ht⟩
  | real t =>
    rcases hl with hl | hl | ⟨v, h1, h2, h3⟩
    · refine ⟨t, .float t, _, _, rfl, fun rest => ?_, ?_, rfl, .float t hl, fun rest ts hr ht => lex_float hl hr ht⟩
      · obtain ⟨c, u, hcu, hh⟩ := JsonLex.float_head hl
        rw [hcu]
        exact head_start (by rw [start_iff]; unfold Digit at hh; omega)
      · intro h
        have := (JsonLex.word_iff 10).1 (JsonLex.float_words hl 10 (List.mem_of_getLast? h))
        omega
    · subst hl
      have e : ascii "-0" = numeral true 0 := by
        unfold numeral
        rw [Decimal.natDigits_lt (by omega)]
        decide
      refine ⟨_, .int 0, _, _, rfl, fun rest => ⟨45, _, rfl, by decide, by decide, by decide⟩, by decide, rfl, .negativeZero, fun rest ts hr ht => ?_⟩
      rw [e, lex_numeral (by omega) hr ht]
      rfl
    · have e := JsonLex.isDecimalInt_numeral h3
      refine ⟨t, .int (word v), _, _, rfl, fun rest => ?_, ?_, rfl, .whole t v h3, fun rest ts hr ht => ?_⟩
      · rw [e]; exact numeral_head ..
      · rw [e]; exact numeral_last _ _
      · rw [e]; exact num v h1 h2 rest ts hr ht
  | char c =>
    have hlast : ∀ c < 256, (charText c).getLast? ≠ some 10 := by decide +kernel
    exact ⟨_, .char c, _, _, rfl, fun rest => ⟨35, _, rfl, by decide, by decide, by decide⟩, hlast c hl, rfl, .char c, fun rest ts => lex_char hl⟩
  | text s =>
    have e : leafText (.text s) = some (34 :: (Escape.quoteBody Escape.scmPattern s ++ [34])) := by simp [leafText, Escape.quoteString, ch]
    refine ⟨_, .string (Escape.quoteBody Escape.scmPattern s), false, .string s, e, fun rest => str _ rest, last _, ?_, .text s, fun rest ts _ ht => ?_⟩
    · simp only [meaning, stringValue_quoted hl]
      rfl
    · have := lex_string (Escape.quoteBody_lexable Escape.scmPattern s (fun c hc => (hl c hc).2) Escape.scm_lexable) ht
      simpa using this
  | quoted s =>
    refine ⟨34 :: (s ++ [34]), .string s, false, .string s, rfl, fun rest => str _ rest, last _, ?_, .quoted s, fun rest ts _ ht => ?_⟩
    · simp only [meaning, stringValue_plain fun c hc => (hl c hc).2]
      rfl
    · have := lex_string (JsonLex.plain_lexable hl) ht
      simpa using this
  | address v =>
    refine ⟨_, .int v, _, _, rfl, fun rest => ⟨35, _, rfl, by decide, by decide, by decide⟩, ?_, rfl, .address v, fun rest ts hr ht => lex_address hl hr ht⟩
    intro h
    have hl' : v < 2 ^ 64 := hl
    obtain ⟨h1, _, _⟩ := radix_spec 32 v (by omega)
    have hm := List.mem_of_getLast? h
    have e : hexDigits v = (Scanf.radix 16 33 v).map (Scanf.digitChar false) := by
      simp [hexDigits, Scanf.printRadix]
    rw [e] at hm
    simp only [List.mem_cons, List.mem_map] at hm
    rcases hm with hm | hm | ⟨d, hd, hm⟩
    · omega
    · omega
    · have := (digitChar_table d (h1 d hd)).2
      rw [hm] at this
      cases this
  | undefined => exact hl.elim

end Verif.Lemmas.ScmTok
