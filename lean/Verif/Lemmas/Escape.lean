import Verif.Model.Escape
namespace Verif.Lemmas.Escape
open Verif.Model Verif.Model.Scanf Verif.Model.Escape

/-- positional value of digit characters; `none` if some character is not a digit of the base -/
def valueOf (base : Nat) : List Nat → Nat → Option Nat
  | [], acc => some acc
  | c :: s, acc => match digit c with
    | some d => if d < base then valueOf base s (acc * base + d) else none
    | none => none

theorem digits_eq (base : Nat) (txt rest : List Nat) :
    ∀ (acc width v : Nat), valueOf base txt acc = some v → txt.length ≤ width →
    (txt.length = width ∨ ∀ c d, rest.head? = some c → digit c = some d → base ≤ d) →
    digits base width (txt ++ rest) acc = (v, txt.length) := by
  induction txt with
  | nil =>
    intro acc width v hv hw hr
    simp [valueOf] at hv
    subst hv
    cases width with
    | zero => cases rest <;> rfl
    | succ w =>
      cases rest with
      | nil => rfl
      | cons c s =>
        have := hr.resolve_left (by simp)
        simp only [List.nil_append, digits, List.length_nil]
        cases hd : digit c with
        | none => rfl
        | some d =>
          have := this c d rfl hd
          simp [Nat.not_lt.mpr this]
  | cons c txt ih =>
    intro acc width v hv hw hr
    cases width with
    | zero => simp at hw
    | succ w =>
      unfold valueOf at hv
      simp only [List.cons_append, digits]
      cases hd : digit c with
      | none => simp [hd] at hv
      | some d =>
        simp only [hd] at hv
        by_cases hb : d < base
        · simp only [hb, if_true] at hv ⊢
          rw [ih _ w v hv (by simp at hw; omega) (by simp at hr; exact hr)]
          simp
        · simp [hb] at hv

theorem digit_not_space {c d : Nat} (h : digit c = some d) :
    isspace c = false ∧ c ≠ 43 ∧ c ≠ 45 := by
  unfold digit at h
  have : 48 ≤ c := by
    by_cases hc : 48 ≤ c
    · exact hc
    · exfalso
      have h1 : isdigit c = false := by simp [isdigit]; omega
      have h2 : islower c = false := by simp [islower]; omega
      have h3 : isupper c = false := by simp [isupper]; omega
      simp [h1, h2, h3] at h
  refine ⟨?_, by omega, by omega⟩
  simp [isspace]; omega

theorem digit_lt16_not_x {c d : Nat} (h : digit c = some d) (hd : d < 16) : c ≠ 120 ∧ c ≠ 88 := by
  constructor
  · intro e; subst e; simp [digit, isdigit, islower, ch] at h; omega
  · intro e; subst e; simp [digit, isdigit, islower, isupper, ch] at h; omega

/-- `sscanf` of a digit string of at least two digits -/
theorem scanInt_eq (base width : Nat) (txt rest : List Nat) (v : Nat)
    (hv : valueOf base txt 0 = some v) (h2 : 2 ≤ txt.length) (hb : base ≤ 16)
    (hw : txt.length ≤ width)
    (hr : txt.length = width ∨ ∀ c d, rest.head? = some c → digit c = some d → base ≤ d) :
    scanInt base width (txt ++ rest) = some (v % 2 ^ 32, txt.length) := by
  match txt, h2 with
  | c0 :: c1 :: t, _ =>
    have hv' := hv
    unfold valueOf at hv
    cases hd0 : digit c0 with
    | none => simp [hd0] at hv
    | some d0 =>
      simp only [hd0] at hv
      by_cases hb0 : d0 < base
      · simp only [hb0, if_true] at hv
        unfold valueOf at hv
        cases hd1 : digit c1 with
        | none => simp [hd1] at hv
        | some d1 =>
          simp only [hd1] at hv
          by_cases hb1 : d1 < base
          · obtain ⟨s1, s2, s3⟩ := digit_not_space hd0
            obtain ⟨x1, x2⟩ := digit_lt16_not_x hd1 (by omega)
            have hdig := digits_eq base (c0 :: c1 :: t) rest 0 width v hv' hw hr
            unfold scanInt
            simp only [List.cons_append] at hdig ⊢
            have e1 : List.takeWhile isspace (c0 :: c1 :: (t ++ rest)) = [] := by simp [s1]
            have e2 : List.dropWhile isspace (c0 :: c1 :: (t ++ rest)) = c0 :: c1 :: (t ++ rest) := by
              simp [s1]
            have e3 : ((c0 :: c1 :: (t ++ rest)).head? == some (ch '-')) = false := by simp [ch, s3]
            have e4 : ((c0 :: c1 :: (t ++ rest)).head? == some (ch '+')) = false := by simp [ch, s2]
            have e5 : ((c0 :: c1 :: (t ++ rest)).tail.head? == some (ch 'x')) = false := by simp [ch, x1]
            have e6 : ((c0 :: c1 :: (t ++ rest)).tail.head? == some (ch 'X')) = false := by simp [ch, x2]
            simp only [e1, e2, e3, e4, e5, e6, Bool.or_false, Bool.and_false, Bool.false_and,
              Bool.false_eq_true, if_false, hdig]
            simp
          · simp [hb1] at hv
      · simp [hb0] at hv

/-! ### the finite tables -/

theorem unMap_escMap : ∀ c < 256, escMap c ≠ 0 → unMap (escMap c) = c := by decide +kernel
theorem escMap_ne_10 : ∀ c < 256, escMap c ≠ 10 := by decide +kernel
theorem unMap_quote : unMap 34 = 0 := by decide +kernel
theorem unMap_u : unMap 117 = 0 := by decide +kernel
theorem unMap_x : unMap 120 = 0 := by decide +kernel
theorem unMap_digit : ∀ c < 256, isdigit c = true → unMap c = 0 := by decide +kernel
theorem escMap_print : ∀ c < 256, escMap c = 0 → c ≠ 92 := by decide +kernel
theorem unMap_le : ∀ c < 256, unMap c < 256 := by decide +kernel

theorem oct_table : ∀ c < 256, valueOf 8 (printRadix 8 3 false c) 0 = some c ∧
    (printRadix 8 3 false c).length = 3 ∧ ((printRadix 8 3 false c).all isdigit) = true := by decide +kernel
theorem hex4_table : ∀ c < 256, valueOf 16 (printRadix 16 4 false c) 0 = some c ∧
    (printRadix 16 4 false c).length = 4 ∧ ((printRadix 16 4 false c).all isalnum) = true := by decide +kernel
theorem hex2_table : ∀ c < 256, valueOf 16 (printRadix 16 2 false c) 0 = some c ∧
    (printRadix 16 2 false c).length = 2 ∧ ((printRadix 16 2 false c).all isalnum) = true := by decide +kernel
theorem hexU_table : ∀ c < 256, valueOf 16 (printRadix 16 2 true c) 0 = some c ∧
    (printRadix 16 2 true c).length = 2 ∧ ((printRadix 16 2 true c).all isalnum) = true := by decide +kernel

/-! ### backslash formats -/

/-- the text after the byte at hand, as far as the reader of that byte looks at it -/
def StepOK (fmt : Fmt) (pat : Nat → List Nat) (c : Nat) (rest : List Nat) : Prop :=
  isprint c = false → escMap c = 0 → c ≠ 34 → ∃ t, pat c = 92 :: t ∧ unMap (t.headD 0) = 0 ∧ t ≠ [] ∧
    ∃ v size, fmt.scan (t ++ rest) = some (v, size) ∧ v % 256 = c ∧ fmt.advance size = t.length

theorem unquoteLoop_cons (fmt : Fmt) (fuel c : Nat) (s' : List Nat) (rem : Nat) (h : rem ≠ 0) :
    unquoteLoop fmt (fuel + 1) (c :: s') rem =
        if c = ch '\\' then
          let c1 := s'.headD 0
          if unMap c1 > 0 then
            (unquoteLoop fmt fuel (s'.drop 1) (rem - 2)).map (unMap c1 :: ·)
          else match fmt.scan s' with
            | some (v, size) =>
              (unquoteLoop fmt fuel (s'.drop (fmt.advance size)) (rem - 1 - fmt.advance size)).map
                (v % 256 :: ·)
            | none => (unquoteLoop fmt fuel (s'.drop 1) (rem - 2)).map (c1 :: ·)
        else (unquoteLoop fmt fuel s' (rem - 1)).map (c :: ·) := by
  rw [unquoteLoop.eq_def]
  simp only [h, if_false]
  rfl

theorem unquote_step (fmt : Fmt) (pat : Nat → List Nat)
    (hq : ∀ rest, fmt.scan (34 :: rest) = none)
    (c : Nat) (hc : 0 < c) (hc' : c < 256) (rest : List Nat) (hstep : StepOK fmt pat c rest)
    (fuel rem : Nat) :
    unquoteLoop fmt (fuel + 1) (quoteByte pat c ++ rest) ((quoteByte pat c).length + rem) =
      (unquoteLoop fmt fuel rest rem).map (c :: ·) := by
  by_cases hq34 : c = 34
  · subst hq34
    have e : quoteByte pat 34 = [92, 34] := by simp [quoteByte, ch]
    rw [e]
    simp only [List.cons_append, List.nil_append]
    rw [unquoteLoop_cons _ _ _ _ _ (by simp)]
    simp only [ch, List.headD_cons, unMap_quote]
    simp [hq]
  · by_cases hm : escMap c = 0
    · by_cases hp : isprint c = true
      · have e : quoteByte pat c = [c] := by simp [quoteByte, ch, hq34, hm, hp]
        have h92 := escMap_print c hc' hm
        rw [e]
        simp only [List.cons_append, List.nil_append]
        rw [unquoteLoop_cons _ _ _ _ _ (by simp)]
        simp [ch, h92]
      · simp only [Bool.not_eq_true] at hp
        obtain ⟨t, ht, hu, hne, v, size, hscan, hv, hadv⟩ := hstep hp hm hq34
        have e : quoteByte pat c = 92 :: t := by simp [quoteByte, ch, hq34, hm, hp, ht]
        rw [e]
        simp only [List.cons_append]
        rw [unquoteLoop_cons _ _ _ _ _ (by simp)]
        have hh : (t ++ rest).headD 0 = t.headD 0 := by
          cases t with
          | nil => exact absurd rfl hne
          | cons a b => rfl
        simp only [ch, hh, hu, hscan, hadv, hv]
        simp
    · have e : quoteByte pat c = [92, escMap c] := by simp [quoteByte, ch, hq34, hm]
      have hu := unMap_escMap c hc' hm
      rw [e]
      simp only [List.cons_append, List.nil_append]
      rw [unquoteLoop_cons _ _ _ _ _ (by simp)]
      simp only [ch, List.headD_cons, hu]
      simp [hc]

/-- `hstep` restricted to the positions that occur in `s` followed by `rest` -/
theorem unquote_body (fmt : Fmt) (pat : Nat → List Nat)
    (hq : ∀ rest, fmt.scan (34 :: rest) = none) (s rest : List Nat)
    (hs : ∀ c ∈ s, 0 < c ∧ c < 256)
    (hstep : ∀ p c q, s = p ++ c :: q → StepOK fmt pat c (quoteBody pat q ++ rest)) :
    ∀ fuel, s.length < fuel →
    unquoteLoop fmt fuel (quoteBody pat s ++ rest) (quoteBody pat s).length = some s := by
  induction s with
  | nil =>
    intro fuel hf
    cases fuel with
    | zero => simp at hf
    | succ f => simp [quoteBody, unquoteLoop]
  | cons c s ih =>
    intro fuel hf
    cases fuel with
    | zero => simp at hf
    | succ f =>
      obtain ⟨h0, h1⟩ := hs c (by simp)
      have hb : quoteBody pat (c :: s) = quoteByte pat c ++ quoteBody pat s := by
        simp [quoteBody]
      rw [hb, List.append_assoc, List.length_append]
      rw [unquote_step fmt pat hq c h0 h1 _ (hstep [] c s rfl)]
      rw [ih (fun x hx => hs x (by simp [hx])) _ f (by simp at hf; omega)]
      · rfl
      · intro p x q hpq
        exact hstep (c :: p) x q (by simp [hpq])

/-- every quoted byte is nonempty, so the loop bound `length + 1` suffices -/
theorem quoteByte_length (pat : Nat → List Nat) (hp : ∀ c, pat c ≠ []) (c : Nat) :
    1 ≤ (quoteByte pat c).length := by
  have h : 1 ≤ (pat c).length := by
    have := hp c
    cases h : pat c with
    | nil => exact absurd h this
    | cons a b => simp
  unfold quoteByte
  simp only
  generalize (if c = ch '"' then ch '"' else escMap c) = m
  split
  · simp
  · split
    · simp
    · exact h

theorem quoteBody_length (pat : Nat → List Nat) (hp : ∀ c, pat c ≠ []) (s : List Nat) :
    s.length ≤ (quoteBody pat s).length := by
  induction s with
  | nil => simp
  | cons c s ih =>
    have hb : quoteBody pat (c :: s) = quoteByte pat c ++ quoteBody pat s := by simp [quoteBody]
    have := quoteByte_length pat hp c
    rw [hb, List.length_append]; simp; omega

/-! ### lexing -/

/-- a text that the lexer's string rule copies: no bare quote, backslashes escape a non-newline -/
def Lexable : List Nat → Prop
  | [] => True
  | c :: s => c ≠ 34 ∧ if c = 92 then (match s with | [] => False | e :: s' => e ≠ 10 ∧ Lexable s') else Lexable s

theorem lexBody_nil_quote (q : Nat) (s : List Nat) : lexBody q (q :: s) = some ([], s) := by
  rw [lexBody.eq_def]; simp
theorem lexBody_esc (q e : Nat) (s : List Nat) (hq : q ≠ 92) (he : e ≠ 10) :
    lexBody q (92 :: e :: s) = (lexBody q s).map fun (b, r) => (92 :: e :: b, r) := by
  rw [lexBody.eq_def]; simp [ch, he, Ne.symm hq]
theorem lexBody_lit (q c : Nat) (s : List Nat) (hq : c ≠ q) (hc : c ≠ 92) :
    lexBody q (c :: s) = (lexBody q s).map fun (b, r) => (c :: b, r) := by
  rw [lexBody.eq_def]; simp [ch, hq, hc]

theorem Lexable_esc (e : Nat) (s : List Nat) : Lexable (92 :: e :: s) ↔ (e ≠ 10 ∧ Lexable s) := by
  rw [Lexable.eq_def]; simp
theorem Lexable_lit (c : Nat) (s : List Nat) (hc : c ≠ 92) : Lexable (c :: s) ↔ (c ≠ 34 ∧ Lexable s) := by
  rw [Lexable.eq_def]; simp [hc]
theorem not_Lexable_92 : ¬ Lexable [92] := by
  rw [Lexable.eq_def]; simp

theorem lexBody_of_lexable : ∀ (body rest : List Nat), Lexable body →
    lexBody 34 (body ++ 34 :: rest) = some (body, rest)
  | [], rest, _ => lexBody_nil_quote 34 rest
  | [c], rest, h => by
    by_cases hc : c = 92
    · subst hc; exact absurd h not_Lexable_92
    · rw [Lexable_lit _ _ hc] at h
      simp only [List.cons_append, List.nil_append]
      rw [lexBody_lit 34 c _ h.1 hc, lexBody_nil_quote]; rfl
  | c :: e :: s, rest, h => by
    by_cases hc : c = 92
    · subst hc
      rw [Lexable_esc] at h
      have ih := lexBody_of_lexable s rest h.2
      simp only [List.cons_append]
      rw [lexBody_esc 34 e _ (by decide) h.1, ih]; rfl
    · rw [Lexable_lit _ _ hc] at h
      have ih := lexBody_of_lexable (e :: s) rest h.2
      rw [List.cons_append, lexBody_lit 34 c _ h.1 hc, ih]; rfl

theorem Lexable_append : ∀ (a b : List Nat), Lexable a → Lexable b → Lexable (a ++ b)
  | [], b, _, hb => hb
  | [c], b, h, hb => by
    by_cases hc : c = 92
    · subst hc; exact absurd h not_Lexable_92
    · rw [Lexable_lit _ _ hc] at h
      rw [List.cons_append, Lexable_lit _ _ hc]
      exact ⟨h.1, hb⟩
  | c :: e :: s, b, h, hb => by
    by_cases hc : c = 92
    · subst hc
      rw [Lexable_esc] at h
      simp only [List.cons_append]
      rw [Lexable_esc]
      exact ⟨h.1, Lexable_append s b h.2 hb⟩
    · rw [Lexable_lit _ _ hc] at h
      rw [List.cons_append, Lexable_lit _ _ hc]
      exact ⟨h.1, Lexable_append (e :: s) b h.2 hb⟩

theorem quoteBody_lexable (pat : Nat → List Nat) (s : List Nat)
    (hs : ∀ c ∈ s, c < 256)
    (h : ∀ c < 256, isprint c = false → Lexable (pat c)) : Lexable (quoteBody pat s) := by
  induction s with
  | nil => exact trivial
  | cons c s ih =>
    have hb : quoteBody pat (c :: s) = quoteByte pat c ++ quoteBody pat s := by simp [quoteBody]
    rw [hb]
    have hc := hs c (by simp)
    refine Lexable_append _ _ ?_ (ih (fun x hx => hs x (by simp [hx])))
    by_cases h34 : c = 34
    · subst h34
      have e : quoteByte pat 34 = [92, 34] := by simp [quoteByte, ch]
      rw [e, Lexable_esc]; exact ⟨by decide, trivial⟩
    · by_cases hm : escMap c = 0
      · by_cases hp : isprint c = true
        · have := escMap_print c hc hm
          have e : quoteByte pat c = [c] := by simp [quoteByte, ch, h34, hm, hp]
          rw [e, Lexable_lit _ _ this]; exact ⟨h34, trivial⟩
        · simp only [Bool.not_eq_true] at hp
          have e : quoteByte pat c = pat c := by simp [quoteByte, ch, h34, hm, hp]
          rw [e]; exact h c hc hp
      · have := escMap_ne_10 c hc
        have e : quoteByte pat c = [92, escMap c] := by simp [quoteByte, ch, h34, hm]
        rw [e, Lexable_esc]; exact ⟨this, trivial⟩

def lexableB : List Nat → Bool
  | [] => true
  | c :: s => c != 34 && (if c = 92 then (match s with | [] => false | e :: s' => e != 10 && lexableB s') else lexableB s)

theorem lexable_of_B : ∀ s, lexableB s = true → Lexable s
  | [], _ => trivial
  | [c], h => by
    rw [lexableB.eq_def] at h
    by_cases hc : c = 92
    · subst hc; simp at h
    · rw [Lexable_lit _ _ hc]; simp [hc] at h; exact ⟨h.1, trivial⟩
  | c :: e :: s, h => by
    rw [lexableB.eq_def] at h
    by_cases hc : c = 92
    · subst hc
      rw [Lexable_esc]; simp at h
      exact ⟨h.1, lexable_of_B s h.2⟩
    · rw [Lexable_lit _ _ hc]; simp [hc] at h
      exact ⟨h.1, lexable_of_B (e :: s) h.2⟩

theorem cinit_lexable : ∀ c < 256, isprint c = false → Lexable (cinitPattern c) := by
  intro c hc hp
  apply lexable_of_B
  revert hp; revert c; decide +kernel
theorem json_lexable : ∀ c < 256, isprint c = false → Lexable (jsonPattern c) := by
  intro c hc hp
  apply lexable_of_B
  revert hp; revert c; decide +kernel
theorem scm_lexable : ∀ c < 256, isprint c = false → Lexable (scmPattern c) := by
  intro c hc hp
  apply lexable_of_B
  revert hp; revert c; decide +kernel

/-! ### the three formats -/

theorem json_step (c : Nat) (hc : c < 256) (rest : List Nat) : StepOK jsonFmt jsonPattern c rest := by
  intro _ _ _
  obtain ⟨h1, h2, _⟩ := hex4_table c hc
  have e : jsonPattern c = 92 :: 117 :: printRadix 16 4 false c := by simp [jsonPattern, ch]
  refine ⟨117 :: printRadix 16 4 false c, e, unMap_u, by simp, c, 5, ?_, by omega, ?_⟩
  · simp only [jsonFmt, List.cons_append, lit]
    rw [scanInt_eq 16 4 _ rest c h1 (by omega) (by omega) (by omega) (Or.inl h2)]
    simp [ch, h2]; omega
  · simp [jsonFmt, h2]

theorem scm_step (c : Nat) (hc : c < 256) (rest : List Nat) : StepOK scmFmt scmPattern c rest := by
  intro _ _ _
  obtain ⟨h1, h2, _⟩ := hex2_table c hc
  have e : scmPattern c = 92 :: 120 :: (printRadix 16 2 false c ++ [59]) := by simp [scmPattern, ch]
  refine ⟨120 :: (printRadix 16 2 false c ++ [59]), e, unMap_x, by simp, c, 3, ?_, by omega, ?_⟩
  · simp only [scmFmt, List.cons_append, lit, List.append_assoc, List.nil_append]
    rw [scanInt_eq 16 _ _ (59 :: rest) c h1 (by omega) (by omega) (by simp [noWidth]; omega)
      (Or.inr (by intro c d h; simp at h; subst h; simp [digit, isdigit, islower, isupper]))]
    simp [ch, h2]; omega
  · simp [scmFmt, h2]

theorem cinit_step (c : Nat) (hc : c < 256) (rest : List Nat)
    (hr : ∀ x d, rest.head? = some x → digit x = some d → 8 ≤ d) :
    StepOK cinitFmt cinitPattern c rest := by
  intro _ _ _
  obtain ⟨h1, h2, h3⟩ := oct_table c hc
  have e : cinitPattern c = 92 :: printRadix 8 3 false c := by simp [cinitPattern, ch]
  refine ⟨printRadix 8 3 false c, e, ?_, ?_, c, 3, ?_, by omega, h2.symm⟩
  · cases h : printRadix 8 3 false c with
    | nil => rw [h] at h2; simp at h2
    | cons a t =>
      rw [h] at h3
      simp at h3
      refine unMap_digit a ?_ h3.1
      have := h3.1
      simp [isdigit] at this
      omega
  · intro h; rw [h] at h2; simp at h2
  · simp only [cinitFmt]
    rw [scanInt_eq 8 _ _ rest c h1 (by omega) (by omega) (by simp [noWidth]; omega) (Or.inr hr)]
    simp [h2]; omega

theorem json_quote (rest : List Nat) : jsonFmt.scan (34 :: rest) = none := by
  simp [jsonFmt, lit, ch]
theorem scm_quote (rest : List Nat) : scmFmt.scan (34 :: rest) = none := by
  simp [scmFmt, lit, ch]
theorem scanInt_quote (base w : Nat) (rest : List Nat) : scanInt base w (34 :: rest) = none := by
  unfold scanInt
  have e1 : List.takeWhile isspace (34 :: rest) = [] := by simp [isspace]
  have e2 : List.dropWhile isspace (34 :: rest) = 34 :: rest := by simp [isspace]
  have e3 : ((34 :: rest).head? == some (ch '-')) = false := by simp [ch]
  have e4 : ((34 :: rest).head? == some (ch '+')) = false := by simp [ch]
  have e5 : ((34 :: rest).head? == some (ch '0')) = false := by simp [ch]
  have e6 : digits base w (34 :: rest) 0 = (0, 0) := by
    cases w <;> simp [digits, digit, isdigit, islower, isupper]
  simp only [e1, e2, e3, e4, e5, Bool.or_false, Bool.and_false, Bool.false_and,
    Bool.false_eq_true, if_false, e6]
  simp
theorem cinit_quote (rest : List Nat) : cinitFmt.scan (34 :: rest) = none := by
  simp only [cinitFmt]; exact scanInt_quote _ _ _

theorem lex_quoteString (pat : Nat → List Nat) (s rest : List Nat) (hs : ∀ c ∈ s, c < 256)
    (h : ∀ c < 256, isprint c = false → Lexable (pat c)) :
    lexString (ch '"') (quoteString pat s ++ rest) = some (quoteBody pat s, rest) := by
  have := lexBody_of_lexable _ rest (quoteBody_lexable pat s hs h)
  unfold quoteString
  simp only [List.cons_append, lexString, List.append_assoc]
  simp [ch, this]

/-! ### XML -/

theorem xmlLoop_cons (fuel c : Nat) (s' : List Nat) (rem : Nat) (h : rem ≠ 0) :
    xmlUnquoteLoop (fuel + 1) (c :: s') rem =
        if c ≠ ch '&' then (xmlUnquoteLoop fuel s' (rem - 1)).map (c :: ·)
        else if s'.head? == some (ch '#') then
          match xmlScan (c :: s') with
          | none => xmlUnquoteLoop fuel s' (rem - 1)
          | some (code, size) =>
            (xmlUnquoteLoop fuel ((c :: s').drop size) (rem - size)).map (code % 256 :: ·)
        else
          match xmlHash (tolower (s'.headD 0)) with
          | some (e, sym) =>
            if casePrefix (e.drop 2) (s'.drop 1) then
              (xmlUnquoteLoop fuel ((c :: s').drop e.length) (rem - e.length)).map (sym :: ·)
            else (xmlUnquoteLoop fuel s' (rem - 1)).map (c :: ·)
          | none => (xmlUnquoteLoop fuel s' (rem - 1)).map (c :: ·) := by
  rw [xmlUnquoteLoop.eq_def]
  simp only [h, if_false]
  rfl

theorem xml_lit (fuel : Nat) (c : Nat) (hc : c ≠ 38) (s : List Nat) (rem : Nat) :
    xmlUnquoteLoop (fuel + 1) (c :: s) (1 + rem) = (xmlUnquoteLoop fuel s rem).map (c :: ·) := by
  rw [xmlLoop_cons _ _ _ _ (by omega)]
  simp [ch, hc]

theorem xmlHash_a : xmlHash 97 = some ([38, 97, 109, 112, 59], 38) := by decide +kernel
theorem xmlHash_l : xmlHash 108 = some ([38, 108, 116, 59], 60) := by decide +kernel
theorem xmlHash_g : xmlHash 103 = some ([38, 103, 116, 59], 62) := by decide +kernel
theorem xmlHash_q : xmlHash 113 = some ([38, 113, 117, 111, 116, 59], 34) := by decide +kernel

theorem xml_named (fuel rem : Nat) (e1 : Nat) (t : List Nat) (sym : Nat) (rest : List Nat)
    (he : e1 ≠ 35) (hl : tolower e1 = e1) (hh : xmlHash e1 = some (38 :: e1 :: t, sym)) :
    xmlUnquoteLoop (fuel + 1) ((38 :: e1 :: t) ++ rest) ((38 :: e1 :: t).length + rem) =
      (xmlUnquoteLoop fuel rest rem).map (sym :: ·) := by
  rw [List.cons_append, xmlLoop_cons _ _ _ _ (by simp)]
  have hp : casePrefix t (t ++ rest) = true := by simp [casePrefix]
  have hd : ((38 :: e1 :: t) ++ rest).drop ((38 :: e1 :: t).length) = rest := by simp
  simp only [List.cons_append] at hd
  simp only [List.cons_append, ch]
  simp [he, hl, hh, hp]

theorem xml_step (c : Nat) (hc' : c < 256) (rest : List Nat) (fuel rem : Nat) :
    xmlUnquoteLoop (fuel + 1) (xmlQuoteByte c ++ rest) ((xmlQuoteByte c).length + rem) =
      (xmlUnquoteLoop fuel rest rem).map (c :: ·) := by
  by_cases h1 : c = 38
  · subst h1
    exact xml_named fuel rem 97 [109, 112, 59] 38 rest (by decide) (by decide) xmlHash_a
  by_cases h2 : c = 60
  · subst h2
    exact xml_named fuel rem 108 [116, 59] 60 rest (by decide) (by decide) xmlHash_l
  by_cases h3 : c = 62
  · subst h3
    exact xml_named fuel rem 103 [116, 59] 62 rest (by decide) (by decide) xmlHash_g
  by_cases h4 : c = 34
  · subst h4
    exact xml_named fuel rem 113 [117, 111, 116, 59] 34 rest (by decide) (by decide) xmlHash_q
  have he : xmlEsc c = none := by simp [xmlEsc, ch, h1, h2, h3, h4]
  by_cases hp : isprint c = true
  · have e : xmlQuoteByte c = [c] := by simp [xmlQuoteByte, he, hp]
    rw [e]
    exact xml_lit fuel c h1 rest rem
  · obtain ⟨t1, t2, _⟩ := hexU_table c hc'
    have e : xmlQuoteByte c = 38 :: 35 :: 120 :: (printRadix 16 2 true c ++ [59]) := by
      simp [xmlQuoteByte, he, hp, xmlPattern, ch]
    rw [e, List.cons_append, xmlLoop_cons _ _ _ _ (by simp)]
    have hs : xmlScan (38 :: 35 :: 120 :: (printRadix 16 2 true c ++ (59 :: rest))) = some (c, 6) := by
      simp only [xmlScan]
      rw [scanInt_eq 16 2 _ (59 :: rest) c t1 (by omega) (by omega) (by omega) (Or.inl t2)]
      simp only [ch]
      have : (printRadix 16 2 true c ++ (59 :: rest)).drop (printRadix 16 2 true c).length = 59 :: rest := by
        simp
      rw [this]
      have hm : c % 2 ^ 32 = c := by omega
      simp [t2, hm]
    simp only [List.cons_append, List.append_assoc, List.nil_append, ch]
    rw [hs]
    have hd : (38 :: 35 :: 120 :: (printRadix 16 2 true c ++ (59 :: rest))).drop 6 = rest := by
      simp only [List.drop_succ_cons]
      rw [show (3 : Nat) = (printRadix 16 2 true c).length + 1 by omega]
      rw [show printRadix 16 2 true c ++ 59 :: rest = (printRadix 16 2 true c ++ [59]) ++ rest by simp]
      rw [List.drop_append_of_le_length (by simp)]
      simp
    simp only [hd]
    have hm : c % 256 = c := by omega
    simp [hm, t2]

theorem xmlQuoteByte_length (c : Nat) : 1 ≤ (xmlQuoteByte c).length := by
  unfold xmlQuoteByte xmlEsc
  split
  · rename_i h
    repeat' split at h
    all_goals first | (simp at h; subst h; simp) | simp at h
  · split <;> simp [xmlPattern]

theorem xml_body (s rest : List Nat) (hs : ∀ c ∈ s, c < 256) :
    ∀ fuel, s.length < fuel →
    xmlUnquoteLoop fuel (xmlQuoteString s ++ rest) (xmlQuoteString s).length = some s := by
  induction s with
  | nil =>
    intro fuel hf
    cases fuel with
    | zero => simp at hf
    | succ f => simp [xmlQuoteString, xmlUnquoteLoop]
  | cons c s ih =>
    intro fuel hf
    cases fuel with
    | zero => simp at hf
    | succ f =>
      have hb : xmlQuoteString (c :: s) = xmlQuoteByte c ++ xmlQuoteString s := by
        simp [xmlQuoteString]
      rw [hb, List.append_assoc, List.length_append, xml_step c (hs c (by simp))]
      rw [ih (fun x hx => hs x (by simp [hx])) f (by simp at hf; omega)]
      rfl

theorem xml_clean (s : List Nat) (hs : ∀ c ∈ s, c < 256) :
    ∀ b ∈ xmlQuoteString s, b ≠ 60 ∧ b ≠ 62 ∧ b ≠ 34 := by
  intro b hb
  simp only [xmlQuoteString, List.mem_flatMap] at hb
  obtain ⟨c, hc, hb⟩ := hb
  have key : ∀ c < 256, ((xmlQuoteByte c).all fun b => b != 60 && b != 62 && b != 34) = true := by
    decide +kernel
  have := List.all_eq_true.mp (key c (hs c hc)) b hb
  simp at this
  exact ⟨this.1.1, this.1.2, this.2⟩

/-! ### bounds for arbitrary input -/

theorem unquoteLoop_total (fmt : Fmt) : ∀ (fuel : Nat) (s : List Nat) (rem : Nat),
    rem < fuel → rem ≤ s.length →
    ∃ out, unquoteLoop fmt fuel s rem = some out ∧ out.length ≤ rem := by
  intro fuel
  induction fuel with
  | zero => intro s rem h; omega
  | succ fuel ih =>
    intro s rem hf hl
    by_cases h0 : rem = 0
    · subst h0; exact ⟨[], by rw [unquoteLoop.eq_def]; simp, by simp⟩
    · cases s with
      | nil => simp at hl; omega
      | cons c s' =>
        rw [unquoteLoop_cons _ _ _ _ _ h0]
        simp only [List.length_cons] at hl
        have hdrop : ∀ (k : Nat) (v : Nat), ∃ out,
            Option.map (v :: ·) (unquoteLoop fmt fuel (s'.drop k) (rem - 1 - k)) = some out ∧ out.length ≤ rem := by
          intro k v
          obtain ⟨o, h1, h2⟩ := ih (s'.drop k) (rem - 1 - k) (by omega) (by simp; omega)
          exact ⟨v :: o, by simp [h1], by simp; omega⟩
        by_cases hc : c = ch '\\'
        · simp only [hc, if_true]
          split
          · exact hdrop 1 _
          · split
            · exact hdrop _ _
            · exact hdrop 1 _
        · simp only [hc, if_false]
          exact hdrop 0 c

theorem xmlLoop_total : ∀ (fuel : Nat) (s : List Nat) (rem : Nat),
    rem < fuel → rem ≤ s.length →
    (∀ k v, xmlScan (s.drop k) ≠ some (v, 0)) →
    ∃ out, xmlUnquoteLoop fuel s rem = some out ∧ out.length ≤ rem := by
  intro fuel
  induction fuel with
  | zero => intro s rem h; omega
  | succ fuel ih =>
    intro s rem hf hl hn
    by_cases h0 : rem = 0
    · subst h0; exact ⟨[], by rw [xmlUnquoteLoop.eq_def]; simp, by simp⟩
    · cases s with
      | nil => simp at hl; omega
      | cons c s' =>
        rw [xmlLoop_cons _ _ _ _ h0]
        have hstep : ∀ k, 0 < k → ∃ out, xmlUnquoteLoop fuel ((c :: s').drop k) (rem - k) = some out ∧
            out.length ≤ rem - k := by
          intro k hk
          refine ih _ _ (by omega) (by rw [List.length_drop]; omega) ?_
          intro j v
          rw [List.drop_drop]
          exact hn _ v
        have hlit : ∀ v, ∃ out, Option.map (v :: ·) (xmlUnquoteLoop fuel s' (rem - 1)) = some out ∧
            out.length ≤ rem := by
          intro v
          obtain ⟨o, h1, h2⟩ := hstep 1 (by omega)
          simp at h1
          exact ⟨v :: o, by simp [h1], by simp; omega⟩
        split
        · exact hlit c
        · split
          · cases hs : xmlScan (c :: s') with
            | none =>
              obtain ⟨o, h1, h2⟩ := hstep 1 (by omega)
              exact ⟨o, by simpa using h1, by omega⟩
            | some p =>
              obtain ⟨code, size⟩ := p
              have hsz : 0 < size := by
                cases size with
                | zero => exact absurd hs (hn 0 code)
                | succ n => omega
              obtain ⟨o, h1, h2⟩ := hstep size hsz
              exact ⟨code % 256 :: o, by simp [h1], by simp; omega⟩
          · split
            · rename_i e sym he
              split
              · by_cases hel : e.length = 0
                · exfalso
                  have hh := he
                  have key : ∀ (l : List Nat) (m : Option (List Nat × Nat)) (x : Nat),
                      (∀ p, m = some p → p.1 ≠ []) →
                      ∀ p, l.foldl (fun m i => match xmlEsc i with
                        | some e => if e[1]? = some x then some (e, i) else m
                        | none => m) m = some p → p.1 ≠ [] := by
                    intro l
                    induction l with
                    | nil => intro m x hm p hp; exact hm p hp
                    | cons i l ihl =>
                      intro m x hm p hp
                      refine ihl _ x ?_ p hp
                      intro q hq
                      dsimp only at hq
                      split at hq
                      · split at hq
                        · rename_i e' h1 h2
                          simp at hq; subst hq
                          intro hcon
                          simp at hcon; subst hcon; simp at h2
                        · exact hm q hq
                      · exact hm q hq
                  exact key _ none _ (by simp) _ hh (by simpa using hel)
                · obtain ⟨o, h1, h2⟩ := hstep e.length (by omega)
                  exact ⟨sym :: o, by simp [h1], by simp; omega⟩
              · exact hlit c
            · exact hlit c

end Verif.Lemmas.Escape
