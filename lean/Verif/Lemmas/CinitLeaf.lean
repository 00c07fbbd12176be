import Verif.Lemmas.CinitTok
/-!
# The tokens of a value in a C initializer
-/
namespace Verif.Lemmas.CinitLeaf
open Verif.Model Verif.Model.Flex Verif.Model.Cinit
open Verif.Spec Verif.Spec.Cinit Verif.Lemmas.CinitLex Verif.Lemmas.CinitTok Verif.Lemmas.CinitLoad
open Verif.Spec.Json (Digit)
open Verif.Lemmas.Escape (quoteBody_length unquote_body cinit_quote cinit_step cinit_lexable quoteBody_lexable)
open Verif.Lemmas.JsonLex (numeral isDecimalInt_numeral)

variable {K : Value.Floats}

theorem quoteByte_cases (c : Nat) : Escape.quoteByte Escape.cinitPattern c = [c] ∨ 92 ∈ Escape.quoteByte Escape.cinitPattern c := by
  unfold Escape.quoteByte
  simp only
  generalize (if c = ch '"' then ch '"' else Escape.escMap c) = m
  split
  · right; simp [ch]
  · split
    · exact .inl rfl
    · right; simp [Escape.cinitPattern, ch]

theorem quoteBody_no_backslash (s : List Nat) (h : 92 ∉ Escape.quoteBody Escape.cinitPattern s) : Escape.quoteBody Escape.cinitPattern s = s := by
  induction s with
  | nil => rfl
  | cons c s ih =>
    have hb : Escape.quoteBody Escape.cinitPattern (c :: s) = Escape.quoteByte Escape.cinitPattern c ++ Escape.quoteBody Escape.cinitPattern s := by
      simp [Escape.quoteBody]
    rw [hb] at h ⊢
    rw [ih fun hm => h (List.mem_append.2 (.inr hm))]
    rcases quoteByte_cases c with h1 | h1
    · rw [h1]; rfl
    · exact absurd (List.mem_append.2 (.inl h1)) h

theorem stringValue_quoted {s : List Nat} (hs : ∀ c ∈ s, 0 < c ∧ c < 256)
    (hoct : ∀ p c d q, s = p ++ c :: d :: q → isprint c = false → Escape.escMap c = 0 → ¬ (48 ≤ d ∧ d ≤ 55)) :
    stringValue (Escape.quoteBody Escape.cinitPattern s) = some s := by
  unfold stringValue
  split
  · have hp : ∀ c, Escape.cinitPattern c ≠ [] := by intro c; simp [Escape.cinitPattern]
    have hl := quoteBody_length Escape.cinitPattern hp s
    refine unquote_body Escape.cinitFmt Escape.cinitPattern cinit_quote s [34] hs ?_ _ (by omega)
    intro p c q h hpr hesc h34
    refine cinit_step c (hs c (by simp [h])).2 _ ?_ hpr hesc h34
    intro x d hx hd
    cases q with
    | nil =>
      simp [Escape.quoteBody] at hx
      subst hx
      simp [Scanf.digit, isdigit, islower, isupper] at hd
    | cons e q =>
      have hde := hoct p c e q h hpr hesc
      have he := hs e (by simp [h])
      have hb : Escape.quoteBody Escape.cinitPattern (e :: q) = Escape.quoteByte Escape.cinitPattern e ++ Escape.quoteBody Escape.cinitPattern q := by
        simp [Escape.quoteBody]
      rw [hb] at hx
      have key : ∀ e < 256, 0 < e → ¬ (48 ≤ e ∧ e ≤ 55) →
          (((Escape.quoteByte Escape.cinitPattern e).head?.elim false fun x =>
            (Scanf.digit x).elim true fun d => decide (8 ≤ d))) = true := by decide +kernel
      have hk := key e he.2 he.1 hde
      cases hq : Escape.quoteByte Escape.cinitPattern e with
      | nil => rw [hq] at hk; simp at hk
      | cons y t =>
        rw [hq] at hx hk
        simp at hx
        subst hx
        simp [hd] at hk
        exact hk
  · rename_i h
    rw [quoteBody_no_backslash s h]

/-- what the parser needs to know about a value -/
def BodyOK (w : World) (b : Body K) : Prop :=
  match b with
  | .expr u v => Value.parse K w.env u none [] = some (some v) ∧ Value.keep v = some v
  | .tok t n v => meaning t = some (n, v)
  | _ => True

theorem num_ok (w : World) (v : Value.Value K) (h : Value.keep v = some v) : BodyOK w (.expr [.num v] v) := by
  refine ⟨?_, h⟩
  simp [Value.parse, Value.reduce]

theorem neg_int (w : World) (n : Nat) (h : n < 2 ^ 127) :
    BodyOK (K := K) w (.expr [.op .sub, .num (.int (BitVec.ofNat 128 n))] (.int (BitVec.ofInt 128 (-(n : Int))))) := by
  refine ⟨?_, rfl⟩
  have ht : (BitVec.ofNat 128 n).toInt = (n : Int) := by
    rw [BitVec.toInt_eq_toNat_cond, BitVec.toNat_ofNat]
    split <;> omega
  have hs : Value.signed (-(n : Int)) = some (BitVec.ofInt 128 (-(n : Int))) := by
    unfold Value.signed
    rw [if_pos (by omega)]
  simp [Value.parse, Value.reduce, Value.negAction, Value.neg, ht, hs]

/-- the tokens of a number -/
theorem lex_int {v : Int} (h1 : -(2 ^ 127 : Int) < v) (h2 : v < 2 ^ 128) (w : World) {rest : List Nat} {ts : List (Tok K)} (hr : Ends rest) (h : lex K rest = some ts) :
    ∃ u, lex K (numeral (decide (v < 0)) v.natAbs ++ rest) = some (u.map .e ++ ts) ∧ BodyOK (K := K) w (.expr u (.int (BitVec.ofInt 128 v))) := by
  have hd := lex_nat (K := K) (n := v.natAbs) (by omega) hr h
  by_cases hv : v < 0
  · have hd0 := JsonLex.digits_digit v.natAbs
    have hne : (Decimal.natDigits v.natAbs).map (· + 48) ≠ [] := by simpa using (Decimal.natDigits_spec v.natAbs).2.2.1
    have hm : lex K (45 :: ((Decimal.natDigits v.natAbs).map (· + 48) ++ rest)) = some (.e (.op .sub) :: .e (.num (.int (BitVec.ofNat 128 v.natAbs))) :: ts) := by
      cases hdg : (Decimal.natDigits v.natAbs).map (· + 48) with
      | nil => exact absurd hdg hne
      | cons c t =>
        rw [hdg] at hd0 hd
        exact lex_minus (hd0 c (by simp)) hd
    refine ⟨[.op .sub, .num (.int (BitVec.ofNat 128 v.natAbs))], ?_, ?_⟩
    · simpa [numeral, hv] using hm
    · have := neg_int (K := K) w v.natAbs (by omega)
      rw [show (-(v.natAbs : Int)) = v by omega] at this
      exact this
  · refine ⟨[.num (.int (BitVec.ofNat 128 v.natAbs))], by simpa [numeral, hv] using hd, ?_⟩
    have e : BitVec.ofNat 128 v.natAbs = BitVec.ofInt 128 v := by
      rw [← BitVec.ofInt_natCast, show (v.natAbs : Int) = v by omega]
    rw [e]
    exact num_ok w _ rfl

/-- **The tokens of a value.** -/
theorem lex_leaf (w : World) {l : Leaf} (hl : LeafOK l) : ∃ t, leafText l = some t ∧
    ∀ rest (ts : List (Tok K)), Ends rest → lex K rest = some ts → ∃ b : Body K, b ≠ .list ∧
      lex K (t ++ rest) = some (DF.bodyToks b [] ++ ts) ∧ BodyOK w b ∧ ReadAs l (entry b).null (entry b).value := by
  cases l with
  | bool b =>
    cases b with
    | false =>
      refine ⟨_, rfl, fun rest ts hr ht => ⟨.expr [.num (.int 0#128)] (.int 0#128), by simp, ?_, num_ok w _ rfl, .false⟩⟩
      exact lex_literal (k := 2) (by decide +kernel) (by decide) (by decide) (fun c t e => by cases e; unfold Plain; decide) hr ht
    | true =>
      refine ⟨_, rfl, fun rest ts hr ht => ⟨.expr [.num (.int 1#128)] (.int 1#128), by simp, ?_, num_ok w _ rfl, .true⟩⟩
      exact lex_literal (k := 4) (by decide +kernel) (by decide) (by decide) (fun c t e => by cases e; unfold Plain; decide) hr ht
  | int v =>
    simp only [LeafOK] at hl
    refine ⟨_, rfl, fun rest ts hr ht => ?_⟩
    obtain ⟨u, h1, h2⟩ := lex_int (K := K) (v := v) (by omega) (by omega) w hr ht
    refine ⟨.expr u (.int (BitVec.ofInt 128 v)), by simp, ?_, h2, .int v⟩
    rw [Enum.fmtInt_eq (by omega)]
    exact h1
  | int128 v =>
    refine ⟨_, Decimal.printInt128_eq _ (by simp) v, fun rest ts hr ht => ?_⟩
    have h1 := BitVec.le_toInt v
    have h2 := BitVec.toInt_lt (x := v)
    have h3 : v.toInt ≠ -(2 ^ 127 : Int) := hl
    obtain ⟨u, h4, h5⟩ := lex_int (K := K) (v := v.toInt) (by omega) (by omega) w hr ht
    rw [BitVec.ofInt_toInt] at h5
    refine ⟨.expr u (.int v), by simp, ?_, h5, .int128 v⟩
    simpa [numeral, DF.bodyToks] using h4
  | uint128 v =>
    refine ⟨_, Decimal.printUint128_eq _ (by simp) v, fun rest ts hr ht => ⟨.expr [.num (.int v)] (.int v), by simp, ?_, num_ok w _ rfl, .uint128 v⟩⟩
    have := lex_nat (K := K) v.isLt hr ht
    rw [this, BitVec.ofNat_toNat, BitVec.setWidth_eq]
    rfl
  | real t =>
    refine ⟨t, rfl, fun rest ts hr ht => ?_⟩
    rcases hl with hl | hl | ⟨m, rfl, hm⟩ | rfl | ⟨v, h1, h2, h3⟩
    · exact ⟨.expr [.num (.float (K.strtold t).1)] (.float (K.strtold t).1), by simp, lex_notFinite hl hr ht, num_ok w _ rfl, .notFinite t hl⟩
    · exact ⟨.expr [.num (.float (K.strtold t).1)] (.float (K.strtold t).1), by simp, lex_float hl hr ht, num_ok w _ rfl, .float t hl⟩
    · refine ⟨.expr [.op .sub, .num (.float (K.strtold m).1)] (.float (K.fNeg (K.strtold m).1)), by simp, ?_, ⟨?_, rfl⟩, .negative m hm⟩
      · obtain ⟨c, u, e, hc⟩ := float_head hm
        have := lex_float (K := K) hm hr ht
        rw [e] at this ⊢
        exact lex_minus hc this
      · simp [Value.parse, Value.reduce, Value.negAction, Value.neg]
    · refine ⟨.expr [.op .sub, .num (.int (BitVec.ofNat 128 0))] (.int (BitVec.ofInt 128 (-((0 : Nat) : Int)))), by simp, ?_, neg_int w 0 (by omega), .negativeZero⟩
      have := lex_nat (K := K) (n := 0) (by omega) hr ht
      have e : (Decimal.natDigits 0).map (· + 48) = [48] := by rw [Decimal.natDigits_lt (by omega)]; rfl
      rw [e] at this
      show lex K (45 :: 48 :: rest) = _
      exact lex_minus (by unfold Digit; omega) this
    · obtain ⟨u, h4, h5⟩ := lex_int (K := K) h1 h2 w hr ht
      refine ⟨.expr u (.int (BitVec.ofInt 128 v)), by simp, ?_, h5, .whole t v h3⟩
      rw [isDecimalInt_numeral h3]
      exact h4
  | char c =>
    obtain ⟨h1, h2⟩ := char_table c hl
    refine ⟨_, rfl, fun rest ts _ ht => ⟨.tok (.char (charBody c)) false (.char c), by simp, ?_, ?_, .char c⟩⟩
    · rw [charText_eq]
      have := lex_char (body39_of _ h1) ht
      simpa [DF.bodyToks] using this
    · simp [BodyOK, meaning, h2]
  | text s =>
    refine ⟨_, rfl, fun rest ts _ ht => ⟨.tok (.string (Escape.quoteBody Escape.cinitPattern s)) false (.string (some s)), by simp, ?_, ?_, .text s⟩⟩
    · have := lex_string (quoteBody_lexable Escape.cinitPattern s (fun c hc => (hl.1 c hc).2) cinit_lexable) ht
      simpa [Escape.quoteString, ch, DF.bodyToks] using this
    · simp [BodyOK, meaning, stringValue_quoted hl.1 hl.2]
  | plain s =>
    refine ⟨s, rfl, fun rest ts hr ht => ⟨.expr [.id (s ++ rest) s.length] (.id (some (s ++ rest)) s.length), by simp, lex_ident hl hr ht, ⟨?_, rfl⟩, .plain s _ (List.prefix_append ..)⟩⟩
    simp [Value.parse, Value.reduce]
  | void c =>
    cases c with
    | pointer => exact ⟨_, rfl, fun rest ts hr ht => ⟨.tok .null true (.int 0#128), by simp, lex_null hr ht, rfl, .pointer⟩⟩
    | aggregate => exact ⟨_, rfl, fun rest ts hr ht => ⟨.empty, by simp, lex_lbrace (lex_rbrace ht), trivial, .aggregate⟩⟩
    | other =>
      refine ⟨_, rfl, fun rest ts hr ht => ⟨.expr [.num (.int 0#128)] (.int 0#128), by simp, ?_, num_ok w _ rfl, .other⟩⟩
      have := lex_nat (K := K) (n := 0) (by omega) hr ht
      have e : (Decimal.natDigits 0).map (· + 48) = [48] := by rw [Decimal.natDigits_lt (by omega)]; rfl
      rw [e] at this
      exact this
  | undefined => exact hl.elim

end Verif.Lemmas.CinitLeaf
