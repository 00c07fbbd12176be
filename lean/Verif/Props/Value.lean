import Verif.Lemmas.Value
/-!
# C33: arithmetic in C-initializer documents

`loadInt K env toks` is what an integer variable receives for the tokens of an expression: `none` undefined behaviour,
`some none` the load is reported as failed, `some (some v)` the 128-bit value.  `K` is any floating-point arithmetic.
-/
namespace Verif.Props.Value
open Verif.Model Verif.Model.Enum Verif.Model.Value Verif.Spec Verif.Spec.Expr Verif.Lemmas.Value

/-- **C33.** Every expression of numbers, enum constants, signs, operators and parentheses, spelled with the usual
precedences, is read as its exact value, if that and all intermediate results are representable and no divisor is zero. -/
theorem C33_exact (K : Floats) (env : Env) (hm : env.maxLen = maxLength 0 env.names) (e : Expr) (toks : List (Tok K))
    (hs : Spells 1 e toks) (z : Int) (hz : exact (constant env.names) e = some z) :
    loadInt K env toks = some (some (BitVec.ofInt 128 z)) ∧ (BitVec.ofInt 128 z).toInt = z := by
  obtain ⟨a, ha, hp⟩ := parse_whole env hs
  obtain ⟨v, h1, h2⟩ := ev_exact hm ha hz
  rw [h1] at hp
  exact ⟨load_den hp h2, toInt_ofInt h2.2⟩

/-- **C33.** An expression with an unknown name is never read as a number, wherever the name stands. -/
theorem C33_unknown_name (K : Floats) (env : Env) (hm : env.maxLen = maxLength 0 env.names) (e : Expr) (toks : List (Tok K))
    (hs : Spells 1 e toks) (hu : unknown (constant env.names) e = true) (r : Option (BitVec 128))
    (hr : loadInt K env toks = some r) : r = none := by
  obtain ⟨a, ha, hp⟩ := parse_whole env hs
  unfold loadInt at hr
  rw [hp] at hr
  cases hv : ev env a with
  | none => rw [hv] at hr; simp at hr
  | some v =>
    rw [hv] at hr
    simp only [Option.bind_eq_bind, Option.bind_some] at hr
    rcases ev_bad hm ha hu hv with h | ⟨s, len, h, hid⟩
    · rw [h] at hr; simp [keep] at hr; exact hr.symm
    · rw [h] at hr
      simp [keep, Model.Value.cast, hid] at hr
      exact hr.symm

def numRank : Num → Nat
  | .int => 5
  | .float => 6
  | .complex => 7

/-- **C33.** The operators promote both operands to the wider kind: the result is of the wider of the two kinds, at least integer. -/
theorem C33_promotes (K : Floats) (env : Env) (op : Arith) (l r v : Value K)
    (h : arith K env op l r = some (true, v)) : v.rank = max 5 (max l.rank r.rank) := by
  have hc : ∀ (to : Num) (x y : Value K), Model.Value.cast K env to x = some (some y) →
      y.rank = numRank to := by
    intro to x y h
    have hl : ∀ {str tail}, loadVar K env to str = some (y, tail) →
        y.rank = numRank to := by
      intro str tail h
      unfold loadVar at h
      cases to with
      | int =>
        simp only [Option.bind_eq_bind] at h
        cases hb : loadBitmask env.names env.maxLen (str.length + 1) str 0#128 with
        | none => rw [hb] at h; simp at h
        | some p => rw [hb] at h; simp at h; rw [← h.1]; rfl
      | float => simp at h; rw [← h.1]; rfl
      | complex =>
        simp only [Option.bind_eq_bind] at h
        cases hb : loadComplex K str with
        | none => rw [hb] at h; simp at h
        | some p => rw [hb] at h; simp at h; rw [← h.1]; rfl
    have hi : ∀ b, y = castInt K to b → y.rank = numRank to := by
      intro b h; rw [h]; cases to <;> rfl
    unfold Model.Value.cast at h
    split at h
    · split at h
      · simp at h
      · simp only [Option.some.injEq] at h; exact hi _ h.symm
    · simp only [Option.some.injEq] at h; exact hi _ h.symm
    · split at h
      · rename_i x _
        cases hx : K.fToInt x with
        | none => rw [hx] at h; simp at h
        | some b => rw [hx] at h; simp at h; rw [← h]; rfl
      · simp only [Option.some.injEq] at h; rw [← h]; rfl
      · simp only [Option.some.injEq] at h; rw [← h]; rfl
    · split at h
      · rename_i x _
        cases hx : K.cToInt x with
        | none => rw [hx] at h; simp at h
        | some b => rw [hx] at h; simp at h; rw [← h]; rfl
      · simp only [Option.some.injEq] at h; rw [← h]; rfl
      · simp only [Option.some.injEq] at h; rw [← h]; rfl
    · split at h
      · simp at h
      · split at h
        · simp at h
        · rename_i heq
          simp only [Option.some.injEq] at h
          split at h
          · cases h
          · cases h; exact hl heq
    · split at h
      · simp at h
      · split at h
        · simp at h
        · rename_i heq
          simp only [Option.some.injEq] at h
          split at h
          · cases h
          · cases h; exact hl heq
    · simp at h
    · simp at h
  have hrank : ∀ x : Value K, x.rank ≤ 7 := by intro x; cases x <;> simp [Value.rank]
  have hty : numRank (resultType l r) = max 5 (max l.rank r.rank) := by
    have h1 := hrank l
    have h2 := hrank r
    unfold resultType
    by_cases ha : max l.rank r.rank ≤ 5
    · rw [if_pos ha]; simp only [numRank]; omega
    · by_cases hb : max l.rank r.rank = 6
      · rw [if_neg ha, if_pos hb]; simp only [numRank]; omega
      · rw [if_neg ha, if_neg hb]; simp only [numRank]; omega
  unfold arith at h
  rw [← hty]
  simp only [Option.bind_eq_bind] at h
  cases h1 : Model.Value.cast K env (resultType l r) l with
  | none => rw [h1] at h; simp at h
  | some l' =>
    cases l' with
    | none => rw [h1] at h; simp at h
    | some l' =>
      cases h2 : Model.Value.cast K env (resultType l r) r with
      | none => rw [h1, h2] at h; simp at h
      | some r' =>
        cases r' with
        | none => rw [h1, h2] at h; simp at h
        | some r' =>
          rw [h1, h2] at h
          simp only [Option.bind_some] at h
          split at h
          · simp at h
          · have h3 := hc _ _ _ h1
            rw [← h3]
            split at h
            · rename_i a b _
              cases hi : intArith op a b with
              | none => rw [hi] at h; simp at h
              | some c => rw [hi] at h; simp at h; rw [← h]; rfl
            · simp at h; rw [← h]; rfl
            · simp at h; rw [← h]; rfl
            · simp at h

/-- **C33.** If the wider operand is a floating-point number, the operation is the floating-point one on the converted
operands; a quotient if the divisor is not zero. -/
theorem C33_float (K : Floats) (env : Env) (op : Arith) (a : BitVec 128) (x y : K.F) :
    ((op = .div → K.fIsZero x = false) →
      arith K env op (.int a) (.float x) = some (true, .float (K.fOp op (K.fOfInt a) x))) ∧
    ((op = .div → K.fIsZero (K.fOfInt a) = false) →
      arith K env op (.float x) (.int a) = some (true, .float (K.fOp op x (K.fOfInt a)))) ∧
    ((op = .div → K.fIsZero y = false) → arith K env op (.float x) (.float y) = some (true, .float (K.fOp op x y))) := by
  refine ⟨fun h => ?_, fun h => ?_, fun h => ?_⟩ <;>
    simp [arith, resultType, Value.rank, Model.Value.cast, Model.Value.castInt, isZero] <;>
    (intro hd; simp [h hd])

/-- **C33.** The same for complex operands. -/
theorem C33_complex (K : Floats) (env : Env) (op : Arith) (a : BitVec 128) (f : K.F) (x y : K.C) :
    ((op = .div → K.cIsZero x = false) →
      arith K env op (.int a) (.complex x) = some (true, .complex (K.cOp op (K.cOfInt a) x)) ∧
      arith K env op (.float f) (.complex x) = some (true, .complex (K.cOp op (K.cOfF f) x)) ∧
      arith K env op (.complex y) (.complex x) = some (true, .complex (K.cOp op y x))) ∧
    ((op = .div → K.cIsZero (K.cOfInt a) = false) →
      arith K env op (.complex x) (.int a) = some (true, .complex (K.cOp op x (K.cOfInt a)))) ∧
    ((op = .div → K.cIsZero (K.cOfF f) = false) →
      arith K env op (.complex x) (.float f) = some (true, .complex (K.cOp op x (K.cOfF f)))) := by
  refine ⟨fun h => ⟨?_, ?_, ?_⟩, fun h => ?_, fun h => ?_⟩ <;>
    simp [arith, resultType, Value.rank, Model.Value.cast, Model.Value.castInt, isZero] <;>
    (intro hd; simp [h hd])

/-- **C33.** Division by an operand that is zero after promotion is reported as failure and not executed. -/
theorem C33_zero_divisor (K : Floats) (env : Env) (l r l' r' : Value K)
    (hl : Model.Value.cast K env (resultType l r) l = some (some l'))
    (hr : Model.Value.cast K env (resultType l r) r = some (some r')) (h0 : isZero r' = true) :
    ∃ v, arith K env .div l r = some (false, v) := by
  refine ⟨zeroOf K (resultType l r), ?_⟩
  simp [arith, hl, hr, h0]

/-- **C33.** The same for the remainder. -/
theorem C33_zero_modulus (K : Floats) (env : Env) (l : Value K) : ∃ v, intOp K env .mod l (.int 0#128) = some (false, v) := by
  unfold intOp
  cases resolveId env l with
  | none => exact ⟨_, rfl⟩
  | some l => cases l <;> exact ⟨_, rfl⟩

/-- **C33, deviation.** The grammar ignores that failure: in a document a quotient or remainder with divisor zero
is silently read as 0. -/
theorem C33_deviation_zero_divisor (K : Floats) (env : Env) (hm : env.maxLen = maxLength 0 env.names) (l r : Expr) (o : Bop)
    (ho : o = .div ∨ o = .mod) (toks : List (Tok K)) (hs : Spells 1 (.bin o l r) toks) (z : Int)
    (hl : exact (constant env.names) l = some z) (hr : exact (constant env.names) r = some 0) :
    loadInt K env toks = some (some 0#128) := by
  obtain ⟨a, ha, hp⟩ := parse_whole env hs
  cases ha with
  | @bin _ _ a b _ ha hb =>
  obtain ⟨v, h1, h2⟩ := ev_exact hm ha hl
  obtain ⟨w, h3, h4⟩ := ev_exact hm hb hr
  have hd : Den env (Value.int (K := K) 0#128) 0 := ⟨.inl rfl, by decide, by decide⟩
  have hb : binAction K env o v w = some (.int 0#128) := by
    rcases ho with rfl | rfl
    · simp [binAction, arith_den h2 h4]
    · simp [binAction, intOp_den h2 h4]
  rw [ev, h1] at hp
  simp only [Option.bind_some, h3, hb] at hp
  exact load_den hp hd

/-- **C33, deviation.** Sums beyond the 128-bit range are not detected: the addition overflows, which C leaves undefined. -/
theorem C33_deviation_overflow (K : Floats) (env : Env) :
    loadInt K env [.num (.int (BitVec.ofInt 128 (2 ^ 127 - 1))), .op .add, .num (.int 1#128)] = none := by
  have h : intArith .add (BitVec.ofInt 128 (2 ^ 127 - 1)) 1#128 = none := by decide +kernel
  simp only [loadInt, parse, reduce, binAction, arith, resultType, Value.rank, Model.Value.cast, Model.Value.castInt, Option.bind_eq_bind,
    Option.bind_some, Nat.max_self, Nat.le_refl, if_true, h]
  rfl

/-- **C33.** A number given as a quoted text (`text` is the printed form of `v`) is read as the number if only spaces follow;
if anything else follows, it is rejected. -/
theorem C33_number_in_quotes (K : Floats) (env : Env) (buffer text : List Nat) (hb : buffer.length = Decimal.bufSize) (v : BitVec 128)
    (ht : Decimal.printInt128 buffer v = some text) :
    (∀ sp : List Nat, (∀ c ∈ sp, isspace c = true) →
      Model.Value.cast K env .int (.string (some (text ++ sp))) = some (some (.int v))) ∧
    (∀ (sp junk : List Nat) (c : Nat), (∀ c ∈ sp, isspace c = true) → isspace c = false → (sp = [] → isalnum c = false) → c ≠ '|'.toNat →
      Model.Value.cast K env .int (.string (some (text ++ sp ++ c :: junk))) = some none) := by
  have sp_alnum : ∀ c, isspace c = true → isalnum c = false := by
    intro c hc
    simp only [isspace, Bool.or_eq_true, beq_iff_eq, Bool.and_eq_true, decide_eq_true_eq] at hc
    simp only [isalnum, isalpha, isupper, islower, isdigit, Bool.or_eq_false_iff, Bool.and_eq_false_iff, decide_eq_false_iff_not]
    omega
  constructor
  · intro sp hsp
    have hd : sp.dropWhile isspace = [] := by rw [← List.append_nil sp, List.dropWhile_append_of_pos hsp]; rfl
    have := loadVar_printed (K := K) (env := env) hb ht (rest := sp)
      (by intro c hc; exact sp_alnum c (hsp c (List.mem_of_mem_head? hc))) (by rw [hd]; simp)
    simp [Model.Value.cast, this, hd]
  · intro sp junk c hsp hc hal hbar
    have hd : (sp ++ c :: junk).dropWhile isspace = c :: junk := by
      rw [List.dropWhile_append_of_pos hsp]; simp [hc]
    have := loadVar_printed (K := K) (env := env) hb ht (rest := sp ++ c :: junk) (by
      intro x hx
      cases sp with
      | nil => simp at hx; subst hx; exact hal rfl
      | cons y sp => simp at hx; subst hx; exact sp_alnum _ (hsp _ (by simp))) (by rw [hd]; intro h; exact hbar (Option.some.inj h))
    rw [List.append_assoc]
    simp [Model.Value.cast, this, hd]

/-- **C33.** A quoted text without escapes is not copied but read in place up to its length: it is accepted exactly if the
number (and spaces after it) ends where the quoted text ends. -/
theorem C33_number_in_place (K : Floats) (env : Env) (buffer text : List Nat) (hb : buffer.length = Decimal.bufSize) (v : BitVec 128)
    (ht : Decimal.printInt128 buffer v = some text) (sp rest : List Nat) (hsp : ∀ c ∈ sp, c = 32) (c : Nat) (len : Nat)
    (hc : isspace c = false ∧ isalnum c = false ∧ c ≠ '|'.toNat) :
    Model.Value.cast K env .int (.substr (some (text ++ (sp ++ c :: rest))) len) =
      some (if len = text.length + sp.length then some (.int v) else none) := by
  have hd : (sp ++ c :: rest).dropWhile isspace = c :: rest := by
    rw [List.dropWhile_append_of_pos (by intro x hx; rw [hsp x hx]; rfl)]; simp [hc.1]
  have := loadVar_printed (K := K) (env := env) hb ht (rest := sp ++ c :: rest) (by
      intro x hx
      cases sp with
      | nil => simp at hx; subst hx; exact hc.2.1
      | cons y sp => simp at hx; subst hx; rw [hsp y (by simp)]; rfl) (by rw [hd]; intro h; exact hc.2.2 (Option.some.inj h))
  simp only [Model.Value.cast, this, hd]
  have e : (text ++ (sp ++ c :: rest)).length - (c :: rest).length = text.length + sp.length := by simp; omega
  rw [e]
  by_cases h : len = text.length + sp.length
  · simp [h]
  · rw [if_pos (fun h' => h h'.symm), if_neg h]

/-- **C33.** An identifier is resolved only if it ends where the token ends. -/
theorem C33_whole_name (env : Env) (s : List Nat) (len : Nat) (v : BitVec 128) (h : valueId env (some s) len = some v) :
    len = (s.takeWhile fun c => isalnum c || c == '_'.toNat).length := by
  unfold valueId at h
  simp only at h
  cases hg : getEnum env.names env.maxLen s with
  | none => rw [hg] at h; simp at h
  | some p =>
    obtain ⟨w, tail⟩ := p
    rw [hg] at h
    simp only at h
    have ht : tail = s.dropWhile idChar := by
      unfold getEnum at hg
      simp only at hg
      split at hg
      · cases hg
      · split at hg
        · simp at hg; exact hg.2.symm
        · split at hg
          · simp at hg; exact hg.2.symm
          · split at hg
            · cases hg
            · split at hg <;> simp at hg <;> exact hg.2.symm
    split at h
    · cases h
    · rename_i hl
      simp only [ne_eq, Decidable.not_not] at hl
      have e : (s.takeWhile idChar).length + (s.dropWhile idChar).length = s.length := by
        rw [← List.length_append, List.takeWhile_append_dropWhile]
      rw [ht] at hl
      have : (s.takeWhile fun c => isalnum c || c == '_'.toNat) = s.takeWhile idChar := rfl
      rw [this]; omega

/-! ### the hypotheses are met -/

/-- a floating-point arithmetic to run examples with -/
def noFloats : Floats where
  F := Unit
  C := Unit
  fOp _ _ _ := ()
  cOp _ _ _ := ()
  fNeg _ := ()
  cNeg _ := ()
  fIsZero _ := false
  cIsZero _ := false
  fOfInt _ := ()
  cOfInt _ := ()
  cOfF _ := ()
  fOfC _ := ()
  fToInt _ := none
  cToInt _ := none
  f0 := ()
  c0 := ()
  one := ()
  cMake _ _ := ()
  strtold s := ((), s)

def ascii (s : String) : List Nat := s.toList.map Char.toNat

def names0 : List Ed := [{ name := ascii "MINUS_TWO", value := BitVec.ofInt 64 (-2), ty := .i8 },
  { name := ascii "TEN", value := 10#64, ty := .u16 }]

def env0 : Env := { names := names0, maxLen := maxLength 0 names0 }

/-- `7 + 3 * -(TEN - 4) % 5` -/
def toks0 : List (Tok noFloats) :=
  [.num (.int 7#128), .op .add, .num (.int 3#128), .op .mul, .op .sub, .lpar, .id (ascii "TEN - 4) % 5") 3, .op .sub,
    .num (.int 4#128), .rpar, .op .mod, .num (.int 5#128)]

def expr0 : Expr := .bin .add (.num 7) (.bin .mod (.bin .mul (.num 3) (.neg (.bin .sub (.name (ascii "TEN")) (.num 4)))) (.num 5))

theorem ten_identifier : Identifier (ascii "TEN") := by
  refine ⟨⟨84, rfl, .inl (by decide)⟩, ?_, by decide, by decide⟩
  intro c hc
  have : c ∈ [84, 69, 78] := hc
  left
  simp only [List.mem_cons, List.not_mem_nil, or_false] at this
  rcases this with rfl | rfl | rfl <;> rfl

theorem spells0 : Spells 1 expr0 toks0 := by
  have num : ∀ z : Int, Spells (K := noFloats) 4 (.num z) [.num (.int (BitVec.ofInt 128 z))] := .num
  have name : Spells (K := noFloats) 4 (.name (ascii "TEN")) [.id (ascii "TEN" ++ ascii " - 4) % 5") 3] :=
    .name _ _ ten_identifier (by intro c hc; cases hc; decide)
  have diff : Spells (K := noFloats) 1 (.bin .sub (.name (ascii "TEN")) (.num 4)) _ :=
    .up (.bin .sub (.up (.up name)) (.up (num 4)))
  have prod := Spells.bin (K := noFloats) .mod (.bin .mul (.up (num 3)) (.neg (.paren diff))) (num 5)
  exact .up (.bin .add (.up (.up (num 7))) prod)

example : exact (constant env0.names) expr0 = some 4 := by decide +kernel
example : loadInt noFloats env0 toks0 = some (some 4#128) :=
  (C33_exact noFloats env0 rfl expr0 toks0 spells0 4 (by decide +kernel)).1
example : unknown (constant env0.names) (.bin .or (.num 1) (.neg (.name (ascii "ELEVEN")))) = true := by decide +kernel
example : (constant env0.names) (ascii "MINUS_TWO") = some (-2) := by decide +kernel
example : Model.Value.cast noFloats env0 .int (.string (some (ascii "-12 "))) = some (some (.int (BitVec.ofInt 128 (-12)))) :=
  (C33_number_in_quotes noFloats env0 (List.replicate Decimal.bufSize 0) (ascii "-12") (by rfl) _ (by decide +kernel)).1 [32] (by decide)
example : Model.Value.cast noFloats env0 .int (.string (some (ascii "-12."))) = some none :=
  (C33_number_in_quotes noFloats env0 (List.replicate Decimal.bufSize 0) (ascii "-12") (by rfl) (BitVec.ofInt 128 (-12)) (by decide +kernel)).2 [] [] 46
    (by decide) (by decide) (by decide) (by decide)
example : valueId env0 (some (ascii "TEN + 1")) 3 = some 10#128 := by decide +kernel
example : valueId env0 (some (ascii "TEN + 1")) 2 = none := by decide +kernel
/-- the operators `| & ^` have one level, unlike in C: `1 | 6 & 4` is 4 -/
example : loadInt noFloats env0 [.num (.int 1#128), .op .or, .num (.int 6#128), .op .and, .num (.int 4#128)] = some (some 4#128) := by
  decide +kernel
/-- `1 / 0` -/
example : loadInt noFloats env0 [.num (.int 1#128), .op .div, .num (.int 0#128)] = some (some 0#128) :=
  C33_deviation_zero_divisor noFloats env0 rfl (.num 1) (.num 0) .div (.inl rfl) _
    (.up (.up (.bin .div (.up (.num 1)) (.num 0)))) 1 (by decide +kernel) (by decide +kernel)

end Verif.Props.Value
