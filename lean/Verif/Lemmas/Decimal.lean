import Verif.Model.Decimal
import Verif.Spec.Numeral
namespace Verif.Lemmas.Decimal
open Verif.Model Verif.Model.Decimal Verif.Spec

/-- canonical digits, most significant first -/
def natDigits (n : Nat) : List Nat :=
  if n < 10 then [n] else natDigits (n / 10) ++ [n % 10]

theorem natDigits_lt {n : Nat} (h : n < 10) : natDigits n = [n] := by
  rw [natDigits]; simp [h]
theorem natDigits_ge {n : Nat} (h : 10 ≤ n) : natDigits n = natDigits (n / 10) ++ [n % 10] := by
  rw [natDigits]; rw [if_neg (by omega)]

theorem positional_append (b : Nat) (xs : List Nat) (d : Nat) :
    positional b (xs ++ [d]) = positional b xs * b + d := by
  simp [positional, List.foldl_append]

theorem natDigits_spec (n : Nat) : (∀ d ∈ natDigits n, d < 10) ∧ positional 10 (natDigits n) = n ∧
    natDigits n ≠ [] ∧ ((natDigits n).head? = some 0 → natDigits n = [0]) := by
  induction n using Nat.strongRecOn with
  | ind n ih =>
    by_cases h : n < 10
    · rw [natDigits_lt h]
      refine ⟨by simpa using h, by simp [positional], by simp, ?_⟩
      simp
    · obtain ⟨h1, h2, h3, h4⟩ := ih (n / 10) (by omega)
      rw [natDigits_ge (by omega)]
      refine ⟨?_, ?_, by simp, ?_⟩
      · intro d hd
        simp only [List.mem_append, List.mem_singleton] at hd
        rcases hd with hd | hd
        · exact h1 d hd
        · omega
      · rw [positional_append, h2]; omega
      · intro hh
        exfalso
        have hh' : (natDigits (n / 10)).head? = some 0 := by
          cases hc : natDigits (n / 10) with
          | nil => exact absurd hc h3
          | cons a t => rw [hc] at hh; simpa using hh
        have := h4 hh'
        rw [this] at h2
        simp [positional] at h2
        omega

theorem natDigits_isDecimal (n : Nat) : IsDecimal n ((natDigits n).map (· + 48)) := by
  obtain ⟨h1, h2, h3, h4⟩ := natDigits_spec n
  exact ⟨natDigits n, rfl, h1, h2, h3, h4⟩

theorem natDigits_length_pow (n : Nat) : ∀ k, (natDigits n).length = k + 2 → 10 ^ (k + 1) ≤ n := by
  induction n using Nat.strongRecOn with
  | ind n ih =>
    intro k hk
    by_cases h : n < 10
    · rw [natDigits_lt h] at hk; simp at hk
    · rw [natDigits_ge (by omega)] at hk
      simp at hk
      cases k with
      | zero => simp; omega
      | succ k =>
        have := ih (n / 10) (by omega) k (by omega)
        rw [Nat.pow_succ]
        omega

theorem natDigits_length_le (n : Nat) (h : n < 2 ^ 128) : (natDigits n).length ≤ 39 := by
  by_cases hc : (natDigits n).length ≤ 39
  · exact hc
  · exfalso
    have h1 := natDigits_length_pow n ((natDigits n).length - 2) (by omega)
    have h2 : 10 ^ 39 ≤ 10 ^ ((natDigits n).length - 2 + 1) :=
      Nat.pow_le_pow_right (by omega) (by omega)
    omega

theorem natDigits_length_pos (n : Nat) : 1 ≤ (natDigits n).length := by
  have := (natDigits_spec n).2.2.1
  cases h : natDigits n with
  | nil => exact absurd h this
  | cons a t => simp

theorem push_ok (buf : List Nat) (out c : Nat) (h0 : 0 < out) (h : out ≤ buf.length) :
    push buf out c = some (buf.take (out - 1) ++ c :: buf.drop out, out - 1) := by
  unfold push wr
  rw [if_neg (by omega), if_pos (by omega)]
  simp only [Option.bind_eq_bind, Option.bind_some]
  rw [List.set_eq_take_append_cons_drop, if_pos (by omega)]
  rw [show out - 1 + 1 = out by omega]

theorem digitLoop_ok : ∀ (fuel : Nat) (buf : List Nat) (out value : Nat), value < fuel →
    (natDigits value).length ≤ out → out ≤ buf.length →
    digitLoop fuel buf out value =
      some (buf.take (out - (natDigits value).length) ++ (natDigits value).map (· + 48) ++ buf.drop out,
        out - (natDigits value).length) := by
  intro fuel
  induction fuel with
  | zero => intro buf out value h; omega
  | succ fuel ih =>
    intro buf out value hv hout hlen
    have hpos := natDigits_length_pos value
    unfold digitLoop
    rw [push_ok buf out _ (by omega) hlen]
    simp only [Option.bind_eq_bind, Option.bind_some]
    by_cases h : value < 10
    · have : value / 10 = 0 := by omega
      simp only [this, ne_eq, not_true_eq_false, if_false]
      rw [natDigits_lt h]
      simp [Nat.mod_eq_of_lt h, ch, Nat.add_comm]
    · have hne : value / 10 ≠ 0 := by omega
      simp only [hne, ne_eq, not_false_eq_true, if_true]
      have hd := natDigits_ge (n := value) (by omega)
      have hl : (natDigits value).length = (natDigits (value / 10)).length + 1 := by
        rw [hd]; simp
      rw [ih _ _ _ (by omega) (by omega) (by simp; omega)]
      rw [hl, hd]
      have e : out - 1 - (natDigits (value / 10)).length = out - ((natDigits (value / 10)).length + 1) := by omega
      simp only [Option.some.injEq, Prod.mk.injEq]
      refine ⟨?_, e⟩
      rw [e]
      have hle : out - ((natDigits (value / 10)).length + 1) ≤ out - 1 := by omega
      have t1 : (buf.take (out - 1)).length = out - 1 := by simp; omega
      rw [List.take_append_of_le_length (by omega), List.take_take, Nat.min_eq_left hle]
      rw [List.drop_append, t1, List.drop_eq_nil_of_le (by omega : (buf.take (out - 1)).length ≤ out - 1)]
      simp [ch, Nat.add_comm]

theorem uintmaxtostr_ok (buf : List Nat) (value : Nat)
    (hout : (natDigits value).length + 1 ≤ buf.length) :
    uintmaxtostr buf buf.length value =
      some (buf.take (buf.length - 1 - (natDigits value).length) ++ (natDigits value).map (· + 48) ++ [0],
        buf.length - 1 - (natDigits value).length) := by
  unfold uintmaxtostr
  rw [push_ok buf _ _ (by omega) (Nat.le_refl _)]
  simp only [Option.bind_eq_bind, Option.bind_some]
  rw [digitLoop_ok _ _ _ _ (by omega) (by omega) (by simp)]
  have t1 : (buf.take (buf.length - 1)).length = buf.length - 1 := by simp
  rw [List.take_append_of_le_length (by omega), List.take_take, Nat.min_eq_left (by omega)]
  rw [List.drop_append, t1, List.drop_eq_nil_of_le (by omega : (buf.take (buf.length - 1)).length ≤ buf.length - 1)]
  simp

theorem cstrAt_ok (pre txt : List Nat) (h : ∀ c ∈ txt, c ≠ 0) (out : Nat) (ho : out = pre.length) :
    cstrAt (pre ++ txt ++ [0]) out = some txt := by
  subst ho
  unfold cstrAt
  have : (pre ++ txt ++ [0]).drop pre.length = txt ++ [0] := by simp
  rw [this, if_pos (by simp)]
  congr 1
  induction txt with
  | nil => simp
  | cons a t ih =>
    have h1 := h a (by simp)
    have h2 : ∀ c ∈ t, c ≠ 0 := fun c hc => h c (by simp [hc])
    simp only [List.cons_append, List.takeWhile_cons, h1, ne_eq, not_false_eq_true, decide_true, if_true]
    rw [ih h2 (by simp)]

theorem digits_ne_zero (n : Nat) : ∀ c ∈ (natDigits n).map (· + 48), c ≠ 0 := by
  intro c hc
  simp at hc
  omega

theorem bufSize_eq : bufSize = 41 := rfl

theorem printUint128_eq (buffer : List Nat) (hb : buffer.length = bufSize) (v : BitVec 128) :
    printUint128 buffer v = some ((natDigits v.toNat).map (· + 48)) := by
  have hl := natDigits_length_le v.toNat v.isLt
  unfold printUint128
  rw [← hb, uintmaxtostr_ok _ _ (by rw [hb, bufSize_eq]; omega)]
  simp only [Option.bind_eq_bind, Option.bind_some]
  rw [cstrAt_ok _ _ (digits_ne_zero _) _ (by simp; omega)]

theorem neg_toNat (v : BitVec 128) (h : v.slt 0 = true) :
    (~~~v + 1#128).toNat = v.toInt.natAbs := by
  have h1 : v.toInt < 0 := by simpa [BitVec.slt] using h
  have h2 := v.isLt
  have h3 : ~~~v + 1#128 = -v := by rw [BitVec.neg_eq_not_add]
  rw [h3, BitVec.toNat_neg]
  rw [BitVec.toInt_eq_toNat_cond] at *
  split at h1 <;> split <;> omega

theorem nonneg_toNat (v : BitVec 128) (h : v.slt 0 = false) :
    v.toNat = v.toInt.natAbs := by
  have h1 : ¬ v.toInt < 0 := by simpa [BitVec.slt] using h
  have h2 := v.isLt
  rw [BitVec.toInt_eq_toNat_cond] at *
  split at h1 <;> split <;> omega

theorem printInt128_eq (buffer : List Nat) (hb : buffer.length = bufSize) (v : BitVec 128) :
    printInt128 buffer v = some ((if v.toInt < 0 then [45] else []) ++
      (natDigits v.toInt.natAbs).map (· + 48)) := by
  have hlt : v.toInt.natAbs < 2 ^ 128 := by
    have h2 := v.isLt
    rw [BitVec.toInt_eq_toNat_cond]
    split <;> omega
  have hl := natDigits_length_le _ hlt
  unfold printInt128
  by_cases h : v.slt 0 = true
  · have h1 : v.toInt < 0 := by simpa [BitVec.slt] using h
    simp only [h, if_true, h1]
    rw [neg_toNat v h, ← hb, uintmaxtostr_ok _ _ (by rw [hb, bufSize_eq]; omega)]
    simp only [Option.bind_eq_bind, Option.bind_some]
    rw [push_ok _ _ _ (by rw [hb, bufSize_eq]; omega) (by simp; omega)]
    simp only [Option.bind_some]
    have e : (List.take (buffer.length - 1 - (natDigits v.toInt.natAbs).length) buffer ++
          List.map (fun x => x + 48) (natDigits v.toInt.natAbs) ++ [0]).drop
          (buffer.length - 1 - (natDigits v.toInt.natAbs).length) =
        List.map (fun x => x + 48) (natDigits v.toInt.natAbs) ++ [0] := by
      rw [List.append_assoc, List.drop_append_of_le_length (by simp; omega),
        List.drop_eq_nil_of_le (by simp; omega)]
      simp
    rw [e]
    have := cstrAt_ok ((List.take (buffer.length - 1 - (natDigits v.toInt.natAbs).length) buffer ++
          List.map (fun x => x + 48) (natDigits v.toInt.natAbs) ++ [0]).take
          (buffer.length - 1 - (natDigits v.toInt.natAbs).length - 1))
          (45 :: (natDigits v.toInt.natAbs).map (· + 48))
          (by intro c hc; simp at hc; rcases hc with hc | hc <;> omega)
          (buffer.length - 1 - (natDigits v.toInt.natAbs).length - 1)
          (by simp; omega)
    simpa [ch] using this
  · simp only [Bool.not_eq_true] at h
    have h1 : ¬ v.toInt < 0 := by simpa [BitVec.slt] using h
    simp only [h, h1, if_false, Bool.false_eq_true]
    rw [nonneg_toNat v h, ← hb, uintmaxtostr_ok _ _ (by rw [hb, bufSize_eq]; omega)]
    simp only [Option.bind_eq_bind, Option.bind_some]
    rw [cstrAt_ok _ _ (digits_ne_zero _) _ (by simp; omega)]
    simp

/-! ## Parsing -/

/-- `rest` does not begin with a letter or digit -/
def EndsNumber (rest : List Nat) : Prop := ∀ c, rest.head? = some c → isalnum c = false

theorem positional_foldl (b : Nat) (ds : List Nat) (acc : Nat) :
    ds.foldl (fun a d => a * b + d) acc = acc * b ^ ds.length + positional b ds := by
  induction ds generalizing acc with
  | nil => simp [positional]
  | cons d ds ih =>
    simp only [List.foldl_cons, List.length_cons, positional]
    rw [ih, ih (0 * b + d)]
    rw [Nat.pow_succ]
    have : acc * (b ^ ds.length * b) = acc * b * b ^ ds.length := by
      rw [Nat.mul_assoc, Nat.mul_comm b]
    rw [this, Nat.add_mul, Nat.zero_mul, Nat.zero_add]
    omega

/-- byte of a digit as the parser sees it -/
def digitOf (c : Nat) : Option Nat :=
  if isdigit c then some (c - ch '0')
  else if isalpha c then some (if isupper c then c - (ch 'A' - 10) else c - (ch 'a' - 10))
  else none

theorem strtoLoop_cons (base c : Nat) (s : List Nat) (acc : Nat) :
    strtoLoop base (c :: s) acc = match digitOf c with
    | none => (acc, c :: s)
    | some d => if d ≥ base then (acc, c :: s)
      else strtoLoop base s ((acc * base + d) % 2 ^ 128) := by
  rw [strtoLoop]; rfl

theorem strtoLoop_rest (base : Nat) (rest : List Nat) (acc : Nat)
    (h : ∀ c, rest.head? = some c → ∀ d, digitOf c = some d → base ≤ d) :
    strtoLoop base rest acc = (acc, rest) := by
  cases rest with
  | nil => rfl
  | cons c s =>
    rw [strtoLoop_cons]
    have := h c (by simp)
    cases hd : digitOf c with
    | none => rfl
    | some d => simp [this d hd]

theorem strtoLoop_digits (base : Nat) (txt ds rest : List Nat) (acc : Nat)
    (h : txt.map digitOf = ds.map some) (hb : ∀ d ∈ ds, d < base) (hacc : acc < 2 ^ 128)
    (hr : ∀ c, rest.head? = some c → ∀ d, digitOf c = some d → base ≤ d) :
    strtoLoop base (txt ++ rest) acc =
      ((ds.foldl (fun a d => a * base + d) acc) % 2 ^ 128, rest) := by
  induction txt generalizing ds acc with
  | nil =>
    cases ds with
    | nil => simp only [List.nil_append, List.foldl_nil]; rw [strtoLoop_rest _ _ _ hr, Nat.mod_eq_of_lt hacc]
    | cons d ds => simp at h
  | cons c txt ih =>
    cases ds with
    | nil => simp at h
    | cons d ds =>
      simp only [List.map_cons, List.cons.injEq] at h
      have hd := hb d (by simp)
      rw [List.cons_append, strtoLoop_cons, h.1]
      simp only [ge_iff_le, Nat.not_le.mpr hd, if_false]
      rw [ih ds ((acc * base + d) % 2 ^ 128) h.2 (fun x hx => hb x (by simp [hx]))
        (Nat.mod_lt _ (by decide))]
      simp only [List.foldl_cons, Prod.mk.injEq, and_true]
      rw [positional_foldl, positional_foldl base ds (acc * base + d)]
      rw [Nat.add_mod, Nat.mul_mod, Nat.mod_mod, ← Nat.mul_mod, ← Nat.add_mod]

theorem digitOf_none {c : Nat} (h : isalnum c = false) : digitOf c = none := by
  unfold isalnum at h
  simp at h
  simp [digitOf, h.1, h.2]

theorem digitOf_decimal {d : Nat} (h : d < 10) : digitOf (d + 48) = some d := by
  have : isdigit (d + 48) = true := by simp [isdigit]; omega
  simp [digitOf, this, ch]

theorem map_digitOf_natDigits (ds : List Nat) (h : ∀ d ∈ ds, d < 10) :
    (ds.map (· + 48)).map digitOf = ds.map some := by
  induction ds with
  | nil => rfl
  | cons d ds ih =>
    simp only [List.map_cons, List.cons.injEq]
    exact ⟨digitOf_decimal (h d (by simp)), ih (fun x hx => h x (by simp [hx]))⟩

theorem head_facts {d : Nat} (h : d < 10) : isspace (d + 48) = false ∧ isdigit (d + 48) = true ∧
    d + 48 ≠ 43 ∧ d + 48 ≠ 45 := by
  refine ⟨?_, ?_, by omega, by omega⟩
  · simp [isspace]
    try omega
  · simp [isdigit]
    try omega

/-- parsing of an unsigned canonical numeral at base 0, after optional spaces and sign -/
theorem strto_core (n : Nat) (hn : n < 2 ^ 128) (rest : List Nat) (hr : EndsNumber rest) (neg : Bool) :
    strtouintmax ((if neg then [45] else []) ++ (natDigits n).map (· + 48) ++ rest) 0 =
      (if neg then (2 ^ 128 - n) % 2 ^ 128 else n, rest) := by
  obtain ⟨h1, h2, h3, h4⟩ := natDigits_spec n
  have hmap := map_digitOf_natDigits _ h1
  have hrest : ∀ base c, rest.head? = some c → ∀ d, digitOf c = some d → base ≤ d := by
    intro base c hc d hd
    rw [digitOf_none (hr c hc)] at hd; simp at hd
  cases hds : natDigits n with
  | nil => exact absurd hds h3
  | cons d ds =>
    rw [hds] at h1 h2 h4 hmap
    have hd10 := h1 d (by simp)
    obtain ⟨f1, f2, f3, f4⟩ := head_facts hd10
    have key : ∀ base, (base = 10 ∨ (base = 8 ∧ d = 0)) →
        strtoLoop base ((d :: ds).map (· + 48) ++ rest) 0 = (n, rest) := by
      intro base hb
      rcases hb with hb | ⟨hb, hd0⟩
      · subst hb
        rw [strtoLoop_digits 10 _ (d :: ds) rest 0 hmap h1 (by decide) (hrest 10)]
        have : (d :: ds).foldl (fun a d => a * 10 + d) 0 = n := h2
        rw [this, Nat.mod_eq_of_lt hn]
      · subst hb; subst hd0
        have := h4 (by simp)
        rw [this] at h2 hmap ⊢
        rw [strtoLoop_digits 8 _ [0] rest 0 hmap (by simp) (by decide) (hrest 8)]
        have : n = 0 := by simp [positional] at h2; omega
        simp [this]
    -- no hexadecimal prefix
    have hhex : ((0 == 0 || 0 == 16) && d + 48 == ch '0' &&
        ((ds.map (· + 48) ++ rest).head? == some (ch 'x') || (ds.map (· + 48) ++ rest).head? == some (ch 'X'))) = false := by
      have : ∀ k, (k = 120 ∨ k = 88) → (ds.map (· + 48) ++ rest).head? ≠ some k := by
        intro k hk hh
        cases ds with
        | nil =>
          simp at hh
          have := hr k hh
          rcases hk with hk | hk <;> subst hk <;> simp [isalnum, isalpha, isupper, islower] at this
        | cons e es =>
          have := h1 e (by simp)
          simp at hh
          omega
      have t1 := this 120 (by simp)
      have t2 := this 88 (by simp)
      have t1' : ((ds.map (· + 48) ++ rest).head? == some (ch 'x')) = false := by
        rw [beq_eq_false_iff_ne]; exact t1
      have t2' : ((ds.map (· + 48) ++ rest).head? == some (ch 'X')) = false := by
        rw [beq_eq_false_iff_ne]; exact t2
      rw [t1', t2']; simp
    have hbase : ((if (0 : Nat) = 0 then (if ((d :: ds).map (· + 48) ++ rest).head? == some (ch '0') then 8 else 10) else 0) = 10 ∨
        (if (0 : Nat) = 0 then (if ((d :: ds).map (· + 48) ++ rest).head? == some (ch '0') then 8 else 10) else 0) = 8 ∧ d = 0) := by
      by_cases h0 : d = 0
      · subst h0; right; simp [ch]
      · left; simp [ch, h0]
    have hkey := key _ hbase
    simp only [List.map_cons, List.cons_append, if_true] at hkey hbase
    cases neg with
    | false =>
      simp only [Bool.false_eq_true, if_false, List.nil_append, List.map_cons, List.cons_append]
      unfold strtouintmax
      have hdw : List.dropWhile isspace ((d + 48) :: (ds.map (· + 48) ++ rest)) =
          (d + 48) :: (ds.map (· + 48) ++ rest) := by
        simp [f1]
      simp only [hdw]
      have e1 : (((d + 48) :: (ds.map (· + 48) ++ rest)).head? == some (ch '-')) = false := by simp [ch]
      have e2 : (((d + 48) :: (ds.map (· + 48) ++ rest)).head? == some (ch '+')) = false := by simp [ch]
      simp only [e1, e2, Bool.or_false, Bool.false_eq_true, if_false, f2, if_true, hhex, hkey]
    | true =>
      simp only [if_true, List.map_cons, List.cons_append, List.nil_append]
      unfold strtouintmax
      have hdw : List.dropWhile isspace (45 :: (d + 48) :: (ds.map (· + 48) ++ rest)) =
          45 :: (d + 48) :: (ds.map (· + 48) ++ rest) := by
        simp [isspace]
      simp only [hdw]
      have e1 : ((45 :: (d + 48) :: (ds.map (· + 48) ++ rest)).head? == some (ch '-')) = true := by simp [ch]
      simp only [e1, Bool.or_true, if_true, List.tail_cons, f2, hhex, Bool.false_eq_true, if_false, hkey]

/-- hexadecimal and octal spellings -/
theorem strto_hex (txt ds rest : List Nat) (x : Nat) (hx : x = 120 ∨ x = 88)
    (h : txt.map digitOf = ds.map some) (hb : ∀ d ∈ ds, d < 16)
    (hr : ∀ c, rest.head? = some c → ∀ d, digitOf c = some d → 16 ≤ d) :
    strtouintmax (48 :: x :: txt ++ rest) 0 = (positional 16 ds % 2 ^ 128, rest) := by
  unfold strtouintmax
  have hdw : List.dropWhile isspace (48 :: x :: txt ++ rest) = 48 :: x :: txt ++ rest := by
    simp [isspace]
  have hl := strtoLoop_digits 16 txt ds rest 0 h hb (by decide) hr
  have e1 : ((48 :: x :: txt ++ rest).head? == some (ch '-')) = false := by simp [ch]
  have e2 : ((48 :: x :: txt ++ rest).head? == some (ch '+')) = false := by simp [ch]
  have e3 : isdigit 48 = true := by decide
  simp only [hdw, e1, e2, Bool.or_false, Bool.false_eq_true, if_false]
  simp only [List.cons_append, e3, if_true]
  have e4 : (((0 : Nat) == 0 || (0 : Nat) == 16) && (48 : Nat) == ch '0' &&
      ((x :: (txt ++ rest)).head? == some (ch 'x') || (x :: (txt ++ rest)).head? == some (ch 'X'))) = true := by
    rcases hx with hx | hx <;> subst hx <;> simp [ch]
  simp only [e4, if_true, List.tail_cons, (by decide : ¬ (16 : Nat) = 0), if_false, hl]
  simp [positional]

theorem strto_oct (txt ds rest : List Nat)
    (h : txt.map digitOf = ds.map some) (hb : ∀ d ∈ ds, d < 8)
    (hr : ∀ c, rest.head? = some c → c ≠ 120 ∧ c ≠ 88 ∧ ∀ d, digitOf c = some d → 8 ≤ d) :
    strtouintmax (48 :: txt ++ rest) 0 = (positional 8 ds % 2 ^ 128, rest) := by
  unfold strtouintmax
  have hdw : List.dropWhile isspace (48 :: txt ++ rest) = 48 :: txt ++ rest := by
    simp [isspace]
  have hl := strtoLoop_digits 8 (48 :: txt) (0 :: ds) rest 0 (by simp [h]; decide)
    (by intro d hd; simp at hd; rcases hd with hd | hd; omega; exact hb d hd) (by decide)
    (fun c hc => (hr c hc).2.2)
  have e1 : ((48 :: txt ++ rest).head? == some (ch '-')) = false := by simp [ch]
  have e2 : ((48 :: txt ++ rest).head? == some (ch '+')) = false := by simp [ch]
  have e3 : isdigit 48 = true := by decide
  have e5 : ((48 :: (txt ++ rest)).head? == some (ch '0')) = true := by simp [ch]
  simp only [hdw, e1, e2, Bool.or_false, Bool.false_eq_true, if_false]
  simp only [List.cons_append, e3, if_true] at hl ⊢
  have hnx : ∀ k, (k = 120 ∨ k = 88) → ((txt ++ rest).head? == some k) = false := by
    intro k hk
    rw [beq_eq_false_iff_ne]
    intro hh
    cases txt with
    | nil =>
      have := hr k (by simpa using hh)
      omega
    | cons c t =>
      cases ds with
      | nil => simp at h
      | cons d ds =>
        have h8 := hb d (by simp)
        simp at h hh
        have h1 := h.1
        rw [hh] at h1
        rcases hk with hk | hk <;> subst hk <;> simp [digitOf, isdigit, isalpha, isupper, islower, ch] at h1 <;> omega
  have n1 := hnx (ch 'x') (by simp [ch])
  have n2 := hnx (ch 'X') (by simp [ch])
  simp only [n1, n2, Bool.or_false, Bool.and_false, Bool.false_eq_true, if_false, e5, if_true, hl]
  simp [positional]

theorem digitValue_eq (c : Char) : digitValue c = digitOf c.toNat := by
  have l1 : ('0' ≤ c) ↔ 48 ≤ c.toNat := by rw [Char.le_def, UInt32.le_iff_toNat_le]; rfl
  have l2 : (c ≤ '9') ↔ c.toNat ≤ 57 := by rw [Char.le_def, UInt32.le_iff_toNat_le]; rfl
  have l3 : ('a' ≤ c) ↔ 97 ≤ c.toNat := by rw [Char.le_def, UInt32.le_iff_toNat_le]; rfl
  have l4 : (c ≤ 'z') ↔ c.toNat ≤ 122 := by rw [Char.le_def, UInt32.le_iff_toNat_le]; rfl
  have l5 : ('A' ≤ c) ↔ 65 ≤ c.toNat := by rw [Char.le_def, UInt32.le_iff_toNat_le]; rfl
  have l6 : (c ≤ 'Z') ↔ c.toNat ≤ 90 := by rw [Char.le_def, UInt32.le_iff_toNat_le]; rfl
  unfold digitValue digitOf
  simp only [l1, l2, l3, l4, l5, l6, isdigit, isalpha, isupper, islower, ch]
  generalize c.toNat = n
  have e0 : '0'.toNat = 48 := rfl
  have ea : 'a'.toNat = 97 := rfl
  have eA : 'A'.toNat = 65 := rfl
  rw [e0, ea, eA]
  simp only [Bool.and_eq_true, decide_eq_true_eq, Bool.or_eq_true]
  split
  · rfl
  · split
    · rw [if_pos (by omega), if_neg (by omega)]; congr 1; omega
    · split
      · rw [if_pos (by omega)]; congr 1; omega
      · rw [if_neg (by omega)]

theorem map_digitValue (txt : List Char) : (txt.map Char.toNat).map digitOf = txt.map digitValue := by
  simp [digitValue_eq]

end Verif.Lemmas.Decimal
