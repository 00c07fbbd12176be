import Verif.Lemmas.Decimal
/-!
# C05, C06: integers as text
-/
namespace Verif.Props.Decimal
open Verif.Model Verif.Model.Decimal Verif.Spec

/-- **C05** Every unsigned 128-bit value is printed as its canonical decimal numeral, and no
store falls outside the local buffer (whatever that buffer contained). -/
theorem C05_print_unsigned (buffer : List Nat) (hb : buffer.length = bufSize) (v : BitVec 128) :
    ∃ text, printUint128 buffer v = some text ∧ IsDecimal v.toNat text :=
  ⟨_, Lemmas.Decimal.printUint128_eq buffer hb v, Lemmas.Decimal.natDigits_isDecimal _⟩

/-- **C05** Same for every signed 128-bit value, including `-2^127`. -/
theorem C05_print_signed (buffer : List Nat) (hb : buffer.length = bufSize) (v : BitVec 128) :
    ∃ text, printInt128 buffer v = some text ∧ IsDecimalInt v.toInt text := by
  refine ⟨_, Lemmas.Decimal.printInt128_eq buffer hb v, ?_⟩
  unfold IsDecimalInt
  by_cases h : v.toInt < 0
  · rw [if_pos h, if_pos h]
    exact ⟨_, rfl, Lemmas.Decimal.natDigits_isDecimal _⟩
  · rw [if_neg h, if_neg h]
    exact Lemmas.Decimal.natDigits_isDecimal _

/-- the buffer is exactly large enough: one byte less and the smallest integer overruns it -/
example : printInt128 (List.replicate bufSize 170) (BitVec.ofInt 128 (-(2 ^ 127))) =
    some (ascii "-170141183460469231731687303715884105728") := by decide +kernel
example : uintmaxtostr (List.replicate 38 0) 38 (2 ^ 128 - 1) = none := by decide +kernel
example : printUint128 (List.replicate bufSize 1) 0#128 = some (ascii "0") := by decide +kernel

/-- **C06** Reading an unsigned integer that was printed gives the integer, and exactly the printed
text is consumed. -/
theorem C06_read_back_unsigned (buffer : List Nat) (hb : buffer.length = bufSize) (v : BitVec 128)
    (rest : List Nat) (hrest : ∀ c, rest.head? = some c → isalnum c = false) :
    ∃ text, printUint128 buffer v = some text ∧
      strtouintmax (text ++ rest) 0 = (v.toNat, rest) := by
  refine ⟨_, Lemmas.Decimal.printUint128_eq buffer hb v, ?_⟩
  have := Lemmas.Decimal.strto_core v.toNat v.isLt rest hrest false
  simpa using this

/-- **C06** Reading a signed integer that was printed gives the same two's complement word. -/
theorem C06_read_back_signed (buffer : List Nat) (hb : buffer.length = bufSize) (v : BitVec 128)
    (rest : List Nat) (hrest : ∀ c, rest.head? = some c → isalnum c = false) :
    ∃ text, printInt128 buffer v = some text ∧
      strtouintmax (text ++ rest) 0 = (v.toNat, rest) := by
  refine ⟨_, Lemmas.Decimal.printInt128_eq buffer hb v, ?_⟩
  have hlt : v.toInt.natAbs < 2 ^ 128 := by
    have h2 := v.isLt
    rw [BitVec.toInt_eq_toNat_cond]
    split <;> omega
  have := Lemmas.Decimal.strto_core v.toInt.natAbs hlt rest hrest (decide (v.toInt < 0))
  simp only [decide_eq_true_eq] at this
  rw [this]
  have h2 := v.isLt
  congr 1
  rw [BitVec.toInt_eq_toNat_cond]
  split <;> split <;> omega

/-- **C06** `0x`/`0X` prefix: the following base-16 digits (either case) are read positionally,
modulo `2^128`; reading stops at the first character that is not a base-16 digit. -/
theorem C06_hexadecimal (txt rest : List Char) (ds : List Nat) (x : Char) (hx : x = 'x' ∨ x = 'X')
    (htxt : txt.map digitValue = ds.map some) (hds : ∀ d ∈ ds, d < 16)
    (hrest : ∀ c d, rest.head? = some c → digitValue c = some d → 16 ≤ d) :
    strtouintmax (('0' :: x :: txt ++ rest).map Char.toNat) 0 =
      (positional 16 ds % 2 ^ 128, rest.map Char.toNat) := by
  have e : ('0' :: x :: txt ++ rest).map Char.toNat =
      48 :: x.toNat :: txt.map Char.toNat ++ rest.map Char.toNat := by simp
  rw [e]
  refine Lemmas.Decimal.strto_hex _ ds _ x.toNat ?_ ?_ hds ?_
  · rcases hx with hx | hx <;> subst hx <;> simp
  · rw [Lemmas.Decimal.map_digitValue, htxt]
  · intro c hc d hd
    cases rest with
    | nil => simp at hc
    | cons r rest =>
      simp at hc; subst hc
      exact hrest r d rfl (by rw [Lemmas.Decimal.digitValue_eq]; exact hd)

/-- **C06** leading `0`: octal; reading stops at the first character that is not an octal digit. -/
theorem C06_octal (txt rest : List Char) (ds : List Nat)
    (htxt : txt.map digitValue = ds.map some) (hds : ∀ d ∈ ds, d < 8)
    (hrest : ∀ c, rest.head? = some c →
      c ≠ 'x' ∧ c ≠ 'X' ∧ ∀ d, digitValue c = some d → 8 ≤ d) :
    strtouintmax (('0' :: txt ++ rest).map Char.toNat) 0 =
      (positional 8 ds % 2 ^ 128, rest.map Char.toNat) := by
  have e : ('0' :: txt ++ rest).map Char.toNat =
      48 :: txt.map Char.toNat ++ rest.map Char.toNat := by simp
  rw [e]
  refine Lemmas.Decimal.strto_oct _ ds _ ?_ hds ?_
  · rw [Lemmas.Decimal.map_digitValue, htxt]
  · intro c hc
    cases rest with
    | nil => simp at hc
    | cons r rest =>
      simp at hc; subst hc
      obtain ⟨h1, h2, h3⟩ := hrest r rfl
      refine ⟨fun h => h1 (Char.ext (UInt32.toNat_inj.mp h)), fun h => h2 (Char.ext (UInt32.toNat_inj.mp h)), ?_⟩
      intro d hd
      exact h3 d (by rw [Lemmas.Decimal.digitValue_eq]; exact hd)

/-- non-vacuity -/
example : strtouintmax (ascii "  -12, 7") 0 = (2 ^ 128 - 12, ascii ", 7") := by decide +kernel
example : strtouintmax (ascii "0xfF|3") 0 = (255, ascii "|3") := by decide +kernel
example : strtouintmax (ascii "0755)") 0 = (493, ascii ")") := by decide +kernel
example : strtouintmax (ascii "0758") 0 = (61, ascii "8") := by decide +kernel
example : "fF".toList.map digitValue = [15, 15].map some := by decide +kernel

end Verif.Props.Decimal
