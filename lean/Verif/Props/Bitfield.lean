import Verif.Lemmas.Bitfield
/-!
# C03, C04: bit-fields
-/
namespace Verif.Props.Bitfield
open Verif.Model Verif.Model.Bitfield Verif.Spec

/-- What a C compiler returns when reading a `width`-bit field holding `value`: truncation to the
width, then sign or zero extension. -/
def fieldValue (width : Nat) (signed : Bool) (value : Word) : Word :=
  if signed then (value.setWidth width).signExtend 128 else (value.setWidth width).setWidth 128

/-- **C03** Storing then reading a bit-field of any shift, width and signedness returns the value
truncated and extended as C prescribes. -/
theorem C03_bitfield_read_back (mem : List Byte) (shift width : Nat) (signed : Bool) (value : Word)
    (hs : shift < 8) (hw1 : 1 ≤ width) (hw : width ≤ 128) (hm : shift + width ≤ 8 * mem.length) :
    ∃ mem', loadBitfield mem shift width value = some mem' ∧
      saveBitfield mem' shift width signed = some (fieldValue width signed value) := by
  obtain ⟨mem', h1, hl, hb⟩ := Lemmas.Bitfield.load_ok mem shift width value hs hw1 hw hm
  obtain ⟨v, h2, hv⟩ := Lemmas.Bitfield.save_ok mem' shift width signed hs hw1 hw (by rw [hl]; exact hm)
  refine ⟨mem', h1, ?_⟩
  rw [h2]
  congr 1
  apply BitVec.eq_of_getLsbD_eq
  intro k hk
  rw [hv k hk, hb, hb]
  have e1 : shift + k - shift = k := by omega
  have e2 : shift + width - 1 - shift = width - 1 := by omega
  have e3 : shift ≤ shift + width - 1 ∧ shift + width - 1 < shift + width := by omega
  have e4 : width - 1 < width := by omega
  rw [if_pos e3, e1, e2]
  unfold fieldValue
  by_cases h : k < width
  · have : shift ≤ shift + k ∧ shift + k < shift + width := by omega
    rw [if_pos h, if_pos this]
    cases signed
    · simp [BitVec.getLsbD_setWidth, h, hk]
    · rw [if_pos rfl, BitVec.getLsbD_signExtend, if_pos h, BitVec.getLsbD_setWidth]
      simp [h, hk]
  · rw [if_neg h]
    cases signed
    · simp [BitVec.getLsbD_setWidth, h]
    · rw [if_pos rfl, BitVec.getLsbD_signExtend, if_neg h, BitVec.msb_eq_getLsbD_last, BitVec.getLsbD_setWidth]
      simp [hk, e4]

/-- **C03** Reading any memory gives the bits of the field, extended. -/
theorem C03_bitfield_reads_its_bits (mem : List Byte) (shift width : Nat) (signed : Bool)
    (hs : shift < 8) (hw1 : 1 ≤ width) (hw : width ≤ 128) (hm : shift + width ≤ 8 * mem.length) :
    ∃ v, saveBitfield mem shift width signed = some v ∧
      ∀ k < 128, v.getLsbD k = if k < width then memBit mem (shift + k)
        else signed && memBit mem (shift + width - 1) :=
  Lemmas.Bitfield.save_ok mem shift width signed hs hw1 hw hm

/-- **C04** The store succeeds on a memory that has no byte beyond the last byte of the field, and
changes no bit outside the field. -/
theorem C04_neighbours_untouched (mem : List Byte) (shift width : Nat) (value : Word)
    (hs : shift < 8) (hw1 : 1 ≤ width) (hw : width ≤ 128) (hm : shift + width ≤ 8 * mem.length) :
    ∃ mem', loadBitfield mem shift width value = some mem' ∧ mem'.length = mem.length ∧
      ∀ j, j < shift ∨ shift + width ≤ j → memBit mem' j = memBit mem j := by
  obtain ⟨mem', h1, hl, hb⟩ := Lemmas.Bitfield.load_ok mem shift width value hs hw1 hw hm
  refine ⟨mem', h1, hl, ?_⟩
  intro j hj
  rw [hb, if_neg (by omega)]

/-! Non-vacuity: a 13-bit field at bit 6 spans three bytes; a 3-bit field inside one byte. -/
example : loadBitfield [0xFF#8, 0x00#8, 0xF0#8] 6 13 (BitVec.ofInt 128 (-2)) =
    some [0xBF#8, 0xFF#8, 0xF7#8] := by decide +kernel
example : saveBitfield [0xBF#8, 0xFF#8, 0xF7#8] 6 13 true = some (BitVec.ofInt 128 (-2)) := by decide +kernel
example : saveBitfield [0xBF#8, 0xFF#8, 0xF7#8] 6 13 false = some 8190#128 := by decide +kernel
example : loadBitfield [0xFF#8] 2 3 2#128 = some [0xEB#8] := by decide +kernel
example : loadBitfield (List.replicate 17 0xAA#8) 7 128 (BitVec.allOnes 128) =
    some (0xAA#8 :: List.replicate 15 0xFF#8 ++ [0xFF#8]) := by decide +kernel

end Verif.Props.Bitfield
