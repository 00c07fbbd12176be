import Verif.Model.Bitfield
import Verif.Spec.Bits
namespace Verif.Lemmas.Bitfield
open Verif.Model Verif.Model.Bitfield Verif.Spec

theorem fieldMask_bit (width k : Nat) (hw : 1 ≤ width) (hk : k < 128) (hw2 : width ≤ 128) :
    (fieldMask width).getLsbD k = decide (k < width) := by
  have h : fieldMask width = BitVec.ofNat 128 (2 ^ width - 1) := by
    apply BitVec.eq_of_toNat_eq
    unfold fieldMask
    obtain ⟨w, rfl⟩ : ∃ w, width = w + 1 := ⟨width - 1, by omega⟩
    simp only [Nat.add_sub_cancel]
    have h2 : 2 ^ (w + 1) = 2 ^ w * 2 := by rw [Nat.pow_succ]
    have hle : 2 ^ (w + 1) ≤ 2 ^ 128 := Nat.pow_le_pow_right (by omega) hw2
    have hpos : 0 < 2 ^ w := Nat.pow_pos (by omega)
    simp only [BitVec.toNat_sub, BitVec.toNat_shiftLeft, BitVec.toNat_ofNat, Nat.shiftLeft_eq]
    by_cases he : 2 ^ (w + 1) = 2 ^ 128
    · rw [he]
      have : 2 % 2 ^ 128 * 2 ^ w = 2 ^ 128 := by
        have h22 : 2 % 2 ^ 128 = 2 := by decide
        rw [h22]; omega
      rw [this]
    · have hlt : 2 ^ (w + 1) < 2 ^ 128 := by omega
      have : 2 % 2 ^ 128 * 2 ^ w = 2 ^ (w + 1) := by rw [h2]; omega
      rw [this, Nat.mod_eq_of_lt hlt]
      omega
  rw [h, BitVec.getLsbD_ofNat, Nat.testBit_two_pow_sub_one]
  simp [hk]

theorem byteMask_bit (n k : Nat) (hk : k < 8) : (byteMask n).getLsbD k = decide (k < n) := by
  unfold byteMask
  rw [BitVec.getLsbD_ofNat, Nat.testBit_two_pow_sub_one]
  simp [hk]

theorem saveLoop_ok (mem : List Byte) (width : Nat) (hw : width ≤ 128) :
    ∀ (fuel i ptr : Nat) (v : Word), 0 < fuel → width < i + fuel → width + (ptr * 8 - i) ≤ 8 * mem.length → i ≤ 8 * ptr →
    ∃ v', saveLoop mem width fuel i ptr v = some v' ∧
      ∀ k < 128, k < width → v'.getLsbD k = (v.getLsbD k || (decide (i ≤ k) && memBit mem (8 * ptr + (k - i)))) := by
  intro fuel
  induction fuel with
  | zero => intro i ptr v h0 h1 h2 h3; omega
  | succ fuel ih =>
    intro i ptr v h0 h1 h2 h3
    unfold saveLoop
    by_cases hi : i < width
    · rw [if_pos hi]
      have hp : ptr < mem.length := by omega
      simp only [List.getElem?_eq_getElem hp, Option.bind_eq_bind, Option.bind_some]
      obtain ⟨v', hv, hb⟩ := ih (i + 8) (ptr + 1) (v ||| (mem[ptr].zeroExtend 128 <<< i)) (by omega) (by omega) (by omega) (by omega)
      refine ⟨v', hv, ?_⟩
      intro k hk hkw
      rw [hb k hk hkw]
      simp only [BitVec.getLsbD_or, BitVec.getLsbD_shiftLeft, BitVec.getLsbD_setWidth, hk, decide_true, Bool.true_and]
      by_cases hki : k < i
      · have : ¬ i ≤ k := by omega
        have h8 : ¬ i + 8 ≤ k := by omega
        simp [hki, this, h8]
      · by_cases h8 : i + 8 ≤ k
        · have e : 8 * (ptr + 1) + (k - (i + 8)) = 8 * ptr + (k - i) := by omega
          have : mem[ptr].getLsbD (k - i) = false := BitVec.getLsbD_of_ge _ _ (by omega)
          rw [e]
          have h0 : i ≤ k := by omega
          simp [hki, this, h8, h0]
        · have e : memBit mem (8 * ptr + (k - i)) = mem[ptr].getLsbD (k - i) := by
            unfold memBit
            have e1 : (8 * ptr + (k - i)) / 8 = ptr := by omega
            have e2 : (8 * ptr + (k - i)) % 8 = k - i := by omega
            rw [e1, e2, List.getD_eq_getElem?_getD, List.getElem?_eq_getElem hp]; rfl
          rw [e]
          have h0 : i ≤ k := by omega
          have h9 : k - i < 128 := by omega
          simp [hki, h8, h0, h9]
    · rw [if_neg hi]
      refine ⟨v, rfl, ?_⟩
      intro k hk hkw
      have : ¬ i ≤ k := by omega
      simp [this]

theorem save_ok (mem : List Byte) (shift width : Nat) (signed : Bool) (hs : shift < 8)
    (hw1 : 1 ≤ width) (hw : width ≤ 128) (hm : shift + width ≤ 8 * mem.length) :
    ∃ v, saveBitfield mem shift width signed = some v ∧
      ∀ k < 128, v.getLsbD k = if k < width then memBit mem (shift + k)
        else signed && memBit mem (shift + width - 1) := by
  have hp : 0 < mem.length := by omega
  obtain ⟨v', hv, hb⟩ := saveLoop_ok mem width hw (width + 1) (8 - shift) 1 ((mem[0].zeroExtend 128) >>> shift)
    (by omega) (by omega) (by omega) (by omega)
  have hbit : ∀ k < width, v'.getLsbD k = memBit mem (shift + k) := by
    intro k hk
    rw [hb k (by omega) hk]
    simp only [BitVec.getLsbD_ushiftRight, BitVec.getLsbD_setWidth]
    by_cases h8 : 8 - shift ≤ k
    · have e : 8 * 1 + (k - (8 - shift)) = shift + k := by omega
      have : mem[0].getLsbD (shift + k) = false := BitVec.getLsbD_of_ge _ _ (by omega)
      rw [e]; simp [h8, this]
    · have e1 : (shift + k) / 8 = 0 := by omega
      have e2 : (shift + k) % 8 = shift + k := by omega
      have h9 : shift + k < 128 := by omega
      have e3 : memBit mem (shift + k) = mem[0].getLsbD (shift + k) := by
        unfold memBit
        rw [e1, e2, List.getD_eq_getElem?_getD, List.getElem?_eq_getElem hp]; rfl
      rw [e3]
      simp [h8, h9]
  have hm' : ∀ k < 128, (v' &&& fieldMask width).getLsbD k = (decide (k < width) && memBit mem (shift + k)) := by
    intro k hk
    rw [BitVec.getLsbD_and, fieldMask_bit _ _ hw1 hk hw]
    by_cases h : k < width
    · simp [h, hbit k h]
    · simp [h]
  have htop : ((v' &&& fieldMask width) >>> (width - 1)).getLsbD 0 = memBit mem (shift + width - 1) := by
    rw [BitVec.getLsbD_ushiftRight, Nat.add_zero, hm' _ (by omega)]
    have e : shift + (width - 1) = shift + width - 1 := by omega
    have : width - 1 < width := by omega
    rw [e]; simp [this]
  unfold saveBitfield
  simp only [List.getElem?_eq_getElem hp, Option.bind_eq_bind, Option.bind_some, hv, htop]
  refine ⟨_, rfl, ?_⟩
  intro k hk
  by_cases hsg : (signed && memBit mem (shift + width - 1)) = true
  · rw [if_pos hsg, hsg, BitVec.getLsbD_or, hm' k hk, BitVec.getLsbD_not, fieldMask_bit _ _ hw1 hk hw]
    by_cases h : k < width <;> simp [h, hk]
  · rw [if_neg hsg, hm' k hk]
    simp only [Bool.not_eq_true] at hsg
    rw [hsg]
    by_cases h : k < width <;> simp [h]

theorem memBit_set (mem : List Byte) (p : Nat) (b : Byte) (hp : p < mem.length) (j : Nat) :
    memBit (mem.set p b) j = if j / 8 = p then b.getLsbD (j % 8) else memBit mem j := by
  unfold memBit
  rw [List.getD_eq_getElem?_getD, List.getElem?_set]
  by_cases h : p = j / 8
  · subst h; simp [hp]
  · have : ¬ j / 8 = p := fun e => h e.symm
    simp [h, this, List.getD_eq_getElem?_getD]

theorem loadLoop_ok (width : Nat) (v : Word) (hw : width ≤ 128)
    (hv : ∀ k < 128, width ≤ k → v.getLsbD k = false) :
    ∀ (fuel i ptr : Nat) (mem : List Byte), 0 < fuel → width < i + fuel → width + (ptr * 8 - i) ≤ 8 * mem.length → i ≤ 8 * ptr →
    ∃ mem', loadLoop width v fuel i ptr mem = some mem' ∧ mem'.length = mem.length ∧
      ∀ j, memBit mem' j = if 8 * ptr ≤ j ∧ j + i < 8 * ptr + width then v.getLsbD (j + i - 8 * ptr)
        else memBit mem j := by
  intro fuel
  induction fuel with
  | zero => intro i ptr mem h0 h1 h2 h3; omega
  | succ fuel ih =>
    intro i ptr mem h0 h1 h2 h3
    unfold loadLoop
    by_cases hi : i < width
    · rw [if_pos hi]
      have hp : ptr < mem.length := by omega
      have step : ∀ (b : Byte), (∀ k < 8, b.getLsbD k = if i + k < width then v.getLsbD (i + k) else memBit mem (8 * ptr + k)) →
          ∃ mem', loadLoop width v fuel (i + 8) (ptr + 1) (mem.set ptr b) = some mem' ∧ mem'.length = mem.length ∧
          ∀ j, memBit mem' j = if 8 * ptr ≤ j ∧ j + i < 8 * ptr + width then v.getLsbD (j + i - 8 * ptr)
            else memBit mem j := by
        intro b hbk
        obtain ⟨m', e, hl, hb⟩ := ih (i + 8) (ptr + 1) (mem.set ptr b) (by omega) (by omega) (by simp; omega) (by omega)
        refine ⟨m', e, by simpa using hl, ?_⟩
        intro j
        rw [hb j, memBit_set _ _ _ hp]
        by_cases hj : j / 8 = ptr
        · rw [if_neg (by omega), if_pos hj, hbk _ (by omega)]
          have e1 : i + j % 8 = j + i - 8 * ptr := by omega
          have e2 : 8 * ptr + j % 8 = j := by omega
          rw [e1, e2]
          by_cases h : j + i - 8 * ptr < width
          · rw [if_pos h, if_pos (by omega)]
          · rw [if_neg h, if_neg (by omega)]
        · rw [if_neg hj]
          by_cases h : 8 * ptr ≤ j ∧ j + i < 8 * ptr + width
          · rw [if_pos h, if_pos (by omega)]
            congr 1; omega
          · rw [if_neg h, if_neg (by omega)]
      by_cases h8 : width - i ≥ 8
      · rw [if_pos h8]
        simp only [wr, if_pos hp, Option.bind_eq_bind, Option.bind_some]
        apply step
        intro k hk
        rw [if_pos (by omega)]
        simp only [BitVec.getLsbD_setWidth, BitVec.getLsbD_ushiftRight]
        simp [hk]
      · rw [if_neg h8]
        simp only [List.getElem?_eq_getElem hp, wr, if_pos hp, Option.bind_eq_bind, Option.bind_some]
        apply step
        intro k hk
        have em : memBit mem (8 * ptr + k) = mem[ptr].getLsbD k := by
          unfold memBit
          have e1 : (8 * ptr + k) / 8 = ptr := by omega
          have e2 : (8 * ptr + k) % 8 = k := by omega
          rw [e1, e2, List.getD_eq_getElem?_getD, List.getElem?_eq_getElem hp]; rfl
        rw [em]
        simp only [BitVec.getLsbD_or, BitVec.getLsbD_and, BitVec.getLsbD_not, byteMask_bit _ _ hk,
          BitVec.getLsbD_setWidth, BitVec.getLsbD_ushiftRight]
        by_cases h : i + k < width
        · have : k < width - i := by omega
          simp [h, hk, this]
        · have h9 : ¬ k < width - i := by omega
          have : v.getLsbD (i + k) = false := by
            by_cases hh : i + k < 128
            · exact hv _ hh (by omega)
            · exact BitVec.getLsbD_of_ge _ _ (by omega)
          simp [h, hk, this, h9]
    · rw [if_neg hi]
      refine ⟨mem, rfl, rfl, ?_⟩
      intro j
      rw [if_neg (by omega)]

theorem load_ok (mem : List Byte) (shift width : Nat) (value : Word) (hs : shift < 8)
    (hw1 : 1 ≤ width) (hw : width ≤ 128) (hm : shift + width ≤ 8 * mem.length) :
    ∃ mem', loadBitfield mem shift width value = some mem' ∧ mem'.length = mem.length ∧
      ∀ j, memBit mem' j = if shift ≤ j ∧ j < shift + width then value.getLsbD (j - shift)
        else memBit mem j := by
  have hp : 0 < mem.length := by omega
  have hvb : ∀ k < 128, (value &&& fieldMask width).getLsbD k = (decide (k < width) && value.getLsbD k) := by
    intro k hk
    rw [BitVec.getLsbD_and, fieldMask_bit _ _ hw1 hk hw, Bool.and_comm]
  unfold loadBitfield
  simp only [List.getElem?_eq_getElem hp, wr, if_pos hp, Option.bind_eq_bind, Option.bind_some]
  generalize hb : (_ ||| _ : Byte) = b
  have hbk : ∀ k < 8, b.getLsbD k = if shift ≤ k ∧ k < shift + width then value.getLsbD (k - shift) else mem[0].getLsbD k := by
    intro k hk
    rw [← hb, BitVec.getLsbD_or]
    have e1 : (BitVec.truncate 8 ((value &&& fieldMask width) <<< shift)).getLsbD k =
        (decide (shift ≤ k) && decide (k < shift + width) && value.getLsbD (k - shift)) := by
      simp only [BitVec.getLsbD_setWidth, BitVec.getLsbD_shiftLeft]
      by_cases h : k < shift
      · have : ¬ shift ≤ k := by omega
        simp [h, this]
      · have h1 : shift ≤ k := by omega
        have h2 : k < 128 := by omega
        rw [hvb _ (by omega)]
        by_cases h3 : k < shift + width
        · have : k - shift < width := by omega
          simp [h, h1, h2, h3, this, hk]
        · have : ¬ k - shift < width := by omega
          simp [h, h3, this]
    rw [e1]
    by_cases h : shift + width ≥ 8
    · rw [if_pos h, BitVec.getLsbD_and, byteMask_bit _ _ hk]
      by_cases h1 : k < shift
      · have h2 : ¬ shift ≤ k := by omega
        simp [h1, h2]
      · have h2 : shift ≤ k := by omega
        have h3 : k < shift + width := by omega
        simp [h1, h2, h3]
    · rw [if_neg h, BitVec.getLsbD_and, BitVec.getLsbD_or, BitVec.getLsbD_not, byteMask_bit _ _ hk, byteMask_bit _ _ hk]
      by_cases h1 : k < shift
      · have h2 : ¬ shift ≤ k := by omega
        simp [h1, h2]
      · have h2 : shift ≤ k := by omega
        by_cases h3 : k < shift + width
        · simp [h1, h2, h3]
        · simp [h1, h3, hk]
  obtain ⟨m', e, hl, hj⟩ := loadLoop_ok width (value &&& fieldMask width) hw
    (by intro k hk hkw; rw [hvb k hk]; have : ¬ k < width := by omega
        simp [this])
    (width + 1) (8 - shift) 1 (mem.set 0 b) (by omega) (by omega) (by simp; omega) (by omega)
  refine ⟨m', e, by simpa using hl, ?_⟩
  intro j
  rw [hj j, memBit_set _ _ _ hp]
  by_cases h8 : j / 8 = 0
  · rw [if_neg (by omega), if_pos h8, hbk _ (by omega)]
    have e2 : j % 8 = j := by omega
    rw [e2]
    have : memBit mem j = mem[0].getLsbD j := by
      unfold memBit; rw [h8, e2, List.getD_eq_getElem?_getD, List.getElem?_eq_getElem hp]; rfl
    rw [this]
  · rw [if_neg h8]
    by_cases h : shift ≤ j ∧ j < shift + width
    · rw [if_pos h, if_pos (by omega), hvb _ (by omega)]
      have e3 : j + (8 - shift) - 8 * 1 = j - shift := by omega
      have : j - shift < width := by omega
      rw [e3]; simp [this]
    · rw [if_neg h, if_neg (by omega)]

end Verif.Lemmas.Bitfield
