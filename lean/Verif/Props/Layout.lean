import Verif.Lemmas.Layout
import Verif.Props.Bitfield
/-!
# C67: the positions of fields

A structure is described once; afterwards every field is read and written at the position that was found then.
* `C67_macro_bit_field`, `C67_dump_bit_fields`, `C67_dwarf_bit_field`: each of the three ways to describe a structure finds
  the position of every bit-field.
* `C67_dump_field`: `MR_ADD_TYPE` finds the offsets of other fields (`C67_deviation_huge_structure`: in structures of less than 16 MiB).
* `C67_saved_bit_field`, `C67_loaded_bit_field`: with the positions that were found, saving reads exactly the bits of the
  bit-field in the structure and loading changes no others.
-/
namespace Verif.Props.Layout
open Verif.Model.Layout Verif.Model.Bitfield Verif.Spec Verif.Spec.Layout Verif.Lemmas.Layout

/-- The macros find the position and the width of every bit-field, wherever it is in a structure of whatever size. -/
theorem C67_macro_bit_field (mask : List Byte) (p width : Nat) (h : IsMask mask p width) (hw : 1 ≤ width) (hw2 : width ≤ 128) :
    byMask mask = some (at_ p width) :=
  byMask_ok mask p width h hw (by omega)

/-- A field that is never set (of no width) gets no position. -/
theorem C67_macro_no_bits (mask : List Byte) (h : ∀ k, memBit mask k = false) : byMask mask = none := by
  have : ∀ (l : List Byte), (∀ k, memBit l k = false) → firstByte l 0 = l.length := by
    intro l
    induction l with
    | nil => intro _; rfl
    | cons b l ih =>
      intro h
      have hb : b = 0#8 := (byte_zero b).2 fun i hi => by
        have := h i
        rwa [memBit_cons, if_pos hi] at this
      rw [firstByte, if_neg (by simp [hb]), firstByte_add, ih fun k => by
        have := h (k + 8)
        rwa [memBit_cons, if_neg (by omega), Nat.add_sub_cancel] at this]
      simp; omega
  unfold byMask
  rw [this mask h]
  simp

/-- `MR_ADD_TYPE` finds the positions of all bit-fields of a structure, in their order, and writes only into its variable.
`room` is how many more fields fit in the descriptor. -/
theorem C67_dump_bit_fields (room size : Nat) (ps : List Nat) (hs : size < 2 ^ 31) (hp : ∀ p ∈ ps, p < 8 * size) (hne : ps ≠ []) (hr : ps.length ≤ room) :
    byPatterns room size ps = some (ps.map fun p => ((at_ p 1).offset, (at_ p 1).shift)) := by
  obtain ⟨p, hm⟩ : ∃ p, p ∈ ps := by
    cases ps with
    | nil => exact absurd rfl hne
    | cons p _ => exact ⟨p, by simp⟩
  exact byPatterns_ok room size ps hr hs (by have := hp p hm; omega) hp

/-- `MR_ADD_TYPE` finds the offset of every field. -/
theorem C67_dump_field (size o : Nat) (hs : size < 2 ^ 24) (ho : o < size) : plainOffset size o = some o :=
  plainLoop_ok size o hs ho 5 0 _ 0 (by decide) (by decide) (fun a _ => by simp) (by simp [Nat.mod_one])

/-- The DWARF utility finds the position of a bit-field from `DW_AT_data_bit_offset` (DWARF 4 and later) and from
`DW_AT_bit_offset` (DWARF 2 and 3). -/
theorem C67_dwarf_bit_field (size location bitOffset p width : Nat) (hw2 : width ≤ 128) (hs : size ≤ 16) :
    byDwarf size location width (some p) none = at_ p width ∧
    (DwarfOffset size location bitOffset p width → byDwarf size location width none (some bitOffset) = at_ p width) := by
  have hw : width % 256 = width := Nat.mod_eq_of_lt (by omega)
  refine ⟨?_, fun ⟨h1, h2⟩ => ?_⟩
  · simp [byDwarf, at_, hw]
  · have e : (size * 8 + 2 ^ 64 - width - bitOffset) % 256 = p - 8 * location := by omega
    simp only [byDwarf, hw, e, at_, Pos.mk.injEq, and_true]
    omega

/-- Saving with the position that was found reads exactly the bits of the bit-field, extended as C prescribes. -/
theorem C67_saved_bit_field (mask mem : List Byte) (p width : Nat) (signed : Bool) (h : IsMask mask p width) (hw : 1 ≤ width) (hw2 : width ≤ 128)
    (hlen : mem.length = mask.length) :
    ∃ pos v, byMask mask = some pos ∧ saveBitfield (mem.drop pos.offset) pos.shift pos.width signed = some v ∧
      ∀ k < 128, v.getLsbD k = if k < width then memBit mem (p + k) else signed && memBit mem (p + width - 1) := by
  have hlast := memBit_lt ((h (p + width - 1)).2 (by omega))
  obtain ⟨v, h1, h2⟩ := Props.Bitfield.C03_bitfield_reads_its_bits (mem.drop (p / 8)) (p % 8) width signed (by omega) hw hw2
    (by rw [List.length_drop]; omega)
  refine ⟨_, v, C67_macro_bit_field mask p width h hw hw2, h1, fun k hk => ?_⟩
  rw [h2 k hk, memBit_drop, memBit_drop]
  have e1 : 8 * (p / 8) + (p % 8 + k) = p + k := by omega
  have e2 : 8 * (p / 8) + (p % 8 + width - 1) = p + width - 1 := by omega
  rw [e1, e2]

/-- Loading with the position that was found stores the value in the bit-field and changes no other bit of the structure. -/
theorem C67_loaded_bit_field (mask mem : List Byte) (p width : Nat) (value : Word) (h : IsMask mask p width) (hw : 1 ≤ width) (hw2 : width ≤ 128)
    (hlen : mem.length = mask.length) :
    ∃ pos rest, byMask mask = some pos ∧ loadBitfield (mem.drop pos.offset) pos.shift pos.width value = some rest ∧
      (mem.take pos.offset ++ rest).length = mem.length ∧
      ∀ k, memBit (mem.take pos.offset ++ rest) k = if memBit mask k then value.getLsbD (k - p) else memBit mem k := by
  have hlast := memBit_lt ((h (p + width - 1)).2 (by omega))
  obtain ⟨rest, h1, h2, h3⟩ := Lemmas.Bitfield.load_ok (mem.drop (p / 8)) (p % 8) width value (by omega) hw hw2
    (by rw [List.length_drop]; omega)
  have htake : (mem.take (p / 8)).length = p / 8 := by rw [List.length_take]; omega
  refine ⟨_, rest, C67_macro_bit_field mask p width h hw hw2, h1, ?_, fun k => ?_⟩
  · show (mem.take (p / 8) ++ rest).length = mem.length
    rw [List.length_append, htake, h2, List.length_drop]; omega
  · show memBit (mem.take (p / 8) ++ rest) k = _
    by_cases hk : k / 8 < p / 8
    · have hm : ¬ memBit mask k = true := fun hc => by have := (h k).1 hc; omega
      rw [if_neg hm]
      unfold memBit
      rw [List.getD_eq_getElem?_getD, List.getElem?_append_left (by omega), List.getElem?_take_of_lt hk, ← List.getD_eq_getElem?_getD]
    · have e : memBit (mem.take (p / 8) ++ rest) k = memBit rest (k - 8 * (p / 8)) := by
        have := memBit_drop (mem.take (p / 8) ++ rest) (p / 8) (k - 8 * (p / 8))
        rw [List.drop_append_of_le_length (by omega), List.drop_eq_nil_of_le (by omega), List.nil_append] at this
        rw [this]; congr 1; omega
      rw [e, h3]
      by_cases hc : p ≤ k ∧ k < p + width
      · rw [if_pos (by omega), if_pos ((h k).2 hc)]; congr 1; omega
      · rw [if_neg (by omega), if_neg (fun hm => hc ((h k).1 hm)), memBit_drop]; congr 1; omega

/-- In a structure of 16 MiB or more no offset is found: 1 is shifted by 32 bits, which is undefined. -/
theorem C67_deviation_huge_structure (size o : Nat) (hs : 2 ^ 24 ≤ size) : plainOffset size o = none :=
  plainLoop_huge size o hs _ _ _ _

/-! ## the hypotheses can be met -/

/-- 13 bits at bit 14 of a structure of four bytes -/
theorem mask_example : IsMask [0x00#8, 0xC0#8, 0xFF#8, 0x07#8] 14 13 := by
  intro k
  by_cases h : k < 32
  · have : ∀ k < 32, memBit [0x00#8, 0xC0#8, 0xFF#8, 0x07#8] k = true ↔ 14 ≤ k ∧ k < 14 + 13 := by decide +kernel
    exact this k h
  · refine ⟨fun hc => ?_, fun hc => by omega⟩
    have := memBit_lt hc
    simp at this; omega

example : byMask [0x00#8, 0xC0#8, 0xFF#8, 0x07#8] = some { offset := 1, shift := 6, width := 13 } :=
  C67_macro_bit_field _ 14 13 mask_example (by decide) (by decide)
example : byMask [0#8, 0#8] = none := C67_macro_no_bits _ fun k => by
  cases h : memBit [0#8, 0#8] k with
  | false => rfl
  | true =>
    have hk := memBit_lt h
    have : ∀ k < 16, memBit [0#8, 0#8] k = false := by decide +kernel
    rw [this k (by simp at hk; omega)] at h; cases h
example : byPatterns 100 7 [3, 14, 55] = some [(0, 3), (1, 6), (6, 7)] :=
  C67_dump_bit_fields 100 7 [3, 14, 55] (by decide) (by decide) (by decide) (by decide)
example : plainOffset 70000 65544 = some 65544 := C67_dump_field 70000 65544 (by decide) (by decide)
example : DwarfOffset 4 8 5 78 13 := ⟨rfl, by decide⟩
example : byDwarf 4 8 13 none (some 5) = { offset := 9, shift := 6, width := 13 } :=
  (C67_dwarf_bit_field 4 8 5 78 13 (by decide) (by decide)).2 ⟨rfl, by decide⟩
example : ∃ pos v, byMask [0x00#8, 0xC0#8, 0xFF#8, 0x07#8] = some pos ∧ saveBitfield ([1#8, 2#8, 3#8, 4#8].drop pos.offset) pos.shift pos.width true = some v ∧
    ∀ k < 128, v.getLsbD k = if k < 13 then memBit [1#8, 2#8, 3#8, 4#8] (14 + k) else true && memBit [1#8, 2#8, 3#8, 4#8] (14 + 13 - 1) :=
  C67_saved_bit_field _ [1#8, 2#8, 3#8, 4#8] 14 13 true mask_example (by decide) (by decide) rfl

end Verif.Props.Layout
