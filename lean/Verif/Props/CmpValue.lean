import Verif.Lemmas.Cmp
import Verif.Lemmas.CmpFloat
import Verif.Lemmas.Bitfield
import Verif.Spec.CmpValue
/-!
# C32: the values that are compared

The order of graphs refers to the values of the nodes.  Here: what these values are.
-/
namespace Verif.Props.CmpValue
open Verif.Model Verif.Model.Ptrs Verif.Model.Save Verif.Model.Copy Verif.Model.BasicCmp Verif.Model.Cmp Verif.Spec.Cmp Verif.Spec.CmpValue
open Verif.Lemmas.Cmp Verif.Lemmas.CmpFloat

variable {tds : List Td} {m : Bytes} {fuel : Nat}

theorem signed_reads {n v : Nat} (hn : 1 ≤ n) (hv : v < 256 ^ n) (k : Int) : k = signed n v ↔ Reads true n v k := by
  have e : (256 : Nat) ^ n = 2 ^ (8 * n) := by rw [show (256 : Nat) = 2 ^ 8 by decide, ← Nat.pow_mul]
  have e2 : (2 : Nat) ^ (8 * n) = 2 * 2 ^ (8 * n - 1) := by rw [← Nat.pow_succ']; congr 1; omega
  rw [e] at hv
  unfold Reads signed
  rw [if_pos rfl]
  rw [e2] at hv ⊢
  clear e e2
  generalize 2 ^ (8 * n - 1) = h at *
  constructor
  · intro hk
    split at hk
    · exact ⟨⟨0, by omega⟩, by omega, by omega⟩
    · exact ⟨⟨-1, by omega⟩, by omega, by omega⟩
  · rintro ⟨⟨q, hq⟩, h1, h2⟩
    have hq' : -1 ≤ q ∧ q ≤ 0 := by
      constructor
      · apply Classical.byContradiction
        intro hc
        have : q * ((2 * h : Nat) : Int) ≤ -2 * ((2 * h : Nat) : Int) := Int.mul_le_mul_of_nonneg_right (by omega) (by omega)
        omega
      · apply Classical.byContradiction
        intro hc
        have : 1 * ((2 * h : Nat) : Int) ≤ q * ((2 * h : Nat) : Int) := Int.mul_le_mul_of_nonneg_right (by omega) (by omega)
        omega
    have : q = 0 ∨ q = -1 := by omega
    rcases this with rfl | rfl
    · rw [if_pos (by omega)]; omega
    · rw [if_neg (by omega)]; omega

theorem unsigned_reads {n v : Nat} (hv : v < 256 ^ n) (k : Int) : k = (v : Int) ↔ Reads false n v k := by
  have e : (256 : Nat) ^ n = 2 ^ (8 * n) := by rw [show (256 : Nat) = 2 ^ 8 by decide, ← Nat.pow_mul]
  rw [e] at hv
  unfold Reads
  rw [if_neg (by simp)]
  generalize 2 ^ (8 * n) = h at *
  constructor
  · intro hk
    exact ⟨⟨0, by omega⟩, by omega, by omega⟩
  · rintro ⟨⟨q, hq⟩, h1, h2⟩
    have : q = 0 := by
      apply Classical.byContradiction
      intro hc
      rcases Int.lt_or_gt_of_ne hc with hc | hc
      · have : q * (h : Int) ≤ -1 * (h : Int) := Int.mul_le_mul_of_nonneg_right (by omega) (by omega)
        omega
      · have : 1 * (h : Int) ≤ q * (h : Int) := Int.mul_le_mul_of_nonneg_right (by omega) (by omega)
        omega
    subst this
    omega

/-- **C32.** The value of a node with an integer type is the integer in its memory. -/
theorem C32_integer_value (p : Pd) (x : Info) (sg : Bool) (n : Nat) (h : intKind p.ty = some (sg, n)) (k : Int) :
    value tds m fuel p x = some (.int k) ↔ Reads sg n (number m x.addr n) k := by
  unfold value
  revert h
  generalize p.ty = ty
  intro h
  cases ty <;> simp [intKind] at h <;> obtain ⟨rfl, rfl⟩ := h <;> simp only [intVal, Option.some.injEq, Val.int.injEq]
  all_goals first
    | (rw [← signed_reads (by decide) (number_lt m _ _)]; exact eq_comm)
    | (rw [← unsigned_reads (number_lt m _ _)]; exact eq_comm)

/-- **C32.** The value of an enum is the integer of its effective type in its memory. -/
theorem C32_enum_value (p : Pd) (x : Info) (sg : Bool) (n : Nat) (hp : p.ty = .enum) (h : intKind x.aux = some (sg, n)) (hi : intType x.aux = true) (k : Int) :
    value tds m fuel p x = some (.int k) ↔ Reads sg n (number m x.addr n) k := by
  unfold value
  rw [hp]
  simp only
  revert h hi
  generalize x.aux = ty
  intro h hi
  cases ty <;> simp [intKind, intType] at h hi <;> obtain ⟨rfl, rfl⟩ := h <;> simp only [intVal, Option.some.injEq, Val.int.injEq]
  all_goals first
    | (rw [← signed_reads (by decide) (number_lt m _ _)]; exact eq_comm)
    | (rw [← unsigned_reads (number_lt m _ _)]; exact eq_comm)

theorem text_sound : ∀ (fuel a : Nat) (t : List Nat), text m fuel a = some t ↔ t.length < fuel ∧ TextAt m a t
  | 0, a, t => by simp [text]
  | fuel + 1, a, t => by
    unfold text
    by_cases h0 : m a = 0
    · rw [if_pos h0]
      constructor
      · intro h; cases h; exact ⟨by simp, fun i hi => by simp at hi, h0⟩
      · rintro ⟨_, h1, h2⟩
        cases t with
        | nil => rfl
        | cons b t => exact absurd h0 (h1 0 (by simp)).1
    · rw [if_neg h0]
      have ih := text_sound fuel (a + 1)
      constructor
      · intro h
        simp only [Option.bind_eq_bind] at h
        obtain ⟨u, hu, h⟩ := Option.bind_eq_some_iff.1 h
        cases h
        obtain ⟨l, i1, i2⟩ := (ih u).1 hu
        refine ⟨by simpa using l, fun i hi => ?_, by simpa [Nat.add_assoc, Nat.add_comm 1] using i2⟩
        cases i with
        | zero => exact ⟨h0, rfl⟩
        | succ i =>
          have := i1 i (by simpa using hi)
          rw [show a + (i + 1) = a + 1 + i by omega]
          exact this
      · rintro ⟨l, h1, h2⟩
        cases t with
        | nil => exact absurd h2 h0
        | cons b t =>
          have hb := (h1 0 (by simp)).2
          simp at hb
          have := (ih t).2 ⟨by simpa using l, fun i hi => by
            have := h1 (i + 1) (by simpa using hi)
            rw [show a + (i + 1) = a + 1 + i by omega] at this
            exact this, by rw [show a + 1 + t.length = a + (b :: t).length by simp; omega]; exact h2⟩
          rw [this, hb]
          rfl

/-- **C32.** The value of a string is NULL or its text, provided that the text is found. -/
theorem C32_string_value (p : Pd) (x : Info) (hp : p.ty = .string) (o : Option (List Nat)) :
    value tds m fuel p x = some (.str o) ↔
      match o with
      | none => word m x.addr = 0
      | some t => word m x.addr ≠ 0 ∧ t.length < fuel ∧ TextAt m (word m x.addr) t := by
  unfold value
  rw [hp]
  simp only
  by_cases h0 : word m x.addr = 0
  · rw [if_pos h0]
    cases o with
    | none => simp [h0]
    | some t => simp [h0]
  · rw [if_neg h0]
    cases ht : text m fuel (word m x.addr) with
    | none =>
      cases o with
      | none => simp [h0]
      | some t =>
        simp only [Option.bind_eq_bind, Option.bind_none, reduceCtorEq, false_iff]
        rintro ⟨_, h⟩
        have := (text_sound _ _ _).2 h
        rw [ht] at this
        cases this
    | some u =>
      cases o with
      | none => simp [h0]
      | some t =>
        simp only [Option.bind_eq_bind, Option.bind_some, Option.some.injEq, Val.str.injEq]
        constructor
        · intro h; subst h; exact ⟨h0, (text_sound _ _ _).1 ht⟩
        · rintro ⟨_, h⟩
          have := (text_sound _ _ _).2 h
          rw [ht] at this
          exact Option.some.inj this

/-- **C32.** The value of an array of characters is its text. -/
theorem C32_char_array_value (p : Pd) (x : Info) (hp : p.ty = .charArray) (t : List Nat) :
    value tds m fuel p x = some (.str (some t)) ↔ t.length < fuel ∧ TextAt m x.addr t := by
  unfold value
  rw [hp]
  simp only
  rw [← text_sound]
  cases text m fuel x.addr <;> simp

/-- **C32.** A value is "not a number" if and only if the number in memory is. -/
theorem C32_nan (e f v : Nat) : float e f v = none ↔ IsNan e f v := by
  unfold float IsNan
  simp only
  rw [mod_low e f v]
  have h1 : v / 2 ^ f % 2 ^ e < 2 ^ e := Nat.mod_lt _ (Nat.pow_pos (by omega))
  have h2 : v % 2 ^ f < 2 ^ f := Nat.mod_lt _ (Nat.pow_pos (by omega))
  generalize v / 2 ^ f % 2 ^ e = ex at *
  generalize v % 2 ^ f = fr at *
  generalize 2 ^ e = E at *
  generalize 2 ^ f = F at *
  have h3 : ex ≤ E - 1 := by omega
  have h4 : ex ≠ E - 1 → (ex + 1) * F ≤ (E - 1) * F := fun h => Nat.mul_le_mul_right _ (by omega)
  rw [Nat.add_mul] at h4
  by_cases hx : ex = E - 1
  · rw [hx]
    by_cases hf : fr = 0
    · simp [hf]
    · simp [hf]; omega
  · rw [if_neg (fun h => hx h.1)]
    have := h4 hx
    simp
    omega

theorem mag_lt_iff {f ex ex' fr fr' : Nat} (h : fr < 2 ^ f) (h' : fr' < 2 ^ f) :
    mag f ex fr < mag f ex' fr' ↔ ex * 2 ^ f + fr < ex' * 2 ^ f + fr' := by
  rcases Nat.lt_trichotomy ex ex' with hl | hl | hl
  · have h1 := mag_lt (frac' := fr') hl h
    have h2 : (ex + 1) * 2 ^ f ≤ ex' * 2 ^ f := Nat.mul_le_mul_right _ hl
    rw [Nat.add_mul] at h2
    omega
  · subst hl
    unfold mag
    split
    · omega
    · rw [Nat.mul_lt_mul_right (Nat.pow_pos (by omega))]
      omega
  · have h1 := mag_lt (frac' := fr) hl h'
    have h2 : (ex' + 1) * 2 ^ f ≤ ex * 2 ^ f := Nat.mul_le_mul_right _ hl
    rw [Nat.add_mul] at h2
    omega

/-- **C32.** Floating point numbers are ordered like the IEEE formats: by the bits, read as a number with a sign. -/
theorem C32_float_order (e f v w : Nat) (a b : Int) (hv : float e f v = some a) (hw : float e f w = some b) :
    a < b ↔ bitsOf (e + f) v < bitsOf (e + f) w := by
  have key : ∀ {v : Nat} {a : Int}, float e f v = some a → a = withSign (decide (v / 2 ^ (e + f) % 2 = 1)) (mag f (v / 2 ^ f % 2 ^ e) (v % 2 ^ f)) := by
    intro v a h
    unfold float at h
    simp only at h
    split at h
    · simp at h
    · exact (Option.some.inj h).symm
  rw [key hv, key hw]
  unfold bitsOf
  rw [mod_low e f v, mod_low e f w]
  have fv : v % 2 ^ f < 2 ^ f := Nat.mod_lt _ (Nat.pow_pos (by omega))
  have fw : w % 2 ^ f < 2 ^ f := Nat.mod_lt _ (Nat.pow_pos (by omega))
  have h1 := mag_lt_iff (ex := v / 2 ^ f % 2 ^ e) (ex' := w / 2 ^ f % 2 ^ e) fv fw
  have h2 := mag_lt_iff (ex := w / 2 ^ f % 2 ^ e) (ex' := v / 2 ^ f % 2 ^ e) fw fv
  have z : mag f 0 0 = 0 := by simp [mag]
  have z1 := mag_lt_iff (ex := 0) (fr := 0) (ex' := v / 2 ^ f % 2 ^ e) (Nat.pow_pos (by omega)) fv
  have z2 := mag_lt_iff (ex := 0) (fr := 0) (ex' := w / 2 ^ f % 2 ^ e) (Nat.pow_pos (by omega)) fw
  rw [z] at z1 z2
  generalize mag f (v / 2 ^ f % 2 ^ e) (v % 2 ^ f) = A at *
  generalize mag f (w / 2 ^ f % 2 ^ e) (w % 2 ^ f) = B at *
  generalize v / 2 ^ f % 2 ^ e * 2 ^ f + v % 2 ^ f = C at *
  generalize w / 2 ^ f % 2 ^ e * 2 ^ f + w % 2 ^ f = D at *
  unfold withSign
  simp only [decide_eq_true_eq]
  split <;> split <;> omega

/-- **C32.** The same for the extended format of x87, for numbers in the usual encoding. -/
theorem C32_extended_order (e f v w : Nat) (a b : Int) (pv : plainExtended e f v) (pw : plainExtended e f w)
    (hv : extended e f v = some a) (hw : extended e f w = some b) : a < b ↔ bitsOf (e + f + 1) v < bitsOf (e + f + 1) w := by
  have key : ∀ {v : Nat} {a : Int}, plainExtended e f v → extended e f v = some a →
      ∃ fr, fr < 2 ^ f ∧ v % 2 ^ (f + 1) = (if v / 2 ^ (f + 1) % 2 ^ e = 0 then 0 else 2 ^ f) + fr ∧
        a = withSign (decide (v / 2 ^ (e + f + 1) % 2 = 1)) (mag f (v / 2 ^ (f + 1) % 2 ^ e) fr) := by
    intro v a p h
    have hlt : v % 2 ^ (f + 1) < 2 ^ (f + 1) := Nat.mod_lt _ (Nat.pow_pos (by omega))
    rw [Nat.pow_succ 2 f] at hlt
    unfold extended at h
    simp only at h
    split at h
    · simp at h
    · rename_i c1
      split at h
      · simp at h
      · by_cases h0 : v / 2 ^ (f + 1) % 2 ^ e = 0
        · refine ⟨v % 2 ^ (f + 1), p.2 h0, by rw [if_pos h0]; omega, ?_⟩
          rw [if_pos h0] at h
          unfold mag
          rw [if_pos h0]
          exact (Option.some.inj h).symm
        · have h3 : ¬ v % 2 ^ (f + 1) < 2 ^ f := fun h => c1 ⟨h0, h⟩
          refine ⟨v % 2 ^ (f + 1) - 2 ^ f, by omega, by rw [if_neg h0]; omega, ?_⟩
          rw [if_neg h0] at h
          unfold mag
          rw [if_neg h0]
          have : 2 ^ f + (v % 2 ^ (f + 1) - 2 ^ f) = v % 2 ^ (f + 1) := by omega
          rw [this]
          exact (Option.some.inj h).symm
  obtain ⟨x, hx, dx, ea⟩ := key pv hv
  obtain ⟨y, hy, dy, eb⟩ := key pw hw
  rw [ea, eb]
  unfold bitsOf
  have m1 := mod_low e (f + 1) v
  have m2 := mod_low e (f + 1) w
  rw [dx, ← Nat.add_assoc] at m1
  rw [dy, ← Nat.add_assoc] at m2
  rw [m1, m2]
  have h1 := mag_lt_iff (ex := v / 2 ^ (f + 1) % 2 ^ e) (ex' := w / 2 ^ (f + 1) % 2 ^ e) hx hy
  have h2 := mag_lt_iff (ex := w / 2 ^ (f + 1) % 2 ^ e) (ex' := v / 2 ^ (f + 1) % 2 ^ e) hy hx
  have z : mag f 0 0 = 0 := by simp [mag]
  have z1 := mag_lt_iff (ex := 0) (fr := 0) (ex' := v / 2 ^ (f + 1) % 2 ^ e) (Nat.pow_pos (by omega)) hx
  have z2 := mag_lt_iff (ex := 0) (fr := 0) (ex' := w / 2 ^ (f + 1) % 2 ^ e) (Nat.pow_pos (by omega)) hy
  rw [z] at z1 z2
  have bound : ∀ {c d : Nat}, (c < d → c * 2 ^ f + 2 ^ f ≤ d * 2 ^ f) := fun {c d} h => by
    have := Nat.mul_le_mul_right (2 ^ f) h
    rw [Nat.succ_mul] at this
    exact this
  generalize v / 2 ^ (f + 1) % 2 ^ e = ev at *
  generalize w / 2 ^ (f + 1) % 2 ^ e = ew at *
  have b1 := @bound ev ew
  have b2 := @bound ew ev
  have b3 := @bound 0 ev
  have b4 := @bound 0 ew
  have d1 : ev * 2 ^ (f + 1) = 2 * (ev * 2 ^ f) := by rw [Nat.pow_succ]; generalize 2 ^ f = F; rw [← Nat.mul_assoc, Nat.mul_comm]
  have d2 : ew * 2 ^ (f + 1) = 2 * (ew * 2 ^ f) := by rw [Nat.pow_succ]; generalize 2 ^ f = F; rw [← Nat.mul_assoc, Nat.mul_comm]
  rw [d1, d2]
  have e1 : ev = ew → ev * 2 ^ f = ew * 2 ^ f := fun h => by rw [h]
  generalize mag f ev x = A at *
  generalize mag f ew y = B at *
  have q1 : ev * 2 ^ f + x < ew * 2 ^ f + y ↔ 2 * (ev * 2 ^ f) + ((if ev = 0 then 0 else 2 ^ f) + x) < 2 * (ew * 2 ^ f) + ((if ew = 0 then 0 else 2 ^ f) + y) := by
    rcases Nat.lt_trichotomy ev ew with h | h | h
    · have := b1 h
      split <;> split <;> omega
    · have := e1 h
      subst h
      omega
    · have := b2 h
      split <;> split <;> omega
  have q2 : ew * 2 ^ f + y < ev * 2 ^ f + x ↔ 2 * (ew * 2 ^ f) + ((if ew = 0 then 0 else 2 ^ f) + y) < 2 * (ev * 2 ^ f) + ((if ev = 0 then 0 else 2 ^ f) + x) := by
    rcases Nat.lt_trichotomy ev ew with h | h | h
    · have := b1 h
      split <;> split <;> omega
    · have := e1 h
      subst h
      omega
    · have := b2 h
      split <;> split <;> omega
  have q3 : 0 < ev * 2 ^ f + x ↔ 0 < 2 * (ev * 2 ^ f) + ((if ev = 0 then 0 else 2 ^ f) + x) := by split <;> omega
  have q4 : 0 < ew * 2 ^ f + y ↔ 0 < 2 * (ew * 2 ^ f) + ((if ew = 0 then 0 else 2 ^ f) + y) := by split <;> omega
  rw [q1] at h1
  rw [q2] at h2
  have z1 : 0 < A ↔ _ := (z1.trans (by simp)).trans q3
  have z2 : 0 < B ↔ _ := (z2.trans (by simp)).trans q4
  generalize 2 * (ev * 2 ^ f) + ((if ev = 0 then 0 else 2 ^ f) + x) = C at *
  generalize 2 * (ew * 2 ^ f) + ((if ew = 0 then 0 else 2 ^ f) + y) = D at *
  unfold withSign
  simp only [decide_eq_true_eq]
  split <;> split <;> omega

/-- **C32.** The values of the floating point types: the formats and places of their numbers. -/
theorem C32_float_value (p : Pd) (x : Info) :
    (p.ty = .float → value tds m fuel p x = some (.flt (float 8 23 (number m x.addr 4)))) ∧
    (p.ty = .double → value tds m fuel p x = some (.flt (float 11 52 (number m x.addr 8)))) ∧
    (p.ty = .longDouble → value tds m fuel p x = some (.flt (extended 15 63 (number m x.addr 10)))) ∧
    (p.ty = .complexFloat → value tds m fuel p x = some (.cpx (float 8 23 (number m x.addr 4)) (float 8 23 (number m (x.addr + 4) 4)))) ∧
    (p.ty = .complexDouble → value tds m fuel p x = some (.cpx (float 11 52 (number m x.addr 8)) (float 11 52 (number m (x.addr + 8) 8)))) ∧
    (p.ty = .complexLongDouble → value tds m fuel p x = some (.cpx (extended 15 63 (number m x.addr 10)) (extended 15 63 (number m (x.addr + 16) 10)))) := by
  unfold value
  refine ⟨?_, ?_, ?_, ?_, ?_, ?_⟩ <;> intro h <;> rw [h]

theorem memBit_range (a w j : Nat) (h : j / 8 < w + 1) :
    Verif.Spec.memBit ((List.range (w + 1)).map fun k => (m (a + k)).toBitVec) j = bitAt m a j := by
  unfold Verif.Spec.memBit bitAt
  rw [List.getD_eq_getElem?_getD, List.getElem?_map, List.getElem?_range h]
  simp [BitVec.getLsbD]

/-- **C32.** The value of a bit-field consists of its bits; a signed one is continued with its highest bit, and the
result is taken as an unsigned number of 128 bits. -/
theorem C32_bitfield_value (p : Pd) (x : Info) (fd : Fd) (sg : Bool) (n : Nat) (hp : p.ty = .bitfield) (hfd : x.fd = some fd)
    (hs : fd.shift < 8) (hw : 1 ≤ fd.width) (hw2 : fd.width ≤ 128) (hi : intType x.aux = true) (hk : intKind x.aux = some (sg, n)) (k : Int) :
    value tds m fuel p x = some (.int k) ↔
      ∃ v : Nat, k = v ∧ v < 2 ^ 128 ∧ ∀ j, j < 128 → v.testBit j =
        if j < fd.width then bitAt m x.addr (fd.shift + j) else (sg && bitAt m x.addr (fd.shift + fd.width - 1)) := by
  have hsg : signedType (if x.aux = .enum ∧ fd.td ≠ none then effectiveType tds fd.td else x.aux) = sg := by
    rw [if_neg (fun h => by rw [h.1] at hi; simp [intType] at hi)]
    revert hk hi
    generalize x.aux = ty
    intro hi hk
    cases ty <;> simp [intType] at hi <;> simp [intKind] at hk <;> simp [signedType, hk.1]
  obtain ⟨v, h1, h2⟩ := Verif.Lemmas.Bitfield.save_ok ((List.range (fd.width + 1)).map fun k => (m (x.addr + k)).toBitVec) fd.shift fd.width sg hs hw hw2
    (by simp; omega)
  have hb : ∀ j, j < 128 → v.toNat.testBit j =
        if j < fd.width then bitAt m x.addr (fd.shift + j) else (sg && bitAt m x.addr (fd.shift + fd.width - 1)) := by
    intro j hj
    have := h2 j hj
    rw [BitVec.getLsbD] at this
    rw [this]
    split
    · rw [memBit_range _ _ _ (by omega)]
    · rw [memBit_range _ _ _ (by omega)]
  have hv : value tds m fuel p x = some (.int v.toNat) := by
    unfold value bitVal
    rw [hp]
    simp only [hfd, Option.bind_eq_bind, Option.bind_some, hsg]
    rw [if_neg (by omega), h1]
    rfl
  rw [hv]
  constructor
  · intro h
    injection h with h
    injection h with h
    exact ⟨v.toNat, h.symm, v.isLt, hb⟩
  · rintro ⟨w, rfl, hlt, hw'⟩
    congr 2
    have : v.toNat = w := by
      apply Nat.eq_of_testBit_eq
      intro j
      by_cases hj : j < 128
      · rw [hb j hj, hw' j hj]
      · have e : 2 ^ 128 ≤ 2 ^ j := Nat.pow_le_pow_right (by omega) (by omega)
        rw [Nat.testBit_lt_two_pow (Nat.lt_of_lt_of_le v.isLt e), Nat.testBit_lt_two_pow (Nat.lt_of_lt_of_le hlt e)]
    rw [this]

/-! ## examples -/

/-- a signed field of 3 bits with the value -1 -/
example : value [] (fun _ => 0x70) 1 { ty := .bitfield } { addr := 8, fd := some { ty := .bitfield, aux := .int32, size := 4, shift := 4, width := 3 }, aux := .int32 } =
    some (.int (2 ^ 128 - 1)) := by decide +kernel

/-- -2 in 16 bits -/
example : Reads true 2 0xfffe (-2) := ⟨⟨-1, by decide⟩, by decide⟩
/-- "ab" -/
example : TextAt (fun a => if a = 7 then 97 else if a = 8 then 98 else 0) 7 [97, 98] :=
  ⟨fun i hi => by
    have : i = 0 ∨ i = 1 := by simp at hi; omega
    rcases this with rfl | rfl <;> decide, by decide⟩
/-- -1.0 < 0.5, as numbers and as bits -/
example : (float 8 23 0xbf800000).isSome ∧ (float 8 23 0x3f000000).isSome ∧ bitsOf 31 0xbf800000 < bitsOf 31 0x3f000000 := by decide +kernel
/-- NaN -/
example : IsNan 8 23 0x7fc00000 ∧ ¬ IsNan 8 23 0x7f800000 := by unfold IsNan; decide +kernel
/-- 1.0 in the extended format is in the usual encoding -/
example : plainExtended 15 63 (0x3fff * 2 ^ 64 + 2 ^ 63) := by unfold plainExtended; decide +kernel

end Verif.Props.CmpValue
