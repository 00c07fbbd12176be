import Verif.Spec.Layout
namespace Verif.Lemmas.Layout
open Verif.Model.Layout Verif.Model.Bitfield Verif.Spec Verif.Spec.Layout

/-! ### masks -/

theorem byte_zero (b : Byte) : b = 0#8 ↔ ∀ i < 8, b.getLsbD i = false := by
  constructor
  · rintro rfl i _; simp
  · intro h
    apply BitVec.eq_of_getLsbD_eq
    intro i hi
    rw [h i hi]; simp

theorem firstByte_add : ∀ (l : List Byte) (i : Nat), firstByte l i = i + firstByte l 0
  | [], i => by simp [firstByte]
  | b :: l, i => by
    simp only [firstByte]
    split
    · simp
    · rw [firstByte_add l (i + 1), firstByte_add l (0 + 1)]; omega

theorem memBit_cons (b : Byte) (l : List Byte) (k : Nat) : memBit (b :: l) k = if k < 8 then b.getLsbD k else memBit l (k - 8) := by
  unfold memBit
  by_cases h : k < 8
  · have e1 : k / 8 = 0 := by omega
    have e2 : k % 8 = k := by omega
    rw [if_pos h, e1, e2]; rfl
  · obtain ⟨j, rfl⟩ : ∃ j, k = j + 8 := ⟨k - 8, by omega⟩
    have e1 : (j + 8) / 8 = j / 8 + 1 := by omega
    have e2 : (j + 8) % 8 = j % 8 := by omega
    rw [if_neg h, e1, e2, Nat.add_sub_cancel]; rfl

theorem memBit_drop (l : List Byte) (o k : Nat) : memBit (l.drop o) k = memBit l (8 * o + k) := by
  unfold memBit
  have e1 : (8 * o + k) / 8 = o + k / 8 := by omega
  have e2 : (8 * o + k) % 8 = k % 8 := by omega
  rw [e1, e2, List.getD_eq_getElem?_getD, List.getD_eq_getElem?_getD, List.getElem?_drop]

theorem memBit_lt {l : List Byte} {k : Nat} (h : memBit l k = true) : k / 8 < l.length := by
  apply Decidable.byContradiction
  intro hn
  unfold memBit at h
  rw [List.getD_eq_getElem?_getD, List.getElem?_eq_none (by omega)] at h
  simp at h

theorem firstByte_ok : ∀ (l : List Byte) (p : Nat), (∀ k < p, memBit l k = false) → memBit l p = true → firstByte l 0 = p / 8
  | [], p, _, h => by simp [memBit] at h
  | b :: l, p, h0, h1 => by
    rw [firstByte]
    by_cases hp : p < 8
    · rw [memBit_cons, if_pos hp] at h1
      have : b ≠ 0#8 := fun e => by rw [e] at h1; simp at h1
      rw [if_pos this]; omega
    · have hb : b = 0#8 := (byte_zero b).2 fun i hi => by
        have := h0 i (by omega)
        rwa [memBit_cons, if_pos hi] at this
      rw [if_neg (by simp [hb]), firstByte_add]
      have := firstByte_ok l (p - 8) (fun k hk => by
        have := h0 (k + 8) (by omega)
        rwa [memBit_cons, if_neg (by omega), Nat.add_sub_cancel] at this) (by rwa [memBit_cons, if_neg hp] at h1)
      rw [this]; omega

theorem firstBit_ok (b : Byte) : ∀ (n i t : Nat), i ≤ t → t < i + n → (∀ k, i ≤ k → k < t → b.getLsbD k = false) → b.getLsbD t = true → firstBit b n i = t
  | 0, i, t, h1, h2, _, _ => by omega
  | n + 1, i, t, h1, h2, h3, h4 => by
    rw [firstBit]
    by_cases e : i = t
    · subst e; rw [if_pos h4]
    · rw [h3 i (Nat.le_refl _) (by omega)]
      exact firstBit_ok b n (i + 1) t (by omega) (by omega) (fun k hk => h3 k (by omega)) h4

/-- the run ends at bit `e` -/
theorem runBits_ok (b : Byte) : ∀ (n i e w : Nat), i ≤ e → e ≤ i + n → (∀ k, i ≤ k → k < e → b.getLsbD k = true) → (e < i + n → b.getLsbD e = false) →
    w + (e - i) < 256 → runBits b n i w = (e, w + (e - i))
  | 0, i, e, w, h1, h2, _, _, _ => by
    have : e = i := by omega
    subst this; simp [runBits]
  | n + 1, i, e, w, h1, h2, h3, h4, h5 => by
    rw [runBits]
    by_cases he : i = e
    · subst he; rw [h4 (by omega)]; simp
    · rw [h3 i (Nat.le_refl _) (by omega), if_pos rfl]
      rw [runBits_ok b n (i + 1) e _ (by omega) (by omega) (fun k hk => h3 k (by omega)) (fun h => h4 (by omega)) (by omega)]
      congr 1; omega

theorem runBytes_ok : ∀ (l : List Byte) (i n w : Nat), i < 8 → (∀ k, i ≤ k → (memBit l k = true ↔ k < i + n)) → w + n < 256 → runBytes l i w = w + n
  | [], i, n, w, hi, h, hw => by
    have : n = 0 := by
      apply Decidable.byContradiction
      intro hn
      have := (h i (Nat.le_refl _)).2 (by omega)
      simp [memBit] at this
    subst this; rfl
  | b :: l, i, n, w, hi, h, hw => by
    have hb : ∀ k, i ≤ k → k < 8 → (b.getLsbD k = true ↔ k < i + n) := fun k h1 h2 => by
      have := h k h1
      rwa [memBit_cons, if_pos h2] at this
    rw [runBytes]
    by_cases hn : i + n < 8
    · rw [runBits_ok b (8 - i) i (i + n) w (by omega) (by omega) (fun k h1 h2 => (hb k h1 (by omega)).2 h2)
        (fun _ => by
          cases he : b.getLsbD (i + n) with
          | false => rfl
          | true => exact absurd ((hb (i + n) (by omega) hn).1 he) (by omega)) (by omega)]
      simp only [hn, if_true]; omega
    · rw [runBits_ok b (8 - i) i 8 w (by omega) (by omega) (fun k h1 h2 => (hb k h1 h2).2 (by omega)) (fun h => by omega) (by omega)]
      simp only [Nat.lt_irrefl, if_false]
      rw [runBytes_ok l 0 (i + n - 8) _ (by omega) (fun k _ => by
        have := h (k + 8) (by omega)
        rw [memBit_cons, if_neg (by omega), Nat.add_sub_cancel] at this
        rw [this]; omega) (by omega)]
      omega

theorem byMask_ok (mask : List Byte) (p w : Nat) (h : IsMask mask p w) (hw : 1 ≤ w) (hw2 : w < 256) : byMask mask = some (at_ p w) := by
  have hp : memBit mask p = true := (h p).2 (by omega)
  have h0 : ∀ k < p, memBit mask k = false := fun k hk => by
    cases he : memBit mask k with
    | false => rfl
    | true => have := (h k).1 he; omega
  have hf := firstByte_ok mask p h0 hp
  have hlt := memBit_lt hp
  unfold byMask
  rw [hf]
  simp only [List.getElem?_eq_getElem hlt, Option.bind_eq_bind, Option.bind_some, Option.some.injEq, at_, Pos.mk.injEq, true_and]
  have hbit : ∀ k < 8, (mask[p / 8]).getLsbD k = memBit mask (8 * (p / 8) + k) := fun k hk => by
    have e1 : (8 * (p / 8) + k) / 8 = p / 8 := by omega
    have e2 : (8 * (p / 8) + k) % 8 = k := by omega
    simp [memBit, e1, e2, List.getD_eq_getElem?_getD, List.getElem?_eq_getElem hlt]
  have hs : firstBit mask[p / 8] 8 0 = p % 8 := by
    refine firstBit_ok _ 8 0 (p % 8) (by omega) (by omega) (fun k _ hk => ?_) ?_
    · rw [hbit k (by omega)]; exact h0 _ (by omega)
    · rw [hbit _ (by omega)]
      have : 8 * (p / 8) + p % 8 = p := by omega
      rw [this]; exact hp
  refine ⟨hs, ?_⟩
  rw [hs, runBytes_ok _ (p % 8) w 0 (by omega) (fun k hk => ?_) (by omega)]
  · omega
  · rw [memBit_drop, h]; omega

/-! ### patterns -/

theorem fillLoop_ok (size b : Nat) (v : Nat → Nat) (hb : 1 ≤ b) (hbs : b ≤ size + 1) : ∀ (fuel i : Nat) (M : Nat → Nat),
    i * b ≤ size → size < i * b + fuel → (∀ a < i * b, M a = v (a / b) % 256) →
    ∃ i' M', fillLoop size b v fuel i (i * b) M = some (i', i' * b, M') ∧ i' * b ≤ size ∧ size < i' * b + b ∧ ∀ a < i' * b, M' a = v (a / b) % 256
  | 0, i, M, h1, h2, _ => by omega
  | fuel + 1, i, M, h1, h2, h3 => by
    rw [fillLoop]
    by_cases hc : i * b < size - (b - 1)
    · have hle : i * b + b ≤ size := by omega
      have e : i * b + b = (i + 1) * b := by rw [Nat.add_mul, Nat.one_mul]
      simp only [hc, if_true, memset, hle, Option.bind_eq_bind, Option.bind_some]
      rw [e] at hle ⊢
      refine fillLoop_ok size b v hb hbs fuel (i + 1) _ hle (by omega) ?_
      intro a ha
      by_cases h : i * b ≤ a
      · have : a / b = i := by
          rw [Nat.div_eq_iff (by omega)]
          refine ⟨by omega, ?_⟩
          omega
        rw [if_pos ⟨h, by omega⟩, this]
      · rw [if_neg (by omega)]; exact h3 a (by omega)
    · rw [if_neg hc]
      exact ⟨i, M, rfl, h1, by omega, h3⟩

theorem fill_ok (size k : Nat) (v : Nat → Nat) (M : Nat → Nat) (hb : 2 ^ k ≤ size + 1) :
    ∃ M', fill size (2 ^ k) v M = some M' ∧ ∀ a < size, M' a = v (a / 2 ^ k) % 256 := by
  have hpos : 1 ≤ 2 ^ k := Nat.one_le_two_pow
  obtain ⟨i, M1, h1, h2, h3, h4⟩ := fillLoop_ok size (2 ^ k) v hpos hb (size + 1) 0 M (by omega) (by omega) (by intro a ha; omega)
  rw [Nat.zero_mul] at h1
  have hdiv : size / 2 ^ k = i := by
    rw [Nat.div_eq_iff (by omega)]; exact ⟨by omega, by omega⟩
  have hmod : i * 2 ^ k + size % 2 ^ k = size := by
    have := Nat.div_add_mod size (2 ^ k)
    rw [hdiv, Nat.mul_comm] at this; exact this
  unfold fill
  simp only [h1, Option.bind_eq_bind, Option.bind_some, Nat.and_two_pow_sub_one_eq_mod, memset, hmod, Nat.le_refl, if_true, Option.some.injEq, exists_eq_left']
  intro a ha
  by_cases h : i * 2 ^ k ≤ a
  · have : a / 2 ^ k = i := by
      rw [Nat.div_eq_iff (by omega)]; exact ⟨by omega, by omega⟩
    rw [if_pos ⟨h, ha⟩, this]
  · rw [if_neg (by omega)]; exact h4 a (by omega)

theorem plainLoop_ok (size o : Nat) (hs : size < 2 ^ 24) (ho : o < size) : ∀ (fuel ob : Nat) (M : Nat → Nat) (off : Nat), 3 ≤ ob + fuel → ob < 3 →
    (∀ a < size, M a = a / 2 ^ (8 * ob) % 256) → off = o % 2 ^ (8 * ob) → plainLoop size o fuel ob M off = some o
  | 0, ob, M, off, h1, h2, _, _ => by omega
  | fuel + 1, ob, M, off, h1, h2, hM, hoff => by
    have ho2 : o < 2 ^ 24 := by omega
    have hstep : (off + M o <<< (8 * ob)) % 2 ^ 64 = o % 2 ^ (8 * (ob + 1)) := by
      rw [hM o ho, hoff, Nat.shiftLeft_eq]
      match ob, h2 with
      | 0, _ => simp only [Nat.mul_zero, Nat.pow_zero, Nat.div_one, Nat.zero_add, Nat.mul_one]; omega
      | 1, _ => simp only [Nat.mul_one, Nat.reduceAdd, Nat.reduceMul]; omega
      | 2, _ => simp only [Nat.reduceAdd, Nat.reduceMul]; omega
    rw [plainLoop]
    simp only [hstep]
    rw [if_neg (by omega), Nat.one_shiftLeft, Nat.add_comm 1 ob]
    by_cases hc : size < 2 ^ (8 * (ob + 1))
    · rw [if_pos hc, Nat.mod_eq_of_lt (by omega)]
    · rw [if_neg hc]
      obtain ⟨M', h3, h4⟩ := fill_ok size (8 * (ob + 1)) id M (by omega)
      rw [h3]
      simp only [Option.bind_eq_bind, Option.bind_some]
      have hob : ob + 1 < 3 := by
        apply Decidable.byContradiction
        intro hn
        have : ob = 2 := by omega
        subst this
        exact hc hs
      exact plainLoop_ok size o hs ho fuel (ob + 1) M' _ (by omega) hob h4 rfl

theorem plainLoop_huge (size o : Nat) (hs : 2 ^ 24 ≤ size) : ∀ (fuel ob : Nat) (M : Nat → Nat) (off : Nat), plainLoop size o fuel ob M off = none
  | 0, ob, M, off => rfl
  | fuel + 1, ob, M, off => by
    rw [plainLoop]
    by_cases h : 8 * (1 + ob) ≥ 32
    · simp [h]
    · have : 2 ^ (8 * (1 + ob)) ≤ 2 ^ 24 := Nat.pow_le_pow_right (by decide) (by omega)
      simp only [h, if_false, Nat.one_shiftLeft]
      rw [if_neg (by omega)]
      cases hf : fill size (2 ^ (8 * (1 + ob))) id M with
      | none => rfl
      | some M' => exact plainLoop_huge size o hs fuel (ob + 1) M' _

theorem bit_lt (M : Nat → Nat) (p : Nat) : bit M p < 2 := Nat.mod_lt _ (by decide)

theorem or_bit (x y : Nat) (h : y < 2) : x <<< 1 ||| y = 2 * x + y := by
  rw [Nat.shiftLeft_eq, Nat.pow_one, Nat.mul_comm x 2]
  have := Nat.two_pow_add_eq_or_of_lt (i := 1) (b := y) (by simpa using h) x
  simpa using this.symm

/-- a later dump finds the bit-fields in their order -/
theorem dump_again (room : Nat) (M : Nat → Nat) (f : Nat → Nat) : ∀ (ps pre : List Nat), (∀ p ∈ ps, 2 * f p + 1 < 2 ^ 64) →
    dump room M ps (pre ++ ps.map f) pre.length = some (pre ++ ps.map (fun p => 2 * f p + bit M p))
  | [], pre, _ => by simp [dump]
  | p :: ps, pre, h => by
    have hp := h p (by simp)
    have hbit := bit_lt M p
    rw [dump]
    have h1 : (if pre.length > (pre ++ (p :: ps).map f).length then (pre ++ (p :: ps).map f).length else pre.length) = pre.length := by
      rw [if_neg (by simp)]
    have h2 : grow room (pre ++ (p :: ps).map f) pre.length = some (pre ++ (p :: ps).map f) := by
      unfold grow; rw [if_neg (by simp)]
    have h3 : (pre ++ (p :: ps).map f)[pre.length]? = some (f p) := by simp
    simp only [h1, h2, h3, Option.bind_eq_bind, Option.bind_some]
    have h4 : (pre ++ (p :: ps).map f).set pre.length ((f p <<< 1 ||| bit M p) % 2 ^ 64) = (pre ++ [2 * f p + bit M p]) ++ ps.map f := by
      rw [or_bit _ _ hbit, Nat.mod_eq_of_lt (by omega)]
      simp
    have := dump_again room M f ps (pre ++ [2 * f p + bit M p]) (fun q hq => h q (by simp [hq]))
    rw [List.length_append, List.length_singleton] at this
    rw [h4, this]
    simp

/-- the first dump adds the bit-fields -/
theorem dump_first (room : Nat) (M : Nat → Nat) : ∀ (ps pre : List Nat), pre.length + ps.length ≤ room →
    dump room M ps pre pre.length = some (pre ++ ps.map (fun p => bit M p))
  | [], pre, _ => by simp [dump]
  | p :: ps, pre, h => by
    have hbit := bit_lt M p
    simp only [List.length_cons] at h
    rw [dump]
    have h1 : (if pre.length > pre.length then pre.length else pre.length) = pre.length := by split <;> rfl
    have h2 : grow room pre pre.length = some (pre ++ [0]) := by
      unfold grow; rw [if_pos rfl, if_neg (by omega)]
    have h3 : (pre ++ [0])[pre.length]? = some 0 := by simp
    simp only [h1, h2, h3, Option.bind_eq_bind, Option.bind_some]
    have h4 : (pre ++ [0]).set pre.length ((0 <<< 1 ||| bit M p) % 2 ^ 64) = pre ++ [bit M p] := by
      rw [or_bit _ _ hbit, Nat.mod_eq_of_lt (by omega)]
      simp
    have := dump_first room M ps (pre ++ [bit M p]) (by simp; omega)
    rw [List.length_append, List.length_singleton] at this
    rw [h4, this]
    simp

/-- one dump, the first or a later one -/
theorem dump_ok (room : Nat) (M : Nat → Nat) (f : Nat → Nat) (ps fields : List Nat) (hr : ps.length ≤ room) (hf : ∀ p ∈ ps, 2 * f p + 1 < 2 ^ 64)
    (h : fields = ps.map f ∨ fields = [] ∧ ∀ p ∈ ps, f p = 0) :
    dump room M ps fields 0 = some (ps.map (fun p => 2 * f p + bit M p)) := by
  rcases h with rfl | ⟨rfl, h⟩
  · have := dump_again room M f ps [] hf
    simpa using this
  · have := dump_first room M ps [] (by simpa using hr)
    rw [List.length_nil] at this
    rw [this, List.nil_append]
    congr 1
    apply List.map_congr_left
    intro p hp
    rw [h p hp]; omega

theorem bit_alternate {M : Nat → Nat} {p k : Nat} (h : M (p / 8) = (if p / 8 / 2 ^ k &&& 1 = 1 then 255 else 0) % 256) : bit M p = p / 8 / 2 ^ k % 2 := by
  unfold bit
  rw [h, Nat.and_one_is_mod]
  have h8 : p % 8 < 8 := Nat.mod_lt _ (by decide)
  generalize p % 8 = t at h8
  rcases Nat.mod_two_eq_zero_or_one (p / 8 / 2 ^ k) with e | e <;> rw [e]
  · simp
  · have : ∀ t < 8, (255 : Nat) / 2 ^ t % 2 = 1 := by decide
    simpa using this t h8

theorem blocks_ok (room size : Nat) (ps : List Nat) (hr : ps.length ≤ room) (hs : size < 2 ^ 31) (hp : ∀ p ∈ ps, p < 8 * size) :
    ∀ (k fuel : Nat) (fields : List Nat) (M : Nat → Nat), k + 2 ≤ fuel → 2 ^ k ≤ size →
    (fields = ps.map (fun p => p / 8 / 2 ^ (k + 1)) ∨ fields = [] ∧ ∀ p ∈ ps, p / 8 / 2 ^ (k + 1) = 0) →
    ∃ M', blocks room size ps fuel (2 ^ k) fields M = some (ps.map (fun p => p / 8), M') := by
  intro k
  induction k with
  | zero =>
    intro fuel fields M hfu hk hf
    match fuel, hfu with
    | fuel + 2, _ =>
      obtain ⟨M1, h1, h2⟩ := fill_ok size 0 (fun i => if i &&& 1 = 1 then 255 else 0) M (by omega)
      have hd := dump_ok room M1 _ ps fields hr (fun p h => by
        have := hp p h
        have := Nat.div_le_self (p / 8) (2 ^ (0 + 1))
        omega) hf
      rw [blocks]
      simp only [Nat.pow_zero, ne_eq, Nat.one_ne_zero, not_false_eq_true, if_true, Option.bind_eq_bind]
      rw [Nat.pow_zero] at h1
      rw [h1]
      simp only [Option.bind_some]
      rw [hd]
      simp only [Option.bind_some, Nat.reduceShiftRight]
      rw [blocks]
      refine ⟨M1, ?_⟩
      simp only [ne_eq, not_true_eq_false, if_false, Option.some.injEq, Prod.mk.injEq, and_true]
      apply List.map_congr_left
      intro p h
      rw [bit_alternate (k := 0) (h2 (p / 8) (by have := hp p h; omega))]
      simp only [Nat.zero_add, Nat.pow_one, Nat.pow_zero, Nat.div_one]
      omega
  | succ k ih =>
    intro fuel fields M hfu hk hf
    match fuel, hfu with
    | fuel + 1, hfu =>
      obtain ⟨M1, h1, h2⟩ := fill_ok size (k + 1) (fun i => if i &&& 1 = 1 then 255 else 0) M (by omega)
      have hd := dump_ok room M1 _ ps fields hr (fun p h => by
        have := hp p h
        have := Nat.div_le_self (p / 8) (2 ^ (k + 1 + 1))
        omega) hf
      rw [blocks]
      have hne : 2 ^ (k + 1) ≠ 0 := Nat.ne_of_gt (Nat.pow_pos (by decide))
      simp only [ne_eq, hne, not_false_eq_true, if_true, Option.bind_eq_bind]
      rw [h1]
      simp only [Option.bind_some]
      rw [hd]
      simp only [Option.bind_some]
      have hsh : 2 ^ (k + 1) >>> 1 = 2 ^ k := by
        rw [Nat.shiftRight_eq_div_pow, Nat.pow_one, Nat.pow_succ]; omega
      rw [hsh]
      refine ih fuel _ M1 (by omega) (by rw [Nat.pow_succ] at hk; omega) (.inl ?_)
      apply List.map_congr_left
      intro p h
      rw [bit_alternate (k := k + 1) (h2 (p / 8) (by have := hp p h; omega))]
      rw [Nat.pow_succ 2 (k + 1), ← Nat.div_div_eq_div_mul]
      omega

theorem bit_table {M : Nat → Nat} {p c : Nat} (h : M (p / 8) = c) (g : Nat → Nat) (ht : ∀ t < 8, c / 2 ^ t % 2 = g t) : bit M p = g (p % 8) := by
  unfold bit
  rw [h]
  exact ht _ (Nat.mod_lt _ (by decide))

theorem byPatterns_ok (room size : Nat) (ps : List Nat) (hr : ps.length ≤ room) (hs : size < 2 ^ 31) (hs1 : 1 ≤ size) (hp : ∀ p ∈ ps, p < 8 * size) :
    byPatterns room size ps = some (ps.map (fun p => (p / 8, p % 8))) := by
  unfold byPatterns
  generalize hl : (if size ≤ 1 then 1 else size - 1) = last
  have hl0 : last ≠ 0 := by split at hl <;> omega
  have hls : last ≤ size := by split at hl <;> omega
  have hlp : size ≤ last + 1 := by split at hl <;> omega
  have hlog := Nat.log2_self_le hl0
  have hlog2 : last < 2 ^ (last.log2 + 1) := Nat.lt_log2_self
  have hlog3 : last.log2 < 31 := by
    apply Decidable.byContradiction
    intro hn
    have : 2 ^ 31 ≤ 2 ^ last.log2 := Nat.pow_le_pow_right (by decide) (by omega)
    omega
  obtain ⟨M, h1⟩ := blocks_ok room size ps hr hs hp last.log2 33 [] (fun _ => 0) (by omega) (by omega)
    (.inr ⟨rfl, fun p h => Nat.div_eq_of_lt (by have := hp p h; omega)⟩)
  have hm : ∀ (M : Nat → Nat) c, memset size M 0 c size = some (fun a => if 0 ≤ a ∧ a < 0 + size then c % 256 else M a) := by
    intro M c; unfold memset; rw [if_pos (by omega)]
  have hlt : ∀ p ∈ ps, p / 8 < size := fun p h => by have := hp p h; omega
  have hd : ∀ (M : Nat → Nat) c (g f f' : Nat → Nat), c < 256 → (∀ t < 8, c / 2 ^ t % 2 = g t) → (∀ p ∈ ps, 2 * f p + 1 < 2 ^ 64) → (∀ p ∈ ps, 2 * f p + g (p % 8) = f' p) →
      dump room (fun a => if 0 ≤ a ∧ a < 0 + size then c % 256 else M a) ps (ps.map f) 0 = some (ps.map f') := by
    intro M c g f f' hc hg hf hf'
    rw [dump_ok room _ f ps _ hr hf (.inl rfl)]
    congr 1
    apply List.map_congr_left
    intro p h
    rw [bit_table (c := c) (by rw [if_pos ⟨Nat.zero_le _, by have := hlt p h; omega⟩, Nat.mod_eq_of_lt hc]) g hg]
    exact hf' p h
  simp only [Nat.one_shiftLeft, h1, hm, Option.bind_eq_bind, Option.bind_some]
  rw [hd M 0b11110000 (fun t => t / 4) (fun p => p / 8) (fun p => p / 4) (by decide) (by decide) (fun p h => by have := hlt p h; omega) (fun p h => by omega)]
  simp only [Option.bind_some]
  rw [hd _ 0b11001100 (fun t => t / 2 % 2) (fun p => p / 4) (fun p => p / 2) (by decide) (by decide) (fun p h => by have := hp p h; omega) (fun p h => by omega)]
  simp only [Option.bind_some]
  rw [hd _ 0b10101010 (fun t => t % 2) (fun p => p / 2) (fun p => p) (by decide) (by decide) (fun p h => by have := hp p h; omega) (fun p h => by omega)]
  simp

end Verif.Lemmas.Layout
