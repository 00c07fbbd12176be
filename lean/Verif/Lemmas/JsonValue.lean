import Verif.Spec.SaveJson
import Verif.Lemmas.XdrMem
/-!
Numbers that are written and read.
-/
namespace Verif.Lemmas.JsonValue
open Verif.Model Verif.Model.Ptrs Verif.Model.Save Verif.Model.SaveJson Verif.Spec.SaveJson Verif.Spec.Json Verif.Lemmas.XdrMem
open Verif.Spec.XdrGraph (integer enumType bitAt)
open Verif.Model.XdrGraph (tdAt wordBytes)

theorem leNat_lt : ∀ (l : List Nat), (∀ b ∈ l, b < 256) → leNat l < 256 ^ l.length := by
  intro l
  induction l with
  | nil => intro _; simp [leNat]
  | cons b l ih =>
    intro h
    have h1 := h b (by simp)
    have h2 := ih fun x hx => h x (by simp [hx])
    rw [leNat, List.length_cons, Nat.pow_succ]
    omega

theorem leNat_byte : ∀ (l : List Nat), (∀ b ∈ l, b < 256) → ∀ k, leNat l / 256 ^ k % 256 = l.getD k 0 := by
  intro l
  induction l with
  | nil => intro _ k; simp [leNat]
  | cons b l ih =>
    intro h k
    have h1 := h b (by simp)
    have h2 := ih fun x hx => h x (by simp [hx])
    cases k with
    | zero => simp [leNat]; omega
    | succ k =>
      rw [leNat, Nat.pow_succ, Nat.mul_comm (256 ^ k), ← Nat.div_div_eq_div_mul, show (b + 256 * leNat l) / 256 = leNat l from by omega, h2 k]
      simp

theorem mod_byte {w n k : Nat} (h : k < n) : w / 256 ^ k % 256 = w % 256 ^ n / 256 ^ k % 256 := by
  obtain ⟨d, rfl⟩ : ∃ d, n = k + 1 + d := ⟨n - k - 1, by omega⟩
  have hp : 0 < 256 ^ k := Nat.pow_pos (by omega)
  have e : w = 256 ^ k * (256 * (256 ^ d * (w / 256 ^ (k + 1 + d)))) + w % 256 ^ (k + 1 + d) := by
    have := Nat.div_add_mod w (256 ^ (k + 1 + d))
    rw [Nat.pow_add, Nat.pow_add, Nat.pow_one] at this ⊢
    rw [← Nat.mul_assoc, ← Nat.mul_assoc]
    exact this.symm
  conv => lhs; rw [e]
  rw [Nat.mul_add_div hp]
  omega

theorem pow_dvd {n : Nat} (h : n ≤ 16) : (256 ^ n : Int) ∣ 2 ^ 128 := by
  obtain ⟨d, hd⟩ : ∃ d, 16 = n + d := ⟨16 - n, by omega⟩
  refine ⟨256 ^ d, ?_⟩
  rw [← Int.pow_add, ← hd]
  rfl

/-- the bytes of an integer as a word of 128 bits -/
theorem word_byte {v : Int} {n x : Nat} (hn : n ≤ 16) (h : v % 256 ^ n = x) {k : Nat} (hk : k < n) : word v / 256 ^ k % 256 = x / 256 ^ k % 256 := by
  have e : word v % 256 ^ n = x := by
    have h0 : (0 : Int) ≤ v % 2 ^ 128 := Int.emod_nonneg _ (by decide)
    have : ((word v % 256 ^ n : Nat) : Int) = x := by
      unfold word
      rw [Int.natCast_emod, Int.toNat_of_nonneg h0]
      show v % 2 ^ 128 % (((256 ^ n : Nat)) : Int) = x
      rw [Int.natCast_pow]
      show v % 2 ^ 128 % (256 : Int) ^ n = x
      rw [Int.emod_emod_of_dvd _ (pow_dvd hn), h]
    exact Int.ofNat.inj this
  rw [mod_byte hk, e]

theorem leInt_mod (l : List Nat) (h : ∀ b ∈ l, b < 256) : leInt l % 256 ^ l.length = leNat l := by
  have h1 := leNat_lt l h
  have h2 : (leNat l : Int) % 256 ^ l.length = leNat l := by
    refine Int.emod_eq_of_lt (by omega) ?_
    have : ((leNat l : Nat) : Int) < ((256 ^ l.length : Nat) : Int) := by omega
    rw [Int.natCast_pow] at this
    exact this
  unfold leInt
  split
  · rw [Int.sub_emod, Int.emod_self, Int.sub_zero, Int.emod_emod, h2]
  · exact h2

theorem leInt_range (l : List Nat) (h : ∀ b ∈ l, b < 256) (hl : l.length ≤ 8) : -(2 ^ 63 : Int) ≤ leInt l ∧ leInt l < 2 ^ 64 := by
  have h1 := leNat_lt l h
  have h2 : 256 ^ l.length ≤ 256 ^ 8 := Nat.pow_le_pow_right (by omega) hl
  have h3 : ((256 : Int) ^ l.length) = ((256 ^ l.length : Nat) : Int) := by rw [Int.natCast_pow]; rfl
  unfold leInt
  rw [h3]
  generalize 256 ^ l.length = p at *
  split <;> omega

theorem word_small {v : Int} (h1 : -(2 ^ 63 : Int) ≤ v) (h2 : v < 2 ^ 64) : word v < 2 ^ 128 ∧ word v ≠ 2 ^ 127 := by
  unfold word
  omega

theorem word_toInt (w : BitVec 128) : word w.toInt = w.toNat := by
  have := w.isLt
  unfold word
  rw [BitVec.toInt_eq_toNat_cond]
  split <;> omega

theorem bitBase_cases {ty : MrType} (h : bitBase ty = true) : ty = .bool ∨ ty = .enum ∨ ty = .int128 ∨ ty = .uint128 ∨
    (ty = .int8 ∨ ty = .int16 ∨ ty = .int32 ∨ ty = .int64) ∨ ty = .uint8 ∨ ty = .uint16 ∨ ty = .uint32 ∨ ty = .uint64 := by
  cases ty <;> simp [bitBase, integer] at h <;> simp

/-- numbers that are not negative -/
theorem nat_ok {x n : Nat} (hn : n ≤ 16) (h : x < 256 ^ n) {k : Nat} (hk : k < n) : word (x : Int) / 256 ^ k % 256 = x / 256 ^ k % 256 := by
  refine word_byte hn ?_ hk
  refine Int.emod_eq_of_lt (by omega) ?_
  have : ((x : Nat) : Int) < ((256 ^ n : Nat) : Int) := by omega
  rw [Int.natCast_pow] at this
  exact this

theorem base_ok {K : Codec} {tds : List Td} {ty : MrType} {td : Option Nat} {l : List Nat} (hb : bitBase ty = true) (hl : l.length = printed tds ty td) (hB : ∀ b ∈ l, b < 256)
    (h1 : ty = .bool → leNat l = 0 ∨ leNat l = 1) (h2 : ty = .int128 ∨ ty = .uint128 → leNat l ≠ 2 ^ 127) (h3 : ty = .enum → Named K (tdAt tds td) l) :
    LeafOK (leafOf K tds ty td l) ∧ ∀ null v, ReadAs (leafOf K tds ty td l) null v → null = false ∧ (∀ x, v = .int x → x < 2 ^ 128 ∧ x ≠ 2 ^ 127) ∧
      ∃ w, castInt K v = some w ∧ (∀ k, k < l.length → w.toNat / 256 ^ k % 256 = l.getD k 0) ∧ (ty = .bool → w.toNat = leNat l) := by
  have hlt := leNat_lt l hB
  have hby := leNat_byte l hB
  have hofn : ∀ x : Nat, x < 2 ^ 128 → (BitVec.ofNat 128 x).toNat = x := fun x hx => by rw [BitVec.toNat_ofNat]; omega
  rcases bitBase_cases hb with rfl | rfl | rfl | rfl | hs | hu
  · refine ⟨trivial, fun null v hr => ?_⟩
    rcases h1 rfl with h | h
    · have e : leafOf K tds .bool td l = .bool false := by simp [leafOf, h]
      rw [e] at hr
      cases hr
      refine ⟨rfl, fun x hx => by cases hx; decide, _, rfl, fun k _ => ?_, fun _ => ?_⟩
      · rw [hofn 0 (by decide), ← hby k, h]
      · rw [hofn 0 (by decide), h]
    · have e : leafOf K tds .bool td l = .bool true := by simp [leafOf, h]
      rw [e] at hr
      cases hr
      refine ⟨rfl, fun x hx => by cases hx; decide, _, rfl, fun k _ => ?_, fun _ => ?_⟩
      · rw [hofn 1 (by decide), ← hby k, h]
      · rw [hofn 1 (by decide), h]
  · obtain ⟨n1, w, n2, n3⟩ := h3 rfl
    refine ⟨n1, fun null v hr => ?_⟩
    change ReadAs (.quoted (K.enum (tdAt tds td) l)) null v at hr
    cases hr
    exact ⟨rfl, (fun x hx => by cases hx), w, n2, n3, fun h => by cases h⟩
  · have hl : l.length = 16 := hl
    rw [hl] at hlt
    have hlt : leNat l < 2 ^ 128 := hlt
    refine ⟨trivial, fun null v hr => ?_⟩
    change ReadAs (.int128 (BitVec.ofNat 128 (leNat l))) null v at hr
    cases hr
    rw [word_toInt, hofn _ hlt]
    exact ⟨rfl, fun x hx => by cases hx; exact ⟨hlt, h2 (Or.inl rfl)⟩, _, rfl, fun k _ => by rw [hofn _ hlt, hby k], fun h => by cases h⟩
  · have hl : l.length = 16 := hl
    rw [hl] at hlt
    have hlt : leNat l < 2 ^ 128 := hlt
    refine ⟨trivial, fun null v hr => ?_⟩
    change ReadAs (.uint128 (BitVec.ofNat 128 (leNat l))) null v at hr
    cases hr
    rw [hofn _ hlt]
    exact ⟨rfl, fun x hx => by cases hx; exact ⟨hlt, h2 (Or.inr rfl)⟩, _, rfl, fun k _ => by rw [hofn _ hlt, hby k], fun h => by cases h⟩
  · have hl8 : l.length ≤ 8 := by
      rw [hl]
      rcases hs with rfl | rfl | rfl | rfl <;> simp [printed, typeSize]
    have e : leafOf K tds ty td l = .int (leInt l) := by rcases hs with rfl | rfl | rfl | rfl <;> rfl
    obtain ⟨r1, r2⟩ := leInt_range l hB hl8
    rw [e]
    refine ⟨⟨r1, r2⟩, fun null v hr => ?_⟩
    cases hr
    have hw := word_small r1 r2
    refine ⟨rfl, fun x hx => by cases hx; exact hw, _, rfl, fun k hk => ?_, fun h => by subst h; rcases hs with h | h | h | h <;> cases h⟩
    rw [hofn _ hw.1, word_byte (by omega : l.length ≤ 16) (leInt_mod l hB) hk, hby k]
  · have hl8 : l.length ≤ 8 := by
      rw [hl]
      rcases hu with rfl | rfl | rfl | rfl <;> simp [printed, typeSize]
    have e : leafOf K tds ty td l = .int (leNat l) := by rcases hu with rfl | rfl | rfl | rfl <;> rfl
    have h8 : 256 ^ l.length ≤ 256 ^ 8 := Nat.pow_le_pow_right (by omega) hl8
    have r : -(2 ^ 63 : Int) ≤ (leNat l : Int) ∧ (leNat l : Int) < 2 ^ 64 := by omega
    rw [e]
    refine ⟨r, fun null v hr => ?_⟩
    cases hr
    have hw := word_small r.1 r.2
    refine ⟨rfl, fun x hx => by cases hx; exact hw, _, rfl, fun k hk => ?_, fun h => by subst h; rcases hu with h | h | h | h <;> cases h⟩
    rw [hofn _ hw.1, nat_ok (by omega : l.length ≤ 16) hlt hk, hby k]

end Verif.Lemmas.JsonValue
