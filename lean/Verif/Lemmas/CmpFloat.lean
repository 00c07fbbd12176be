import Verif.Spec.Cmp
/-!
# Floating point numbers: a plain number has one encoding
-/
namespace Verif.Lemmas.CmpFloat
open Verif.Model Verif.Model.Copy Verif.Model.Cmp Verif.Spec.Cmp

theorem number_lt (m : Bytes) : ∀ (n a : Nat), number m a n < 256 ^ n
  | 0, _ => by simp [number]
  | n + 1, a => by
    have h1 := number_lt m n (a + 1)
    have h2 := (m a).toNat_lt
    rw [number, Nat.pow_succ]
    omega

theorem block_eq (m : Bytes) (n : Nat) : ∀ a : Nat, block m a n = toBytes n (number m a n) := by
  induction n with
  | zero => intro a; rfl
  | succ n ih =>
    intro a
    have h2 := (m a).toNat_lt
    have e1 : ((m a).toNat + 256 * number m (a + 1) n) % 256 = (m a).toNat := by omega
    have e2 : ((m a).toNat + 256 * number m (a + 1) n) / 256 = number m (a + 1) n := by omega
    rw [number, toBytes, e1, e2, ← ih]
    unfold block
    rw [List.range_succ_eq_map]
    simp only [List.map_cons, List.map_map, Nat.add_zero, List.cons.injEq, true_and]
    apply List.map_congr_left
    intro k _
    simp only [Function.comp]
    congr 2
    omega

theorem block_add (m : Bytes) (a n k : Nat) : block m a (n + k) = block m a n ++ block m (a + n) k := by
  unfold block
  rw [List.range_add, List.map_append, List.map_map]
  congr 1
  apply List.map_congr_left
  intro j _
  simp only [Function.comp]
  congr 2
  omega

/-- the size of a number with exponent and fraction -/
def mag (f ex frac : Nat) : Nat := if ex = 0 then 2 * frac else (2 ^ f + frac) * 2 ^ ex

theorem mag_lt {f ex ex' frac frac' : Nat} (h : ex < ex') (hf : frac < 2 ^ f) : mag f ex frac < mag f ex' frac' := by
  unfold mag
  rw [if_neg (by omega : ¬ ex' = 0)]
  have h3 : 2 ^ f * 2 ^ ex' ≤ (2 ^ f + frac') * 2 ^ ex' := Nat.mul_le_mul_right _ (by omega)
  have h4 : (2 : Nat) ^ (ex + 1) ≤ 2 ^ ex' := Nat.pow_le_pow_right (by omega) h
  have h5 : 2 ^ f * 2 ^ (ex + 1) ≤ 2 ^ f * 2 ^ ex' := Nat.mul_le_mul_left _ h4
  rw [Nat.pow_succ] at h5
  split
  · rename_i h0
    subst h0
    simp only [Nat.pow_zero] at h5
    omega
  · have h6 : (2 ^ f + frac) * 2 ^ ex < (2 ^ f * 2) * 2 ^ ex := Nat.mul_lt_mul_of_pos_right (by omega) (Nat.pow_pos (by omega))
    have h7 : (2 ^ f * 2) * 2 ^ ex = 2 ^ f * (2 ^ ex * 2) := by rw [Nat.mul_assoc, Nat.mul_comm 2]
    omega

theorem mag_inj {f ex ex' frac frac' : Nat} (hf : frac < 2 ^ f) (hf' : frac' < 2 ^ f) (h : mag f ex frac = mag f ex' frac') : ex = ex' ∧ frac = frac' := by
  have h1 : ex = ex' := by
    rcases Nat.lt_trichotomy ex ex' with hl | hl | hl
    · have := mag_lt (frac' := frac') hl hf; omega
    · exact hl
    · have := mag_lt (frac' := frac) hl hf'; omega
  subst h1
  refine ⟨rfl, ?_⟩
  unfold mag at h
  split at h
  · omega
  · have := Nat.eq_of_mul_eq_mul_right (Nat.pow_pos (by omega)) h
    omega

theorem mag_zero {f ex frac : Nat} (h : mag f ex frac = 0) : ex = 0 ∧ frac = 0 := by
  unfold mag at h
  split at h
  · omega
  · rename_i h0
    have h1 : 0 < (2 : Nat) ^ f := Nat.pow_pos (by omega)
    have h2 : 0 < (2 ^ f + frac) * 2 ^ ex := Nat.mul_pos (by omega) (Nat.pow_pos (by omega))
    omega

theorem withSign_inj {s s' : Bool} {a b : Nat} (h : withSign s a = withSign s' b) : a = b ∧ (s = s' ∨ a = 0) := by
  unfold withSign at h
  cases s <;> cases s' <;> simp at h <;> constructor <;> first | omega | (left; rfl) | (right; omega)

/-- a number is made of sign, exponent and fraction -/
theorem split_number (e f v : Nat) (hv : v < 2 ^ (e + f + 1)) :
    v = (v / 2 ^ (e + f) % 2) * 2 ^ (e + f) + (v / 2 ^ f % 2 ^ e) * 2 ^ f + v % 2 ^ f := by
  have h1 : v / 2 ^ (e + f) < 2 := by
    rw [Nat.div_lt_iff_lt_mul (Nat.pow_pos (by omega))]
    rw [Nat.pow_succ] at hv; omega
  have h2 : v / 2 ^ (e + f) % 2 = v / 2 ^ (e + f) := Nat.mod_eq_of_lt h1
  have h3 : v / 2 ^ (e + f) = v / 2 ^ f / 2 ^ e := by rw [Nat.div_div_eq_div_mul, ← Nat.pow_add, Nat.add_comm f e]
  have h4 := Nat.div_add_mod v (2 ^ f)
  have h5 := Nat.div_add_mod (v / 2 ^ f) (2 ^ e)
  rw [h2, h3]
  generalize hA : v / 2 ^ f / 2 ^ e = A at *
  generalize hB : v / 2 ^ f % 2 ^ e = B at *
  generalize hC : v % 2 ^ f = C at *
  rw [← h4, ← h5, Nat.mul_add, Nat.pow_add, Nat.mul_comm (2 ^ e) A, ← Nat.mul_assoc, Nat.mul_comm (2 ^ f) B]
  congr 2
  rw [Nat.mul_comm (2 ^ f) A, Nat.mul_assoc, Nat.mul_comm (2 ^ f)]

theorem mod_low (e f v : Nat) : v % 2 ^ (e + f) = (v / 2 ^ f % 2 ^ e) * 2 ^ f + v % 2 ^ f := by
  rw [Nat.add_comm e f, Nat.pow_add, Nat.mod_mul, Nat.mul_comm (2 ^ f)]
  omega

theorem float_inj {e f v w : Nat} {k : Int} (hv : v < 2 ^ (e + f + 1)) (hw : w < 2 ^ (e + f + 1)) (pv : plainFloat e f v) (pw : plainFloat e f w)
    (h1 : float e f v = some k) (h2 : float e f w = some k) : v = w := by
  have fv : v % 2 ^ f < 2 ^ f := Nat.mod_lt _ (Nat.pow_pos (by omega))
  have fw : w % 2 ^ f < 2 ^ f := Nat.mod_lt _ (Nat.pow_pos (by omega))
  have key : ∀ {v : Nat}, float e f v = some k → withSign (decide (v / 2 ^ (e + f) % 2 = 1)) (mag f (v / 2 ^ f % 2 ^ e) (v % 2 ^ f)) = k := by
    intro v h
    unfold float at h
    simp only at h
    split at h
    · simp at h
    · exact Option.some.inj h
  have e1 := key h1
  rw [← key h2] at e1
  obtain ⟨em, es⟩ := withSign_inj e1
  obtain ⟨ex, ef⟩ := mag_inj fv fw em
  rw [split_number e f v hv, split_number e f w hw, ex, ef]
  have bv : v / 2 ^ (e + f) % 2 < 2 := Nat.mod_lt _ (by omega)
  have bw : w / 2 ^ (e + f) % 2 < 2 := Nat.mod_lt _ (by omega)
  rcases es with es | es
  · have : v / 2 ^ (e + f) % 2 = w / 2 ^ (e + f) % 2 := by
      have := decide_eq_decide.1 es
      omega
    rw [this]
  · obtain ⟨z1, z2⟩ := mag_zero es
    have z3 := mod_low e f v
    have z4 := mod_low e f w
    unfold plainFloat at pv pw
    rw [z1, z2] at z3
    rw [← ex, ← ef, z1, z2] at z4
    simp only [Nat.zero_mul, Nat.add_zero] at z3 z4
    have : v / 2 ^ (e + f) % 2 = w / 2 ^ (e + f) % 2 := by omega
    rw [this]

theorem extended_inj {e f v w : Nat} {k : Int} (hv : v < 2 ^ (e + f + 1 + 1)) (hw : w < 2 ^ (e + f + 1 + 1)) (pv : plainExtended e f v) (pw : plainExtended e f w)
    (h1 : extended e f v = some k) (h2 : extended e f w = some k) : v = w := by
  have fv : v % 2 ^ (f + 1) < 2 ^ (f + 1) := Nat.mod_lt _ (Nat.pow_pos (by omega))
  have fw : w % 2 ^ (f + 1) < 2 ^ (f + 1) := Nat.mod_lt _ (Nat.pow_pos (by omega))
  rw [Nat.pow_succ] at fv fw
  have key : ∀ {v : Nat}, plainExtended e f v → v % 2 ^ (f + 1) < 2 ^ f * 2 → extended e f v = some k →
      ∃ frac, frac < 2 ^ f ∧ v % 2 ^ (f + 1) = (if v / 2 ^ (f + 1) % 2 ^ e = 0 then 0 else 2 ^ f) + frac ∧
      withSign (decide (v / 2 ^ (e + f + 1) % 2 = 1)) (mag f (v / 2 ^ (f + 1) % 2 ^ e) frac) = k := by
    intro v p hlt h
    unfold extended at h
    simp only at h
    split at h
    · simp at h
    · rename_i c1
      split at h
      · simp at h
      · rename_i c2
        by_cases h0 : v / 2 ^ (f + 1) % 2 ^ e = 0
        · refine ⟨v % 2 ^ (f + 1), p.2 h0, by rw [if_pos h0]; omega, ?_⟩
          rw [if_pos h0] at h
          unfold mag
          rw [if_pos h0]
          exact Option.some.inj h
        · have h3 : ¬ v % 2 ^ (f + 1) < 2 ^ f := fun h => c1 ⟨h0, h⟩
          refine ⟨v % 2 ^ (f + 1) - 2 ^ f, by omega, by rw [if_neg h0]; omega, ?_⟩
          rw [if_neg h0] at h
          unfold mag
          rw [if_neg h0]
          have : 2 ^ f + (v % 2 ^ (f + 1) - 2 ^ f) = v % 2 ^ (f + 1) := by omega
          rw [this]
          exact Option.some.inj h
  obtain ⟨x, hx, dx, e1⟩ := key pv fv h1
  obtain ⟨y, hy, dy, e2⟩ := key pw fw h2
  rw [← e2] at e1
  obtain ⟨em, es⟩ := withSign_inj e1
  obtain ⟨ex, ef⟩ := mag_inj hx hy em
  have ef : v % 2 ^ (f + 1) = w % 2 ^ (f + 1) := by rw [dx, dy, ex, ef]
  have sv := split_number e (f + 1) v (by rw [← Nat.add_assoc]; exact hv)
  have sw := split_number e (f + 1) w (by rw [← Nat.add_assoc]; exact hw)
  rw [sv, sw, ex, ef]
  rw [← Nat.add_assoc] at *
  have bv : v / 2 ^ (e + f + 1) % 2 < 2 := Nat.mod_lt _ (by omega)
  have bw : w / 2 ^ (e + f + 1) % 2 < 2 := Nat.mod_lt _ (by omega)
  rcases es with es | es
  · have : v / 2 ^ (e + f + 1) % 2 = w / 2 ^ (e + f + 1) % 2 := by
      have := decide_eq_decide.1 es
      omega
    rw [this]
  · obtain ⟨z1, z2⟩ := mag_zero es
    have z3 := mod_low e (f + 1) v
    have z4 := mod_low e (f + 1) w
    rw [z1, if_pos rfl, z2] at dx
    rw [z1, dx, ← Nat.add_assoc] at z3
    rw [← ex, ← ef, z1, dx, ← Nat.add_assoc] at z4
    simp only [Nat.zero_mul, Nat.add_zero] at z3 z4
    have p1 := pv.1
    have p2 := pw.1
    have : v / 2 ^ (e + f + 1) % 2 = w / 2 ^ (e + f + 1) % 2 := by omega
    rw [this]

end Verif.Lemmas.CmpFloat
