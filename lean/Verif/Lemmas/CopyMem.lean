import Verif.Spec.Copy
/-!
Bytes: words, `memcpy`, `strlen`.
-/
namespace Verif.Lemmas.CopyMem
open Verif.Model Verif.Model.Copy Verif.Spec.Copy

theorem number_congr {m m' : Bytes} (n : Nat) : ∀ {a a' : Nat}, (∀ k, k < n → m (a + k) = m' (a' + k)) → number m a n = number m' a' n := by
  induction n with
  | zero => intro a a' _; rfl
  | succ n ih =>
    intro a a' h
    unfold number
    have h0 := h 0 (by omega)
    simp only [Nat.add_zero] at h0
    rw [h0, ih (a := a + 1) (a' := a' + 1)]
    intro k hk
    have := h (k + 1) (by omega)
    rw [show a + 1 + k = a + (k + 1) from by omega, show a' + 1 + k = a' + (k + 1) from by omega]
    exact this

theorem word_congr {m m' : Bytes} {a a' : Nat} (h : ∀ k, k < 8 → m (a + k) = m' (a' + k)) : word m a = word m' a' := number_congr 8 h

theorem number_digits {m : Bytes} (n : Nat) : ∀ (a v : Nat), (∀ k, k < n → m (a + k) = UInt8.ofNat (v / 256 ^ k)) → number m a n = v % 256 ^ n := by
  induction n with
  | zero => intro a v _; simp [number, Nat.mod_one]
  | succ n ih =>
    intro a v h
    unfold number
    have h0 := h 0 (by omega)
    simp only [Nat.add_zero, Nat.pow_zero, Nat.div_one] at h0
    rw [h0, ih (a + 1) (v / 256)]
    · have : (UInt8.ofNat v).toNat = v % 256 := by simp
      rw [this, Nat.pow_succ, Nat.mul_comm (256 ^ n) 256, Nat.mod_mul]
    · intro k hk
      have := h (k + 1) (by omega)
      rw [show a + 1 + k = a + (k + 1) from by omega, this, Nat.pow_succ, Nat.div_div_eq_div_mul, Nat.mul_comm]

theorem word_setWord {m : Bytes} {a v : Nat} (hv : v < 2 ^ 64) : word (setWord m a v) a = v := by
  unfold word
  rw [number_digits 8 a v]
  · exact Nat.mod_eq_of_lt (by simpa using hv)
  · intro k hk
    unfold setWord
    rw [if_pos (by omega), show a + k - a = k from by omega]

theorem setWord_other {m : Bytes} {a v b : Nat} (h : ¬ (a ≤ b ∧ b < a + 8)) : setWord m a v b = m b := by
  unfold setWord
  rw [if_neg h]

theorem covered_mem {live : Blocks} {a n : Nat} : covered live a n = true ↔ ∃ b ∈ live, b.1 ≤ a ∧ a + n ≤ b.1 + b.2 := by
  unfold covered
  simp

theorem covered_part {live : Blocks} {a n b k : Nat} (h : covered live a n = true) (h1 : a ≤ b) (h2 : b + k ≤ a + n) : covered live b k = true := by
  rw [covered_mem] at *
  obtain ⟨c, hc, h3⟩ := h
  exact ⟨c, hc, by omega⟩

theorem strlen_text {live : Blocks} {m : Bytes} (n : Nat) : ∀ {a fuel : Nat}, Text m a n → covered live a (n + 1) = true → n < fuel →
    strlen live m fuel a = some n := by
  induction n with
  | zero =>
    intro a fuel h hc hf
    cases fuel with
    | zero => omega
    | succ fuel =>
      unfold strlen
      rw [if_neg (by simpa using hc), if_pos (by simpa using h.1)]
  | succ n ih =>
    intro a fuel h hc hf
    cases fuel with
    | zero => omega
    | succ fuel =>
      unfold strlen
      rw [if_neg (by rw [covered_part hc (Nat.le_refl _) (by omega)]; simp), if_neg (by simpa using h.2 0 (by omega)),
        ih (a := a + 1) ⟨by rw [show a + 1 + n = a + (n + 1) from by omega]; exact h.1, fun k hk => by
        rw [show a + 1 + k = a + (k + 1) from by omega]; exact h.2 (k + 1) (by omega)⟩ (covered_part hc (by omega) (by omega)) (by omega)]
      rfl

theorem text_congr {m m' : Bytes} {a n : Nat} (h : Text m a n) (he : ∀ k, k ≤ n → m' (a + k) = m (a + k)) : Text m' a n :=
  ⟨by rw [he n (by omega)]; exact h.1, fun k hk => by rw [he k (by omega)]; exact h.2 k hk⟩

theorem text_unique {m : Bytes} {a n k : Nat} (h : Text m a n) (h' : Text m a k) : n = k := by
  rcases Nat.lt_trichotomy n k with hl | hl | hl
  · exact absurd h.1 (h'.2 n hl)
  · exact hl
  · exact absurd h'.1 (h.2 k hl)

theorem covered_mono {live new : Blocks} {a n : Nat} (h : covered live a n = true) : covered (live ++ new) a n = true := by
  rw [covered_mem] at *
  obtain ⟨b, hb, h1⟩ := h
  exact ⟨b, by simp [hb], h1⟩

theorem memcpy_ok {live : Blocks} {m : Bytes} {dst src n : Nat} (h1 : covered live dst n = true) (h2 : covered live src n = true) (h3 : Apart dst n src n) :
    memcpy live m dst src n = some fun b => if dst ≤ b ∧ b < dst + n then m (src + (b - dst)) else m b := by
  unfold memcpy
  rw [if_pos]
  rw [h1, h2]
  simp only [Bool.true_and, decide_eq_true_eq]
  exact h3

end Verif.Lemmas.CopyMem
