import Verif.Model.Mem
/-! # Reading and writing little-endian numbers -/
namespace Verif.Lemmas.Mem
open Verif.Model

theorem readLE_ok : ∀ (n : Nat) (mem : List Nat), n ≤ mem.length → (∀ b ∈ mem, b < 256) →
    ∃ raw, readLE n mem = some raw ∧ raw < 256 ^ n := by
  intro n
  induction n with
  | zero => intro mem _ _; exact ⟨0, rfl, by simp⟩
  | succ n ih =>
    intro mem hl hb
    cases mem with
    | nil => simp at hl
    | cons b bs =>
      obtain ⟨r, h1, h2⟩ := ih bs (by simpa using hl) (fun x hx => hb x (by simp [hx]))
      refine ⟨b + 256 * r, by simp [readLE, h1], ?_⟩
      have := hb b (by simp)
      rw [Nat.pow_succ]; omega

theorem writeLE_ok : ∀ (n v : Nat) (mem : List Nat), n ≤ mem.length → ∃ mem', writeLE n v mem = some mem' ∧
    mem'.length = mem.length ∧ mem'.drop n = mem.drop n ∧ ((∀ b ∈ mem, b < 256) → ∀ b ∈ mem', b < 256) ∧
    ∀ k, k ≤ n → readLE k mem' = some (v % 256 ^ k) := by
  intro n
  induction n with
  | zero =>
    intro v mem _
    refine ⟨mem, rfl, rfl, rfl, id, fun k hk => ?_⟩
    have : k = 0 := by omega
    subst this
    rw [readLE]
    simp [Nat.mod_one]
  | succ n ih =>
    intro v mem hl
    cases mem with
    | nil => simp at hl
    | cons b bs =>
      obtain ⟨m, h1, h2, h3, h4, h5⟩ := ih (v / 256) bs (by simpa using hl)
      refine ⟨v % 256 :: m, by simp [writeLE, h1], by simp [h2], by simp [h3], ?_, ?_⟩
      · intro hb x hx
        rcases List.mem_cons.mp hx with h | h
        · omega
        · exact h4 (fun y hy => hb y (by simp [hy])) x h
      · intro k hk
        cases k with
        | zero => simp [readLE, Nat.mod_one]
        | succ k =>
          rw [readLE, h5 k (by omega)]
          simp only [Option.bind_eq_bind, Option.bind_some, Option.some.injEq]
          rw [Nat.pow_succ, Nat.mul_comm (256 ^ k), Nat.mod_mul]

theorem pow_256 (n : Nat) : 256 ^ n = 2 ^ (8 * n) := by
  rw [show 256 = 2 ^ 8 from rfl, ← Nat.pow_mul]

end Verif.Lemmas.Mem
