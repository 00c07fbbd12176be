import Verif.Model.BasicCmp
import Verif.Spec.Order
namespace Verif.Lemmas.BasicCmp
open Verif.Model.BasicCmp Verif.Spec

theorem intCmp_le (x y : Int) : intCmp x y ≤ 0 ↔ x ≤ y := by
  unfold intCmp; split <;> split <;> omega

theorem intCmp_pre : TotalPreorder intCmp where
  total x y h := by
    rw [intCmp_le]
    have := mt (intCmp_le x y).mpr (by omega)
    omega
  trans x y z h1 h2 := by
    rw [intCmp_le] at *; omega

theorem strcmp_anti : ∀ x y : List Nat, strcmp x y = - strcmp y x
  | [], [] => rfl
  | [], y :: _ => by simp [strcmp]
  | x :: _, [] => by simp [strcmp]
  | x :: xs, y :: ys => by
    have := strcmp_anti xs ys
    simp only [strcmp]
    by_cases h : x = y
    · simp [h, this]
    · have h' : y ≠ x := fun e => h e.symm
      simp [h, h']; omega

theorem strcmp_trans : ∀ x y z : List Nat, (∀ b ∈ x, 0 < b) → (∀ b ∈ y, 0 < b) →
    (∀ b ∈ z, 0 < b) → strcmp x y ≤ 0 → strcmp y z ≤ 0 → strcmp x z ≤ 0
  | [], _, [], _, _, _, _, _ => by simp [strcmp]
  | [], _, z :: _, _, _, _, _, _ => by simp [strcmp]
  | x :: _, [], _, hx, _, _, h, _ => by
    have := hx x (by simp)
    simp [strcmp] at h; omega
  | x :: xs, y :: ys, [], _, hy, _, _, h => by
    have := hy y (by simp)
    simp [strcmp] at h; omega
  | x :: xs, y :: ys, z :: zs, hx, hy, hz, h1, h2 => by
    have ih := strcmp_trans xs ys zs (fun b hb => hx b (by simp [hb]))
      (fun b hb => hy b (by simp [hb])) (fun b hb => hz b (by simp [hb]))
    simp only [strcmp] at *
    by_cases hxy : x = y
    · subst hxy
      by_cases hxz : x = z
      · subst hxz; simp at *; exact ih h1 h2
      · simp [hxz] at *; omega
    · by_cases hyz : y = z
      · subst hyz; simp [hxy] at *; omega
      · have : x ≠ z := by
          intro e; subst e; simp [hxy, hyz] at h1 h2; omega
        simp [hxy, hyz, this] at *; omega

theorem stringCmp_pre : TotalPreorder
    (fun x y : { s : CStr // ∀ b ∈ s.bytes, 0 < b } => stringCmp x.1 y.1) where
  total x y h := by
    unfold stringCmp at *
    have a1 := strcmp_anti x.1.bytes y.1.bytes
    have a2 := intCmp_pre.total (x.1.addr : Int) y.1.addr
    grind
  trans x y z h1 h2 := by
    unfold stringCmp at *
    have t := strcmp_trans x.1.bytes y.1.bytes z.1.bytes x.2 y.2 z.2
    have l1 := intCmp_le (x.1.addr : Int) y.1.addr
    have l2 := intCmp_le (y.1.addr : Int) z.1.addr
    have l3 := intCmp_le (x.1.addr : Int) z.1.addr
    grind

end Verif.Lemmas.BasicCmp
