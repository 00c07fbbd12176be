import Verif.Spec.Print
import Verif.Props.Dfs
namespace Verif.Lemmas.Print
open Verif.Model Verif.Model.Ptrs Verif.Model.Print Verif.Spec.Ptrs

theorem radix_length : ∀ (fuel m n : Nat), 0 < m → n < 16 ^ m → (Scanf.radix 16 fuel n).length ≤ m := by
  intro fuel
  induction fuel with
  | zero => intro m n _ _; simp [Scanf.radix]
  | succ fuel ih =>
    intro m n hm hn
    rw [Scanf.radix]
    by_cases h : n < 16
    · rw [if_pos h]; simp only [List.length_singleton]; omega
    · rw [if_neg h]
      match m, hm with
      | 1, _ => simp at hn; omega
      | m + 2, _ =>
        have := ih (m + 1) (n / 16) (by omega) (by rw [Nat.pow_succ] at hn; omega)
        simp only [List.length_append, List.length_singleton]
        omega

/-- an address has at most 18 characters -/
theorem address_length {p : Nat} (h : p < 2 ^ 64) : (address p).length ≤ 18 := by
  have := radix_length 33 16 p (by decide) (by have : 16 ^ 16 = 2 ^ 64 := by decide
                                               omega)
  simp only [address, Scanf.printRadix, List.length_cons, List.length_append, List.length_replicate, List.length_map]
  omega

theorem snprintf_all {size : Nat} {t : List Nat} (h : t.length < size) : snprintf size t = t := by
  unfold snprintf
  exact List.take_of_length_le (by omega)

/-- the last call of a walk in which no call fails -/
theorem call_last {σ : Type} (v : Visitor σ) (e : Nat × Int × Order) : ∀ (es : List (Nat × Int × Order)) (s : List Pd × σ) (ok : Bool) (s' : List Pd × σ),
    (∀ t x b t', x ∈ es → t.1 = s.1 → v t x.1 x.2.1 x.2.2 = some (b, t') → b = true ∧ t'.1 = t.1) →
    callAll v (es ++ [e]) s = some (ok, s') → ∃ t b, t.1 = s.1 ∧ v t e.1 e.2.1 e.2.2 = some (b, s') := by
  intro es
  induction es with
  | nil =>
    intro s ok s' _ h
    obtain ⟨i, l, o⟩ := e
    simp only [List.nil_append, callAll, Option.bind_eq_bind, Option.bind_eq_some_iff] at h
    obtain ⟨⟨b, t⟩, h1, h2⟩ := h
    refine ⟨s, b, rfl, ?_⟩
    rw [h1]
    cases b <;> simp at h2 <;> rw [h2.2]
  | cons x es ih =>
    intro s ok s' hv h
    obtain ⟨i, l, o⟩ := x
    simp only [List.cons_append, callAll, Option.bind_eq_bind, Option.bind_eq_some_iff] at h
    obtain ⟨⟨b, t⟩, h1, h2⟩ := h
    obtain ⟨hb, ht⟩ := hv s (i, l, o) b t (by simp) rfl h1
    subst hb
    simp only [Bool.true_eq_false, if_false] at h2
    obtain ⟨t2, b2, h3, h4⟩ := ih t ok s' (fun t' x b t'' hx he => hv t' x b t'' (by simp [hx]) (he.trans ht)) h2
    exact ⟨t2, b2, h3.trans ht, h4⟩

/-- the walk from the root ends with a call for the root -/
theorem dfs_last {σ : Type} (v : Visitor σ) (hv : KeepsLinks v) (ra : List Pd) (c : σ) (k : Forest)
    (h : Rep ra 0 1 (.cons 1 k .nil)) (hn : (1 :: k.nodes).Nodup)
    (hok : ∀ (t : List Pd × σ) (x : Nat × Int × Order) b t', x.1 ∈ 1 :: k.nodes → t.1 = ra → v t x.1 x.2.1 x.2.2 = some (b, t') → b = true ∧ t'.1 = t.1)
    {ok : Bool} {s' : List Pd × σ} (hd : dfs v 1 (ra, c) = some (ok, s')) :
    ∃ t b, t.1 = ra ∧ v t 1 0 .post = some (b, s') := by
  rw [Props.Dfs.C28_from_root v hv ra c 1 k h hn] at hd
  have he : (Forest.cons 1 k .nil).events 0 = ((1, 0, .pre) :: k.events 1) ++ [(1, 0, .post)] := by
    simp [Forest.events]
  rw [he] at hd
  have hmem : ∀ (f : Forest) (l : Int) (x : Nat × Int × Order), x ∈ f.events l → x.1 ∈ f.nodes := by
    intro f
    induction f with
    | nil => intro l x hx; simp [Forest.events] at hx
    | cons i k s ih1 ih2 =>
      intro l x hx
      simp only [Forest.events, List.mem_cons, List.mem_append] at hx
      simp only [Forest.nodes, List.mem_cons, List.mem_append]
      rcases hx with rfl | hx | rfl | hx
      · exact .inl rfl
      · exact .inr (.inl (ih1 _ _ hx))
      · exact .inl rfl
      · exact .inr (.inr (ih2 _ _ hx))
  obtain ⟨t, b, h1, h2⟩ := call_last v (1, 0, .post) _ (ra, c) ok s' (by
    intro t x b t' hx ht hvx
    refine hok t x b t' ?_ ht hvx
    simp only [List.mem_cons] at hx ⊢
    rcases hx with rfl | hx
    · exact .inl rfl
    · exact .inr (hmem k 1 x hx)) hd
  exact ⟨t, b, h1, h2⟩

end Verif.Lemmas.Print
