import Verif.Model.Ptrs
/-!
# Walking two node arrays with the same links
-/
namespace Verif.Lemmas.DfsTwin
open Verif.Model Verif.Model.Ptrs

/-- two arrays with the same links and types in a set of nodes that the links do not leave -/
structure Twin (T : Nat → Prop) (ra rb : List Pd) : Prop where
  len : rb.length = ra.length
  lt : ∀ i, T i → i < ra.length
  same : ∀ (i : Nat) (p q : Pd), T i → ra[i]? = some p → rb[i]? = some q →
    q.parent = p.parent ∧ q.next = p.next ∧ q.firstChild = p.firstChild ∧ (q.ref || q.cref) = (p.ref || p.cref) ∧ q.ty = p.ty
  closed : ∀ (i : Nat) (p : Pd), T i → ra[i]? = some p →
    (p.parent = 0 ∨ T p.parent) ∧ (p.next = 0 ∨ T p.next) ∧ (p.firstChild = 0 ∨ T p.firstChild)

variable {T : Nat → Prop} {ra rb : List Pd} {σ : Type}

theorem Twin.get (h : Twin T ra rb) {i : Nat} (hi : T i) : ∃ p q : Pd, ra[i]? = some p ∧ rb[i]? = some q ∧
    q.parent = p.parent ∧ q.next = p.next ∧ q.firstChild = p.firstChild ∧ (q.ref || q.cref) = (p.ref || p.cref) ∧ q.ty = p.ty := by
  have h1 := h.lt i hi
  have h2 : i < rb.length := by rw [h.len]; exact h1
  exact ⟨_, _, List.getElem?_eq_getElem h1, List.getElem?_eq_getElem h2,
    h.same i _ _ hi (List.getElem?_eq_getElem h1) (List.getElem?_eq_getElem h2)⟩

/-- the same result with the other array -/
def swap (rb : List Pd) (r : Bool × (List Pd × σ)) : Bool × (List Pd × σ) := (r.1, (rb, r.2.2))

def swapUp (rb : List Pd) : Up σ → Up σ
  | .fail s => .fail (rb, s.2)
  | .done s => .done (rb, s.2)
  | .cont s i l => .cont (rb, s.2) i l

/-- visitors that do the same with both arrays and leave them as they are -/
structure Alike (T : Nat → Prop) (ra rb : List Pd) (v w : Visitor σ) : Prop where
  keep : ∀ c i l o r, v (ra, c) i l o = some r → r.2.1 = ra
  same : ∀ c i l o, T i → w (rb, c) i l o = (v (ra, c) i l o).map (swap rb)

theorem goUp_twin (h : Twin T ra rb) {v w : Visitor σ} (hv : Alike T ra rb v w) (start : Nat) : ∀ (fuel : Nat) (c : σ) (idx : Nat) (l : Int),
    T idx → goUp w start fuel (rb, c) idx l = (goUp v start fuel (ra, c) idx l).map (swapUp rb) ∧
      ∀ u, goUp v start fuel (ra, c) idx l = some u → match u with
        | .fail s => s.1 = ra
        | .done s => s.1 = ra
        | .cont s i _ => s.1 = ra ∧ T i
  | 0, c, idx, l, _ => ⟨rfl, fun u hu => by simp [goUp] at hu⟩
  | fuel + 1, c, idx, l, hi => by
    obtain ⟨p, q, h1, h2, e1, e2, -⟩ := h.get hi
    simp only [goUp, h1, h2, Option.bind_eq_bind, Option.bind_some, e1, e2]
    by_cases hn : p.next = 0 ∧ p.parent ≠ 0
    · simp only [hn, ne_eq, not_false_eq_true, and_self, if_true]
      have hpar : T p.parent := (h.closed idx p hi h1).1.resolve_left hn.2
      rw [hv.same c p.parent (l - 1) .post hpar]
      cases hr : v (ra, c) p.parent (l - 1) .post with
      | none => exact ⟨rfl, fun u hu => by simp at hu⟩
      | some r =>
        obtain ⟨ok, ra', c'⟩ := r
        have hk : ra = ra' := (hv.keep _ _ _ _ _ hr).symm
        subst hk
        simp only [Option.map_some, swap, Option.bind_some]
        by_cases hok : ok = false
        · simp only [hok, if_true]
          exact ⟨rfl, fun u hu => by cases hu; rfl⟩
        · simp only [hok, if_false]
          by_cases hs : p.parent = start
          · simp only [hs, if_true]
            exact ⟨rfl, fun u hu => by cases hu; rfl⟩
          · simp only [hs, if_false]
            exact goUp_twin h hv start fuel c' p.parent (l - 1) hpar
    · simp only [hn, if_false]
      exact ⟨rfl, fun u hu => by cases hu; exact ⟨rfl, hi⟩⟩

theorem dfsLoop_twin (h : Twin T ra rb) {v w : Visitor σ} (hv : Alike T ra rb v w) (start : Nat) : ∀ (fuel : Nat) (c : σ) (idx : Nat) (l : Int),
    (idx = 0 ∨ T idx) → dfsLoop w start fuel (rb, c) idx l = (dfsLoop v start fuel (ra, c) idx l).map (swap rb)
  | 0, _, _, _, _ => rfl
  | fuel + 1, c, idx, l, hi => by
    simp only [dfsLoop]
    by_cases h0 : idx = 0
    · simp only [h0, if_true]; rfl
    · have hi : T idx := hi.resolve_left h0
      simp only [h0, if_false, Option.bind_eq_bind]
      rw [hv.same c idx l .pre hi]
      cases hr : v (ra, c) idx l .pre with
      | none => rfl
      | some r =>
        obtain ⟨ok, ra', c1⟩ := r
        have hk : ra = ra' := (hv.keep _ _ _ _ _ hr).symm
        subst hk
        simp only [Option.map_some, swap, Option.bind_some]
        by_cases hok : ok = false
        · simp only [hok, if_true]; rfl
        · simp only [hok, if_false]
          obtain ⟨p, q, h1, h2, e1, e2, e3, e4, -⟩ := h.get hi
          simp only [h1, h2, Option.bind_some, e3, e4]
          have hc := h.closed idx p hi h1
          by_cases hf : p.firstChild ≠ 0 ∧ (p.ref || p.cref) = false
          · simp only [hf, ne_eq, not_false_eq_true, and_self, if_true]
            exact dfsLoop_twin h hv start fuel c1 p.firstChild (l + 1) hc.2.2
          · simp only [hf, if_false]
            rw [hv.same c1 idx l .post hi]
            cases hr2 : v (ra, c1) idx l .post with
            | none => rfl
            | some r2 =>
              obtain ⟨ok2, ra2, c2⟩ := r2
              have hk : ra = ra2 := (hv.keep _ _ _ _ _ hr2).symm
              subst hk
              simp only [Option.map_some, swap, Option.bind_some]
              by_cases hok2 : ok2 = false
              · simp only [hok2, if_true]; rfl
              · simp only [hok2, if_false, h.len]
                obtain ⟨g1, g2⟩ := goUp_twin h hv start (ra.length + 1) c2 idx l hi
                rw [g1]
                cases hu : goUp v start (ra.length + 1) (ra, c2) idx l with
                | none => rfl
                | some u =>
                  have g2 := g2 u hu
                  cases u with
                  | fail s => rfl
                  | done s => rfl
                  | cont s i l' =>
                    obtain ⟨ra3, c3⟩ := s
                    obtain ⟨g3, g4⟩ := g2
                    have g3 : ra = ra3 := g3.symm
                    subst g3
                    obtain ⟨p', q', h1', h2', -, e2', -⟩ := h.get g4
                    simp only [Option.map_some, swapUp, Option.bind_some, h1', h2', e2']
                    exact dfsLoop_twin h hv start fuel c3 p'.next l' (h.closed i p' g4 h1').2.1

end Verif.Lemmas.DfsTwin
