import Verif.Lemmas.XdrFit
import Verif.Spec.Number
import Verif.Spec.Load
/-!
The nodes of a tree without its empty nodes and those of the document that lists them.
-/
namespace Verif.Lemmas.DocWalk
open Verif.Model Verif.Model.Ptrs Verif.Spec.Ptrs Verif.Lemmas.SaveTree Verif.Lemmas.SaveDone Verif.Lemmas.XdrFit

theorem number_roots_length : ∀ (f : Forest) (n : Nat), (number n f).roots.length = f.roots.length := by
  intro f
  induction f with
  | nil => intro n; rfl
  | cons i k s _ ihs => intro n; simp [number, Forest.roots, ihs]

theorem without_false_roots (ra : List Pd) : ∀ f : Forest, (withoutEmpty ra false f).roots = f.roots := by
  intro f
  induction f with
  | nil => rfl
  | cons i k s _ ihs => simp [withoutEmpty, Forest.roots, ihs]

theorem without_roots (ra : List Pd) : ∀ (f : Forest) (b : Bool), ∀ x ∈ (withoutEmpty ra b f).roots, x ∈ f.roots := by
  intro f
  induction f with
  | nil => intro b x hx; exact hx
  | cons i k s _ ihs =>
    intro b x hx
    rw [withoutEmpty] at hx
    split at hx
    · exact List.mem_cons_of_mem _ (ihs _ x hx)
    · rw [Forest.roots] at hx ⊢
      rcases List.mem_cons.1 hx with rfl | hx
      · exact List.mem_cons_self ..
      · exact List.mem_cons_of_mem _ (ihs _ x hx)

/-- the nodes of a numbered forest at the roots -/
theorem roots_at : ∀ (f : Forest) (n q c : Nat), f.roots[q]? = some c → ∃ j, f.nodes[j]? = some c ∧ (number n f).roots[q]? = some (n + j) := by
  intro f
  induction f with
  | nil => intro n q c h; simp [Forest.roots] at h
  | cons i k s _ ihs =>
    intro n q c h
    cases q with
    | zero =>
      rw [Forest.roots, List.getElem?_cons_zero] at h
      exact ⟨0, by rw [Forest.nodes]; exact h, by simp [number, Forest.roots]⟩
    | succ q =>
      rw [Forest.roots, List.getElem?_cons_succ] at h
      obtain ⟨j, h1, h2⟩ := ihs (n + 1 + k.nodes.length) q c h
      refine ⟨1 + k.nodes.length + j, ?_, ?_⟩
      · rw [Forest.nodes, show 1 + k.nodes.length + j = k.nodes.length + j + 1 from by omega, List.getElem?_cons_succ, List.getElem?_append_right (by omega), show k.nodes.length + j - k.nodes.length = j from by omega]
        exact h1
      · rw [number, Forest.roots, List.getElem?_cons_succ, h2]
        congr 1
        omega

/-- from a parent to its children -/
theorem down {ra ra2 : List Pd} : ∀ (f : Forest) (b : Bool) (n par h par2 h2 : Nat), Rep ra par h f → Rep ra2 par2 h2 (number n (withoutEmpty ra b f)) →
    ∀ (j p : Nat), (withoutEmpty ra b f).nodes[j]? = some p → ∃ l l2, Chain ra (kidsHead (nd ra p)) l ∧ Chain ra2 (kidsHead (nd ra2 (n + j))) l2 ∧
      (isStruct ra p = false → l.length = l2.length ∧ ∀ (q c : Nat), l[q]? = some c → ∃ jc, (withoutEmpty ra b f).nodes[jc]? = some c ∧ l2[q]? = some (n + jc)) := by
  intro f
  induction f with
  | nil => intro b n par h par2 h2 _ _ j p hj; simp [withoutEmpty, Forest.nodes] at hj
  | cons i k s ihk ihs =>
    intro b n par h par2 h2 hr hr2 j p hj
    obtain ⟨_, _, pd, e1, e2, e3, e4⟩ := hr
    rw [withoutEmpty] at hj hr2 ⊢
    split at hj
    · rename_i hdrop
      rw [if_pos hdrop] at hr2 ⊢
      exact ihs b n _ _ _ _ e4 hr2 j p hj
    · rename_i hkeep
      rw [if_neg hkeep] at hr2 ⊢
      rw [number] at hr2
      obtain ⟨_, _, pd2, g1, g2, g3, g4⟩ := hr2
      rw [Forest.nodes] at hj ⊢
      cases j with
      | zero =>
        rw [List.getElem?_cons_zero] at hj
        cases hj
        refine ⟨k.roots, (number (n + 1) (withoutEmpty ra (isStruct ra i) k)).roots, ?_, ?_, fun hs => ?_⟩
        · rw [(get_nd e1).1]; exact chain_roots _ _ _ e3
        · rw [Nat.add_zero, (get_nd g1).1]; exact chain_roots _ _ _ g3
        · rw [hs] at *
          refine ⟨by rw [number_roots_length, without_false_roots], fun q c hc => ?_⟩
          rw [← without_false_roots ra] at hc
          obtain ⟨j, h1, h2⟩ := roots_at _ (n + 1) q c hc
          have hl := (List.getElem?_eq_some_iff.1 h1).1
          exact ⟨j + 1, by rw [List.getElem?_cons_succ, List.getElem?_append_left hl]; exact h1, by rw [h2]; congr 1; omega⟩
      | succ j =>
        rw [List.getElem?_cons_succ] at hj
        by_cases hl : j < (withoutEmpty ra (isStruct ra i) k).nodes.length
        · rw [List.getElem?_append_left hl] at hj
          obtain ⟨l, l2, a1, a2, a3⟩ := ihk _ _ _ _ _ _ e3 g3 j p hj
          rw [show n + 1 + j = n + (j + 1) from by omega] at a2
          refine ⟨l, l2, a1, a2, fun hs => ⟨(a3 hs).1, fun q c hc => ?_⟩⟩
          obtain ⟨jc, b1, b2⟩ := (a3 hs).2 q c hc
          have hl := (List.getElem?_eq_some_iff.1 b1).1
          exact ⟨jc + 1, by rw [List.getElem?_cons_succ, List.getElem?_append_left hl]; exact b1, by rw [b2]; congr 1; omega⟩
        · rw [List.getElem?_append_right (by omega)] at hj
          obtain ⟨l, l2, a1, a2, a3⟩ := ihs _ _ _ _ _ _ e4 g4 _ p hj
          rw [show n + 1 + (withoutEmpty ra (isStruct ra i) k).nodes.length + (j - (withoutEmpty ra (isStruct ra i) k).nodes.length) = n + (j + 1) from by omega] at a2
          refine ⟨l, l2, a1, a2, fun hs => ⟨(a3 hs).1, fun q c hc => ?_⟩⟩
          obtain ⟨jc, b1, b2⟩ := (a3 hs).2 q c hc
          refine ⟨(withoutEmpty ra (isStruct ra i) k).nodes.length + jc + 1, ?_, by rw [b2]; congr 1; omega⟩
          rw [List.getElem?_cons_succ, List.getElem?_append_right (by omega), show (withoutEmpty ra (isStruct ra i) k).nodes.length + jc - (withoutEmpty ra (isStruct ra i) k).nodes.length = jc from by omega]
          exact b1

/-- a node is a root or it has a parent -/
theorem up {ra ra2 : List Pd} : ∀ (f : Forest) (b : Bool) (n par h par2 h2 : Nat), Rep ra par h f → Rep ra2 par2 h2 (number n (withoutEmpty ra b f)) →
    ∀ (j i : Nat), (withoutEmpty ra b f).nodes[j]? = some i →
      ((nd ra i).parent = par ∧ i ∈ f.roots ∧ (nd ra2 (n + j)).parent = par2 ∧ ∃ q : Nat, (withoutEmpty ra b f).roots[q]? = some i ∧ (number n (withoutEmpty ra b f)).roots[q]? = some (n + j)) ∨
      ∃ (jp p : Nat) (l l2 : List Nat) (q : Nat), jp < j ∧ (withoutEmpty ra b f).nodes[jp]? = some p ∧ (nd ra i).parent = p ∧ (nd ra2 (n + j)).parent = n + jp ∧
        Chain ra (kidsHead (nd ra p)) l ∧ Chain ra2 (kidsHead (nd ra2 (n + jp))) l2 ∧ i ∈ l ∧ l2[q]? = some (n + j) ∧ (isStruct ra p = false → l[q]? = some i) := by
  intro f
  induction f with
  | nil => intro b n par h par2 h2 _ _ j p hj; simp [withoutEmpty, Forest.nodes] at hj
  | cons i k s ihk ihs =>
    intro b n par h par2 h2 hr hr2 j c hj
    obtain ⟨_, _, pd, e1, e2, e3, e4⟩ := hr
    rw [withoutEmpty] at hj hr2 ⊢
    split at hj
    · rename_i hdrop
      rw [if_pos hdrop] at hr2 ⊢
      rcases ihs b n _ _ _ _ e4 hr2 j c hj with ⟨a1, a2, a3⟩ | a
      · exact .inl ⟨a1, List.mem_cons_of_mem _ a2, a3⟩
      · exact .inr a
    · rename_i hkeep
      rw [if_neg hkeep] at hr2 ⊢
      rw [number] at hr2 ⊢
      obtain ⟨_, _, pd2, g1, g2, g3, g4⟩ := hr2
      rw [Forest.nodes] at hj ⊢
      cases j with
      | zero =>
        rw [List.getElem?_cons_zero] at hj
        cases hj
        left
        exact ⟨by rw [(get_nd e1).1]; exact e2, List.mem_cons_self .., by rw [Nat.add_zero, (get_nd g1).1]; exact g2, 0, rfl, rfl⟩
      | succ j =>
        rw [List.getElem?_cons_succ] at hj
        by_cases hl : j < (withoutEmpty ra (isStruct ra i) k).nodes.length
        · rw [List.getElem?_append_left hl] at hj
          right
          rcases ihk _ _ _ _ _ _ e3 g3 j c hj with ⟨a1, a2, a3, q, a4, a5⟩ | ⟨jp, p, l, l2, q, a1, a2, a3, a4, a5, a6, a7, a8, a9⟩
          · refine ⟨0, i, k.roots, (number (n + 1) (withoutEmpty ra (isStruct ra i) k)).roots, q, by omega, rfl, a1, ?_, ?_, ?_, a2, ?_, fun hs => ?_⟩
            · rw [show n + (j + 1) = n + 1 + j from by omega]; exact a3
            · rw [(get_nd e1).1]; exact chain_roots _ _ _ e3
            · rw [Nat.add_zero, (get_nd g1).1]; exact chain_roots _ _ _ g3
            · rw [a5]; congr 1; omega
            · rw [hs, without_false_roots] at a4; exact a4
          · rw [show n + 1 + jp = n + (jp + 1) from by omega] at a4 a6
            rw [show n + 1 + j = n + (j + 1) from by omega] at a4 a8
            have hl2 := (List.getElem?_eq_some_iff.1 a2).1
            exact ⟨jp + 1, p, l, l2, q, by omega, by rw [List.getElem?_cons_succ, List.getElem?_append_left hl2]; exact a2, a3, a4, a5, a6, a7, a8, a9⟩
        · rw [List.getElem?_append_right (by omega)] at hj
          have e : n + 1 + (withoutEmpty ra (isStruct ra i) k).nodes.length + (j - (withoutEmpty ra (isStruct ra i) k).nodes.length) = n + (j + 1) := by omega
          rcases ihs _ _ _ _ _ _ e4 g4 _ c hj with ⟨a1, a2, a3, q, a4, a5⟩ | ⟨jp, p, l, l2, q, a1, a2, a3, a4, a5, a6, a7, a8, a9⟩
          · rw [e] at a3 a5
            left
            exact ⟨a1, List.mem_cons_of_mem _ a2, a3, q + 1, by rw [Forest.roots, List.getElem?_cons_succ]; exact a4, by rw [Forest.roots, List.getElem?_cons_succ]; exact a5⟩
          · right
            rw [e] at a4 a8
            rw [show n + 1 + (withoutEmpty ra (isStruct ra i) k).nodes.length + jp = n + ((withoutEmpty ra (isStruct ra i) k).nodes.length + jp + 1) from by omega] at a4 a6
            refine ⟨(withoutEmpty ra (isStruct ra i) k).nodes.length + jp + 1, p, l, l2, q, by omega, ?_, a3, a4, a5, a6, a7, a8, a9⟩
            rw [List.getElem?_cons_succ, List.getElem?_append_right (by omega), show (withoutEmpty ra (isStruct ra i) k).nodes.length + jp - (withoutEmpty ra (isStruct ra i) k).nodes.length = jp from by omega]
            exact a2

/-- a list of siblings in a document without references -/
theorem chain_siblings {ra : List Pd} : ∀ {h : Nat} {l : List Nat}, Chain ra h l → Verif.Spec.Load.Siblings ra h l := by
  intro h l
  induction l generalizing h with
  | nil => intro e; have e : h = 0 := e; subst e; exact .nil
  | cons c l ih =>
    rintro ⟨rfl, h0, pd, h1, h2⟩
    exact .cons h0 h1 (ih h2)

end Verif.Lemmas.DocWalk
