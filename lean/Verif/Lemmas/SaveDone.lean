import Verif.Lemmas.SaveGraph
import Verif.Lemmas.SaveForest
/-!
From the invariant to the specification `Saved`.
-/
namespace Verif.Lemmas.SaveDone
open Verif.Model Verif.Model.Ptrs Verif.Model.Save Verif.Spec.Ptrs Verif.Spec.Save Verif.Lemmas.SaveTree Verif.Lemmas.SaveInv Verif.Lemmas.SaveStep
  Verif.Lemmas.SaveForest

variable {mem : Mem} {tds : List Td} {root : Obj} {U : Prop} {st : St} {ks : Nat → List Nat} {obj : Nat → Obj} {O : Nat → Option Nat}

theorem get_nd {ra : List Pd} {i : Nat} {pd : Pd} (h : ra[i]? = some pd) : nd ra i = pd ∧ i < ra.length := by
  refine ⟨by simp [nd, h], ?_⟩
  exact (List.getElem?_eq_some_iff.1 h).1

theorem chain_of {ra : List Pd} {l : List Nat} (hl : ∀ c ∈ l, c < ra.length) : ∀ {h : Nat}, ChainF (nd ra) h l → Chain ra h l := by
  induction l with
  | nil => intro h hc; exact hc
  | cons c l ih =>
    intro h hc
    obtain ⟨h1, h2, h3⟩ := hc
    exact ⟨h1, h2, _, nd_get (hl c (by simp)), ih (fun x hx => hl x (by simp [hx])) h3⟩

theorem components_members {o : Obj} (h : o.ty = .struct) : (components tds o).length = (members tds o).length := by
  unfold components members
  rw [h]
  cases o.td.bind (tds[·]?) <;> simp

theorem saved_of_inv (h : Inv mem tds U root st ks obj O (fun _ => False)) (hO : ∀ j, 1 ≤ j → j < st.ptrs.ra.length → O j = none)
    (hn : 1 < st.ptrs.ra.length) : ∃ k, Saved mem tds root st k obj := by
  obtain ⟨k, k1, k2, k3⟩ := rep_of_tree rfl hn h.inv.tree
  refine ⟨k, k1, k2, k3, h.inv.rootObj hn, ?_, ?_, ?_, ?_⟩
  · intro i pd h1 hi
    obtain ⟨e1, e2⟩ := get_nd hi
    have hs := h.inv.seen i h1 e2
    refine ⟨ni st.info i, ni_get (by rw [h.len]; exact e2), hs.addr, by rw [← e1]; exact hs.ty, ?_, hs.aux⟩
    intro hty
    obtain ⟨g, g1, g2, _⟩ := hs.td (by unfold needsTd; rcases hty with h | h <;> rw [h])
    rw [g1]; exact g2
  · intro i pd h1 hi t1 t2
    obtain ⟨e1, e2⟩ := get_nd hi
    have hs := h.inv.seen i h1 e2
    have hf := h.inv.filled i h1 e2
    have hty := hs.ty
    have hcr := hs.cref
    rw [e1] at hty hcr
    unfold Filled at hf
    rw [if_neg (by rw [← hty]; simp [ptrLike, t1, t2]), hO i h1 e2, e1] at hf
    refine ⟨hf.1, ks i, ?_, hf.2, ?_⟩
    rotate_left
    · intro hst
      have hst' : (obj i).ty = .struct := by rw [← hty]; exact hst
      have hlen := congrArg List.length hf.2
      rw [List.length_map, components_members hst'] at hlen
      apply List.ext_getElem?
      intro j
      rw [List.getElem?_map, List.getElem?_map]
      cases hj : (ks i)[j]? with
      | none =>
        rw [List.getElem?_eq_none (by have := List.getElem?_eq_none_iff.1 hj; omega)]
        rfl
      | some c =>
        have hc := h.inv.names i h1 e2 hst' j c hj
        have hlt : j < (members tds (obj i)).length := by have := (List.getElem?_eq_some_iff.1 hj).1; omega
        have hcl := (h.inv.tree.own i c (List.mem_of_getElem? hj)).2.2.2.1
        simp only [Option.map_some]
        rw [ni_get (by rw [h.len]; exact hcl)]
        simp only [Option.bind_some]
        rw [hc, List.getElem?_eq_getElem hlt]
        rfl
    have hc := h.inv.tree.chain i h1 e2
    rw [e1, kidsHead_plain hf.1 hcr] at hc
    exact chain_of (fun c hc => (h.inv.tree.own i c hc).2.2.2.1) hc
  · intro i pd h1 hi t1
    obtain ⟨e1, e2⟩ := get_nd hi
    have hs := h.inv.seen i h1 e2
    have hf := h.inv.filled i h1 e2
    have hty := hs.ty
    have hcr := hs.cref
    rw [e1] at hty hcr
    unfold Filled at hf
    rw [if_pos (by rw [← hty]; rcases t1 with h | h <;> simp [ptrLike, h]), hO i h1 e2, e1] at hf
    simp only at hf
    cases ht : target mem tds (obj i) with
    | none => rw [ht] at hf; exact hf
    | some o =>
      rw [ht] at hf
      obtain ⟨f1, f2, f3, f4⟩ := hf
      refine ⟨_, by omega, nd_get f2, f3, ?_, ?_⟩
      · intro hr
        rcases f4 with ⟨_, f4⟩ | ⟨f4, _⟩
        · have hc := h.inv.tree.chain i h1 e2
          rw [f4] at hc
          obtain ⟨_, _, hc⟩ := hc
          exact ⟨(h.inv.tree.own i pd.firstChild (by rw [f4]; simp)).2.2.2.2, hc⟩
        · rw [f4] at hr; cases hr
      · intro hr
        rcases f4 with ⟨f4, _⟩ | ⟨_, _, f4⟩
        · rw [f4] at hr; cases hr
        · exact ⟨f4, by have := h.inv.mark i h1 e2 (by rw [e1]; exact hr); rw [e1] at this; exact this⟩
  · intro i pd x h1 hi hx hty
    obtain ⟨e1, e2⟩ := get_nd hi
    have hs := h.inv.seen i h1 e2
    have hxi : ni st.info i = x := by simp [ni, hx]
    have h3 := hs.null (fun h => h)
    rw [← hs.ty, e1, hxi] at h3
    refine h3 (Or.inl ?_)
    rcases hty with h | ⟨h, h'⟩
    · exact Or.inl h
    · refine Or.inr ⟨h, ?_⟩
      rw [← hs.aux (by rw [← hs.ty, e1]; exact h), hxi]
      exact h'

end Verif.Lemmas.SaveDone
