import Verif.Lemmas.LoadGraph
import Verif.Spec.LoadFits
/-!
A document that tells the content of a saved graph fits the types.
-/
namespace Verif.Lemmas.GraphFits
open Verif.Model Verif.Model.Ptrs Verif.Model.Save Verif.Model.Copy Verif.Model.Load Verif.Spec.Ptrs Verif.Spec.Save Verif.Spec.Load Verif.Spec.LoadSays Verif.Spec.LoadFits
  Verif.Lemmas.SaveTree Verif.Lemmas.SaveFinal Verif.Lemmas.SaveInv Verif.Lemmas.CopyLayout Verif.Lemmas.CopyView Verif.Lemmas.CopyTops Verif.Lemmas.CopyMem Verif.Lemmas.CopyPlace Verif.Lemmas.CopyDone Verif.Lemmas.XdrSeg Verif.Lemmas.XdrPlan Verif.Lemmas.XdrFit Verif.Lemmas.XdrLink Verif.Lemmas.LoadGraph
open Verif.Lemmas.XdrNode (refers cell_cases)
open Verif.Spec.Copy (isCell Apart Layout span Allocator Grown Text Needs extent)
open Verif.Model.XdrGraph (tdType tdAt)
open Verif.Lemmas.LoadSafe (siblings_unique)

/-- what is needed besides: no values that cannot be converted, nothing too large -/
structure Easy (P : Plan) (N' : List Nat) (E : Env) (size : Nat) : Prop where
  typed : ∀ (j i : Nat) (d : Doc), N'[j]? = some i → E.data[j + 1]? = some d → d.typed = none
  unnamed : ∀ (j i : Nat) (d : Doc), N'[j]? = some i → E.data[j + 1]? = some d → i = 1 ∨ (P.obj (pa P.st i)).ty ≠ .struct → d.name = none
  kind : ∀ i ∈ P.N, (P.obj i).ty ≠ .endAnonUnion ∧ (P.obj i).ty ≠ .last
  value : ∀ (j i : Nat) (d : Doc), N'[j]? = some i → E.data[j + 1]? = some d → Spec.LoadSays.valueType (P.obj i).ty = true → valueBytes E (fdL P i) (j + 1) d ≠ none
  bits : ∀ (j i : Nat), N'[j]? = some i → (P.obj i).ty = .bitfield → E.conv (fdL P i) (j + 1) ≠ .fail
  size : ∀ o n, Outer P.mem P.tds P.root o → Needs P.m P.tds o n → n ≤ size

/-- the types as which the nodes are read -/
def As (P : Plan) (N' : List Nat) (k : Nat) (f : Fd) : Prop := ∃ j i, k = j + 1 ∧ N'[j]? = some i ∧ f = fdL P i

variable {P : Plan} {N' : List Nat} {E : Env} {size : Nat}

theorem fits (H : P.Core) (T : Tells P N' E) (hT : Tree E.ra) (X : Easy P N' E size) : Fits E size (As P N') := by
  have mem : ∀ {j i : Nat}, N'[j]? = some i → i ∈ P.N := fun h => T.sub _ (List.mem_of_getElem? h)
  refine ⟨?_, ?_, ?_, ?_, ?_, ?_, ?_, ?_⟩
  · rintro k f d ⟨j, i, rfl, hj, rfl⟩ hd
    refine ⟨fun n hn hu hne => ?_, fun t ht => by rw [X.typed j i d hj hd] at ht; cases ht⟩
    by_cases h : i = 1 ∨ (P.obj (pa P.st i)).ty ≠ .struct
    · rw [X.unnamed j i d hj hd h] at hn; cases hn
    · have h1 : i ≠ 1 := fun e => h (.inl e)
      have h2 : (P.obj (pa P.st i)).ty = .struct := Classical.byContradiction fun e => h (.inr e)
      rw [T.name j i d hj hd h1 h2] at hn
      rw [fdL_not (Or.inr (by rw [h2]; exact fun h => by cases h))]
      exact (Option.some.inj hn).symm
  · rintro k f ⟨j, i, rfl, hj, rfl⟩
    rw [fdL_ty H (mem hj)]
    exact X.kind i (mem hj)
  · rintro k f d ⟨j, i, rfl, hj, rfl⟩ hv hd
    rw [fdL_ty H (mem hj)] at hv
    exact X.value j i d hj hd hv
  · rintro k f ⟨j, i, rfl, hj, rfl⟩ ht
    rw [fdL_ty H (mem hj)] at ht
    exact X.bits j i hj ht
  · rintro k f d ⟨j, i, rfl, hj, rfl⟩ ht hd
    rw [fdL_ty H (mem hj)] at ht
    have hc : isCell (P.obj i) = true := by simp [isCell, ht]
    rcases cell_cases H (mem hj) hc with ⟨t, o1, _, _⟩ | ⟨_, o2, _⟩ | ⟨_, o2, o3⟩
    · obtain ⟨_, tx, e1, e2, _⟩ := T.str j i t d hj hd ht o1
      obtain ⟨h1, h2, h3, h4⟩ := H.own_iff.1 o1
      have hch : (P.obj t).ty = .charArray := by
        have hl := H.C.V.lead t h1 h2 (by rw [h3]; exact h4)
        rw [h3] at hl
        unfold Verif.Spec.Save.target at hl
        rw [ht] at hl
        simp only at hl
        split at hl
        · cases hl
        · exact (congrArg Obj.ty (Option.some.inj hl)).symm
      refine .inr (.inr ⟨tx, e1, X.size _ (tx.length + 1) (H.C.V.outer H.C.S.cells h1 h2 (by rw [h3]; exact h4)) ?_⟩)
      unfold Needs
      rw [if_pos hch]
      exact ⟨_, rfl, e2⟩
    · obtain ⟨jt, _, _, e⟩ := T.ref j i d hj hd hc o2
      exact .inr (.inl ⟨_, e⟩)
    · exact .inl (T.null j i d hj hd hc o2 o3)
  · rintro k f pd l ⟨j, p, rfl, hj, rfl⟩ ht hpd hl t htd q c hq
    rw [fdL_ty H (mem hj)] at ht
    have hcl : c ∈ l := List.mem_of_getElem? hq
    obtain ⟨l', hs, hk⟩ := hT.kids (j + 1) pd hpd
    have : l' = l := siblings_unique hs hl
    subst this
    obtain ⟨hlt, pc, hpc, hpar⟩ := hk c hcl
    have hlen := T.len
    have hc1 := (List.getElem?_eq_some_iff.1 hpc).1
    obtain ⟨jc, rfl⟩ : ∃ jc, c = jc + 1 := ⟨c - 1, by omega⟩
    have hjc : N'[jc]? = some (N'[jc]'(by omega)) := List.getElem?_eq_getElem _
    generalize N'[jc]'(by omega) = i at hjc
    have hi1 : i ≠ 1 := by
      rintro rfl
      have := T.one hjc
      omega
    obtain ⟨jp, q', pd', l1, l2, u1, u2, u3, u4, u5, _⟩ := T.up jc i hjc hi1
    have hjp : jp = j := by
      obtain ⟨l2', hs', hk'⟩ := hT.kids (jp + 1) pd' u3
      have : l2' = l2 := siblings_unique hs' u4
      subst this
      obtain ⟨_, pc', hpc', hpar'⟩ := hk' _ (List.mem_of_getElem? u5)
      rw [hpc] at hpc'; cases hpc'
      omega
    subst hjp
    rw [hj] at u2
    cases u2
    have hr := H.range (mem hjc)
    obtain ⟨l1, j', t', d', f', M⟩ := member_of H.C (by omega : 1 < i) hr.2 ht
    obtain ⟨d, hd⟩ := T.data jc i hjc
    have hf : fdOf P i = f' := by simp [fdOf, hi1, ht, M.fd]
    have hn := T.name jc i d hjc hd hi1 ht
    have htt : t = d' := by
      rw [fdL_td H (mem hj) ht, M.td, T.tds] at htd
      have m1 : P.tds[t']? = some t := htd
      rw [M.dd] at m1
      exact (Option.some.inj m1).symm
    subst htt
    refine ⟨j', f', d, M.ff, hd, fun n h => ?_, fun h => (by rw [hn] at h; cases h), jc, i, rfl, hjc, ?_⟩
    · rw [hn] at h; rw [← Option.some.inj h, hf]
    · rw [fdL_not (Or.inr (by rw [ht]; exact fun h => by cases h)), hf]
  · rintro k f pd l ⟨j, p, rfl, hj, rfl⟩ ht hpd hl
    rw [fdL_ty H (mem hj)] at ht
    obtain ⟨pd', l1, l2, w1, w2, w3, w4⟩ := T.down j p hj
    rw [hpd] at w1; cases w1
    have := siblings_unique hl w3
    subst this
    obtain ⟨w5, w6⟩ := w4 (by rw [ht]; exact fun h => by cases h)
    obtain ⟨lm, jm, tm, dm, M⟩ := (XdrFit.fits H (mem hj)).2.2 (Or.inr (Or.inr ht))
    have hpp : fdL P p = fdOf P p := fdL_not (Or.inr (by rw [M.str]; exact fun h => by cases h))
    obtain ⟨a0, a1, a2, a3, a4, _⟩ := array_fd (XdrFit.fits H (mem hj)).1 ht
    obtain ⟨k1, _, k3⟩ := kids_list H (mem hj) (by simp [isCell, ht]) w2
    have hcount : l1.length ≤ (P.obj p).count := by
      have e := congrArg List.length k1
      rw [List.length_map] at e
      rw [e]
      refine Nat.le_of_not_lt fun h => ?_
      have := part_array ht (List.getElem?_eq_getElem h)
      omega
    rw [hpp]
    refine ⟨fun hc => ?_, by rw [← a3, ← w5]; exact hcount, fun c hc => ?_⟩
    · obtain ⟨hok, _⟩ := H.C.T.fields tm dm M.dd M.dty _ M.inFields
      have := hok.2.2.2
      rw [a0] at this
      obtain ⟨b, cc, b1, b2, _, b4, b5⟩ := this
      have := SaveHandler.elementSize_leads H.C.T b1 b2
      rw [b4] at hc
      rw [b5]
      exact Nat.mul_ne_zero hc (by omega)
    · obtain ⟨q, hq⟩ := List.mem_iff_getElem?.1 hc
      have hq1 : q < l1.length := by rw [w5]; exact (List.getElem?_eq_some_iff.1 hq).1
      obtain ⟨jc, e1, e2⟩ := w6 q _ (List.getElem?_eq_getElem hq1)
      rw [hq] at e2
      refine ⟨jc, _, Option.some.inj e2, e1, ?_⟩
      obtain ⟨g1, _, g3⟩ := k3 _ (List.getElem_mem hq1)
      unfold fdL
      rw [if_pos ⟨by omega, by rw [g3]; exact ht⟩, g3, T.tds]
  · rintro k f d pd l ⟨j, i, rfl, hj, rfl⟩ ht hd hpd hl hn hv hne
    rw [fdL_ty H (mem hj)] at ht
    have hi := mem hj
    have hc : isCell (P.obj i) = true := by simp [isCell, ht]
    rcases cell_cases H hi hc with ⟨t, o1, _, _⟩ | ⟨_, o2, _⟩ | ⟨_, o2, o3⟩
    · obtain ⟨pd', l1, l2, w1, w2, w3, w4⟩ := T.down j i hj
      rw [hpd] at w1; cases w1
      have := siblings_unique hl w3
      subst this
      obtain ⟨w5, w6⟩ := w4 (by rw [ht]; exact fun h => by cases h)
      have hl1 := kids_one H ht o1 w2
      subst hl1
      obtain ⟨h1, h2, h3, h4⟩ := H.own_iff.1 o1
      have hst : Start P.st P.n P.obj t := Or.inr ⟨h1, h2, by rw [h3]; exact h4⟩
      have hneed := start_need H.C hst
      have htN : t ∈ P.N := (H.C.V.inTree t).2 ⟨⟨by omega, h2⟩, fun h => by rw [h3, ht] at h; cases h.2⟩
      have hk := parent_kind H htN (by omega)
      rw [h3] at hk
      have hplain : plain (P.obj t).ty = true := by
        rcases hk with hk | hk | ⟨_, _, hk, _⟩
        · rw [ht] at hk; cases hk
        · rw [ht] at hk; cases hk
        · exact hk
      have hsz : (Spec.LoadSays.target E.tds (fdL P i)).size = P.need t := by
        rw [T.tds, ← fdL_target H hi ht o1, size_plain H htN hplain]
        unfold Plan.need
        rw [hneed.2.2.2.2 (by intro h; rw [h] at hplain; cases hplain)]
        unfold extent
        rw [if_pos hplain]
      have hle := X.size _ _ (H.C.V.outer H.C.S.cells h1 h2 (by rw [h3]; exact h4)) hneed.1
      have h0 : 0 < P.need t := hneed.2.1
      rw [hsz, ← w5]
      refine ⟨by omega, by simpa [Plan.need] using hle, fun c hcl => ?_⟩
      obtain ⟨q, hq⟩ := List.mem_iff_getElem?.1 hcl
      have hq1 : q = 0 := by have := (List.getElem?_eq_some_iff.1 hq).1; rw [← w5] at this; simpa using this
      subst hq1
      obtain ⟨jc, e1, e2⟩ := w6 0 t rfl
      rw [hq] at e2
      exact ⟨jc, t, Option.some.inj e2, e1, by rw [T.tds, fdL_target H hi ht o1]⟩
    · obtain ⟨jt, _, _, e⟩ := T.ref j i d hj hd hc o2
      exact absurd e (hv _)
    · rw [T.null j i d hj hd hc o2 o3] at hn; cases hn

theorem root (T : Listed P N' E) : As P N' 1 P.fd := ⟨0, 1, rfl, T.top, by rw [fdL_not (Or.inl rfl)]; simp [fdOf]⟩

end Verif.Lemmas.GraphFits
