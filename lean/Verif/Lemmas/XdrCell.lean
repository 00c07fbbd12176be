import Verif.Lemmas.XdrNode
/-!
Saving and loading of pointers and strings.
-/
namespace Verif.Lemmas.XdrNode
open Verif.Model Verif.Model.Ptrs Verif.Model.Save Verif.Model.Copy Verif.Model.Xdr Verif.Model.XdrGraph Verif.Spec.Ptrs Verif.Spec.Save Verif.Spec.Copy Verif.Spec.XdrGraph
  Verif.Lemmas.SaveTree Verif.Lemmas.SaveFinal Verif.Lemmas.SaveInv Verif.Lemmas.CopyLayout Verif.Lemmas.CopyView Verif.Lemmas.CopyTops Verif.Lemmas.CopyMem Verif.Lemmas.CopyPlace Verif.Lemmas.CopyDone Verif.Lemmas.XdrSeg Verif.Lemmas.XdrPlan Verif.Lemmas.XdrStep Verif.Lemmas.XdrFit Verif.Lemmas.XdrMem Verif.Lemmas.Xdr

variable {P : Plan} (H : P.OK)
include H

omit H in
theorem cell_cases (H : P.Core) {i : Nat} (hi : i ∈ P.N) (hc : isCell (P.obj i) = true) :
    (∃ t, P.own i = some t ∧ refers P i = false ∧ (ni P.st.info i).null = false) ∨
    (P.own i = none ∧ refers P i = true ∧ (nd P.st.ptrs.ra i).firstChild ∈ P.N) ∨
    (P.own i = none ∧ refers P i = false ∧ (ni P.st.info i).null = true) := by
  have hr := H.range hi
  have hpl : (P.obj i).ty = .pointer ∨ (P.obj i).ty = .string := by simpa [isCell] using hc
  have hget := (H.C.V.get hr.2).1
  have hvty := H.C.V.ty hr.1 hr.2
  cases ho : P.own i with
  | some t =>
    left
    obtain ⟨h1, h2, h3, h4⟩ := H.own_iff.1 ho
    obtain ⟨o1, o2, o3, _⟩ := H.C.V.owner H.C.S.cells h1 h2 (by rw [h3]; exact h4)
    rw [h3] at o1 o2 o3
    exact ⟨t, rfl, by simp [refers, o2, o3], o1⟩
  | none =>
    right
    have hno : ∀ t, 1 < t → t < P.n → pa P.st t = i → False := by
      intro t h1 h2 h3
      rw [H.own_none ho h1 h2 h3] at hc
      cases hc
    have hnull : (nd P.st.ptrs.ra i).ty = .string ∨ (nd P.st.ptrs.ra i).ty = .pointer := by rw [hvty]; exact hpl.symm
    have hnull := H.C.V.F.null i _ _ hr.1 hget (H.C.V.get hr.2).2 hnull
    rw [hvty] at hnull
    rcases hpl with hpl | hpl
    · cases hu : untyped (P.obj i).aux with
      | true =>
        rcases H.C.V.F.void i _ hi hget (by rw [hvty]; exact hpl) hu with ⟨g1, g2, _⟩ | ⟨g1, _, g3, _⟩ | ⟨_, g2, g3, _⟩
        · exact Or.inr ⟨rfl, by simp [refers, g1, g2], hnull.2 (Or.inl ⟨hpl, hu⟩)⟩
        · exact Or.inl ⟨rfl, by simp [refers, g1], g3⟩
        · exact Or.inl ⟨rfl, by simp [refers, g2], g3⟩
      | false =>
        have hq := H.C.V.F.pointer i _ hi hget (by rw [hvty]; exact hpl) hu
        cases htg : target P.mem P.tds (P.obj i) with
        | none =>
          rw [htg] at hq
          refine Or.inr ⟨rfl, by simp [refers, hq.1, hq.2.2], hnull.2 (Or.inr ?_)⟩
          unfold target at htg
          rw [hpl] at htg
          simpa [hu] using htg
        | some o =>
          rw [htg] at hq
          obtain ⟨q0, q1, q2, tp, q3, q4, _⟩ := hq
          cases hrf : (nd P.st.ptrs.ra i).ref with
          | true => exact Or.inl ⟨rfl, by simp [refers, hrf], q1⟩
          | false =>
            exfalso
            have q5 := (q4 hrf).1
            have hqr := H.range q1
            rw [← (SaveDone.get_nd q3).1] at q5
            have hne : (nd P.st.ptrs.ra i).firstChild ≠ 1 := by
              intro h
              rw [h] at q5
              obtain ⟨_, _, pd, e1, e2, _⟩ := H.C.V.F.tree
              rw [← (SaveDone.get_nd e1).1, q5] at e2
              omega
            exact hno _ (by omega) hqr.2 q5
    · have hq := H.C.V.F.string i _ hi hget (by rw [hvty]; exact hpl)
      cases htg : target P.mem P.tds (P.obj i) with
      | none =>
        rw [htg] at hq
        refine Or.inr ⟨rfl, by simp [refers, hq.2.1, hq.2.2], hnull.2 (Or.inr ?_)⟩
        unfold target at htg
        rw [hpl] at htg
        simpa using htg
      | some o =>
        rw [htg] at hq
        rcases hq with ⟨_, _, _, t, tp, t1, t2, t3, t4, _⟩ | ⟨g1, _, g3, _⟩ | ⟨_, g2, g3, _⟩
        · exfalso
          obtain ⟨e1, e2⟩ := SaveDone.get_nd t2
          rw [H.C.V.len] at e2
          have ht1 : t ≠ 1 := by rintro rfl; exact t3 (by simp)
          exact hno t (by omega) e2 (by unfold pa; rw [e1]; exact t4)
        · exact Or.inl ⟨rfl, by simp [refers, g1], g3⟩
        · exact Or.inl ⟨rfl, by simp [refers, g2], g3⟩

/-- the flags of a pointer or string -/
theorem flags_cell (i : Nat) : flagsOf (nd P.st.ptrs.ra i) (ni P.st.info i) < 256 ∧ isRef (flagsOf (nd P.st.ptrs.ra i) (ni P.st.info i)) = refers P i ∧
    isNull (flagsOf (nd P.st.ptrs.ra i) (ni P.st.info i)) = (ni P.st.info i).null ∧
    (flagsOf (nd P.st.ptrs.ra i) (ni P.st.info i)).testBit 3 = (nd P.st.ptrs.ra i).cref ∧
    (flagsOf (nd P.st.ptrs.ra i) (ni P.st.info i)).testBit 4 = (ni P.st.info i).opq := flags_ok _ _

theorem rec_cell {i : Nat} (hi : i ∈ P.N) (h : isCell (P.obj i) = true) : rec P i =
    { addr := P.A i, ty := (fdOf P i).ty, parent := (rec P i).parent, flags := flagsOf (nd P.st.ptrs.ra i) (ni P.st.info i),
      first := if refers P i then P.idx (nd P.st.ptrs.ra i).firstChild else 0 } := by
  simp [rec, h, fits_ty H hi]

theorem idx_lt {i : Nat} (hi : i ∈ P.N) : P.idx i < 2 ^ 32 := by
  have := (H.at_idx hi).2.2
  have := H.len_lt
  omega

/-- a pointer or string without a block -/
theorem good_cell {i : Nat} (hi : i ∈ P.N) (hc : isCell (P.obj i) = true) (ho : P.own i = none) {m' : Bytes} (h : refers P i = false → word m' (P.A i) = 0) :
    Good P i m' := by
  have hpl : (P.obj i).ty = .pointer ∨ (P.obj i).ty = .string := by simpa [isCell] using hc
  refine ⟨?_, fun _ _ h3 => h h3, ?_, ?_, ?_, ?_⟩
  · intro t ht; rw [ho] at ht; cases ht
  · intro t ht; rw [ho] at ht; cases ht
  · intro x hx
    unfold valueByte at hx
    rcases hpl with h | h <;> rw [h] at hx <;> exact hx.elim
  · intro h; rcases hpl with h' | h' <;> rw [h'] at h <;> cases h
  · intro h; rcases hpl with h' | h' <;> rw [h'] at h <;> cases h

theorem room_cell {i j : Nat} (hj : P.N[j]? = some i) (hc : isCell (P.obj i) = true) : covered (P.liveAt j) (P.A i) 8 = true ∧ covered P.live (P.obj i).addr 8 = true ∧
    sg P i = (0, 64) := by
  have hi := List.mem_of_getElem? hj
  have hr := H.range hi
  have hn := node_range H.C hr.1 hr.2
  rw [extent_cell hc] at hn
  refine ⟨H.access hj hn.2.1, readable H hi hn.2.1, ?_⟩
  have hpl : (P.obj i).ty = .pointer ∨ (P.obj i).ty = .string := by simpa [isCell] using hc
  rcases hpl with h | h <;> simp [sg, seg, h]

theorem works_pointer {i j : Nat} {ks : List Nat} (hj : P.N[j]? = some i) (hk : Chain P.st.ptrs.ra (kidsHead (nd P.st.ptrs.ra i)) ks)
    (hty : (P.obj i).ty = .pointer) : Works P i j ks := by
  have hi := List.mem_of_getElem? hj
  have hr := H.range hi
  have hc : isCell (P.obj i) = true := by simp [isCell, hty]
  have hft := fits_ty H hi
  rw [hty] at hft
  obtain ⟨hcov, hread, hsg⟩ := room_cell H hj hc
  obtain ⟨fl, fr, fn, f3, f4⟩ := flags_cell H i
  rw [H.C.V.opq i hr.1 hr.2] at f4
  rcases cell_cases H hi hc with ⟨t, ho, hrf, hnl⟩ | ⟨ho, hrf, hfc⟩ | ⟨ho, hrf, hnl⟩
  · -- an object of its own
    obtain ⟨h1, h2, h3, h4⟩ := H.own_iff.1 ho
    have hpk := kids_own H hi hty ho hk
    have hst : Start P.st P.n P.obj t := Or.inr ⟨h1, h2, by rw [h3]; exact h4⟩
    obtain ⟨_, o2, o3, o4, o5⟩ := H.C.V.owner H.C.S.cells h1 h2 (by rw [h3]; exact h4)
    rw [h3] at o2 o3 o4 o5
    obtain ⟨p1, _, _⟩ := o4 hty
    obtain ⟨n1, n2, n3, n4, n5⟩ := start_need H.C hst
    have hlead := H.C.V.lead t h1 h2 (by rw [h3]; exact h4)
    rw [h3] at hlead
    have htn : t ∈ P.N := (H.C.V.inTree t).2 ⟨⟨by omega, h2⟩, fun h => by rw [h3, hty] at h; cases h.2⟩
    obtain ⟨_, _, hpl, _, hob⟩ := (parent_kind H htn (by omega)).resolve_left (by rw [h3, hty]; simp) |>.resolve_left (by rw [h3, hty]; simp)
    rw [h3] at hob
    have hneed : P.need t = elementSize P.tds (P.obj i).aux (P.obj i).td := by
      have := n5 (by intro h; rw [h] at hpl; cases hpl)
      have e : P.need t = CopyPlace.need P.m P.tds (P.obj t) := rfl
      rw [e, this]
      unfold extent
      rw [if_pos hpl, hob, object_ty]
      unfold elementSize
      split
      · rfl
      · rename_i hts
        have hpl' : plain (P.obj i).aux = true := by rw [hob, object_ty] at hpl; exact hpl
        generalize (P.obj i).aux = ax at hts hpl'
        cases ax <;> simp [typeSize, plain] at hts hpl' <;> rfl
    have hfd : (fdOf P i).aux = (P.obj i).aux ∧ (fdOf P i).td = (P.obj i).td := by
      have hf := (fits H hi).1
      have hu : untyped (fdOf P i).aux = false := by
        have hp1 := p1
        rw [hf] at hp1
        unfold ofFd object at hp1
        rw [hft] at hp1
        simp only at hp1
        split at hp1
        · assumption
        · rename_i h; simpa using h
      rw [hf]
      unfold ofFd object
      rw [hft]
      simp [hu]
    have hsize : (ni P.st.info i).size = P.need t := by rw [H.C.V.psize i hr.1 hr.2 hty p1 o5, hneed]
    have hsl : P.need t < 2 ^ 32 := by
      rw [hneed]
      unfold elementSize
      split
      · generalize (P.obj i).aux = ax
        cases ax <;> decide
      · split
        · omega
        · rename_i td _ 
          cases hd : P.tds[td]? with
          | none => simp
          | some d => simpa using H.S.sizes td d hd
    obtain ⟨hb, hlv⟩ := H.step_some hj ho
    obtain ⟨fb1, fb2, fb3⟩ := H.fresh hj ho
    have n2' : 0 < P.need t := n2
    have hb64 : P.b t < 2 ^ 64 := by omega
    refine ⟨be32 (sext32 8 (flagsOf (nd P.st.ptrs.ra i) (ni P.st.info i))) ++ be32 (u32 (P.need t)), ?_, ?_⟩
    · unfold nodeBytes
      rw [H.C.V.ty hr.1 hr.2, hty]
      simp only [fr, hrf, fn, hnl, f4, hsize, Bool.false_eq_true, if_false, false_and]
    · intro buf p p' m hD
      have := step_ptr_own (E := env P buf) (ns := nodesAt P j) (x := ({ addr := P.A i, ty := (fdOf P i).ty, parent := (rec P i).parent } : LNode))
        (s := ⟨m, P.liveAt j, nodesAt P j ++ [({ addr := P.A i, ty := (fdOf P i).ty, parent := (rec P i).parent } : LNode)], p⟩)
        (data := P.A i) (f := fdOf P i) rfl fl (by rw [fr]; exact hrf) (by rw [fn]; exact hnl) f4 hcov (size := P.need t)
        (by rw [hfd.1, hfd.2, hneed]; rfl) n2 hsl (fits H hi).2.1 (by show P.alloc (P.liveAt j) (P.need t) ≠ 0; rw [← hb]; exact fb1) hD
      have ha : (env P buf).alloc (P.liveAt j) (P.need t) = P.b t := hb.symm
      simp only [ha] at this
      refine ⟨setWord (put (setWord m (P.A i) 0) (P.b t) (List.replicate (P.need t) 0)) (P.A i) (P.b t), ?_, ?_⟩
      · unfold openNode
        rw [hlv, nodes_succ hj, rec_cell H hi hc, ← hpk]
        simp only [hft] at this ⊢
        rw [this, hrf]
        rfl
      · refine ⟨⟨?_, ?_, ?_, ?_, ?_, ?_⟩, ?_⟩
        · intro t' ht'
          rw [ho] at ht'
          cases ht'
          exact word_setWord hb64
        · intro _ h; rw [ho] at h; cases h
        · intro _ _ h; rw [hty] at h; cases h
        · intro x hx
          unfold valueByte at hx
          rw [hty] at hx
          exact hx.elim
        · intro h; rw [hty] at h; cases h
        · intro h; rw [hty] at h; cases h
        · intro q h5 h6
          have h6 := h6 t ho
          rw [hsg] at h5
          simp only at h5
          rw [setWord_bit (by omega), put_other (by rw [List.length_replicate]; omega), setWord_bit (by omega)]
  · -- a reference
    have hks := kids_ref H hi hc (Or.inl ho) hk
    have hfr := H.range hfc
    refine ⟨be32 (sext32 8 (flagsOf (nd P.st.ptrs.ra i) (ni P.st.info i))) ++ be32 (u32 (P.idx (nd P.st.ptrs.ra i).firstChild)), ?_, ?_⟩
    · unfold nodeBytes
      rw [H.C.V.ty hr.1 hr.2, hty]
      simp only [fr, hrf, if_true, (H.C.V.get hfr.2).1, Option.bind_eq_bind, Option.bind_some]
    · intro buf p p' m hD
      have := step_ptr_ref (E := env P buf) (ns := nodesAt P j) (x := ({ addr := P.A i, ty := (fdOf P i).ty, parent := (rec P i).parent } : LNode))
        (s := ⟨m, P.liveAt j, nodesAt P j ++ [({ addr := P.A i, ty := (fdOf P i).ty, parent := (rec P i).parent } : LNode)], p⟩)
        (data := P.A i) (f := fdOf P i) rfl fl (by rw [fr]; exact hrf) (idx_lt H hfc) hcov hD
      refine ⟨setWord m (P.A i) 0, ?_, good_cell H hi hc ho (fun h => by rw [hrf] at h; cases h), ?_⟩
      · unfold openNode
        rw [H.step_none hj ho, nodes_succ hj, rec_cell H hi hc, hks]
        simp only [hft] at this ⊢
        rw [this, hrf]
        rfl
      · intro q h5 _
        rw [hsg] at h5
        simp only at h5
        exact setWord_bit (by omega)
  · -- NULL
    have hks := kids_ref H hi hc (Or.inl ho) hk
    refine ⟨be32 (sext32 8 (flagsOf (nd P.st.ptrs.ra i) (ni P.st.info i))), ?_, ?_⟩
    · unfold nodeBytes
      rw [H.C.V.ty hr.1 hr.2, hty]
      simp only [fr, hrf, fn, hnl, Bool.false_eq_true, if_false, if_true]
    · intro buf p p' m hD
      have := step_ptr_null (E := env P buf) (ns := nodesAt P j) (x := ({ addr := P.A i, ty := (fdOf P i).ty, parent := (rec P i).parent } : LNode))
        (s := ⟨m, P.liveAt j, nodesAt P j ++ [({ addr := P.A i, ty := (fdOf P i).ty, parent := (rec P i).parent } : LNode)], p⟩)
        (data := P.A i) (f := fdOf P i) rfl fl (by rw [fr]; exact hrf) (by rw [fn]; exact hnl) hcov hD
      refine ⟨setWord m (P.A i) 0, ?_, good_cell H hi hc ho fun h => word_setWord (by decide), ?_⟩
      · unfold openNode
        rw [H.step_none hj ho, nodes_succ hj, rec_cell H hi hc, hks]
        simp only [hft] at this ⊢
        rw [this, hrf]
        rfl
      · intro q h5 _
        rw [hsg] at h5
        simp only at h5
        exact setWord_bit (by omega)

theorem works_string {i j : Nat} {ks : List Nat} (hj : P.N[j]? = some i) (hk : Chain P.st.ptrs.ra (kidsHead (nd P.st.ptrs.ra i)) ks)
    (hty : (P.obj i).ty = .string) : Works P i j ks := by
  have hi := List.mem_of_getElem? hj
  have hr := H.range hi
  have hc : isCell (P.obj i) = true := by simp [isCell, hty]
  have hks := kids_ref H hi hc (Or.inr hty) hk
  have hft := fits_ty H hi
  rw [hty] at hft
  obtain ⟨hcov, hread, hsg⟩ := room_cell H hj hc
  obtain ⟨fl, fr, fn, f3, f4⟩ := flags_cell H i
  rcases cell_cases H hi hc with ⟨t, ho, hrf, hnl⟩ | ⟨ho, hrf, hfc⟩ | ⟨ho, hrf, hnl⟩
  · -- an own text
    obtain ⟨h1, h2, h3, h4⟩ := H.own_iff.1 ho
    have hlead := H.C.V.lead t h1 h2 (by rw [h3]; exact h4)
    rw [h3] at hlead
    obtain ⟨l, l1, l2, l3⟩ := H.C.S.ends _ _ (H.C.V.reach i hr.1 hr.2) hty hlead
    have htt : (P.obj t).ty = .charArray := H.C.V.text_ty h1 h2 (by rw [h3]; exact hty)
    have hneed : P.need t = l + 1 := need_eq (by unfold Needs; rw [if_pos htt]; exact ⟨l, rfl, l2⟩)
    have haddr : (P.obj t).addr = word P.m (P.obj i).addr := by
      unfold target at hlead
      rw [hty] at hlead
      simp only at hlead
      split at hlead
      · cases hlead
      · rw [← H.C.S.ptr, ← Option.some.inj hlead]
    have hmax := H.max
    have hfu := H.fuel
    have hsl := strlen_text (live := P.live) l l2 l3 (fuel := P.fuel) (by omega)
    obtain ⟨hb, hlv⟩ := H.step_some hj ho
    obtain ⟨fb1, fb2, fb3⟩ := H.fresh hj ho
    rw [hneed] at hb fb2 fb3
    have hbl : (bytesAt P.m (P.obj t).addr l).length = l := bytesAt_length _ _ _
    have hap : Apart (P.b t) (l + 1) (P.A i) 8 := by
      obtain ⟨c, c1, c2⟩ := covered_mem.1 hcov
      have := fb3 c c1
      unfold Apart at *
      omega
    unfold Apart at hap
    refine ⟨saveString (flagsOf (nd P.st.ptrs.ra i) (ni P.st.info i)) 0 (bytesAt P.m (P.obj t).addr l), ?_, ?_⟩
    · unfold nodeBytes
      rw [H.C.V.ty hr.1 hr.2, hty]
      simp only [fr, hrf, fn, hnl, Bool.false_eq_true, if_false]
      rw [H.C.V.addr hr.1 hr.2]
      simp only [Src.ptr, src, hread, if_true, Option.bind_eq_bind, Option.bind_some, Src.text, ← haddr, hsl, peek_ok (covered_part l3 (Nat.le_refl _) (by omega : _ + l ≤ _))]
    · intro buf p p' m hD
      have := step_str_own (E := env P buf) (ns := nodesAt P j) (x := ({ addr := P.A i, ty := (fdOf P i).ty, parent := (rec P i).parent } : LNode))
        (s := ⟨m, P.liveAt j, nodesAt P j ++ [({ addr := P.A i, ty := (fdOf P i).ty, parent := (rec P i).parent } : LNode)], p⟩)
        (data := P.A i) rfl fl (by rw [fr]; exact hrf) (by rw [fn]; exact hnl) hcov (by rw [hbl]; omega)
        (by rw [hbl]; show P.alloc (P.liveAt j) (l + 1) ≠ 0; rw [← hb]; exact fb1) hD
      have ha : (env P buf).alloc (P.liveAt j) (l + 1) = P.b t := hb.symm
      simp only [hbl, ha] at this
      refine ⟨put (setWord (put (setWord m (P.A i) 0) (P.b t) (List.replicate (l + 1) 0)) (P.A i) (P.b t)) (P.b t) (bytesAt P.m (P.obj t).addr l), ?_, ?_⟩
      · unfold openNode
        rw [hlv, nodes_succ hj, rec_cell H hi hc, hks]
        simp only [hft, Plan.blk, hneed] at this ⊢
        rw [this, hrf]
        rfl
      · refine ⟨⟨?_, ?_, ?_, ?_, ?_, ?_⟩, ?_⟩
        · intro t' ht'
          rw [ho] at ht'
          cases ht'
          have e := word_setWord (m := put (setWord m (P.A i) 0) (P.b t) (List.replicate (l + 1) 0)) (a := P.A i) (v := P.b t) (by omega)
          refine Eq.trans (word_congr fun x hx => ?_) e
          rw [put_out (by rw [hbl]; omega)]
        · intro _ h; rw [ho] at h; cases h
        · intro t' ht' _ x hx
          rw [ho] at ht'
          cases ht'
          rw [hneed] at hx
          by_cases hxl : x < l
          · rw [put_in (bytesAt_get _ hxl), ofNat_toNat]
          · have : x = l := by omega
            subst this
            rw [put_out (by rw [hbl]; omega), setWord_other (by omega), put_in (v := 0) (by simp), l2.1]
            rfl
        · intro x hx
          unfold valueByte at hx
          rw [hty] at hx
          exact hx.elim
        · intro h; rw [hty] at h; cases h
        · intro h; rw [hty] at h; cases h
        · intro q h5 h6
          have h6 := h6 t ho
          rw [hneed] at h6
          rw [hsg] at h5
          simp only at h5
          rw [put_other (by rw [hbl]; omega), setWord_bit (by omega), put_other (by rw [List.length_replicate]; omega), setWord_bit (by omega)]
  · -- a reference
    have hfr := H.range hfc
    refine ⟨saveString (flagsOf (nd P.st.ptrs.ra i) (ni P.st.info i)) (P.idx (nd P.st.ptrs.ra i).firstChild) [], ?_, ?_⟩
    · unfold nodeBytes
      rw [H.C.V.ty hr.1 hr.2, hty]
      simp only [fr, hrf, if_true, (H.C.V.get hfr.2).1, Option.bind_eq_bind, Option.bind_some]
    · intro buf p p' m hD
      have := step_str_ref (E := env P buf) (ns := nodesAt P j) (x := ({ addr := P.A i, ty := (fdOf P i).ty, parent := (rec P i).parent } : LNode))
        (s := ⟨m, P.liveAt j, nodesAt P j ++ [({ addr := P.A i, ty := (fdOf P i).ty, parent := (rec P i).parent } : LNode)], p⟩)
        (data := P.A i) rfl fl (by rw [fr]; exact hrf) (idx_lt H hfc) hD
      refine ⟨m, ?_, good_cell H hi hc ho (fun h => by rw [hrf] at h; cases h), fun _ _ _ => rfl⟩
      unfold openNode
      rw [H.step_none hj ho, nodes_succ hj, rec_cell H hi hc, hks]
      simp only [hft] at this ⊢
      rw [this, hrf]
      rfl
  · -- NULL
    refine ⟨saveString (flagsOf (nd P.st.ptrs.ra i) (ni P.st.info i)) 0 [], ?_, ?_⟩
    · unfold nodeBytes
      rw [H.C.V.ty hr.1 hr.2, hty]
      simp only [fr, hrf, fn, hnl, Bool.false_eq_true, if_false, if_true]
    · intro buf p p' m hD
      have := step_str_null (E := env P buf) (ns := nodesAt P j) (x := ({ addr := P.A i, ty := (fdOf P i).ty, parent := (rec P i).parent } : LNode))
        (s := ⟨m, P.liveAt j, nodesAt P j ++ [({ addr := P.A i, ty := (fdOf P i).ty, parent := (rec P i).parent } : LNode)], p⟩)
        (data := P.A i) rfl fl (by rw [fr]; exact hrf) (by rw [fn]; exact hnl) hcov hD
      refine ⟨setWord m (P.A i) 0, ?_, good_cell H hi hc ho fun h => word_setWord (by decide), ?_⟩
      · unfold openNode
        rw [H.step_none hj ho, nodes_succ hj, rec_cell H hi hc, hks]
        simp only [hft] at this ⊢
        rw [this, hrf]
        rfl
      · intro q h5 _
        rw [hsg] at h5
        simp only at h5
        exact setWord_bit (by omega)

/-- every node is saved and loaded -/
theorem works {i j : Nat} {ks : List Nat} (hj : P.N[j]? = some i) (hk : Chain P.st.ptrs.ra (kidsHead (nd P.st.ptrs.ra i)) ks) : Works P i j ks := by
  have hi := List.mem_of_getElem? hj
  have hr := H.range hi
  have hok := H.C.V.ok i hr.1 hr.2
  cases hs : scalar P.ld P.tds (P.obj i).ty (P.obj i).td with
  | some k => exact works_scalar H hj hk hs
  | none =>
    cases hty : (P.obj i).ty with
    | none => exact works_none H hj hk (Or.inl hty)
    | void => exact works_none H hj hk (Or.inr hty)
    | string => exact works_string H hj hk hty
    | pointer => exact works_pointer H hj hk hty
    | charArray => exact works_chars H hj hk hty
    | bitfield => exact works_bits H hj hk hty
    | struct => exact works_struct H hj hk hty
    | array => exact works_array H hj hk hty
    | union => unfold ObjOK at hok; rw [hty] at hok; exact hok.elim
    | anonUnion => unfold ObjOK at hok; rw [hty] at hok; exact hok.elim
    | namedAnonUnion => unfold ObjOK at hok; rw [hty] at hok; exact hok.elim
    | enum =>
      unfold ObjOK at hok
      rw [hty] at hok hs
      obtain ⟨t, d, h1, h2, h3⟩ := hok
      obtain ⟨k, hk'⟩ := intSc_some (H.S.enums t d h2 h3)
      simp [scalar, tdAt, h1, h2, hk'] at hs
    | endAnonUnion | last =>
      exfalso
      by_cases h1 : i = 1
      · subst h1
        have := H.C.S.base.1
        rw [← H.C.V.F.top, hty] at this
        cases this
      · rcases parent_kind H hi h1 with h | h | ⟨_, _, h, _⟩
        · obtain ⟨l, q, t, d, f, M⟩ := member_of H.C (by omega : 1 < i) hr.2 h
          have := H.S.kinds t d f M.dd M.dty M.inFields
          have h2 := M.ty
          rw [hty] at h2
          first | exact this.1 h2.symm | exact this.2 h2.symm
        · rcases array_kid H.C (by omega : 1 < i) hr.2 h with h | h <;> rw [hty] at h <;> cases h
        · rw [hty] at h; cases h
    | _ => rw [hty] at hs; simp [scalar, intSc] at hs

end Verif.Lemmas.XdrNode
