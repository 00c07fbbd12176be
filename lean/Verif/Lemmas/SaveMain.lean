import Verif.Lemmas.SaveInner
/-!
`mr_save_inner` as a whole.
-/
namespace Verif.Lemmas.SaveMain
open Verif.Model Verif.Model.Ptrs Verif.Model.Save Verif.Spec.Ptrs Verif.Spec.Save Verif.Lemmas.SaveTree Verif.Lemmas.SaveInv Verif.Lemmas.SaveStep
  Verif.Lemmas.SaveRun Verif.Lemmas.SaveResolve Verif.Lemmas.SaveHandler Verif.Lemmas.SaveInner

variable {mem : Mem} {tds : List Td} {root : Obj} {st : St} {ks : Nat → List Nat} {obj : Nat → Obj} {O : Nat → Option Nat} {S : Nat → Prop}

theorem components_ty {o c : Obj} (h : c ∈ components tds o) : o.ty = .struct ∨ o.ty = .array := by
  unfold components at h
  split at h
  · rename_i hx; exact Or.inl hx
  · rename_i hx; exact Or.inr hx
  · cases h

/-- a node is added only for an object without a node -/
theorem no_dup {data : Nat} {fd : Fd} {count p k : Nat} {o : Obj} (hU : Single mem tds root)
    (C : Call mem tds (Single mem tds root) root st ks obj O S data fd count p k o)
    (hpass : ∀ i, 1 ≤ i → i < st.ptrs.ra.length → Passed st obj p o i) (hc : identified o.ty = true) :
    ∀ i, 1 ≤ i → i < st.ptrs.ra.length → obj i ≠ o := by
  intro i h1 h2 he
  have hI := C.inv.inv
  have hsp := hI.seen p C.p1 C.p2
  have hrp := reach_root hI C.p1 C.p2
  have hslot := C.slot
  unfold slot at hslot
  have hpl : ptrLike (obj p).ty = false := by
    cases hpl : ptrLike (obj p).ty with
    | false => rfl
    | true =>
      exfalso
      rw [if_pos hpl] at hslot
      split at hslot
      · have ht := target_ty hsp.ok hslot
        by_cases hne : neverEqual o.ty = true
        · rcases ht with ⟨_, ht | ht⟩ | ⟨_, ht⟩
          · cases hty : o.ty <;> rw [hty] at hne ht <;> simp [neverEqual, plain] at hne ht
          · rw [ht] at hc; simp [identified] at hc
          · rw [ht] at hne; simp [neverEqual] at hne
        · have := (hpass i h1 h2 he (by simpa using hne)).1
          rw [hpl] at this; cases this
      · cases hslot
  rw [if_neg (by simp [hpl])] at hslot
  have hmem := List.mem_of_getElem? hslot
  by_cases hi : i = 1
  · subst hi
    have hr := hI.rootObj h2
    rw [hr] at he
    rw [← he] at hc hmem
    exact hU.top hc _ hrp hmem
  · have hi1 : 1 < i := by omega
    obtain ⟨q1, q2, _⟩ := hI.tree.own _ _ (hI.tree.mem i hi1 h2)
    have hrq := reach_root hI q1 q2
    rcases edge hI hi1 h2 with ⟨e1, e2, _⟩ | ⟨e1, j, e2, e3⟩
    · rw [he] at e2
      by_cases hne : neverEqual o.ty = true
      · rcases target_ty (hI.seen _ q1 q2).ok e2 with ⟨_, ht | ht⟩ | ⟨_, ht⟩
        · cases hty : o.ty <;> rw [hty] at hne ht <;> simp [neverEqual, plain] at hne ht
        · rw [ht] at hc; simp [identified] at hc
        · rw [ht] at hne; simp [neverEqual] at hne
      · rcases (hpass i h1 h2 he (by simpa using hne)).2 with h | h | h
        · exact hi h
        · rw [e1] at h; cases h
        · have := anc_reach hI h C.p2
          rw [he] at this
          exact hU.inner _ _ _ hrq hrp e2 hc hmem this
    · rw [he] at e3
      obtain ⟨h3, h4⟩ := hU.parts _ _ _ _ _ hrq hrp hc e3 hslot
      have hq : (nd st.ptrs.ra i).parent = p := by
        refine hI.uniq hU _ _ q1 q2 C.p1 C.p2 ?_ h3
        rw [h3]
        rcases components_ty hmem with h | h <;> rw [h] <;> rfl
      rw [hq, h4] at e2
      have hf := hI.filled p C.p1 C.p2
      rw [C.status] at hf
      have := filled_length hf hpl
      have := (List.getElem?_eq_some_iff.1 e2).1
      omega

theorem size_ok (hT : Types tds) {data : Nat} {fd : Fd} {count p k : Nat} {o : Obj} {U : Prop}
    (C : Call mem tds U root st ks obj O S data fd count p k o) : (obj p).ty = .pointer → fd.size ≠ 0 ∧ plain o.ty = true ∨ neverEqual o.ty = true := by
  intro hp
  have hslot := C.slot
  unfold slot at hslot
  rw [if_pos (by simp [ptrLike, hp])] at hslot
  split at hslot
  · rcases target_ty (C.inv.inv.seen p C.p1 C.p2).ok hslot with ⟨_, ht | ht⟩ | ⟨h, _⟩
    · left
      refine ⟨?_, ht⟩
      have hty : o.ty = fd.ty := by rw [← C.ofd]; exact object_ty _ _ _ _ _ _
      rw [hty] at ht
      have hok := C.ok.2.2.2
      rw [C.ok.2.2.1 ht]
      have := elementSize_pos (td := fd.td) hT ht (by
        intro h
        rcases h with h | h
        · rw [h] at hok ⊢; exact hok
        · rw [h] at hok ⊢; exact hok.1)
      omega
    · right; rw [ht]; rfl
    · rw [hp] at h; cases h
  · cases hslot

theorem saveInner_ok (hT : Types tds) {rk : Nat → Nat} (hrk : Nested tds rk) (d : Nat) :
    ∀ fuel, d ≤ fuel → InnerOK mem tds (Single mem tds root) root rk d (saveInner mem tds fuel) := by
  induction d with
  | zero =>
    intro fuel _ st ks obj O S data fd count p k o _ hn
    have := need_pos rk o
    omega
  | succ d ih =>
    intro fuel hfuel st ks obj O S data fd count p k o C hneed
    cases fuel with
    | zero => omega
    | succ fuel =>
      have hI := C.inv.inv
      obtain ⟨b1, b2, b3⟩ := hI.bhead (data / 4)
      have haddr : o.addr = data := by rw [← C.ofd]; exact object_addr _ _ _ _ _ _
      rw [saveInner]
      rcases resolve_loop hT C (size_ok hT C) (savePointerContent mem tds (saveInner mem tds fuel)) (st.ptrs.ra.length + 1) (st.index (data / 4)) (by omega) b1 b2 (by
        intro i h1 h2 h3
        have := b3 i h1 h2
        rw [h3, haddr] at this
        exact absurd rfl this) with ⟨e1, hpass⟩ | ⟨st', ks', O', e1, e2, e3, e4⟩
      · simp only [Option.bind_eq_bind, e1, Option.bind_some]
        obtain ⟨st1, f1, f2, f3, f4, f5, f6, f7, f8⟩ := push_ok hT C (fun hU hc => no_dup hU C hpass hc)
        simp only [Bool.false_eq_true, if_false, f1, Option.bind_some]
        generalize hn : st.ptrs.ra.length = n at *
        have hpn : p < n := hn ▸ C.p2
        have hop : Open mem tds (Single mem tds root) root st1 (updF ks p (ks p ++ [n])) (updF obj n o) (updF (updF O p (adv (obj p) k)) n (some 0)) (fun j => j = n ∨ S j) n data fd := by
          refine ⟨f2, by have := C.p1; omega, by omega, updF_same _ _ _, by rw [updF_same]; exact C.ofd, C.ok, Or.inl rfl, f4, by rw [f5]; rfl⟩
        obtain ⟨st2, g1, ks2, obj2, O2, D⟩ := handler_ok hT hrk (ih fuel (by omega)) (parent := p) hop (by rw [updF_same]; exact hneed)
        simp only [g1, Option.bind_some]
        have hA := D.acc
        have hgrow := hA.grow
        rw [f3] at hgrow
        have hobj : ∀ j, j < n → obj2 j = obj j := by
          intro j hj
          rw [hA.objs j (by omega), updF_ne _ _ (by omega)]
        have hobjn : obj2 n = o := by rw [hA.objs n (by omega), updF_same]
        obtain ⟨pfd, epf, hpf⟩ := persist_ok (k := k) (o := o) (data := data) (fd := fd) hT D.inv C.p1 (by omega) (by rw [hobj p hpn]; exact C.slot) C.ofd C.ok
          (by
            rw [hobj p hpn]
            rintro h (h' | h')
            · omega
            · exact C.notS h h')
          (by rw [hobj p hpn]; exact C.np)
        obtain ⟨st3, k1, k2, k3, k4, k5⟩ := updInfo_ok st2 n (fun i => { i with fd := pfd }) (by rw [D.inv.len]; omega)
        simp only [epf, Option.bind_some, k1]
        have hsn := D.inv.inv.seen n (by omega) (by omega)
        rw [hobjn] at hsn
        have hDnull := D.null
        have hDps := D.psize
        rw [updF_same] at hDnull hDps
        have hseen : ∀ s : Prop, Seen mem tds (nd st2.ptrs.ra n) { ni st2.info n with fd := pfd } o s := by
          intro s
          refine ⟨hsn.addr, hsn.ty, hsn.ok, hsn.norm, hsn.aux, ?_, hsn.size, hsn.cref, ?_, hsn.opq, fun _ => hDnull, fun _ => hDps, hsn.eaux, hsn.unset⟩
          · intro h
            obtain ⟨g, h1, h2, h3⟩ := hpf.2 h
            exact ⟨g, h1, h2, fun _ => h3⟩
          · intro g hg hg2
            rw [hpf.1 g hg] at hg2
            cases hg2
        refine ⟨st3, ks2, obj2, O2, rfl, ⟨by rw [k4, k2]; exact D.inv.len, ?_⟩, ?_, ?_⟩
        · rw [k2, k3, k5]
          refine inv_stack (m := n) (inv_info D.inv.inv (i := n) (x := { ni st2.info n with fd := pfd }) (by rw [hobjn]; exact hseen _) rfl (fun _ => rfl) ?_ (fun p j f h1 h2 h3 h4 h5 => D.inv.inv.fixed p h1 h2 h3 j n f h4 h5) rfl) ?_ ?_
          · intro _ hst
            rw [hA.keep n Anc.self, f6] at hst
            have hst' : (obj p).ty = .struct := by rw [← hobj p hpn]; exact hst
            have hpl : ptrLike (obj p).ty = false := by simp [ptrLike, hst']
            have hkp : (ks2 p)[k]? = some n := by
              have hf := hI.filled p C.p1 (by omega)
              rw [C.status] at hf
              rw [hA.frame p (by omega) (by omega) (by rw [updF_ne _ _ (by omega)]; exact hpl), updF_same, ← filled_length hf hpl]
              simp
            have h3 := D.inv.inv.names p C.p1 (by omega) hst k n hkp
            rw [h3, hobj p hpn, (C.named hst').1]
            show pfd = some fd
            have hnp : fd.nonPersistent ≠ true := fun h' => C.np h' hst'
            unfold persistentFd at epf
            rw [if_neg hnp] at epf
            exact (Option.some.inj epf).symm
          · intro i hi
            constructor
            · exact Or.inr
            · rintro (h | h)
              · exact absurd h hi
              · exact h
          · rw [hobjn, updF_same]; exact hseen _
        · have hpd := D.status
          rw [updF_same] at hpd
          refine ⟨by rw [k2, hn]; omega, fun j hj => hobj j (by omega), ?_, ?_, ?_, by rw [k2]; exact hA.lc, ?_, ?_, ?_, ?_, fun _ => by rw [hn]; exact hobjn, ?_⟩
          · rw [hA.stat p (by omega) (by omega), updF_ne _ _ (by omega), updF_same]
          · intro j hj hne
            rw [hA.stat j (by omega) (by omega), updF_ne _ _ (by omega), updF_ne _ _ hne]
          · intro j h1 h2
            by_cases hj : j = n
            · subst hj; rw [hpd, hobjn]
            · rw [k2] at h2
              exact hA.news j (by omega) h2
          · intro hp
            left
            refine ⟨n, ?_, by rw [k2]; exact hA.anc⟩
            have hkp : ks2 p = ks p ++ [n] := by
              by_cases hpl : ptrLike (obj p).ty = true
              · have hstr : (obj p).ty = .string := by simpa [ptrLike, hp] using hpl
                have hslot := C.slot
                unfold slot at hslot
                rw [if_pos hpl] at hslot
                have hch : o.ty = .charArray := by
                  split at hslot
                  · rcases target_ty (hI.seen p C.p1 (by omega)).ok hslot with ⟨h, _⟩ | ⟨_, h⟩
                    · exact absurd h hp
                    · exact h
                  · cases hslot
                rw [D.chars (by rw [updF_same]; exact hch), updF_same]
              · rw [hA.frame p (by omega) (by omega) (by rw [updF_ne _ _ (by omega)]; simpa using hpl), updF_same]
            rw [hkp]; simp
          · intro j hj hne hpl
            rw [hA.frame j (by omega) (by omega) (by rw [updF_ne _ _ (by omega)]; exact hpl), updF_ne _ _ hne]
          · intro hpl _ hne i h1 h2 he
            have := (hpass i h1 (by omega) he hne).1
            rw [hpl] at this; cases this
          · intro j hj
            rw [k5, updF_ne _ _ (by omega), hA.nulls j (by omega) (by omega), f7 j (by omega)]
          · intro j hj
            have hjn := anc_lt (tree_closed hI.tree) hj (by omega)
            have h1 : Anc (nd st1.ptrs.ra) j n := by
              refine Anc.up (by have := C.p1; omega) ?_
              rw [f6]
              exact anc_keep hj fun i hi => f8 i (by have := anc_lt (tree_closed hI.tree) hi (by omega); omega)
            rw [k2, hA.keep j h1, f8 j (by omega)]
        · rw [k2]
          have hc := D.count
          rw [updF_same, f3] at hc
          rw [cnt]
          omega
      · simp only [Option.bind_eq_bind, e1, Option.bind_some, if_true]
        exact ⟨st', ks', obj, O', rfl, e2, e3, by omega⟩

end Verif.Lemmas.SaveMain
