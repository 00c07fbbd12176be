import Verif.Lemmas.XdrForest
/-!
The references of a loaded graph, and the result of loading.
-/
namespace Verif.Lemmas.XdrLink
open Verif.Model Verif.Model.Ptrs Verif.Model.Save Verif.Model.Copy Verif.Model.Xdr Verif.Model.XdrGraph Verif.Spec.Ptrs Verif.Spec.Save Verif.Spec.Copy Verif.Spec.XdrGraph
  Verif.Lemmas.SaveTree Verif.Lemmas.SaveFinal Verif.Lemmas.SaveInv Verif.Lemmas.CopyLayout Verif.Lemmas.CopyView Verif.Lemmas.CopyTops Verif.Lemmas.CopyMem Verif.Lemmas.CopyPlace Verif.Lemmas.CopyDone Verif.Lemmas.XdrSeg Verif.Lemmas.XdrPlan Verif.Lemmas.XdrStep Verif.Lemmas.XdrFit Verif.Lemmas.XdrNode Verif.Lemmas.XdrForest Verif.Lemmas.XdrMem Verif.Lemmas.Xdr

/-- what a reference is set to -/
noncomputable def val (P : Plan) (i : Nat) : Nat :=
  if (nd P.st.ptrs.ra i).cref then P.b ((P.own (nd P.st.ptrs.ra i).firstChild).getD 0) else P.A (nd P.st.ptrs.ra i).firstChild

/-- a reference -/
abbrev isR (P : Plan) (i : Nat) : Prop := isCell (P.obj i) = true ∧ refers P i = true

variable {P : Plan} (H : P.OK)
include H

omit H in
theorem null_cell (H : P.Core) {i : Nat} (hi : i ∈ P.N) (hc : isCell (P.obj i) = true) (h : (ni P.st.info i).null = true) : target P.mem P.tds (P.obj i) = none := by
  have hr := H.range hi
  have hpl : (P.obj i).ty = .pointer ∨ (P.obj i).ty = .string := by simpa [isCell] using hc
  have hvty := H.C.V.ty hr.1 hr.2
  have hn := (H.C.V.F.null i _ _ hr.1 (H.C.V.get hr.2).1 (H.C.V.get hr.2).2 (by rw [hvty]; exact hpl.symm)).1 h
  rw [hvty] at hn
  unfold target
  rcases hn with ⟨h1, h2⟩ | h1
  · rw [h1]; simp [h2]
  · rcases hpl with h2 | h2 <;> rw [h2] <;> simp [h1]

omit H in
/-- a string other strings refer to has a text -/
theorem own_some (H : P.Core) {i : Nat} (hi : i ∈ P.N) (hc : isCell (P.obj i) = true) (hr : refers P i = false) {o : Obj} (ht : target P.mem P.tds (P.obj i) = some o) :
    ∃ t, P.own i = some t ∧ P.obj t = o := by
  rcases cell_cases H hi hc with ⟨t, h1, _⟩ | ⟨_, h1, _⟩ | ⟨_, _, h1⟩
  · refine ⟨t, h1, ?_⟩
    obtain ⟨g1, g2, g3, g4⟩ := H.own_iff.1 h1
    have := H.C.V.lead t g1 g2 (by rw [g3]; exact g4)
    rw [g3, ht] at this
    exact (Option.some.inj this).symm
  · rw [hr] at h1; cases h1
  · rw [null_cell H hi hc h1] at ht; cases ht

omit H in
/-- the references -/
theorem ref_cases (H : P.Core) {i : Nat} (hi : i ∈ P.N) (hR : isR P i) : (nd P.st.ptrs.ra i).firstChild ∈ P.N ∧ (
    ((nd P.st.ptrs.ra i).cref = false ∧ (nd P.st.ptrs.ra i).ref = true ∧
      (target P.mem P.tds (P.obj i) = some (P.obj (nd P.st.ptrs.ra i).firstChild) ∨
       ((P.obj i).ty = .pointer ∧ untyped (P.obj i).aux = true ∧ (P.obj (nd P.st.ptrs.ra i).firstChild).addr = P.mem.ptr (P.obj i).addr))) ∨
    ((nd P.st.ptrs.ra i).cref = true ∧ isCell (P.obj (nd P.st.ptrs.ra i).firstChild) = true ∧ refers P (nd P.st.ptrs.ra i).firstChild = false ∧
      ∃ t, P.own (nd P.st.ptrs.ra i).firstChild = some t ∧ (target P.mem P.tds (P.obj i) = some (P.obj t) ∨
       ((P.obj i).ty = .pointer ∧ untyped (P.obj i).aux = true ∧ (P.obj t).addr = P.mem.ptr (P.obj i).addr)))) := by
  have hr := H.range hi
  obtain ⟨hc, hrf⟩ := hR
  have hpl : (P.obj i).ty = .pointer ∨ (P.obj i).ty = .string := by simpa [isCell] using hc
  have hget := (H.C.V.get hr.2).1
  have hvty := H.C.V.ty hr.1 hr.2
  have hstr : ∀ {s : Pd}, P.st.ptrs.ra[(nd P.st.ptrs.ra i).firstChild]? = some s → s.ref = false → s.cref = false → refers P (nd P.st.ptrs.ra i).firstChild = false := by
    intro s h1 h2 h3
    unfold refers
    rw [(SaveDone.get_nd h1).1, h2, h3]
    rfl
  rcases hpl with hpl | hpl
  · cases hu : untyped (P.obj i).aux with
    | true =>
      rcases H.C.V.F.void i _ hi hget (by rw [hvty]; exact hpl) hu with ⟨g1, g2, _⟩ | ⟨g1, g2, g3, g4, _⟩ | ⟨g1, g2, g3, g4, ⟨o, o1, o2⟩, s, s1, s2, s3, _⟩
      · simp [refers, g1, g2] at hrf
      · exact ⟨g3, Or.inl ⟨g2, g1, Or.inr ⟨hpl, rfl, g4⟩⟩⟩
      · have hcf : isCell (P.obj (nd P.st.ptrs.ra i).firstChild) = true := by simp [isCell, g4]
        have hrr := hstr s1 s2 s3
        obtain ⟨t, t1, t2⟩ := own_some H g3 hcf hrr o1
        exact ⟨g3, Or.inr ⟨g2, hcf, hrr, t, t1, Or.inr ⟨hpl, rfl, by rw [t2]; exact o2⟩⟩⟩
    | false =>
      have hq := H.C.V.F.pointer i _ hi hget (by rw [hvty]; exact hpl) hu
      cases htg : target P.mem P.tds (P.obj i) with
      | none =>
        rw [htg] at hq
        simp [refers, hq.1, hq.2.2] at hrf
      | some o =>
        rw [htg] at hq
        obtain ⟨q0, q1, q2, _⟩ := hq
        rw [refers, q0, Bool.or_false] at hrf
        exact ⟨q1, Or.inl ⟨q0, hrf, Or.inl (by rw [q2])⟩⟩
  · have hq := H.C.V.F.string i _ hi hget (by rw [hvty]; exact hpl)
    cases htg : target P.mem P.tds (P.obj i) with
    | none =>
      rw [htg] at hq
      simp [refers, hq.2.1, hq.2.2] at hrf
    | some o =>
      rw [htg] at hq
      rcases hq with ⟨g1, g2, _⟩ | ⟨g1, g2, g3, g4, _⟩ | ⟨g1, g2, g3, g4, s, s1, s2, s3, s4, _⟩
      · simp [refers, g1, g2] at hrf
      · exact ⟨g3, Or.inl ⟨g2, g1, Or.inl (by rw [g4])⟩⟩
      · have hrg := H.range g3
        have hcf : isCell (P.obj (nd P.st.ptrs.ra i).firstChild) = true := by
          have := H.C.V.ty hrg.1 hrg.2
          rw [(SaveDone.get_nd s1).1, s2] at this
          simp [isCell, ← this]
        have hrr := hstr s1 s3 s4
        obtain ⟨t, t1, t2⟩ := own_some H g3 hcf hrr g4
        exact ⟨g3, Or.inr ⟨g2, hcf, hrr, t, t1, Or.inl (by rw [t2])⟩⟩

theorem val_lt {i : Nat} (hi : i ∈ P.N) (hR : isR P i) : val P i < 2 ^ 64 := by
  obtain ⟨h1, h2 | ⟨h2, _, _, t, h5, _⟩⟩ := ref_cases H hi hR
  · unfold val
    rw [h2.1]
    have := H.range h1
    exact (H.A_ok this.1 this.2).2
  · unfold val
    rw [h2, if_pos rfl, h5]
    obtain ⟨g1, g2, g3, g4⟩ := H.own_iff.1 h5
    have hst : Start P.st P.n P.obj t := Or.inr ⟨g1, g2, by rw [g3]; exact g4⟩
    have h1 := H.b_ok hst
    have h2 : 0 < P.need t := (start_need H.C hst).2.1
    simp only [Option.getD_some]
    omega

/-- one reference -/
theorem crossref_ok {i : Nat} (hi : i ∈ P.N) {m : Bytes} (hm : ∀ c t, c ∈ P.N → P.own c = some t → word m (P.A c) = P.b t) :
    crossref (nodesAt P P.N.length) (P.liveAt P.N.length) m (rec P i) = some (true, if isCell (P.obj i) && refers P i then setWord m (P.A i) (val P i) else m) := by
  have hr := H.range hi
  unfold crossref
  cases hc : isCell (P.obj i) with
  | false =>
    have : (rec P i).flags = 0 := by simp [rec, hc]
    rw [this, if_pos (by decide)]
    simp
  | true =>
    obtain ⟨_, fr, _, f3, _⟩ := flags_cell H i
    have hfl : (rec P i).flags = flagsOf (nd P.st.ptrs.ra i) (ni P.st.info i) := by simp [rec, hc]
    rw [hfl]
    cases hrf : refers P i with
    | false => rw [if_pos (by rw [fr, hrf])]; simp
    | true =>
      have hcell : ∀ {c}, c ∈ P.N → isCell (P.obj c) = true → covered (P.liveAt P.N.length) (P.A c) 8 = true := by
        intro c hcn hcc
        have hrc := H.range hcn
        have hn := node_range H.C hrc.1 hrc.2
        rw [extent_cell hcc] at hn
        exact H.access_end hcn hn.2.1
      obtain ⟨h1, h2⟩ := ref_cases H hi ⟨hc, hrf⟩
      have hf := H.at_idx h1
      have hfi : (rec P i).first = P.idx (nd P.st.ptrs.ra i).firstChild := by simp [rec, hc, hrf]
      have hg : (nodesAt P P.N.length)[P.idx (nd P.st.ptrs.ra i).firstChild]? = some (rec P (nd P.st.ptrs.ra i).firstChild) := by
        have := nodes_get (j := P.N.length) hf.1 (by omega)
        rwa [show P.idx (nd P.st.ptrs.ra i).firstChild - 1 + 1 = P.idx (nd P.st.ptrs.ra i).firstChild from by omega] at this
      have hlen := nodes_len H (Nat.le_refl P.N.length)
      have hty : (rec P i).ty = (P.obj i).ty := rfl
      have hpl : (P.obj i).ty = .pointer ∨ (P.obj i).ty = .string := by simpa [isCell] using hc
      have hAi : (rec P i).addr = P.A i := rfl
      have hAf : (rec P (nd P.st.ptrs.ra i).firstChild).addr = P.A (nd P.st.ptrs.ra i).firstChild := rfl
      rw [if_neg (by rw [fr, hrf]; simp), hfi, if_neg (by omega), hty, if_neg (by rcases hpl with h | h <;> rw [h] <;> simp), hg, hAi, f3]
      have hz := (H.A_ok hr.1 hr.2).1
      have hfr := H.range h1
      have hzf := (H.A_ok hfr.1 hfr.2).1
      simp only [Option.bind_eq_bind, Option.bind_some, hAf, hzf, hz, if_false, hcell hi hc, if_true, Bool.and_self]
      rcases h2 with h2 | ⟨h2, h3, h4, t, h5, _⟩
      · simp only [h2.1, Bool.false_eq_true, if_false, Option.bind_some, val]
      · simp only [h2, if_true, hcell h1 h3, Option.bind_some, hm _ _ h1 h5, val, h5, Option.getD_some]

theorem cells_img {i j : Nat} (hi : i ∈ P.N) (hj : j ∈ P.N) (hci : isCell (P.obj i) = true) (hcj : isCell (P.obj j) = true) (hne : i ≠ j) : Apart (P.A i) 8 (P.A j) 8 := by
  have h1 := H.range hi
  have h2 := H.range hj
  exact cells_apart H.C H.blocks h1.1 h1.2 h2.1 h2.2 hci hcj hne

theorem crossrefs_ok : ∀ (l : List Nat) (m : Bytes), l.Nodup → (∀ i ∈ l, i ∈ P.N) → (∀ c t, c ∈ P.N → P.own c = some t → word m (P.A c) = P.b t) →
    ∃ m', crossrefs (nodesAt P P.N.length) (P.liveAt P.N.length) (l.map (rec P)) m = some (true, m') ∧
      (∀ i ∈ l, isR P i → word m' (P.A i) = val P i) ∧
      (∀ a, (∀ i ∈ l, isR P i → ¬ (P.A i ≤ a ∧ a < P.A i + 8)) → m' a = m a) := by
  intro l
  induction l with
  | nil => intro m _ _ _; exact ⟨m, rfl, (fun i h => by cases h), fun _ _ => rfl⟩
  | cons i l ih =>
    intro m hnd hN hm
    rw [List.nodup_cons] at hnd
    have hi := hN i (by simp)
    have hstep := crossref_ok H hi hm
    simp only [List.map_cons, crossrefs, hstep, Option.bind_eq_bind, Option.bind_some]
    by_cases hR : isR P i
    · have hR2 : (isCell (P.obj i) && refers P i) = true := by simp [hR.1, hR.2]
      simp only [hR2, if_true]
      have hm' : ∀ c t, c ∈ P.N → P.own c = some t → word (setWord m (P.A i) (val P i)) (P.A c) = P.b t := by
        intro c t hc ht
        have hcc := (H.own_iff.1 ht).2.2.2
        have hne : i ≠ c := by
          rintro rfl
          rcases cell_cases H hi hR.1 with ⟨_, _, h, _⟩ | ⟨h, _⟩ | ⟨h, _⟩
          · rw [hR.2] at h; cases h
          · rw [ht] at h; cases h
          · rw [ht] at h; cases h
        have := cells_img H hi hc hR.1 hcc hne
        unfold Apart at this
        rw [← hm c t hc ht]
        apply word_congr
        intro x hx
        exact setWord_other (by omega)
      obtain ⟨m', e, g1, g2⟩ := ih _ hnd.2 (fun x hx => hN x (by simp [hx])) hm'
      refine ⟨m', by rw [e]; rfl, ?_, ?_⟩
      · intro x hx hxR
        rcases List.mem_cons.1 hx with rfl | hx
        · refine Eq.trans ?_ (word_setWord (m := m) (a := P.A x) (val_lt H hi hR))
          apply word_congr
          intro y hy
          apply g2
          intro z hz hzR hin
          have := cells_img H hi (hN z (by simp [hz])) hR.1 hzR.1 (by rintro rfl; exact hnd.1 hz)
          unfold Apart at this
          omega
        · exact g1 x hx hxR
      · intro a ha
        rw [g2 a fun x hx => ha x (by simp [hx])]
        exact setWord_other (ha i (by simp) hR)
    · have hR2 : (isCell (P.obj i) && refers P i) = false := by
        cases h1 : isCell (P.obj i) <;> cases h2 : refers P i <;> simp_all [isR]
      simp only [hR2, Bool.false_eq_true, if_false]
      obtain ⟨m', e, g1, g2⟩ := ih _ hnd.2 (fun x hx => hN x (by simp [hx])) hm
      refine ⟨m', by rw [e]; rfl, ?_, ?_⟩
      · intro x hx hxR
        rcases List.mem_cons.1 hx with rfl | hx
        · exact absurd hxR hR
        · exact g1 x hx hxR
      · intro a ha
        exact g2 a fun x hx => ha x (by simp [hx])

/-- the memory after loading -/
structure Done (P : Plan) (m0 m' : Bytes) : Prop where
  good : ∀ i ∈ P.N, Good P i m'
  ref : ∀ i ∈ P.N, isR P i → word m' (P.A i) = val P i
  kept : ∀ a, ¬ (P.dst ≤ a ∧ a < P.dst + extent P.tds P.root) → (∀ t ∈ P.starts P.N.length, ¬ (P.b t ≤ a ∧ a < P.b t + P.need t)) → m' a = m0 a

theorem load_done (m0 : Bytes) {fuel : Nat} (hf : P.N.length ≤ fuel) (hlen : (document P).length < 2 ^ 32) :
    ∃ m', xdrLoad (env P (document P)) fuel m0 P.live0 P.dst P.fd = some (true, m', P.liveAt P.N.length) ∧ Done P m0 m' := by
  obtain ⟨m1, h1, hI⟩ := load_all H (m0 := m0) hf hlen
  have hall : ∀ i ∈ P.N, Good P i m1 := by
    intro i hi
    obtain ⟨p, hp⟩ := List.mem_iff_getElem?.1 hi
    exact hI.good p i (List.getElem?_eq_some_iff.1 hp).1 hp
  obtain ⟨m', e, g1, g2⟩ := crossrefs_ok H P.N m1 H.C.V.F.nodup (fun _ h => h) fun c t hc ht => (hall c hc).own t ht
  refine ⟨m', ?_, ?_, g1, ?_⟩
  · unfold xdrLoad
    rw [if_neg H.room.2.1]
    simp only [h1, Option.bind_eq_bind, Option.bind_some]
    have : (nodesAt P P.N.length).tail = P.N.map (rec P) := by simp [nodesAt]
    rw [this, e]
    rfl
  · intro i hi
    by_cases hR : isR P i
    · refine good_cell H hi hR.1 ?_ fun h => by rw [hR.2] at h; cases h
      rcases cell_cases H hi hR.1 with ⟨_, _, h, _⟩ | ⟨h, _⟩ | ⟨h, _⟩
      · rw [hR.2] at h; cases h
      · exact h
      · exact h
    · have hsg : ∀ {c}, isCell (P.obj c) = true → sg P c = (0, 64) := by
        intro c hc
        have hpl : (P.obj c).ty = .pointer ∨ (P.obj c).ty = .string := by simpa [isCell] using hc
        rcases hpl with h | h <;> simp [sg, seg, h]
      refine good_congr H hi (hall i hi) ?_ ?_
      · intro q q1 q2
        unfold bitAt
        rw [g2]
        intro c hc hcR hin
        have hs := hsg hcR.1
        exact seg_apart H hi hc (by rintro rfl; exact hR hcR) q1 q2 (by rw [hs]; simp only; omega) (by rw [hs]; simp only; omega)
      · intro t ht hty q q1 q2
        unfold bitAt
        rw [g2]
        intro c hc hcR hin
        have hs := hsg hcR.1
        exact text_apart H ht hty hc q1 q2 (by rw [hs]; simp only; omega) (by rw [hs]; simp only; omega)
  · intro a h2 h3
    rw [g2]
    · apply byte_of_bits
      intro q hq
      exact hI.kept _ (fun h => h2 (by omega)) fun t ht h => h3 t ht (by omega)
    · intro c hc hcR hin
      have hr := H.range hc
      have hb := in_block H.C (b := P.b) hr.1 hr.2
      rw [extent_cell hcR.1] at hb
      have e : P.A c = na P.top P.obj P.b c := rfl
      have e2 : P.need (P.top c) = CopyPlace.need P.m P.tds (P.obj (P.top c)) := rfl
      by_cases h1 : P.top c = 1
      · have := H.need_one
        rw [h1] at hb e2
        rw [H.b_one] at hb
        exact h2 (by omega)
      · exact h3 _ (H.start_mem (top_start H.C.V H.C.tops c hr.1 hr.2) h1) (by omega)

theorem place_A {i : Nat} (h1 : 1 ≤ i) (h2 : i < P.n) : place P.n P.obj P.A (P.obj i) = P.A i := by
  unfold place
  rw [dif_pos ⟨i, h1, h2, rfl⟩]
  have h := Classical.choose_spec (p := fun j => 1 ≤ j ∧ j < P.n ∧ P.obj j = P.obj i) ⟨i, h1, h2, rfl⟩
  exact na_congr H.C h.1 h.2.1 h1 h2 h.2.2

/-- the node of a field -/
theorem field_node {i : Nat} (h1 : 1 ≤ i) (h2 : i < P.n) (hty : (P.obj i).ty = .struct) {f : Fd} (hf : f ∈ members P.tds (P.obj i)) :
    ∃ c, c ∈ P.N ∧ (P.obj c).ty = f.ty ∧ (ni P.st.info c).fd = some f ∧ P.A c = P.A i + f.offset ∧ (P.obj c).addr = (P.obj i).addr + f.offset := by
  obtain ⟨l, l1, l2, l3, l4⟩ := H.C.V.fields i h1 h2 hty
  obtain ⟨j, hj⟩ := List.mem_iff_getElem?.1 hf
  have hlen : l.length = (members P.tds (P.obj i)).length := by
    have := congrArg List.length l2
    rw [List.length_map] at this
    rw [this]
    unfold components members
    rw [hty]
    cases (P.obj i).td.bind (P.tds[·]?) <;> simp
  have hjl := (List.getElem?_eq_some_iff.1 hj).1
  have hc : l[j]? = some (l[j]'(by omega)) := List.getElem?_eq_getElem _
  generalize l[j]'(by omega) = c at hc
  obtain ⟨c1, c2, c3⟩ := (l3 c).1 (List.mem_of_getElem? hc)
  have hfd := l4 j c hc
  rw [hj] at hfd
  obtain ⟨l', j', t, d, f', M⟩ := member_of H.C c1 c2 (by rw [c3]; exact hty)
  have hff := M.fd
  rw [hfd] at hff
  cases hff
  have ha := M.addr
  rw [c3] at ha
  refine ⟨c, (H.C.V.inTree c).2 ⟨⟨by omega, c2⟩, fun h => by rw [c3, hty] at h; cases h.2⟩, M.ty, hfd, ?_, ha⟩
  have := (na_up H.C (b := P.b) c1 c2 (by rw [c3]; simp [isCell, hty])).2
  rw [c3] at this
  unfold Plan.A
  rw [this, ha]
  omega

theorem loaded_ok {m0 m' : Bytes} (hd : Done P m0 m') {mem' : Mem} (hmem' : ∀ a, mem'.ptr a = word m' a) :
    Loaded P.ld P.m m0 m' P.mem mem' P.tds P.root P.dst P.live0 ((P.starts P.N.length).map P.blk) (place P.n P.obj P.A) := by
  have hpl : ∀ {i : Nat}, 1 ≤ i → i < P.n → place P.n P.obj P.A (P.obj i) = P.A i := fun h1 h2 => place_A H h1 h2
  have hnz : ∀ i, 1 ≤ i → i < P.n → P.A i ≠ 0 := fun i h1 h2 => (H.A_ok h1 h2).1
  have hstA : ∀ {t : Nat}, Start P.st P.n P.obj t → P.A t = P.b t := fun h => na_start H.C.tops h
  have hout : ∀ {t : Obj}, Outer P.mem P.tds P.root t → ∃ c, 1 < c ∧ c < P.n ∧ P.obj c = t ∧ isCell (P.obj (pa P.st c)) = true := by
    intro t ht
    obtain ⟨x0, hx0, hx1⟩ := ht.lead
    obtain ⟨c, c1, c2, rfl⟩ := H.C.V.complete t (.lead hx0 hx1)
    have hc1 : 1 < c := by
      by_cases h : c = 1
      · rw [h] at ht; exact absurd H.C.V.F.top ht.notRoot
      · omega
    have hup := H.C.V.up c hc1 c2
    refine ⟨c, hc1, c2, rfl, ?_⟩
    cases h : isCell (P.obj (pa P.st c)) with
    | true => rfl
    | false => exact absurd (H.C.V.part hc1 c2 h) (ht.notPart _ (H.C.V.reach _ hup.1 hup.2))
  have haddr : ∀ {i j : Nat}, 1 ≤ i → i < P.n → 1 ≤ j → j < P.n → P.A i = P.A j → (P.obj i).addr = (P.obj j).addr := by
    intro i j i1 i2 j1 j2 he
    have ri := node_range H.C i1 i2
    have rj := node_range H.C j1 j2
    have := (meet H.C H.blocks (b := P.b) (x := 0) (y := 0) i1 i2 j1 j2 (by omega) (by omega) (by rw [Nat.add_zero, Nat.add_zero]; exact he)).2
    omega
  -- what a pointer or string of the loaded graph holds
  have hcellv : ∀ {i : Nat}, i ∈ P.N → isCell (P.obj i) = true →
      (∃ j, 1 ≤ j ∧ j < P.n ∧ mem'.ptr (P.A i) = P.A j ∧ (target P.mem P.tds (P.obj i) = some (P.obj j) ∨
        ((P.obj i).ty = .pointer ∧ untyped (P.obj i).aux = true ∧ (P.obj j).addr = P.mem.ptr (P.obj i).addr))) ∨
      (refers P i = false ∧ target P.mem P.tds (P.obj i) = none ∧ mem'.ptr (P.A i) = 0) := by
    intro i hi hc
    by_cases hR : isR P i
    · left
      have hv := hd.ref i hi hR
      obtain ⟨h1, ⟨h2, _, h3⟩ | ⟨h2, _, _, t, h5, h6⟩⟩ := ref_cases H hi hR
      · have hfr := H.range h1
        refine ⟨_, hfr.1, hfr.2, ?_, h3⟩
        rw [hmem', hv, val, h2]
        rfl
      · obtain ⟨g1, g2, g3, g4⟩ := H.own_iff.1 h5
        refine ⟨t, by omega, g2, ?_, h6⟩
        rw [hmem', hv, val, h2, if_pos rfl, h5, hstA (Or.inr ⟨g1, g2, by rw [g3]; exact g4⟩)]
        rfl
    · rcases cell_cases H hi hc with ⟨t, h1, h2, h3⟩ | ⟨_, h, _⟩ | ⟨h1, h2, h3⟩
      · left
        obtain ⟨g1, g2, g3, g4⟩ := H.own_iff.1 h1
        have := H.C.V.lead t g1 g2 (by rw [g3]; exact g4)
        rw [g3] at this
        refine ⟨t, by omega, g2, ?_, Or.inl this⟩
        rw [hmem', (hd.good i hi).own t h1, hstA (Or.inr ⟨g1, g2, by rw [g3]; exact g4⟩)]
      · exact absurd ⟨hc, h⟩ hR
      · exact Or.inr ⟨h2, null_cell H hi hc h3, by rw [hmem']; exact (hd.good i hi).null hc h1 h2⟩
  refine ⟨?_, ?_, ?_, ?_, ?_, ?_, ?_, ?_, ?_, ?_, ?_, ?_, ?_, ?_, ?_, ?_, ?_⟩
  · rw [← H.C.V.F.top, hpl (Nat.le_refl _) H.C.V.n1, hstA (Or.inl rfl), H.b_one]
  · intro o ho
    obtain ⟨i, i1, i2, rfl⟩ := H.C.V.complete o ho
    rw [hpl i1 i2]
    exact hnz i i1 i2
  · intro o o' ho ho' he
    obtain ⟨i, i1, i2, rfl⟩ := H.C.V.complete o ho
    obtain ⟨j, j1, j2, rfl⟩ := H.C.V.complete o' ho'
    rw [hpl i1 i2, hpl j1 j2] at he
    exact haddr i1 i2 j1 j2 he
  · intro o o' ho ho' he
    obtain ⟨i, i1, i2, rfl⟩ := H.C.V.complete o ho
    obtain ⟨j, j1, j2, rfl⟩ := H.C.V.complete o' ho'
    rw [hpl i1 i2, hpl j1 j2] at he
    have hadr : P.A i = P.A j := congrArg Obj.addr he
    have h2 : moved (moved (P.obj i) (P.A i)) (P.obj i).addr = moved (moved (P.obj j) (P.A j)) (P.obj i).addr := by rw [he]
    have h3 : moved (moved (P.obj i) (P.A i)) (P.obj i).addr = P.obj i := rfl
    rw [h3] at h2
    rw [h2]
    have h4 : (P.obj i).addr = (P.obj j).addr := haddr i1 i2 j1 j2 hadr
    rw [h4]
    rfl
  · intro o ho
    obtain ⟨i, i1, i2, rfl⟩ := H.C.V.complete o ho
    rw [components_moved]
    apply List.map_congr_left
    intro c hc
    obtain ⟨g1, c', g2, g3, g4, rfl⟩ := H.C.V.kid_of_part i1 i2 hc
    rw [hpl i1 i2, hpl (by omega) g3]
    have := (na_up H.C (b := P.b) g2 g3 (by rw [g4]; exact g1)).2
    rw [g4] at this
    unfold Plan.A
    rw [this]
  · intro o ho
    obtain ⟨i, i1, i2, rfl⟩ := H.C.V.complete o ho
    rw [hpl i1 i2]
    cases hc : isCell (P.obj i) with
    | false =>
      unfold isCell at hc
      have h1 : target P.mem P.tds (P.obj i) = none := by
        unfold target
        cases hty : (P.obj i).ty <;> rw [hty] at hc <;> first | rfl | cases hc
      rw [h1]
      unfold target
      have : (moved (P.obj i) (P.A i)).ty = (P.obj i).ty := rfl
      rw [this]
      cases hty : (P.obj i).ty <;> rw [hty] at hc <;> first | rfl | cases hc
    | true =>
      rcases hcellv (H.C.V.cell_tree i1 i2 hc) hc with ⟨j, j1, j2, j3, j4 | ⟨j4, j5, _⟩⟩ | ⟨_, j4, j5⟩
      · rw [j4, target_moved j4 (by rw [j3]; exact hnz j j1 j2), j3, Option.map_some, hpl j1 j2]
      · have h1 : ∀ mem : Mem, ∀ a, target mem P.tds (moved (P.obj i) a) = none := by
          intro mem a
          unfold target
          have e1 : (moved (P.obj i) a).ty = (P.obj i).ty := rfl
          have e2 : (moved (P.obj i) a).aux = (P.obj i).aux := rfl
          rw [e1, e2, j4]
          simp [j5]
        rw [h1]
        have h2 := h1 P.mem (P.obj i).addr
        have h3 : moved (P.obj i) (P.obj i).addr = P.obj i := rfl
        rw [h3] at h2
        rw [h2]
        rfl
      · rw [j4, target_moved_none j4 fun _ => j5]
        rfl
  · intro o ho x hx
    obtain ⟨i, i1, i2, rfl⟩ := H.C.V.complete o ho
    rw [hpl i1 i2]
    by_cases hi : i ∈ P.N
    · exact (hd.good i hi).data x hx
    · exfalso
      have h3 : i ≠ 1 ∧ (P.obj (pa P.st i)).ty = .string := Classical.byContradiction fun h => hi ((H.C.V.inTree i).2 ⟨⟨i1, i2⟩, h⟩)
      have htt := H.C.V.text_ty (by omega : 1 < i) i2 h3.2
      unfold valueByte at hx
      rw [htt] at hx
      simp [typeSize] at hx
  · intro o ho hty f hf hft q q1 q2
    obtain ⟨i, i1, i2, rfl⟩ := H.C.V.complete o ho
    rw [hpl i1 i2]
    obtain ⟨c, c1, c2, c3, c4, c5⟩ := field_node H i1 i2 hty hf
    rw [hft] at c2
    have hs : sg P c = (f.shift, f.shift + f.width) := by simp [sg, seg, c2, c3]
    rw [← c4, ← c5]
    exact (hd.good c c1).bits c2 q (by rw [hs]; exact q1) (by rw [hs]; exact q2)
  · intro o ho hty f hf hft x hx hz
    obtain ⟨i, i1, i2, rfl⟩ := H.C.V.complete o ho
    rw [hpl i1 i2]
    obtain ⟨c, c1, c2, c3, c4, c5⟩ := field_node H i1 i2 hty hf
    rw [hft] at c2
    have hs : sg P c = (0, 8 * f.size) := by simp [sg, seg, c2, c3]
    rw [← c4, ← c5]
    rw [← c5] at hz
    exact (hd.good c c1).chars c2 x (by rw [hs]; simp only; omega) hz
  · intro t ht htty l hl x hx
    obtain ⟨c, hc1, c2, rfl, hcell⟩ := hout ht
    rw [hpl (by omega) c2]
    have hst : Start P.st P.n P.obj c := Or.inr ⟨hc1, c2, hcell⟩
    have hneed : P.need c = l + 1 := need_eq (by unfold Needs; rw [if_pos htty]; exact ⟨l, rfl, hl⟩)
    have hup := H.C.V.up c hc1 c2
    have hpt : (P.obj (pa P.st c)).ty = .string := by
      rcases (by simpa [isCell] using hcell : (P.obj (pa P.st c)).ty = .pointer ∨ (P.obj (pa P.st c)).ty = .string) with h | h
      · exfalso
        have hcn : c ∈ P.N := (H.C.V.inTree c).2 ⟨⟨by omega, c2⟩, fun g => by rw [h] at g; cases g.2⟩
        rcases parent_kind H hcn (by omega) with g | g | ⟨_, _, g, _⟩
        · rw [h] at g; cases g
        · rw [h] at g; cases g
        · rw [htty] at g; cases g
      · exact h
    rw [hstA hst]
    exact (hd.good _ (H.C.V.cell_tree hup.1 hup.2 hcell)).text c (H.own_iff.2 ⟨hc1, c2, rfl, hcell⟩) hpt x (by omega)
  · intro o ho hty hu
    obtain ⟨i, i1, i2, rfl⟩ := H.C.V.complete o ho
    have hc : isCell (P.obj i) = true := by simp [isCell, hty]
    have hi := H.C.V.cell_tree i1 i2 hc
    rw [hpl i1 i2]
    have htn : target P.mem P.tds (P.obj i) = none := by
      unfold target
      rw [hty]
      simp [hu]
    rcases hcellv hi hc with ⟨j, j1, j2, j3, j4 | ⟨_, _, j4⟩⟩ | ⟨j1, _, j5⟩
    · rw [htn] at j4; cases j4
    · exact Or.inl ⟨_, H.C.V.reach j j1 j2, j4, by rw [j3, hpl j1 j2]⟩
    · refine Or.inr ⟨j5, fun g1 g2 t ht => ?_⟩
      obtain ⟨x, x1, x2, rfl⟩ := H.C.V.complete t ht
      have hvty := H.C.V.ty i1 i2
      rcases H.C.V.F.void i _ hi (H.C.V.get i2).1 (by rw [hvty]; exact hty) hu with ⟨_, _, _, g⟩ | ⟨g, _⟩ | ⟨_, g, _⟩
      · exact g g1 g2 x x1 (by rw [H.C.V.len]; exact x2)
      · simp [refers, g] at j1
      · simp [refers, g] at j1
  · intro o ho
    obtain ⟨i, i1, i2, rfl⟩ := H.C.V.complete o ho
    rw [hpl i1 i2]
    have hr : P.b (P.top i) ≤ P.A i ∧ P.A i + extent P.tds (P.obj i) ≤ P.b (P.top i) + P.need (P.top i) ∧ P.A i < P.b (P.top i) + P.need (P.top i) :=
      in_block H.C (b := P.b) i1 i2
    by_cases h : P.top i = 1
    · left
      rw [h, H.b_one, H.need_one] at hr
      exact ⟨hr.1, hr.2.2, hr.2.1⟩
    · right
      exact ⟨_, List.mem_map.2 ⟨P.top i, H.start_mem (top_start H.C.V H.C.tops i i1 i2) h, rfl⟩, hr.1, hr.2.2, hr.2.1⟩
  · intro o ho l hl
    obtain ⟨c, g1, g2, rfl, g3⟩ := hout ho
    have hst : Start P.st P.n P.obj c := Or.inr ⟨g1, g2, g3⟩
    rw [hpl (by omega) g2, hstA hst, ← need_eq hl]
    exact List.mem_map.2 ⟨c, H.start_mem hst (by omega), rfl⟩
  · intro x hx
    obtain ⟨c, hc, rfl⟩ := List.mem_map.1 hx
    obtain ⟨g1, g2, g3⟩ := H.starts_start hc
    have hst : Start P.st P.n P.obj c := Or.inr ⟨g1, g2, g3⟩
    refine ⟨P.obj c, H.C.V.outer H.C.S.cells g1 g2 g3, ?_, (start_need H.C hst).1⟩
    rw [hpl (by omega) g2, hstA hst]
    rfl
  · intro x hx y hy
    obtain ⟨c, hc, rfl⟩ := List.mem_map.1 hx
    obtain ⟨p, i, _, h2, h3⟩ := Plan.mem_starts.1 hc
    have hl := (List.getElem?_eq_some_iff.1 h2).1
    exact (H.fresh h2 h3).2.2 y (by rw [H.live_eq p (by omega)]; simp [hy])
  · rw [List.pairwise_map]
    refine List.Pairwise.imp_of_mem ?_ (H.starts_nodup _)
    intro x y hx hy hne
    exact H.apart_new hx hy hne
  · intro a ha1 ha2
    exact hd.kept a ha1 fun t ht => ha2 _ (List.mem_map_of_mem ht)

end Verif.Lemmas.XdrLink
