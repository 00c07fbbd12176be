import Verif.Lemmas.SaveMain
/-!
The root object and the loop over the pointers of `mr_save`.
-/
namespace Verif.Lemmas.SaveLoop
open Verif.Model Verif.Model.Ptrs Verif.Model.Save Verif.Spec.Ptrs Verif.Spec.Save Verif.Lemmas.SaveTree Verif.Lemmas.SaveInv Verif.Lemmas.SaveStep
  Verif.Lemmas.SaveRun Verif.Lemmas.SaveResolve Verif.Lemmas.SaveHandler Verif.Lemmas.SaveInner Verif.Lemmas.SaveMain

variable {mem : Mem} {tds : List Td} {root : Obj} {st : St} {ks : Nat → List Nat} {obj : Nat → Obj} {O : Nat → Option Nat}

/-- the state with the node of the root object only -/
def first (data : Nat) (fd : Fd) : St :=
  { ptrs := { ra := [{}, { parent := 0, ty := fd.ty }], lastChild := 1 }, info := [{}, newInfo data fd 1 0],
    index := fun b => if b = data / 4 then 1 else 0 }

theorem first_eq (data : Nat) (fd : Fd) : link (newNode start { addr := data, fd := fd, size := fd.size * 1, parent := 0 }) 0 1 = some (first data fd) := rfl

theorem first_open (data : Nat) (fd : Fd) (hok : FdOK tds fd) (hun : fd.unnamed = true) (U : Prop) :
    Open mem tds U (ofFd data fd) (first data fd) (fun _ => []) (fun _ => ofFd data fd) (fun _ => some 0) (fun j => j = 1) 1 data fd := by
  have hty : (ofFd data fd).ty = fd.ty := object_ty _ _ _ _ _ _
  have haddr : (ofFd data fd).addr = data := object_addr _ _ _ _ _ _
  have hP : nd (first data fd).ptrs.ra 1 = { parent := 0, ty := (ofFd data fd).ty } := by rw [hty]; rfl
  have hI : ni (first data fd).info 1 = newInfo data fd 1 0 := rfl
  have hl : (first data fd).ptrs.ra.length = 2 := rfl
  refine ⟨⟨rfl, ?_⟩, by omega, by rw [hl]; omega, rfl, rfl, hok, rfl, rfl, rfl⟩
  rw [hl]
  have h1 : ∀ i, 1 ≤ i → i < 2 → i = 1 := by intros; omega
  refine ⟨by omega, ⟨?_, ?_, ?_, ?_, ?_, ?_, ?_⟩, ?_, ?_, fun _ => rfl, ?_, ?_, ?_, ?_, ?_, ?_, ?_, ?_, ?_⟩
  · rw [hP]
  · intro i a b
    rw [h1 i a b, hP]
    rfl
  · intro i c hc; cases hc
  · intro c a b; omega
  · intro i; simp
  · intro c a b
    rw [h1 c a b]
    exact ⟨0, Dep.root⟩
  · rw [hP]
  · intro i a b
    rw [h1 i a b, hP, hI]
    have : ((1 : Nat) = 1) = True := by simp
    rw [this]
    exact seen_new rfl hok (ofFd_ok hok) (norm_object _ _ _ _ _ _) (by omega) (fun _ _ => rfl)
  · intro i a b
    rw [h1 i a b]
    unfold Filled
    rw [hP]
    split
    · exact ⟨rfl, rfl, rfl⟩
    · exact ⟨rfl, Nat.zero_le _, by simp⟩
  · intro c a b; omega
  · intro i a b
    rw [h1 i a b, hI]
    refine ⟨Nat.zero_lt_one, fun h => absurd rfl h, ?_⟩
    intro m a b
    exfalso
    have : (newInfo data fd 1 0).nextUntyped = 0 := rfl
    omega
  · intro b
    show Prev _ b 2 (if b = data / 4 then 1 else 0)
    by_cases hb : b = data / 4
    · rw [if_pos hb]
      refine ⟨by omega, fun _ => by rw [haddr, hb], ?_⟩
      intro m a b; omega
    · rw [if_neg hb]
      refine ⟨by omega, fun h => absurd rfl h, ?_⟩
      intro m a b
      rw [haddr]
      exact fun h => hb h.symm
  · intro _ i j a b c d _ _
    omega
  · intro i a b h
    rw [h1 i a b, hP] at h
    cases h
  · intro i _ _ _ j c hc
    simp at hc
  · intro _ hp
    rw [hI]
    have h2 : (newInfo data fd 1 0).size = fd.size := by simp [newInfo]
    rw [h2, hok.2.2.1 (by rw [← hty]; exact hp)]
    exact (elementSize_object (by rw [← hty]; exact hp)).symm
  · intro i _ _ _ j c f hc
    simp at hc
  · intro i a b h
    have hi : i = 1 := by omega
    rw [hi, hI] at h
    simp [newInfo, hun] at h

theorem root_ok (hT : Types tds) {rk : Nat → Nat} (hrk : Nested tds rk) {d fuel data : Nat} (hd : d ≤ fuel) {fd : Fd} (hok : FdOK tds fd) (hun : fd.unnamed = true)
    (hneed : need rk (ofFd data fd) ≤ d + 1) :
    ∃ st ks obj O, saveInner mem tds (fuel + 1) start data fd 1 0 = some (st, 1) ∧
      Inv mem tds (Single mem tds (ofFd data fd)) (ofFd data fd) st ks obj O (fun _ => False) ∧ 1 < st.ptrs.ra.length ∧
      (∀ j, 1 ≤ j → j < st.ptrs.ra.length → O j = pend mem tds (obj j)) ∧
      (1 ≤ st.ptrs.lastChild ∧ st.ptrs.lastChild < st.ptrs.ra.length) ∧ st.ptrs.ra.length ≤ 1 + cnt tds (d + 1) (ofFd data fd) := by
  generalize ho : ofFd data fd = o at *
  have hop := first_open (mem := mem) data fd hok hun (Single mem tds o)
  rw [ho] at hop
  obtain ⟨st2, g1, ks2, obj2, O2, D⟩ := handler_ok hT hrk (saveInner_ok (root := o) hT hrk d fuel hd) (parent := 0) hop hneed
  have hA := D.acc
  have hl1 : (first data fd).ptrs.ra.length = 2 := rfl
  have hgrow := hA.grow
  rw [hl1] at hgrow
  have hobjn : obj2 1 = o := hA.objs 1 (by omega)
  obtain ⟨pfd, epf, hpf⟩ : ∃ r, persistentFd tds st2 fd 0 = some r ∧ PfdOK tds o r := by
    unfold persistentFd
    rw [persistentAncestor_zero]
    by_cases hnp : fd.nonPersistent = true
    · rw [if_pos hnp]
      refine ⟨_, rfl, ptrFd_ok (by rw [← ho]; exact ofFd_ok hok) ?_⟩
      intro hn
      rw [← ho] at hn ⊢
      exact object_td hn
    · rw [if_neg hnp]
      refine ⟨_, rfl, ?_⟩
      rw [← ho]
      exact persistent_self hok (by simpa using hnp)
  obtain ⟨st3, k1, k2, k3, k4, k5⟩ := updInfo_ok st2 1 (fun i => { i with fd := pfd }) (by rw [D.inv.len]; omega)
  have hsn := D.inv.inv.seen 1 (by omega) (by omega)
  rw [hobjn] at hsn
  have hseen : ∀ s : Prop, Seen mem tds (nd st2.ptrs.ra 1) { ni st2.info 1 with fd := pfd } o s := by
    intro s
    refine ⟨hsn.addr, hsn.ty, hsn.ok, hsn.norm, hsn.aux, ?_, hsn.size, hsn.cref, ?_, hsn.opq, fun _ => D.null, fun _ => D.psize, hsn.eaux, hsn.unset⟩
    · intro h
      obtain ⟨g, h1, h2, h3⟩ := hpf.2 h
      exact ⟨g, h1, h2, fun _ => h3⟩
    · intro g hg hg2
      rw [hpf.1 g hg] at hg2
      cases hg2
  refine ⟨st3, ks2, obj2, O2, ?_, ⟨by rw [k4, k2]; exact D.inv.len, ?_⟩, by rw [k2]; omega, ?_, by rw [k2]; exact hA.lc, ?_⟩
  · rw [saveInner]
    have hres : ∀ content, resolveMatched tds content start { addr := data, fd := fd, size := fd.size * 1, parent := 0 } (start.ptrs.ra.length + 1) (start.index (data / 4)) =
        some (start, false, 0) := fun _ => rfl
    have hle : start.ptrs.ra.length = 1 := rfl
    simp only [hres, Option.bind_eq_bind, Option.bind_some, Bool.false_eq_true, if_false]
    simp only [hle, first_eq, Option.bind_some, g1, epf, k1]
  · rw [k2, k3, k5]
    refine inv_stack (m := 1) (inv_info D.inv.inv (i := 1) (x := { ni st2.info 1 with fd := pfd }) (by rw [hobjn]; exact hseen _) rfl (fun _ => rfl) (fun h => by omega) (fun p j f h1 h2 h3 h4 h5 => D.inv.inv.fixed p h1 h2 h3 j 1 f h4 h5) rfl) ?_ ?_
    · intro i hi
      exact ⟨fun h => h.elim, fun h => absurd h hi⟩
    · rw [hobjn, updF_same]; exact hseen _
  · intro j h1 h2
    rw [k2] at h2
    by_cases hj : j = 1
    · subst hj; rw [D.status, hobjn]
    · exact hA.news j (by omega) h2
  · rw [k2]
    have hc := D.count
    rw [hl1] at hc
    rw [cnt]
    omega

/-! ### one pointer -/

/-- the invariant of the loop over the pointers, before node `i` -/
structure Loop (mem : Mem) (tds : List Td) (root : Obj) (st : St) (ks : Nat → List Nat) (obj : Nat → Obj) (O : Nat → Option Nat) (i : Nat) : Prop where
  inv : Inv mem tds (Single mem tds root) root st ks obj O (fun _ => False)
  done : ∀ j, 1 ≤ j → j < i → j < st.ptrs.ra.length → O j = none
  todo : ∀ j, 1 ≤ j → i ≤ j → j < st.ptrs.ra.length → O j = pend mem tds (obj j)
  lc : 1 ≤ st.ptrs.lastChild ∧ st.ptrs.lastChild < st.ptrs.ra.length

theorem hasContent_iff {i : Nat} (h : Loop mem tds root st ks obj O i) (h1 : 1 ≤ i) (h2 : i < st.ptrs.ra.length) :
    hasContent (nd st.ptrs.ra i) (ni st.info i) = true ↔ (obj i).ty = .pointer ∧ (target mem tds (obj i)).isSome = true := by
  have hs := h.inv.inv.seen i h1 h2
  unfold hasContent
  simp only [Bool.and_eq_true, beq_iff_eq, bne_iff_ne, Bool.not_eq_true', hs.opq, hs.ty, and_true]
  have hnull := fun h1 => hs.null (fun h => h) (Or.inl h1)
  constructor
  · rintro ⟨⟨⟨h3, h4⟩, h5⟩, h6⟩
    refine ⟨h3, ?_⟩
    rw [hs.aux h3] at h4 h5
    have hp : mem.ptr (obj i).addr ≠ 0 := by
      intro hz
      rw [(hnull (Or.inr ⟨h3, h5⟩)).2 hz] at h6
      cases h6
    simp [target, h3, untyped, h4, h5, hp]
  · rintro ⟨h3, h4⟩
    unfold target at h4
    rw [h3] at h4
    simp only at h4
    rw [hs.aux h3]
    split at h4
    · cases h4
    · rename_i hu
      simp only [Bool.or_eq_true, untyped, decide_eq_true_eq, beq_iff_eq, not_or] at hu
      obtain ⟨⟨h5, h6⟩, h7⟩ := hu
      refine ⟨⟨⟨h3, h5⟩, h6⟩, ?_⟩
      cases hn : (ni st.info i).null with
      | false => rfl
      | true => exact absurd ((hnull (Or.inr ⟨h3, h6⟩)).1 hn) h7

/-- saving what the pointer `i` leads to is a call of `mr_save_inner` -/
theorem content_call (hT : Types tds) {i : Nat} (h : Loop mem tds root st ks obj O i) (h1 : 1 ≤ i) (h2 : i < st.ptrs.ra.length)
    (hty : (obj i).ty = .pointer) {o : Obj} (ht : target mem tds (obj i) = some o) :
    Call mem tds (Single mem tds root) root st ks obj O (fun _ => False) (mem.ptr (obj i).addr) (contentFd tds (ni st.info i).aux (ni st.info i).fd) 1 i 0 o ∧
    ∀ (inner : St → Nat → Fd → Nat → Nat → Option (St × Nat)) (st' : St),
      inner st (mem.ptr (obj i).addr) (contentFd tds (ni st.info i).aux (ni st.info i).fd) 1 i = some (st', 1) → savePointerContent mem tds inner st i = some (st', 1) := by
  have hs := h.inv.inv.seen i h1 h2
  have hO : O i = some 0 := by
    rw [h.todo i h1 (by omega) h2, pend, if_pos ⟨hty, by rw [ht]; rfl⟩]
  have hpl : ptrLike (obj i).ty = true := by simp [ptrLike, hty]
  obtain ⟨_, hfc, href, hnil⟩ := open_ptr h.inv.inv h1 h2 hO hpl
  have ht' := ht
  unfold target at ht'
  rw [hty] at ht'
  simp only at ht'
  split at ht'
  · cases ht'
  · rename_i hu
    simp only [Bool.or_eq_true, beq_iff_eq, not_or] at hu
    obtain ⟨hun, hptr⟩ := hu
    have hun' : untyped (obj i).aux = false := by simpa using hun
    obtain ⟨g, hg1, hg2, hg3⟩ := hs.td (by simp [needsTd, hty, hun'])
    have hgp : g.nonPersistent = false := by
      cases hgn : g.nonPersistent with
      | false => rfl
      | true => exact absurd (hs.np g hg1 hgn).1 id
    have hbase := hg3 hgp (Or.inl hty)
    have hsz := hs.psize (fun h => h) hty hun' hptr
    have hobj := hs.ok
    unfold ObjOK at hobj
    rw [hty] at hobj
    simp only at hobj
    rcases hobj with hobj | ⟨b, hb1, hb2⟩
    · exact absurd hobj hun
    · have hpos := elementSize_leads hT hb1 hb2
      have hcf : contentFd tds (ni st.info i).aux (ni st.info i).fd = contentFd tds (obj i).aux (some g) := by rw [hs.aux hty, hg1]
      generalize hcfd : contentFd tds (obj i).aux (some g) = cfd at *
      have c1 : cfd.ty = (obj i).aux := by rw [← hcfd]; rfl
      have c2 : cfd.td = (obj i).td := by rw [← hcfd]; exact hg2
      have c3 : cfd.aux = tyOf tds (obj i).td := by rw [← hcfd]; exact hbase
      have c4 : cfd.size = elementSize tds (obj i).aux (obj i).td := by rw [← hcfd]; show elementSize tds _ g.td = _; rw [hg2]
      have c5 : cfd.dims = [] := by rw [← hcfd]; rfl
      have c6 : cfd.nonPersistent = true := by rw [← hcfd]; rfl
      have c7 : cfd.sizeField = none ∧ cfd.opaqueName = false := by rw [← hcfd]; exact ⟨rfl, rfl⟩
      have hofd : ofFd (mem.ptr (obj i).addr) cfd = o := by
        rw [← Option.some.inj ht', ofFd, c1, c2, c3, c5]
        simp
      have hnarr : (obj i).aux ≠ .array := by
        intro he
        rw [he] at hb2
        rcases hb2 with ⟨h3, h4⟩ | ⟨h3, _⟩
        · rw [← h3] at h4; cases h4
        · cases h3
      have hok : FdOK tds cfd := by
        refine ⟨c7.1, c7.2, ?_, ?_⟩
        · intro _; rw [c4, c1, c2]
        · rw [c1, c2, c3, tyOf_has hb1, c6]
          rcases hb2 with ⟨h3, h4⟩ | ⟨h3, h4⟩
          · rw [h3]
            cases b <;> simp [plain] at h4 <;> simp <;> first | exact hb1 | exact ⟨hb1, Nat.zero_le _⟩
          · rw [h3]
            simp only
            rcases h4 with h4 | h4
            · exact Or.inr ⟨b, hb1, Or.inl ⟨rfl, h4⟩, fun h => by cases h⟩
            · exact Or.inl h4
      have C : Call mem tds (Single mem tds root) root st ks obj O (fun _ => False) (mem.ptr (obj i).addr) cfd 1 i 0 o := by
        refine ⟨h.inv, h1, h2, hO, ?_, hofd, hok, by omega, fun _ => rfl, fun _ h => h, ?_, ?_, ?_, h.lc, (fun h => by rw [hty] at h; cases h), (fun h => by rw [← hcfd] at h; cases h)⟩
        · unfold slot; rw [if_pos hpl, if_pos rfl]; exact ht
        · intro _; rw [hty]; simp
        · intro h3; rw [c1] at h3; exact absurd h3 hnarr
        · intro z hz; rw [hnil] at hz; cases hz
      refine ⟨by rw [hcf]; exact C, fun inner st' e1 => ?_⟩
      rw [hcf] at e1
      unfold savePointerContent
      rw [ni_get (by rw [h.inv.len]; exact h2), nd_get h2]
      simp only [Option.bind_eq_bind, Option.bind_some, hcf]
      rw [if_neg (by rw [c4]; omega), hfc, hsz, c4, Nat.div_self hpos]
      simp only [growSizes, if_true, Option.bind_some]
      rw [saveElements, if_pos (by omega)]
      simp only [Nat.zero_mul, Nat.add_zero, Nat.sub_zero, hs.addr, Option.bind_eq_bind]
      rw [e1]
      simp only [Option.bind_some]
      rw [if_neg (by omega), saveElements, if_neg (by omega)]

theorem content_ok (hT : Types tds) {rk : Nat → Nat} {d : Nat} {inner : St → Nat → Fd → Nat → Nat → Option (St × Nat)}
    (hin : InnerOK mem tds (Single mem tds root) root rk d inner) {i : Nat} (h : Loop mem tds root st ks obj O i) (h1 : 1 ≤ i) (h2 : i < st.ptrs.ra.length)
    (hty : (obj i).ty = .pointer) {o : Obj} (ht : target mem tds (obj i) = some o) (hneed : need rk o ≤ d) :
    ∃ st' ks' obj' O', savePointerContent mem tds inner st i = some (st', 1) ∧ Loop mem tds root st' ks' obj' O' (i + 1) ∧
      Post mem tds st st' ks ks' obj obj' O O' i 0 o ∧ st'.ptrs.ra.length ≤ st.ptrs.ra.length + cnt tds d o := by
  have hpl : ptrLike (obj i).ty = true := by simp [ptrLike, hty]
  obtain ⟨C, hC⟩ := content_call hT h h1 h2 hty ht
  obtain ⟨st', ks', obj', O', e1, e2, e3, e4⟩ := hin st ks obj O _ _ _ _ _ _ _ C hneed
  refine ⟨st', ks', obj', O', hC _ _ e1, ⟨e2, ?_, ?_, e3.lc⟩, e3, e4⟩
  · intro j j1 j2 j3
    by_cases hj : j = i
    · subst hj; rw [e3.statP]; simp [adv, hpl]
    · rw [e3.stat j (by omega) hj]
      exact h.done j j1 (by omega) (by omega)
  · intro j j1 j2 j3
    by_cases hj : j < st.ptrs.ra.length
    · rw [e3.stat j hj (by omega), e3.objs j hj]
      exact h.todo j j1 (by omega) hj
    · exact e3.news j (by omega) j3

end Verif.Lemmas.SaveLoop
