import Verif.Lemmas.SaveRun
/-!
`resolve_matched`: an object that has a node already.
-/
namespace Verif.Lemmas.SaveResolve
open Verif.Model Verif.Model.Ptrs Verif.Model.Save Verif.Spec.Ptrs Verif.Spec.Save Verif.Lemmas.SaveTree Verif.Lemmas.SaveInv Verif.Lemmas.SaveStep
  Verif.Lemmas.SaveRun

variable {mem : Mem} {tds : List Td} {U : Prop} {root : Obj} {st : St} {ks : Nat → List Nat} {obj : Nat → Obj} {O : Nat → Option Nat} {S : Nat → Prop}

theorem norm_eq {a b : Obj} (ha : Norm a) (hb : Norm b) (h1 : a.addr = b.addr) (h2 : a.ty = b.ty) (h3 : neverEqual a.ty = false)
    (h4 : a.ty = .struct ∨ a.ty = .enum → a.td = b.td) : a = b := by
  rw [← ha, ← hb, ← h1, ← h2]
  cases hty : a.ty <;> rw [hty] at h3 h4 <;> simp [neverEqual] at h3 <;> simp only [object]
  · rw [h4 (by simp)]
  · rw [h4 (by simp)]

theorem sameKey_iff {pd : Pd} {x : Info} {o' o : Obj} {s : Prop} (hs : Seen mem tds pd x o' s) {data : Nat} {fd : Fd} (ho : ofFd data fd = o) (hok : ObjOK tds o) :
    sameKey x.addr pd.ty x.fd data fd.ty (some fd) = true ↔ o' = o ∧ neverEqual o.ty = false := by
  have hno : Norm o := by rw [← ho]; exact norm_object _ _ _ _ _ _
  have hty : o.ty = fd.ty := by rw [← ho]; exact object_ty _ _ _ _ _ _
  have haddr : o.addr = data := by rw [← ho]; exact object_addr _ _ _ _ _ _
  unfold sameKey
  rw [hs.addr, hs.ty, ← hty, ← haddr]
  have htdo : o.ty = .struct ∨ o.ty = .enum → fd.td = o.td := by
    intro h
    have hn : needsTd o = true := by unfold needsTd; rcases h with h | h <;> rw [h]
    rw [← ho] at hn ⊢
    exact (object_td hn).symm
  constructor
  · intro h
    simp only [Bool.and_eq_true, Bool.or_eq_true, beq_iff_eq, Bool.not_eq_true'] at h
    obtain ⟨⟨⟨h1, h2⟩, h3⟩, h4⟩ := h
    refine ⟨norm_eq hs.norm hno h1 h2 h3 ?_, by rw [← h2]; exact h3⟩
    intro h5
    have hn : needsTd o' = true := by unfold needsTd; rcases h5 with h | h <;> rw [h]
    obtain ⟨g, hg1, hg2, _⟩ := hs.td hn
    rcases h4 with h4 | h4
    · rcases h5 with h | h <;> rw [h] at h4 <;> simp [tdCompared] at h4
    · rw [hg1] at h4
      simp only [beq_iff_eq] at h4
      rw [← hg2, h4, htdo (h2 ▸ h5)]
  · rintro ⟨h1, h2⟩
    subst h1
    simp only [h2, beq_self_eq_true, Bool.not_false, Bool.and_self, Bool.true_and, Bool.or_eq_true, Bool.not_eq_true']
    by_cases hc : tdCompared o'.ty = true
    · right
      have h5 : o'.ty = .struct ∨ o'.ty = .enum := by
        unfold ObjOK at hok
        cases hty' : o'.ty <;> rw [hty'] at hc hok <;> simp [tdCompared] at hc hok ⊢
      have hn : needsTd o' = true := by unfold needsTd; rcases h5 with h | h <;> rw [h]
      obtain ⟨g, hg1, hg2, _⟩ := hs.td hn
      rw [hg1]
      simp [hg2, htdo h5]
    · left; simpa using hc

theorem refIsParent_ok {ra : List Pd} {n r : Nat} (hn : ra.length = n) (hc : Closed (nd ra) n) (hroot : (nd ra 1).parent = 0) (hr : 1 ≤ r) {x k : Nat}
    (h : Dep (nd ra) x k) (hx : x < n) {fuel : Nat} (hf : k + 1 < fuel) :
    ∃ b, refIsParent fuel ra x r = some b ∧ (b = true ↔ Anc (nd ra) r x) := by
  induction h generalizing fuel with
  | root =>
    cases fuel with
    | zero => omega
    | succ fuel =>
      cases fuel with
      | zero => omega
      | succ fuel =>
        rw [refIsParent]
        by_cases h1 : 1 = r
        · subst h1
          refine ⟨true, by simp, ?_⟩
          simp only [true_iff]
          exact Anc.self
        · rw [if_neg (by omega), nd_get (by omega)]
          simp only [Option.bind_eq_bind, Option.bind_some, hroot]
          refine ⟨false, ?_, ?_⟩
          · simp [refIsParent]
            omega
          · simp only [Bool.false_eq_true, false_iff]
            intro ha
            cases ha with
            | self => exact h1 rfl
            | up h _ => omega
  | @up x k h1 h2 ih =>
    cases fuel with
    | zero => omega
    | succ fuel =>
      rw [refIsParent]
      by_cases h3 : x = r
      · subst h3
        refine ⟨true, by simp, ?_⟩
        simp only [true_iff]
        exact Anc.self
      · rw [if_neg (by omega), nd_get (by omega)]
        simp only [Option.bind_eq_bind, Option.bind_some]
        obtain ⟨b, hb1, hb2⟩ := ih (hc x h1 hx) (fuel := fuel) (by omega)
        refine ⟨b, hb1, hb2.trans ⟨fun h => Anc.up h1 h, ?_⟩⟩
        intro ha
        cases ha with
        | self => exact absurd rfl h3
        | up _ h => exact h

theorem target_ty {o c : Obj} (ho : ObjOK tds o) (h : target mem tds o = some c) :
    (o.ty = .pointer ∧ (plain c.ty = true ∨ c.ty = .pointer)) ∨ (o.ty = .string ∧ c.ty = .charArray) := by
  unfold target at h
  split at h
  · rename_i hty
    split at h
    · cases h
    · rename_i hu
      simp only [Bool.or_eq_true, not_or] at hu
      cases h
      rw [object_ty]
      unfold ObjOK at ho
      rw [hty] at ho
      simp only at ho
      rcases ho with ho | ⟨b, _, ho⟩
      · exact absurd ho hu.1
      · left
        refine ⟨hty, ?_⟩
        rcases ho with ⟨h1, h2⟩ | ⟨h1, _⟩
        · left; rw [h1]; exact h2
        · right; exact h1
  · rename_i hty
    split at h
    · cases h
    · cases h
      exact Or.inr ⟨hty, rfl⟩
  · cases h

/-- pointers whose target is still to be saved -/
def pend (mem : Mem) (tds : List Td) (o : Obj) : Option Nat := if o.ty = .pointer ∧ (target mem tds o).isSome = true then some 0 else none

theorem anc_keep {P P' : Nat → Pd} {a x : Nat} (h : Anc P a x) (hk : ∀ j, Anc P j x → (P' j).parent = (P j).parent) : Anc P' a x := by
  induction h with
  | self => exact Anc.self
  | up h1 _ ih =>
    refine Anc.up h1 ?_
    rw [hk _ Anc.self]
    exact ih fun j hj => hk j (Anc.up h1 hj)

/-- what `mr_save_inner` does -/
structure Post (mem : Mem) (tds : List Td) (st st' : St) (ks ks' : Nat → List Nat) (obj obj' : Nat → Obj) (O O' : Nat → Option Nat) (p k : Nat) (o : Obj) : Prop where
  grow : st.ptrs.ra.length ≤ st'.ptrs.ra.length
  objs : ∀ j, j < st.ptrs.ra.length → obj' j = obj j
  statP : O' p = adv (obj p) k
  stat : ∀ j, j < st.ptrs.ra.length → j ≠ p → O' j = O j
  news : ∀ j, st.ptrs.ra.length ≤ j → j < st'.ptrs.ra.length → O' j = pend mem tds (obj' j)
  lc : 1 ≤ st'.ptrs.lastChild ∧ st'.ptrs.lastChild < st'.ptrs.ra.length
  last : (obj p).ty ≠ .pointer →
    (∃ z, (ks' p).getLast? = some z ∧ Anc (nd st'.ptrs.ra) z st'.ptrs.lastChild) ∨
      ((obj p).ty = .string ∧ st'.ptrs.lastChild = st.ptrs.lastChild ∧ ks' p = ks p)
  frame : ∀ j, j < st.ptrs.ra.length → j ≠ p → ptrLike (obj j).ty = false → ks' j = ks j
  fresh : ptrLike (obj p).ty = true → st.ptrs.ra.length < st'.ptrs.ra.length → neverEqual o.ty = false → ∀ i, 1 ≤ i → i < st.ptrs.ra.length → obj i ≠ o
  nulls : ∀ j, j < st.ptrs.ra.length → (ni st'.info j).null = (ni st.info j).null
  first : st.ptrs.ra.length < st'.ptrs.ra.length → obj' st.ptrs.ra.length = o
  keep : ∀ j, Anc (nd st.ptrs.ra) j p → (nd st'.ptrs.ra j).parent = (nd st.ptrs.ra j).parent

/-- node `i` was passed over: it is no node of `o` or cannot be moved to `p` -/
def Passed (st : St) (obj : Nat → Obj) (p : Nat) (o : Obj) (i : Nat) : Prop :=
  obj i = o → neverEqual o.ty = false →
    ptrLike (obj p).ty = false ∧ (i = 1 ∨ ptrLike (obj (nd st.ptrs.ra i).parent).ty = false ∨ Anc (nd st.ptrs.ra) i p)

theorem movable_ok (hT : Types tds) {data : Nat} {fd : Fd} {count p k r : Nat} {o : Obj} (C : Call mem tds U root st ks obj O S data fd count p k o)
    (hr1 : 1 ≤ r) (hr2 : r < st.ptrs.ra.length) (hro : obj r = o) (hne : neverEqual o.ty = false) :
    ∃ b, movable st { addr := data, fd := fd, size := fd.size * count, parent := p } r (nd st.ptrs.ra r) (ni st.info r) = some b ∧
      (b = true ↔ ¬ (r = 1 ∨ ptrLike (obj (nd st.ptrs.ra r).parent).ty = false ∨ Anc (nd st.ptrs.ra) r p)) := by
  have hI := C.inv.inv
  unfold movable
  by_cases h1 : r = 1
  · subst h1
    rw [if_pos hI.tree.root]
    exact ⟨false, rfl, by simp⟩
  · have hq1 := (hI.tree.own _ _ (hI.tree.mem r (by omega) hr2))
    obtain ⟨kd, hkd⟩ := hI.tree.dep p C.p1 C.p2
    have hlt := dep_lt (tree_closed hI.tree) hkd C.p2
    obtain ⟨b, hb1, hb2⟩ := refIsParent_ok rfl (tree_closed hI.tree) hI.tree.root hr1 hkd C.p2 (fuel := st.ptrs.ra.length + 1) (by omega)
    have hedge := edge hI (c := r) (by omega) hr2
    generalize hq : (nd st.ptrs.ra r).parent = q at *
    have hif : isFirstChild st.ptrs.ra r = some ((nd st.ptrs.ra q).firstChild == r) := by
      unfold isFirstChild
      rw [nd_get hr2]
      simp only [Option.bind_eq_bind, Option.bind_some, hq]
      rw [if_neg (by omega), nd_get hq1.2.1]
      rfl
    rw [if_neg (by omega), nd_get hq1.2.1]
    simp only [Option.bind_eq_bind, Option.bind_some, hif, hb1, (hI.seen q hq1.1 hq1.2.1).ty]
    refine ⟨_, rfl, ?_⟩
    have hnb : (!b) = true ↔ ¬ Anc (nd st.ptrs.ra) r p := by
      rw [← hb2]; simp
    rw [Bool.and_eq_true, hnb]
    have hpl : ((obj q).ty == MrType.string || ((obj q).ty == MrType.pointer && (nd st.ptrs.ra q).firstChild == r &&
        decide (fd.size * count ≥ (ni st.info r).size))) = true ↔ ptrLike (obj q).ty = true := by
      constructor
      · intro h
        simp only [Bool.or_eq_true, Bool.and_eq_true, beq_iff_eq] at h
        unfold ptrLike
        rcases h with h | ⟨⟨h, _⟩, _⟩ <;> simp [h]
      · intro h
        rcases hedge with ⟨_, h3, h4, h5, _⟩ | ⟨h3, _⟩
        · rcases target_ty (hI.seen q hq1.1 hq1.2.1).ok h3 with ⟨h6, h7⟩ | ⟨h6, _⟩
          · have hplain : plain o.ty = true := by
              rw [hro] at h7
              rcases h7 with h7 | h7
              · exact h7
              · rw [h7] at hne; simp [neverEqual] at hne
            have hks := hI.kidsize r (by omega) hr2 (by rw [hq]; exact h6) (by rw [hro]; exact hplain)
            rw [hro] at hks
            have hty : o.ty = fd.ty := by rw [← C.ofd]; exact object_ty _ _ _ _ _ _
            rw [hty] at hplain
            have hsz : elementSize tds o.ty o.td = fd.size := by
              rw [← C.ofd, ofFd, elementSize_object hplain, ← C.ok.2.2.1 hplain]
            have := Nat.le_mul_of_pos_right fd.size C.count1
            simp only [h6, h5, beq_self_eq_true, Bool.true_and, Bool.or_eq_true, decide_eq_true_eq]
            right; omega
          · simp [h6]
        · rw [h3] at h; cases h
    rw [hpl]
    constructor
    · rintro ⟨h2, h3⟩ (h4 | h4 | h4)
      · exact h1 h4
      · rw [h2] at h4; cases h4
      · exact h3 h4
    · intro h
      refine ⟨Classical.byContradiction fun h2 => h (Or.inr (Or.inl (by simpa using h2))), fun h2 => h (Or.inr (Or.inr h2))⟩

theorem anc_same {P P' : Nat → Pd} {n : Nat} (hc : Closed P n) (heq : ∀ j, (P' j).parent = (P j).parent) {a x : Nat} (h : Anc P a x) (hx : x < n) : Anc P' a x :=
  anc_congr hc (fun j _ _ => heq j) h hx

/-- the pointer or string `p` becomes a reference to `r` -/
theorem reference_ok {data : Nat} {fd : Fd} {count p k r : Nat} {o : Obj} (C : Call mem tds U root st ks obj O S data fd count p k o)
    (hpl : ptrLike (obj p).ty = true) (hr1 : 1 ≤ r) (hr2 : r < st.ptrs.ra.length) (hro : obj r = o) :
    ∃ st', setReference st p r = some st' ∧ Inv mem tds U root st' ks obj (updF O p none) S ∧
      Post mem tds st st' ks ks obj obj O (updF O p none) p k o ∧ st'.ptrs.ra.length = st.ptrs.ra.length := by
  have hI := C.inv.inv
  obtain ⟨s1, e1, i1, x1, l1, c1, hP, hP2, hP3, hP4, hP5, hP6⟩ := setReference_ok st p r C.p2 hr2
  have hslot := C.slot
  unfold slot at hslot
  rw [if_pos hpl] at hslot
  have hk := (open_ptr hI C.p1 C.p2 C.status hpl).1
  rw [if_pos hk, ← hro] at hslot
  have hinv := inv_ref hI C.p1 C.p2 C.status hpl hr1 hr2 hslot hP hP2 ⟨hP3, hP4⟩ ⟨hP5, hP6⟩
  refine ⟨s1, e1, ⟨by rw [i1, l1]; exact C.inv.len, by rw [i1, x1, l1]; exact hinv⟩, ?_, l1⟩
  refine ⟨by omega, fun _ _ => rfl, ?_, fun j _ hj => updF_ne _ _ hj, ?_, by rw [c1, l1]; exact C.lc, ?_, fun _ _ _ _ => rfl, ?_, ?_, fun h => by omega, fun j _ => (hP j).1⟩
  · rw [updF_same]; simp [adv, hpl]
  · intro j h1 h2; omega
  · intro h
    refine Or.inr ⟨?_, c1, rfl⟩
    simpa [ptrLike, h] using hpl
  · intro _ h; omega
  · intro j _; rw [i1]

theorem resolve_loop (hT : Types tds) {data : Nat} {fd : Fd} {count p k : Nat} {o : Obj} (C : Call mem tds U root st ks obj O S data fd count p k o)
    (hsz : (obj p).ty = .pointer → fd.size ≠ 0 ∧ plain o.ty = true ∨ neverEqual o.ty = true)
    (content : St → Nat → Option (St × Nat)) (fuel ref : Nat) (hf : ref < fuel) (hrn : ref < st.ptrs.ra.length)
    (hb : ref ≠ 0 → (obj ref).addr / 4 = data / 4) (hpass : ∀ i, ref < i → i < st.ptrs.ra.length → Passed st obj p o i) :
    (resolveMatched tds content st { addr := data, fd := fd, size := fd.size * count, parent := p } fuel ref = some (st, false, 0) ∧
      ∀ i, 1 ≤ i → i < st.ptrs.ra.length → Passed st obj p o i) ∨
    ∃ st' ks' O', resolveMatched tds content st { addr := data, fd := fd, size := fd.size * count, parent := p } fuel ref = some (st', true, 1) ∧
      Inv mem tds U root st' ks' obj O' S ∧ Post mem tds st st' ks ks' obj obj O O' p k o ∧ st'.ptrs.ra.length = st.ptrs.ra.length := by
  have hI := C.inv.inv
  have hsp := hI.seen p C.p1 C.p2
  have haddr : o.addr = data := by rw [← C.ofd]; exact object_addr _ _ _ _ _ _
  have hok := (slot_ok hT hsp.ok C.slot).1
  induction fuel using Nat.strongRecOn generalizing ref with
  | _ fuel ih =>
    cases fuel with
    | zero => omega
    | succ fuel =>
      rw [resolveMatched]
      by_cases h0 : ref = 0
      · subst h0
        left
        rw [if_pos rfl]
        exact ⟨rfl, fun i h1 h2 => hpass i (by omega) h2⟩
      · rw [if_neg h0, nd_get hrn, ni_get (by rw [C.inv.len]; exact hrn)]
        simp only [Option.bind_eq_bind, Option.bind_some]
        have hsr := hI.seen ref (by omega) hrn
        have hkey := sameKey_iff hsr C.ofd hok
        obtain ⟨hp1, hp2, hp3⟩ := hI.bnext ref (by omega) hrn
        have hnext : Passed st obj p o ref →
            (resolveMatched tds content st { addr := data, fd := fd, size := fd.size * count, parent := p } fuel (ni st.info ref).nextUntyped = some (st, false, 0) ∧
              ∀ i, 1 ≤ i → i < st.ptrs.ra.length → Passed st obj p o i) ∨
            ∃ st' ks' O', resolveMatched tds content st { addr := data, fd := fd, size := fd.size * count, parent := p } fuel (ni st.info ref).nextUntyped = some (st', true, 1) ∧
              Inv mem tds U root st' ks' obj O' S ∧ Post mem tds st st' ks ks' obj obj O O' p k o ∧ st'.ptrs.ra.length = st.ptrs.ra.length := by
          intro hps
          refine ih fuel (by omega) _ (by omega) (by omega) ?_ ?_
          · intro h; rw [hp2 h]; exact hb h0
          · intro i h1 h2
            by_cases h3 : ref < i
            · exact hpass i h3 h2
            · by_cases h4 : i = ref
              · rw [h4]; exact hps
              · intro h5
                have := hp3 i h1 (by omega)
                rw [h5, haddr, hb h0] at this
                exact absurd rfl this
        by_cases hm : sameKey (ni st.info ref).addr (nd st.ptrs.ra ref).ty (ni st.info ref).fd data fd.ty (some fd) = true
        · rw [if_pos hm, nd_get C.p2]
          obtain ⟨hro, hne⟩ := hkey.1 hm
          simp only [Option.bind_some, hsp.ty]
          split
          · rename_i hty
            right
            obtain ⟨st', e1, e2, e3, e4⟩ := reference_ok C (by simp [ptrLike, hty]) (by omega) hrn hro
            exact ⟨st', ks, _, by simp [e1], e2, e3, e4⟩
          · rename_i hty
            right
            have hpl : ptrLike (obj p).ty = true := by simp [ptrLike, hty]
            obtain ⟨st', e1, e2, e3, e4⟩ := reference_ok C hpl (by omega) hrn hro
            refine ⟨st', ks, _, ?_, e2, e3, e4⟩
            have hfc := (open_ptr hI C.p1 C.p2 C.status hpl).2.1
            rcases hsz hty with ⟨h1, h2⟩ | h1
            · have hle : fd.size * count ≤ (ni st.info ref).size := by
                have := hsr.size (by rw [hro]; exact h2)
                rw [hro] at this
                have hty : o.ty = fd.ty := by rw [← C.ofd]; exact object_ty _ _ _ _ _ _
                rw [hty] at h2
                rw [← C.ofd, ofFd, elementSize_object h2, ← C.ok.2.2.1 h2] at this
                rw [C.count2 (by assumption)]; omega
              have hrp : (nd st.ptrs.ra ref).parent < st.ptrs.ra.length := by
                by_cases hr1 : ref = 1
                · rw [hr1, hI.tree.root]; omega
                · exact tree_closed hI.tree ref (by omega) hrn
              unfold resolvePointer
              rw [nd_get C.p2, nd_get hrn, ni_get (by rw [C.inv.len]; exact hrn)]
              simp only [Option.bind_eq_bind, Option.bind_some]
              rw [nd_get hrp]
              simp only [Option.bind_some]
              rw [if_neg h1, if_pos hfc, if_pos hle, e1]
              simp only [Option.bind_some]
              rw [C.count2 hty, Nat.mul_one, Nat.div_self (by omega)]
            · rw [h1] at hne; cases hne
          · rename_i hs1 hs2
            have hpl : ptrLike (obj p).ty = false := by
              unfold ptrLike
              simp only [Bool.or_eq_false_iff, beq_eq_false_iff_ne]
              exact ⟨fun h => hs2 h, fun h => hs1 h⟩
            obtain ⟨b, hb1, hb2⟩ := movable_ok hT C (by omega) hrn hro hne
            rw [hb1]
            simp only [Option.bind_some]
            by_cases hbt : b = true
            · have hnot := hb2.1 hbt
              simp only [not_or] at hnot
              obtain ⟨hn1, hn2, hn3⟩ := hnot
              have hq1 := hI.tree.own _ _ (hI.tree.mem ref (by omega) hrn)
              obtain ⟨st', e1, e2, e3, e4, e5, e6⟩ := moveNodes_ok hT C hpl (r := ref) (by omega) hrn hro hne rfl (by simpa using hn2) hn3
              right
              refine ⟨st', _, _, by simp [hbt, e1], e2, ?_, e3⟩
              refine ⟨by omega, fun _ _ => rfl, ?_, fun j _ hj => updF_ne _ _ hj, ?_, by omega, ?_, ?_, ?_, fun j _ => e5 j, fun h => by omega, fun j hj => e6 j fun h => hn3 (h ▸ hj)⟩
              · rw [updF_same]; simp [adv, hpl]
              · intro j h1 h2; omega
              · intro _
                left
                refine ⟨ref, ?_, ?_⟩
                · rw [updF_same]; simp
                · rw [e4]; exact Anc.self
              · intro j h1 h2 h3
                rw [updF_ne _ _ h2]
                apply updF_ne
                intro h4
                rw [← h4, h3] at hn2
                simp at hn2
              · intro h; rw [hpl] at h; cases h
            · rw [if_neg hbt]
              apply hnext
              intro _ _
              refine ⟨hpl, ?_⟩
              apply Classical.byContradiction
              intro h
              exact hbt (hb2.2 h)
        · rw [if_neg hm]
          apply hnext
          intro h1 h2
          exact absurd (hkey.2 ⟨h1, h2⟩) hm

end Verif.Lemmas.SaveResolve
