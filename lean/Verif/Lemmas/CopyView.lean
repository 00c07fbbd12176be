import Verif.Lemmas.CopyLayout
import Verif.Props.Save
import Verif.Lemmas.SaveFinal
/-!
The saved nodes as the copy sees them.
-/
namespace Verif.Lemmas.CopyView
open Verif.Model Verif.Model.Ptrs Verif.Model.Save Verif.Model.Copy Verif.Spec.Ptrs Verif.Spec.Save Verif.Spec.Copy Verif.Lemmas.SaveTree Verif.Lemmas.SaveInv
  Verif.Lemmas.CopyLayout
open Verif.Lemmas.SavePost (nullAfter)

variable {mem : Mem} {tds : List Td} {root : Obj} {st : St} {k : Forest} {n : Nat} {obj : Nat → Obj}

abbrev pa (st : St) (c : Nat) : Nat := (nd st.ptrs.ra c).parent

structure View (mem : Mem) (tds : List Td) (root : Obj) (st : St) (k : Forest) (n : Nat) (obj : Nat → Obj) : Prop where
  n1 : 1 < n
  len : st.ptrs.ra.length = n
  leni : st.info.length = n
  F : Final mem tds root st k obj
  ok : ∀ i, 1 ≤ i → i < n → ObjOK tds (obj i)
  reach : ∀ i, 1 ≤ i → i < n → Reach mem tds root (obj i)
  complete : ∀ o, Reach mem tds root o → ∃ i, 1 ≤ i ∧ i < n ∧ obj i = o
  up : ∀ c, 1 < c → c < n → 1 ≤ pa st c ∧ pa st c < n
  depth : ∃ d : Nat → Nat, ∀ c, 1 < c → c < n → d (pa st c) < d c
  lead : ∀ c, 1 < c → c < n → isCell (obj (pa st c)) = true → target mem tds (obj (pa st c)) = some (obj c)
  kids : ∀ i, 1 ≤ i → i < n → isCell (obj i) = false → ∃ l : List Nat, l.Nodup ∧ l.map obj = components tds (obj i) ∧
    ∀ c, c ∈ l ↔ 1 < c ∧ c < n ∧ pa st c = i
  uniq : ∀ i j, 1 ≤ i → i < n → 1 ≤ j → j < n → identified (obj i).ty = true → obj i = obj j → i = j
  inTree : ∀ x, x ∈ 1 :: k.nodes ↔ (1 ≤ x ∧ x < n) ∧ ¬ (x ≠ 1 ∧ (obj (pa st x)).ty = .string)
  psize : ∀ i, 1 ≤ i → i < n → (obj i).ty = .pointer → untyped (obj i).aux = false → mem.ptr (obj i).addr ≠ 0 →
    (ni st.info i).size = elementSize tds (obj i).aux (obj i).td
  rsize : plain root.ty = true → (ni st.info 1).size = elementSize tds root.ty root.td
  names : ∀ c, 1 < c → c < n → (obj (pa st c)).ty = .struct → ∃ j : Nat, (components tds (obj (pa st c)))[j]? = some (obj c) ∧
    (ni st.info c).fd = (members tds (obj (pa st c)))[j]?
  eaux : ∀ i, 1 ≤ i → i < n → (obj i).ty = .enum → typeSize (ni st.info i).aux ≤ elementSize tds (obj i).ty (obj i).td
  fsize : ∀ c, 1 < c → c < n → (obj (pa st c)).ty = .struct → ∀ f : Fd, (ni st.info c).fd = some f → f.ty = .array ∨ f.ty = .charArray →
    (ni st.info c).size = f.size
  baux : ∀ c, 1 < c → c < n → (obj (pa st c)).ty = .struct → ∀ f : Fd, (ni st.info c).fd = some f → f.ty = .bitfield → (ni st.info c).aux = f.aux
  opq : ∀ i, 1 ≤ i → i < n → (ni st.info i).opq = false
  unset : ∀ i, 1 ≤ i → i < n → (obj i).ty ≠ .string → (obj i).ty ≠ .pointer → (ni st.info i).null = true →
    ((obj i).ty = .func ∨ (obj i).ty = .funcType) ∧ mem.ptr (obj i).addr = 0
  fnull : ∀ i, 1 ≤ i → i < n → (obj i).ty = .func ∨ (obj i).ty = .funcType → ((ni st.info i).null = true ↔ mem.ptr (obj i).addr = 0)
  unnamed : ∀ i, 1 ≤ i → i < n → (ni st.info i).unnamed = false → 1 < i ∧ ((obj (pa st i)).ty = .struct ∨ (obj (pa st i)).ty = .string)
  fields : ∀ i, 1 ≤ i → i < n → (obj i).ty = .struct → ∃ l : List Nat, l.Nodup ∧ l.map obj = components tds (obj i) ∧
    (∀ c, c ∈ l ↔ 1 < c ∧ c < n ∧ pa st c = i) ∧ ∀ j c : Nat, l[j]? = some c → (ni st.info c).fd = (members tds (obj i))[j]?

theorem view_ok (hT : Types tds) {data : Nat} {fd : Fd} (hok : FdOK tds fd) (hfin : Finite mem tds (ofFd data fd)) (hsingle : Single mem tds (ofFd data fd)) :
    ∃ N, ∀ fuel, N ≤ fuel → ∃ st k n obj, mrSave mem tds fuel data fd = some (st, 1) ∧ View mem tds (ofFd data fd) st k n obj ∧
      ∃ st0 ks O, saveGraph mem tds fuel data fd = some (st0, 1) ∧ st0.ptrs.ra.length = n ∧ (∀ j, 1 ≤ j → j < n → O j = none) ∧
        Inv mem tds (Single mem tds (ofFd data fd)) (ofFd data fd) st0 ks obj O (fun _ => False) := by
  obtain ⟨N, hN⟩ := SaveFinal.final_ok hT hok hfin
  refine ⟨N, fun fuel hf => ?_⟩
  obtain ⟨st0, st, ks, obj, O, k, e1, e2, e3, e4, hK, hF, hmem, hg⟩ := hN fuel hf
  refine ⟨st, k, st0.ptrs.ra.length, obj, e1, ?_, st0, ks, O, hg, rfl, e3, e2⟩
  obtain ⟨k0, hs⟩ := SaveDone.saved_of_inv e2 e3 e4
  have hI := e2.inv
  have hcomplete : ∀ o, Reach mem tds (ofFd data fd) o → ∃ i, 1 ≤ i ∧ i < st0.ptrs.ra.length ∧ obj i = o := by
    intro o ho
    obtain ⟨i, hi, hio⟩ := Props.Save.C42_saved_complete hs ho
    have := (hs.every i).1 hi
    exact ⟨i, this.1, this.2, hio⟩
  have hpa : ∀ c, pa st c = (nd st0.ptrs.ra c).parent := fun c => (hK.same c).1
  have hup : ∀ c, 1 < c → c < st0.ptrs.ra.length → 1 ≤ pa st c ∧ pa st c < st0.ptrs.ra.length := by
    intro c h1 h2
    rw [hpa]
    obtain ⟨p1, p2, _⟩ := hI.tree.own _ _ (hI.tree.mem c h1 h2)
    exact ⟨p1, p2⟩
  have hty : ∀ i, 1 ≤ i → i < st0.ptrs.ra.length → (nd st0.ptrs.ra i).ty = (obj i).ty := fun i h1 h2 => (hI.seen i h1 h2).ty
  refine ⟨e4, hK.len, hK.leni, hF, fun i h1 h2 => (hI.seen i h1 h2).ok, fun i h1 h2 => reach_root hI h1 h2, hcomplete, hup, ?_, ?_, ?_, hI.uniq hsingle, ?_, ?_, ?_, ?_,
    fun i h1 h2 h3 => by rw [hK.aux]; exact (hI.seen i h1 h2).eaux h3, ?_, ?_, fun i h1 h2 => by rw [(Prod.mk.inj (hK.opq i)).1]; exact (hI.seen i h1 h2).opq,
    fun i h1 h2 h3 h4 h5 => (hI.seen i h1 h2).unset h3 h4 (by
      rw [(hK.done i h1 h2).2.1] at h5
      unfold nullAfter at h5
      rw [if_neg (fun h => h4 h.1)] at h5
      exact h5),
    fun i h1 h2 h3 => by
      rw [(hK.done i h1 h2).2.1]
      unfold nullAfter
      rw [if_neg (fun h => by rw [h.1] at h3; rcases h3 with h3 | h3 <;> cases h3)]
      exact (hI.seen i h1 h2).null (fun h => h) (Or.inr h3),
    fun i h1 h2 h3 => by rw [(Prod.mk.inj (hK.opq i)).2] at h3; rw [hpa]; exact hI.unnamed i h1 h2 h3, ?_⟩
  · have hd : ∀ c, ∃ k, 1 ≤ c → c < st0.ptrs.ra.length → Dep (nd st0.ptrs.ra) c k := by
      intro c
      by_cases h : 1 ≤ c ∧ c < st0.ptrs.ra.length
      · obtain ⟨k, hk⟩ := hI.tree.dep c h.1 h.2
        exact ⟨k, fun _ _ => hk⟩
      · exact ⟨0, fun h1 h2 => absurd ⟨h1, h2⟩ h⟩
    obtain ⟨d, hd⟩ := Classical.axiomOfChoice hd
    refine ⟨d, fun c h1 h2 => ?_⟩
    have h3 := hup c h1 h2
    have hc := hd c (by omega) h2
    have hp := hd _ h3.1 h3.2
    rw [hpa] at hp ⊢
    have := dep_unique hc (.up h1 hp)
    omega
  · intro c h1 h2 h3
    rw [hpa] at h3 ⊢
    rcases edge hI h1 h2 with ⟨_, h4, _⟩ | ⟨h4, _⟩
    · exact h4
    · have : isCell (obj (nd st0.ptrs.ra c).parent) = ptrLike (obj (nd st0.ptrs.ra c).parent).ty := rfl
      rw [this, h4] at h3; cases h3
  · intro i h1 h2 h3
    have h3 : ptrLike (obj i).ty = false := h3
    have hfl := hI.filled i h1 h2
    unfold Filled at hfl
    rw [if_neg (by rw [h3]; simp), e3 i h1 h2] at hfl
    refine ⟨ks i, hI.tree.nodup i, hfl.2, fun c => ?_⟩
    rw [hpa]
    constructor
    · intro hc
      obtain ⟨_, _, g3, g4, g5⟩ := hI.tree.own _ _ hc
      exact ⟨g3, g4, g5⟩
    · rintro ⟨g1, g2, rfl⟩
      exact hI.tree.mem c g1 g2
  · intro x
    rw [hmem]
    refine and_congr_right fun hx => not_congr ?_
    unfold SavePost.Text
    rw [hpa]
    constructor
    · rintro ⟨g1, g2⟩
      have hx1 : x ≠ 1 := by rintro rfl; exact g1 hI.tree.root
      have := hup x (by omega) hx.2
      rw [hpa] at this
      rw [hty _ this.1 this.2] at g2
      exact ⟨hx1, g2⟩
    · rintro ⟨g1, g2⟩
      have := hup x (by omega) hx.2
      rw [hpa] at this
      exact ⟨by omega, by rw [hty _ this.1 this.2]; exact g2⟩
  · intro i h1 h2 h3 h4 h5
    rw [hK.size i (Or.inl (by rw [hty i h1 h2, h3]; simp))]
    exact (hI.seen i h1 h2).psize (fun h => h) h3 h4 h5
  · intro hp
    have h1 := hI.rootObj e4
    rw [hK.size 1 (Or.inl (by rw [hty 1 (by omega) e4, h1]; intro h; rw [h] at hp; cases hp))]
    have := hI.rsize e4 (by rw [h1]; exact hp)
    rw [h1] at this
    exact this
  · intro c h1 h2 h3
    have h4 := hup c h1 h2
    rw [hpa] at h3 h4 ⊢
    have hm := hI.tree.mem c h1 h2
    obtain ⟨j, hj⟩ := List.mem_iff_getElem?.1 hm
    refine ⟨j, ?_, by rw [hK.fd]; exact hI.names _ h4.1 h4.2 h3 j c hj⟩
    have hfl := hI.filled _ h4.1 h4.2
    unfold Filled at hfl
    rw [if_neg (by rw [h3]; simp [ptrLike]), e3 _ h4.1 h4.2] at hfl
    rw [← hfl.2, List.getElem?_map, hj]
    rfl
  · intro c h1 h2 h3 f hf hfty
    have h4 := hup c h1 h2
    rw [hpa] at h3 h4
    have hm := hI.tree.mem c h1 h2
    obtain ⟨j, hj⟩ := List.mem_iff_getElem?.1 hm
    have hn := hI.names _ h4.1 h4.2 h3 j c hj
    rw [hK.fd, hn] at hf
    rw [hK.size c (Or.inr (by rw [hty _ h4.1 h4.2]; exact h3))]
    exact (hI.fixed _ h4.1 h4.2 h3 j c f hj hf).1 hfty
  · intro c h1 h2 h3 f hf hfty
    have h4 := hup c h1 h2
    rw [hpa] at h3 h4
    have hm := hI.tree.mem c h1 h2
    obtain ⟨j, hj⟩ := List.mem_iff_getElem?.1 hm
    have hn := hI.names _ h4.1 h4.2 h3 j c hj
    rw [hK.fd, hn] at hf
    rw [hK.aux]
    exact (hI.fixed _ h4.1 h4.2 h3 j c f hj hf).2 hfty
  · intro i h1 h2 h3
    have hfl := hI.filled i h1 h2
    unfold Filled at hfl
    rw [if_neg (by rw [h3]; simp [ptrLike]), e3 i h1 h2] at hfl
    refine ⟨ks i, hI.tree.nodup i, hfl.2, fun c => ?_, fun j c hj => by rw [hK.fd]; exact hI.names _ h1 h2 h3 j c hj⟩
    rw [hpa]
    constructor
    · intro hc
      obtain ⟨_, _, g3, g4, g5⟩ := hI.tree.own _ _ hc
      exact ⟨g3, g4, g5⟩
    · rintro ⟨g1, g2, rfl⟩
      exact hI.tree.mem c g1 g2

variable (V : View mem tds root st k n obj)
include V

theorem View.addr {i : Nat} (h1 : 1 ≤ i) (h2 : i < n) : (ni st.info i).addr = (obj i).addr := by
  obtain ⟨x, e1, e2, _⟩ := V.F.node i _ h1 (nd_get (by rw [V.len]; exact h2))
  rw [ni_get (by rw [V.leni]; exact h2)] at e1
  cases e1
  exact e2

theorem View.ty {i : Nat} (h1 : 1 ≤ i) (h2 : i < n) : (nd st.ptrs.ra i).ty = (obj i).ty := by
  obtain ⟨x, _, _, e3, _⟩ := V.F.node i _ h1 (nd_get (by rw [V.len]; exact h2))
  exact e3

theorem View.get {i : Nat} (h2 : i < n) : st.ptrs.ra[i]? = some (nd st.ptrs.ra i) ∧ st.info[i]? = some (ni st.info i) :=
  ⟨nd_get (by rw [V.len]; exact h2), ni_get (by rw [V.leni]; exact h2)⟩

theorem View.idx {i : Nat} (h : i ∈ 1 :: k.nodes) : (nd st.ptrs.ra i).idx ≠ 0 := by
  obtain ⟨j, hj⟩ := List.mem_iff_getElem?.1 h
  have := V.F.ids j i hj
  have h2 := ((V.inTree i).1 h).1.2
  rw [(V.get h2).1] at this
  simp at this
  omega

theorem View.idx_off {i : Nat} (h1 : 1 ≤ i) (h2 : i < n) (h : i ∉ 1 :: k.nodes) : (nd st.ptrs.ra i).idx = 0 := (V.F.off i _ h1 (V.get h2).1 h).1

theorem View.cell_tree {i : Nat} (h1 : 1 ≤ i) (h2 : i < n) (h : isCell (obj i) = true) : i ∈ 1 :: k.nodes := by
  apply Classical.byContradiction
  intro hni
  have := (V.F.off i _ h1 (V.get h2).1 hni).2.2.1
  unfold isCell at h
  rw [this] at h
  cases h

theorem View.text_ty {c : Nat} (h1 : 1 < c) (h2 : c < n) (h : (obj (pa st c)).ty = .string) : (obj c).ty = .charArray := by
  have := V.lead c h1 h2 (by simp [isCell, h])
  unfold target at this
  rw [h] at this
  simp only at this
  split at this
  · cases this
  · injection this with this
    rw [← this]

theorem View.ptr_ty {c : Nat} (h1 : 1 < c) (h2 : c < n) (h : (obj (pa st c)).ty = .pointer) : (obj c).ty ≠ .charArray := by
  have h3 := V.up c h1 h2
  exact SaveFinal.pointer_target (V.ok _ h3.1 h3.2) h (V.lead c h1 h2 (by simp [isCell, h]))

/-- a child of a structure or an array is a part of it -/
theorem View.part {c : Nat} (h1 : 1 < c) (h2 : c < n) (h : isCell (obj (pa st c)) = false) : obj c ∈ components tds (obj (pa st c)) := by
  have h3 := V.up c h1 h2
  obtain ⟨l, _, l2, l3⟩ := V.kids _ h3.1 h3.2 h
  rw [← l2]
  exact List.mem_map_of_mem ((l3 c).2 ⟨h1, h2, rfl⟩)

theorem View.kid_of_part {i : Nat} (h1 : 1 ≤ i) (h2 : i < n) {o : Obj} (h : o ∈ components tds (obj i)) :
    isCell (obj i) = false ∧ ∃ c, 1 < c ∧ c < n ∧ pa st c = i ∧ obj c = o := by
  have hc : isCell (obj i) = false := by
    unfold isCell
    rcases part_ty h with h | h <;> rw [h] <;> rfl
  obtain ⟨l, _, l2, l3⟩ := V.kids _ h1 h2 hc
  rw [← l2] at h
  obtain ⟨c, hc1, hc2⟩ := List.mem_map.1 h
  obtain ⟨g1, g2, g3⟩ := (l3 c).1 hc1
  exact ⟨hc, c, g1, g2, g3, hc2⟩

/-- the owner of a separately allocated object -/
theorem View.owner (hcells : ∀ x o, Reach mem tds root x → target mem tds x = some o → identified o.ty = true) {c : Nat} (h1 : 1 < c) (h2 : c < n)
    (h : isCell (obj (pa st c)) = true) :
    (ni st.info (pa st c)).null = false ∧ (nd st.ptrs.ra (pa st c)).ref = false ∧ (nd st.ptrs.ra (pa st c)).cref = false ∧
    ((obj (pa st c)).ty = .pointer → untyped (obj (pa st c)).aux = false ∧ (nd st.ptrs.ra (pa st c)).firstChild = c ∧ (nd st.ptrs.ra c).next = 0) ∧
    mem.ptr (obj (pa st c)).addr ≠ 0 := by
  have h3 := V.up c h1 h2
  have ht := V.lead c h1 h2 h
  have hid := hcells _ _ (V.reach _ h3.1 h3.2) ht
  have hin := V.cell_tree h3.1 h3.2 h
  have hpl : (obj (pa st c)).ty = .pointer ∨ (obj (pa st c)).ty = .string := by simpa [isCell] using h
  have hptr : mem.ptr (obj (pa st c)).addr ≠ 0 := by
    intro h0
    unfold target at ht
    rcases hpl with h | h <;> rw [h] at ht <;> simp [h0] at ht
  have hnu : (obj (pa st c)).ty = .pointer → untyped (obj (pa st c)).aux = false := by
    intro h
    unfold target at ht
    rw [h] at ht
    cases hu : untyped (obj (pa st c)).aux with
    | false => rfl
    | true => simp [hu] at ht
  have hnull := V.F.null _ _ _ h3.1 (V.get h3.2).1 (V.get h3.2).2 (by rw [V.ty h3.1 h3.2]; exact hpl.symm)
  rw [V.ty h3.1 h3.2] at hnull
  have hnn : (ni st.info (pa st c)).null = false := by
    cases hh : (ni st.info (pa st c)).null with
    | false => rfl
    | true =>
      rcases hnull.1 hh with ⟨g1, g2⟩ | g
      · rw [hnu g1] at g2; cases g2
      · exact absurd g hptr
  generalize hp : pa st c = i at *
  suffices hh : (nd st.ptrs.ra i).ref = false ∧ (nd st.ptrs.ra i).cref = false ∧
      ((obj i).ty = .pointer → (nd st.ptrs.ra i).firstChild = c ∧ (nd st.ptrs.ra c).next = 0) from
    ⟨hnn, hh.1, hh.2.1, fun h => ⟨hnu h, hh.2.2 h⟩, hptr⟩
  rcases hpl with hpl | hpl
  · have hq := V.F.pointer i _ hin (V.get h3.2).1 (by rw [V.ty h3.1 h3.2]; exact hpl) (hnu hpl)
    rw [ht] at hq
    obtain ⟨q0, q1, q2, t, q3, q4, q5⟩ := hq
    have q1' := ((V.inTree _).1 q1).1
    have := V.uniq _ _ q1'.1 q1'.2 (by omega) h2 (by rw [q2]; exact hid) q2
    rw [this] at q3 q1
    rw [(V.get h2).1] at q3
    cases q3
    have hr : (nd st.ptrs.ra i).ref = false := by
      cases hr : (nd st.ptrs.ra i).ref with
      | false => rfl
      | true => exact absurd hp (q5 hr).1
    exact ⟨hr, q0, fun _ => ⟨this, (q4 hr).2⟩⟩
  · have hno : c ∉ 1 :: k.nodes := fun hc => ((V.inTree c).1 hc).2 ⟨by omega, by rw [hp]; exact hpl⟩
    have hq := V.F.string i _ hin (V.get h3.2).1 (by rw [V.ty h3.1 h3.2]; exact hpl)
    rw [ht] at hq
    rcases hq with ⟨q1, q2, _⟩ | ⟨_, _, q3, q4, _⟩ | ⟨_, q2, q3, q4, s, q5, q6, q7, q8, _⟩
    · exact ⟨q1, q2, fun h => by rw [hpl] at h; cases h⟩
    · have q3' := ((V.inTree _).1 q3).1
      have := V.uniq _ _ q3'.1 q3'.2 (by omega) h2 (by rw [q4]; exact hid) q4
      rw [this] at q3
      exact absurd q3 hno
    · exfalso
      have q3' := ((V.inTree _).1 q3).1
      rw [(V.get q3'.2).1] at q5
      cases q5
      have hq' := V.F.string _ _ q3 (V.get q3'.2).1 q6
      rw [q4] at hq'
      rcases hq' with ⟨_, _, _, t, tp, t1, t2, t3, t4, t5⟩ | ⟨r1, _⟩ | ⟨_, r2, _⟩
      · obtain ⟨g1, g2⟩ := SaveDone.get_nd t2
        rw [V.len] at g2
        have := V.uniq t c t1 g2 (by omega) h2 (by rw [t5]; exact hid) t5
        subst this
        have : pa st t = (nd st.ptrs.ra i).firstChild := by unfold pa; rw [g1]; exact t4
        rw [hp] at this
        rw [← this, q2] at q8
        cases q8
      · rw [q7] at r1; cases r1
      · rw [q8] at r2; cases r2

/-- what is below a pointer or a string is not a part of anything -/
theorem View.outer (hcells : ∀ x o, Reach mem tds root x → target mem tds x = some o → identified o.ty = true) {c : Nat} (h1 : 1 < c) (h2 : c < n)
    (h : isCell (obj (pa st c)) = true) : Outer mem tds root (obj c) := by
  have h3 := V.up c h1 h2
  have ht := V.lead c h1 h2 h
  have hid := hcells _ _ (V.reach _ h3.1 h3.2) ht
  refine ⟨⟨_, V.reach _ h3.1 h3.2, ht⟩, ?_, ?_⟩
  · intro hr
    have := V.uniq c 1 (by omega) h2 (by omega) V.n1 hid (by rw [hr, V.F.top])
    omega
  · intro y hy hc
    obtain ⟨i, i1, i2, rfl⟩ := V.complete y hy
    obtain ⟨g1, c', g2, g3, g4, g5⟩ := V.kid_of_part i1 i2 hc
    have := V.uniq c c' (by omega) h2 (by omega) g3 hid g5.symm
    subst this
    rw [g4, g1] at h
    cases h

end Verif.Lemmas.CopyView
