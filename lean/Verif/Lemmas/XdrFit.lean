import Verif.Lemmas.XdrPlan
import Verif.Lemmas.XdrStep
/-!
The descriptors with which objects are loaded, and the children of a node.
-/
namespace Verif.Lemmas.XdrFit
open Verif.Model Verif.Model.Ptrs Verif.Model.Save Verif.Model.Copy Verif.Model.Xdr Verif.Model.XdrGraph Verif.Spec.Ptrs Verif.Spec.Save Verif.Spec.Copy Verif.Spec.XdrGraph
  Verif.Lemmas.SaveTree Verif.Lemmas.SaveFinal Verif.Lemmas.SaveInv Verif.Lemmas.CopyLayout Verif.Lemmas.CopyView Verif.Lemmas.CopyTops Verif.Lemmas.CopyMem Verif.Lemmas.CopyPlace Verif.Lemmas.CopyDone Verif.Lemmas.XdrSeg Verif.Lemmas.XdrPlan Verif.Lemmas.XdrStep

/-- the descriptor of the object of node `c` -/
def fdOf (P : Plan) (c : Nat) : Fd :=
  if c = 1 then P.fd
  else
    match (P.obj (pa P.st c)).ty with
    | .struct => (ni P.st.info c).fd.getD {}
    | .array => element P.tds ((ni P.st.info (pa P.st c)).fd.getD {})
    | _ => pointee P.tds { aux := (P.obj (pa P.st c)).aux, td := (P.obj (pa P.st c)).td }

noncomputable def item (P : Plan) (c : Nat) : Nat × Fd := (P.A c, fdOf P c)

theorem object_single {ty : MrType} (h : ty ≠ .array) (a : Nat) (aux : MrType) (td : Option Nat) (c s c' s' : Nat) :
    object a ty aux td c s = object a ty aux td c' s' := by
  cases ty <;> simp [object] at h ⊢

theorem array_fd {a : Nat} {f : Fd} {o : Obj} (h : o = ofFd a f) (hty : o.ty = .array) :
    f.ty = .array ∧ o.aux = f.aux ∧ o.td = f.td ∧ o.count = f.dims.headD 0 ∧ o.step = f.size / f.dims.headD 0 ∧ o.addr = a := by
  have : f.ty = .array := by rw [h] at hty; rw [← hty]; exact (object_ty _ _ _ _ _ _).symm
  subst h
  unfold ofFd
  rw [this]
  simp [object]

theorem chain_roots {ra : List Pd} : ∀ (f : Forest) (par h : Nat), Rep ra par h f → Chain ra h f.roots := by
  intro f
  induction f with
  | nil => intro _ _ h; exact h
  | cons i k s _ ihs =>
    intro par h hr
    obtain ⟨h1, h2, pd, e1, _, _, e4⟩ := hr
    exact ⟨h1, h2, pd, e1, ihs _ _ e4⟩

theorem chain_fun {ra : List Pd} : ∀ (l l' : List Nat) (h : Nat), Chain ra h l → Chain ra h l' → l = l' := by
  intro l
  induction l with
  | nil =>
    intro l' h h1 h2
    cases l' with
    | nil => rfl
    | cons c l' =>
      have h1 : h = 0 := h1
      obtain ⟨g1, g2, _⟩ := h2
      omega
  | cons c l ih =>
    intro l' h h1 h2
    obtain ⟨a1, a2, pd, a3, a4⟩ := h1
    cases l' with
    | nil =>
      have h2 : h = 0 := h2
      omega
    | cons c' l' =>
      obtain ⟨b1, b2, pd', b3, b4⟩ := h2
      have : c = c' := by omega
      subst this
      rw [a3] at b3
      cases b3
      rw [ih l' _ a4 b4]

variable {P : Plan} (H : P.OK)
include H

omit H in
theorem parent_tree (H : P.Core) {c : Nat} (hc : c ∈ P.N) (h1 : c ≠ 1) : pa P.st c ∈ P.N := by
  obtain ⟨j, hj⟩ := List.mem_iff_getElem?.1 hc
  obtain ⟨p, _, h⟩ := H.before hj h1
  exact List.mem_of_getElem? h

omit H in
/-- the parent of a node of the tree -/
theorem parent_kind (H : P.Core) {c : Nat} (hc : c ∈ P.N) (h1 : c ≠ 1) :
    ((P.obj (pa P.st c)).ty = .struct) ∨ ((P.obj (pa P.st c)).ty = .array) ∨
    ((P.obj (pa P.st c)).ty = .pointer ∧ isCell (P.obj (pa P.st c)) = true ∧ plain (P.obj c).ty = true ∧ untyped (P.obj (pa P.st c)).aux = false ∧
      P.obj c = object (P.mem.ptr (P.obj (pa P.st c)).addr) (P.obj (pa P.st c)).aux (tyOf P.tds (P.obj (pa P.st c)).td) (P.obj (pa P.st c)).td 0 0) := by
  have hr := H.range hc
  have hc1 : 1 < c := by omega
  have hp := H.C.V.up c hc1 hr.2
  cases hcell : isCell (P.obj (pa P.st c)) with
  | false =>
    rcases part_ty (H.C.V.part hc1 hr.2 hcell) with h | h
    · exact Or.inl h
    · exact Or.inr (Or.inl h)
  | true =>
    right; right
    have hpl : (P.obj (pa P.st c)).ty = .pointer := by
      have hpl : (P.obj (pa P.st c)).ty = .pointer ∨ (P.obj (pa P.st c)).ty = .string := by simpa [isCell] using hcell
      rcases hpl with h | h
      · exact h
      · exact absurd ⟨h1, h⟩ ((H.C.V.inTree c).1 hc).2
    have ht := H.C.V.lead c hc1 hr.2 hcell
    have hid := H.C.S.cells _ _ (H.C.V.reach _ hp.1 hp.2) ht
    refine ⟨hpl, rfl, ?_, ?_⟩
    · rcases SaveResolve.target_ty (H.C.V.ok _ hp.1 hp.2) ht with ⟨_, h | h⟩ | ⟨h, _⟩
      · exact h
      · rw [h] at hid; cases hid
      · rw [hpl] at h; cases h
    · unfold target at ht
      rw [hpl] at ht
      simp only at ht
      split at ht
      · cases ht
      · rename_i hh
        simp at hh
        exact ⟨by simpa using hh.1, (Option.some.inj ht).symm⟩

omit H in
theorem fits (H : P.Core) {c : Nat} (hc : c ∈ P.N) : P.obj c = ofFd (P.obj c).addr (fdOf P c) ∧ (fdOf P c).sizeField = none ∧
    ((P.obj c).ty = .bitfield ∨ (P.obj c).ty = .charArray ∨ (P.obj c).ty = .array →
      ∃ l j t d, Member P.tds P.st P.n P.obj c l j t d (fdOf P c)) := by
  by_cases h1 : c = 1
  · subst h1
    have : fdOf P 1 = P.fd := by simp [fdOf]
    rw [this]
    refine ⟨?_, H.fd.1, fun hty => ?_⟩
    · rw [H.C.V.F.top]; exact H.root
    · obtain ⟨l, j, t, d, f, M⟩ := member_ok H.C hc hty
      have := M.i1
      omega
  · have hr := H.range hc
    rcases parent_kind H hc h1 with h | h | ⟨h, _, hpl, hut, hob⟩
    · obtain ⟨l, j, t, d, f, M⟩ := member_of H.C (by omega : 1 < c) hr.2 h
      have : fdOf P c = f := by simp [fdOf, h1, h, M.fd]
      rw [this]
      refine ⟨?_, (H.C.T.fields t d M.dd M.dty f M.inFields).1.1, fun _ => ⟨l, j, t, d, M⟩⟩
      rw [M.addr]; exact M.here
    · have hp := H.C.V.up c (by omega) hr.2
      obtain ⟨l, j, t, d, f, M⟩ := member_ok H.C (parent_tree H hc h1) (Or.inr (Or.inr h))
      have hf : fdOf P c = element P.tds f := by simp [fdOf, h1, h, M.fd]
      have hty := array_kid H.C (by omega : 1 < c) hr.2 h
      have hna : (P.obj c).ty ≠ .array := by
        intro hh
        rw [hh] at hty
        rcases hty with h | h <;> cases h
      obtain ⟨q, hq⟩ := List.mem_iff_getElem?.1 (H.C.V.part (by omega : 1 < c) hr.2 (by simp [isCell, h]))
      obtain ⟨_, hob⟩ := part_array h hq
      obtain ⟨_, a1, a2, a3, a4, _⟩ := array_fd M.here h
      rw [hf]
      refine ⟨?_, (H.C.T.fields t d M.dd M.dty f M.inFields).1.1, fun hh => ?_⟩
      · rw [hob] at hna ⊢
        rw [object_ty] at hna
        rw [object_addr]
        unfold ofFd element
        simp only
        rw [a1, a2]
        rw [a1] at hna
        exact object_single hna _ _ _ _ _ _ _
      · rcases hty with g | g
        · rcases hh with hh | hh | hh <;> rw [hh] at g <;> cases g
        · rcases hh with hh | hh | hh <;> rw [hh] at g <;> cases g
    · have hf : fdOf P c = pointee P.tds { aux := (P.obj (pa P.st c)).aux, td := (P.obj (pa P.st c)).td } := by simp [fdOf, h1, h]
      rw [hf]
      refine ⟨?_, rfl, fun hh => ?_⟩
      · have hna : (P.obj (pa P.st c)).aux ≠ .array := by
          intro hh
          rw [hob, object_ty, hh] at hpl
          cases hpl
        rw [hob, object_addr]
        unfold ofFd pointee
        exact object_single hna _ _ _ _ _ _ _
      · rcases hh with hh | hh | hh <;> rw [hh] at hpl <;> cases hpl

omit H in
theorem fits_ty (H : P.Core) {c : Nat} (hc : c ∈ P.N) : (fdOf P c).ty = (P.obj c).ty := by
  rw [(fits H hc).1]; exact (object_ty _ _ _ _ _ _).symm

omit H in
/-- the list of the children -/
theorem kids_list (H : P.Core) {i : Nat} (hi : i ∈ P.N) (hc : isCell (P.obj i) = false) {ks : List Nat} (hk : Chain P.st.ptrs.ra (kidsHead (nd P.st.ptrs.ra i)) ks) :
    ks.map P.obj = components P.tds (P.obj i) ∧ ((P.obj i).ty = .struct → ks.map (fun c => (ni P.st.info c).fd) = (members P.tds (P.obj i)).map some) ∧
    ∀ c ∈ ks, 1 < c ∧ c < P.n ∧ pa P.st c = i := by
  have hr := H.range hi
  have hpt : (P.obj i).ty ≠ .pointer ∧ (P.obj i).ty ≠ .string := by
    unfold isCell at hc
    constructor <;> intro h <;> rw [h] at hc <;> cases hc
  obtain ⟨g1, g2, l, g3, g4, g5⟩ := H.C.V.F.parts i _ hi (H.C.V.get hr.2).1 (by rw [H.C.V.ty hr.1 hr.2]; exact hpt.1) (by rw [H.C.V.ty hr.1 hr.2]; exact hpt.2)
  have hkh : kidsHead (nd P.st.ptrs.ra i) = (nd P.st.ptrs.ra i).firstChild := by simp [kidsHead, g1, g2]
  rw [hkh] at hk
  have := chain_fun _ _ _ g3 hk
  subst this
  have hin : ∀ (l : List Nat) (h : Nat), Chain P.st.ptrs.ra h l → ∀ c ∈ l, c < P.n ∧ c ≠ 0 := by
    intro l
    induction l with
    | nil => intro _ _ c hc; cases hc
    | cons a l ih =>
      rintro h ⟨a1, a2, pd, a3, a4⟩ c hc
      rcases List.mem_cons.1 hc with rfl | hc
      · have := (SaveDone.get_nd a3).2
        rw [H.C.V.len] at this
        exact ⟨this, a2⟩
      · exact ih _ a4 c hc
  have hrep : ∀ (f : Forest) (par h : Nat), Rep P.st.ptrs.ra par h f → ∀ c ∈ f.nodes, ∀ l, Chain P.st.ptrs.ra (kidsHead (nd P.st.ptrs.ra c)) l →
      ∀ x ∈ l, (nd P.st.ptrs.ra x).parent = c := by
    intro f
    induction f with
    | nil => intro _ _ _ c hc; cases hc
    | cons a k s ihk ihs =>
      rintro par h ⟨_, _, pd, e1, _, e3, e4⟩ c hc l hl x hx
      rw [Forest.nodes, List.mem_cons, List.mem_append] at hc
      rcases hc with rfl | hc | hc
      · have hpd := (SaveDone.get_nd e1).1
        rw [hpd] at hl
        have := chain_fun _ _ _ (chain_roots _ _ _ e3) hl
        subst this
        have hroots : ∀ (f : Forest) (par h : Nat), Rep P.st.ptrs.ra par h f → ∀ x ∈ f.roots, (nd P.st.ptrs.ra x).parent = par := by
          intro f
          induction f with
          | nil => intro _ _ _ x hx; cases hx
          | cons a k s _ ihs =>
            rintro par h ⟨_, _, pd, e1, e2, _, e4⟩ x hx
            rcases List.mem_cons.1 hx with rfl | hx
            · rw [(SaveDone.get_nd e1).1]; exact e2
            · exact ihs _ _ e4 x hx
        exact hroots _ _ _ e3 x hx
      · exact ihk _ _ e3 c hc l hl x hx
      · exact ihs _ _ e4 c hc l hl x hx
  refine ⟨g4, fun h => ?_, fun c hcm => ?_⟩
  · have g5 := g5 (by rw [H.C.V.ty hr.1 hr.2]; exact h)
    rw [← g5]
    apply List.map_congr_left
    intro c hc
    rw [(H.C.V.get (hin _ _ g3 c hc).1).2]
    rfl
  · have hpa : pa P.st c = i := hrep _ _ _ H.C.V.F.tree i (by simpa [Forest.nodes] using hi) l (by rw [hkh]; exact g3) c hcm
    have hcl := hin _ _ g3 c hcm
    refine ⟨?_, hcl.1, hpa⟩
    have h0 := hcl.2
    have : c ≠ 1 := by
      rintro rfl
      obtain ⟨_, _, pd, e1, e2, _⟩ := H.C.V.F.tree
      have := (SaveDone.get_nd e1).1
      rw [← this] at e2
      have h : pa P.st 1 = 0 := e2
      omega
    omega

omit H in
theorem kids_none (H : P.Core) {i : Nat} (hi : i ∈ P.N) (hc : isCell (P.obj i) = false) (hcomp : components P.tds (P.obj i) = []) {ks : List Nat}
    (hk : Chain P.st.ptrs.ra (kidsHead (nd P.st.ptrs.ra i)) ks) : ks = [] := by
  have := (kids_list H hi hc hk).1
  rw [hcomp] at this
  exact List.map_eq_nil_iff.1 this

theorem kids_struct {i : Nat} (hi : i ∈ P.N) (hty : (P.obj i).ty = .struct) {ks : List Nat} (hk : Chain P.st.ptrs.ra (kidsHead (nd P.st.ptrs.ra i)) ks) :
    ∃ d, tdAt P.tds (fdOf P i).td = some d ∧ (d.fields.map fun g => (P.A i + g.offset, g)) = ks.map (item P) := by
  have hr := H.range hi
  have hc : isCell (P.obj i) = false := by simp [isCell, hty]
  obtain ⟨k1, k2, k3⟩ := kids_list H hi hc hk
  have hok := H.C.V.ok i hr.1 hr.2
  unfold ObjOK at hok
  rw [hty] at hok
  obtain ⟨t, d, h1, h2, h3⟩ := hok
  have htd : (fdOf P i).td = (P.obj i).td := by
    have := (fits H hi).1
    have h4 := fits_ty H hi
    rw [this]
    unfold ofFd
    rw [h4, hty]
    rfl
  refine ⟨d, by rw [htd, h1]; exact h2, ?_⟩
  have hmem : members P.tds (P.obj i) = d.fields := by simp [members, h1, h2]
  have k2 := k2 hty
  rw [hmem] at k2
  have hl : ks.length = d.fields.length := by simpa using congrArg List.length k2
  apply List.ext_getElem?
  intro q
  rw [List.getElem?_map, List.getElem?_map]
  cases hg : d.fields[q]? with
  | none =>
    rw [List.getElem?_eq_none (by rw [hl]; exact List.getElem?_eq_none_iff.1 hg)]
    rfl
  | some g =>
    have hlt := (List.getElem?_eq_some_iff.1 hg).1
    have hks : ks[q]? = some (ks[q]'(by omega)) := List.getElem?_eq_getElem _
    generalize ks[q]'(by omega) = c at hks
    rw [hks]
    have hcm := List.mem_of_getElem? hks
    obtain ⟨c1, c2, c3⟩ := k3 c hcm
    have e1 := congrArg (fun l => l[q]?) k2
    simp only [List.getElem?_map, hks, hg, Option.map_some, Option.some.injEq] at e1
    have e2 := congrArg (fun l => l[q]?) k1
    simp only [List.getElem?_map, hks, Option.map_some] at e2
    obtain ⟨t', d', f', r1, r2, r3, r4⟩ := part_struct hty e2.symm
    rw [h1] at r1; cases r1
    rw [h2] at r2; cases r2
    rw [hg] at r3; cases r3
    have hfd : fdOf P c = g := by
      unfold fdOf
      rw [if_neg (by omega), c3, hty]
      simp [e1]
    have hA : P.A c = P.A i + g.offset := by
      have := (na_up H.C (b := P.b) c1 c2 (by rw [c3]; exact hc)).2
      rw [c3] at this
      unfold Plan.A
      rw [this, r4]
      have : (ofFd ((P.obj i).addr + g.offset) g).addr = (P.obj i).addr + g.offset := object_addr _ _ _ _ _ _
      rw [this]
      omega
    simp [item, hfd, hA]

theorem kids_array {i : Nat} (hi : i ∈ P.N) (hty : (P.obj i).ty = .array) {ks : List Nat} (hk : Chain P.st.ptrs.ra (kidsHead (nd P.st.ptrs.ra i)) ks) :
    elements (P.A i) (element P.tds (fdOf P i)) ((fdOf P i).dims.headD 0) = ks.map (item P) := by
  have hr := H.range hi
  have hc : isCell (P.obj i) = false := by simp [isCell, hty]
  obtain ⟨k1, _, k3⟩ := kids_list H hi hc hk
  obtain ⟨f1, _, f3⟩ := fits H hi
  obtain ⟨l, j, t, d, M⟩ := f3 (Or.inr (Or.inr hty))
  obtain ⟨_, a1, a2, a3, a4, _⟩ := array_fd f1 hty
  have hcomp : components P.tds (P.obj i) = (List.range (P.obj i).count).map fun j => object ((P.obj i).addr + j * (P.obj i).step) (P.obj i).aux (tyOf P.tds (P.obj i).td) (P.obj i).td 0 0 := by
    simp [components, hty]
  rw [hcomp] at k1
  have hl : ks.length = (P.obj i).count := by simpa using congrArg List.length k1
  rw [← a3]
  unfold elements
  apply List.ext_getElem?
  intro q
  rw [List.getElem?_map, List.getElem?_map]
  by_cases hq : q < (P.obj i).count
  · have hks : ks[q]? = some (ks[q]'(by omega)) := List.getElem?_eq_getElem _
    generalize ks[q]'(by omega) = c at hks
    rw [hks, List.getElem?_range hq]
    obtain ⟨c1, c2, c3⟩ := k3 c (List.mem_of_getElem? hks)
    have e2 := congrArg (fun l => l[q]?) k1
    simp only [List.getElem?_map, hks, List.getElem?_range hq, Option.map_some, Option.some.injEq] at e2
    have hfd : fdOf P c = element P.tds (fdOf P i) := by
      have : fdOf P c = element P.tds ((ni P.st.info i).fd.getD {}) := by
        unfold fdOf
        rw [if_neg (by omega), c3, hty]
      rw [this, M.fd]
      rfl
    have hA : P.A c = P.A i + q * (element P.tds (fdOf P i)).size := by
      have := (na_up H.C (b := P.b) c1 c2 (by rw [c3]; exact hc)).2
      rw [c3] at this
      unfold Plan.A
      rw [this, e2, object_addr, a4]
      show _ = _ + q * ((fdOf P i).size / (fdOf P i).dims.headD 0)
      omega
    simp [item, hfd, hA]
  · rw [List.getElem?_eq_none (by omega : ks.length ≤ q), List.getElem?_eq_none (by simp; omega)]
    rfl

theorem kids_own {i t : Nat} (hi : i ∈ P.N) (hty : (P.obj i).ty = .pointer) (ht : P.own i = some t) {ks : List Nat}
    (hk : Chain P.st.ptrs.ra (kidsHead (nd P.st.ptrs.ra i)) ks) : [(P.b t, pointee P.tds (fdOf P i))] = ks.map (item P) := by
  obtain ⟨h1, h2, h3, h4⟩ := H.own_iff.1 ht
  have hr := H.range hi
  obtain ⟨_, o2, o3, o4, _⟩ := H.C.V.owner H.C.S.cells h1 h2 (by rw [h3]; exact h4)
  rw [h3] at o2 o3 o4
  obtain ⟨p1, p2, p3⟩ := o4 hty
  have hkh : kidsHead (nd P.st.ptrs.ra i) = t := by simp [kidsHead, o2, o3, p2]
  rw [hkh] at hk
  have hks : ks = [t] := chain_fun _ _ _ hk ⟨rfl, by omega, _, (H.C.V.get h2).1, p3⟩
  subst hks
  have hfd : fdOf P t = pointee P.tds (fdOf P i) := by
    have : fdOf P t = pointee P.tds { aux := (P.obj i).aux, td := (P.obj i).td } := by
      unfold fdOf
      rw [if_neg (by omega), h3, hty]
    rw [this]
    have hf := (fits H hi).1
    have hft := fits_ty H hi
    have hu : untyped (fdOf P i).aux = false := by
      rw [hf] at p1
      unfold ofFd object at p1
      rw [hft, hty] at p1
      simp only at p1
      split at p1
      · assumption
      · rename_i h; simpa using h
    have : (P.obj i).aux = (fdOf P i).aux ∧ (P.obj i).td = (fdOf P i).td := by
      rw [hf]
      unfold ofFd object
      rw [hft, hty]
      simp [hu]
    rw [this.1, this.2]
    rfl
  have hA : P.A t = P.b t := na_start H.C.tops (Or.inr ⟨h1, h2, by rw [h3]; exact h4⟩)
  simp [item, hfd, hA]

omit H in
/-- pointers without a child of their own -/
theorem kids_ref (H : P.Core) {i : Nat} (hi : i ∈ P.N) (hc : isCell (P.obj i) = true) (ht : P.own i = none ∨ (P.obj i).ty = .string) {ks : List Nat}
    (hk : Chain P.st.ptrs.ra (kidsHead (nd P.st.ptrs.ra i)) ks) : ks = [] := by
  have hr := H.range hi
  have hget := (H.C.V.get hr.2).1
  suffices kidsHead (nd P.st.ptrs.ra i) = 0 by
    rw [this] at hk
    exact chain_fun _ _ _ hk rfl
  have hpl : (P.obj i).ty = .pointer ∨ (P.obj i).ty = .string := by simpa [isCell] using hc
  have hvty := H.C.V.ty hr.1 hr.2
  unfold kidsHead
  split
  · rfl
  · rename_i hnr
    simp at hnr
    rcases hpl with hpl | hpl
    · rcases ht with ht | ht
      · cases hu : untyped (P.obj i).aux with
        | true =>
          rcases H.C.V.F.void i _ hi hget (by rw [hvty]; exact hpl) hu with ⟨_, _, h, _⟩ | ⟨h, _⟩ | ⟨_, h, _⟩
          · exact h
          · rw [hnr.1] at h; cases h
          · rw [hnr.2] at h; cases h
        | false =>
          have := (H.C.V.F.pointer i _ hi hget (by rw [hvty]; exact hpl) hu).2
          cases htg : target P.mem P.tds (P.obj i) with
          | none => rw [htg] at this; exact this.1
          | some o =>
            rw [htg] at this
            obtain ⟨q1, q2, tp, q3, q4, _⟩ := this
            have q5 := (q4 hnr.1).1
            have hq := H.range q1
            rw [← (SaveDone.get_nd q3).1] at q5
            have hne : (nd P.st.ptrs.ra i).firstChild ≠ 1 := by
              intro h
              rw [h] at q5
              obtain ⟨_, _, pd, e1, e2, _⟩ := H.C.V.F.tree
              rw [← (SaveDone.get_nd e1).1, q5] at e2
              omega
            have := H.own_iff.2 ⟨by omega, hq.2, q5, hc⟩
            rw [ht] at this
            cases this
      · rw [hpl] at ht; cases ht
    · have := H.C.V.F.string i _ hi hget (by rw [hvty]; exact hpl)
      cases htg : target P.mem P.tds (P.obj i) with
      | none => rw [htg] at this; exact this.1
      | some o =>
        rw [htg] at this
        rcases this with ⟨_, _, h, _⟩ | ⟨h, _⟩ | ⟨_, h, _⟩
        · exact h
        · rw [hnr.1] at h; cases h
        · rw [hnr.2] at h; cases h

end Verif.Lemmas.XdrFit
