import Verif.Lemmas.SaveStep
/-!
The functions of `mr_save` carry out the steps of `Lemmas.SaveStep`.
-/
namespace Verif.Lemmas.SaveRun
open Verif.Model Verif.Model.Ptrs Verif.Model.Save Verif.Spec.Ptrs Verif.Spec.Save Verif.Lemmas.SaveTree Verif.Lemmas.SaveInv Verif.Lemmas.SaveStep

variable {mem : Mem} {tds : List Td} {U : Prop} {root : Obj} {st : St} {ks : Nat → List Nat} {obj : Nat → Obj} {O : Nat → Option Nat} {S : Nat → Prop}

theorem setReference_ok (st : St) (p r : Nat) (hp : p < st.ptrs.ra.length) (hr : r < st.ptrs.ra.length) :
    ∃ st', setReference st p r = some st' ∧ st'.info = st.info ∧ st'.index = st.index ∧ st'.ptrs.ra.length = st.ptrs.ra.length ∧
      st'.ptrs.lastChild = st.ptrs.lastChild ∧
      (∀ j, (nd st'.ptrs.ra j).parent = (nd st.ptrs.ra j).parent ∧ (nd st'.ptrs.ra j).next = (nd st.ptrs.ra j).next ∧
        (nd st'.ptrs.ra j).ty = (nd st.ptrs.ra j).ty ∧ (nd st'.ptrs.ra j).cref = (nd st.ptrs.ra j).cref) ∧
      (∀ j, j ≠ p → (nd st'.ptrs.ra j).ref = (nd st.ptrs.ra j).ref ∧ (nd st'.ptrs.ra j).firstChild = (nd st.ptrs.ra j).firstChild) ∧
      (nd st'.ptrs.ra p).ref = true ∧ (nd st'.ptrs.ra p).firstChild = r ∧
      (nd st'.ptrs.ra r).refd = true ∧ (∀ j, (nd st.ptrs.ra j).refd = true → (nd st'.ptrs.ra j).refd = true) := by
  obtain ⟨s1, e1, i1, x1, l1, c1, n1⟩ := updPd_ok st p (fun pd => { pd with firstChild := r, ref := true }) hp
  obtain ⟨s2, e2, i2, x2, l2, c2, n2⟩ := updPd_ok s1 r (fun pd => { pd with refd := true }) (by omega)
  refine ⟨s2, ?_, by rw [i2, i1], by rw [x2, x1], by omega, by rw [c2, c1], ?_, ?_, ?_, ?_⟩
  · unfold setReference
    rw [e1]; exact e2
  · intro j
    rw [n2, n1]
    unfold updF
    by_cases h1 : j = r
    · by_cases h2 : j = p
      · subst h1; subst h2; simp
      · have : r ≠ p := fun h => h2 (h1.trans h)
        simp [h1, this]
    · by_cases h2 : j = p
      · subst h2; simp [h1]
      · simp [h1, h2]
  · intro j hj
    rw [n2, n1]
    unfold updF
    by_cases h1 : j = r
    · have : r ≠ p := fun h => hj (h1.trans h)
      simp [h1, this]
    · simp [h1, hj]
  · rw [n2, n1]
    unfold updF
    by_cases h1 : p = r <;> simp [h1]
  · rw [n2, n1]
    refine ⟨?_, ?_, ?_⟩
    · unfold updF
      by_cases h1 : p = r <;> simp [h1]
    · rw [updF_same]
    · intro j hj
      by_cases h1 : j = r
      · rw [h1, updF_same]
      · rw [updF_ne _ _ h1]
        by_cases h2 : j = p
        · rw [h2, updF_same]; rw [h2] at hj; exact hj
        · rw [updF_ne _ _ h2]; exact hj

/-! ### the persistent field descriptor -/

theorem persistentAncestor_congr {st st' : St} (hi : st'.info = st.info) (hl : st'.ptrs.ra.length = st.ptrs.ra.length)
    (hp : ∀ j, (nd st'.ptrs.ra j).parent = (nd st.ptrs.ra j).parent) (fuel x : Nat) :
    persistentAncestor fuel st' x = persistentAncestor fuel st x := by
  induction fuel generalizing x with
  | zero => rfl
  | succ fuel ih =>
    unfold persistentAncestor
    rw [hi]
    by_cases hx : x < st.ptrs.ra.length
    · rw [nd_get hx, nd_get (by omega : x < st'.ptrs.ra.length)]
      simp only [Option.bind_eq_bind, Option.bind_some, hp, ih]
    · rw [List.getElem?_eq_none (by omega : st.ptrs.ra.length ≤ x), List.getElem?_eq_none (by omega : st'.ptrs.ra.length ≤ x)]
      simp

theorem persistentFd_congr {st st' : St} (hi : st'.info = st.info) (hl : st'.ptrs.ra.length = st.ptrs.ra.length)
    (hp : ∀ j, (nd st'.ptrs.ra j).parent = (nd st.ptrs.ra j).parent) (fd : Fd) (x : Nat) :
    persistentFd tds st' fd x = persistentFd tds st fd x := by
  unfold persistentFd
  rw [persistentAncestor_congr hi hl hp, hl]

theorem persistentAncestor_zero (fuel : Nat) (st : St) : persistentAncestor (fuel + 1) st 0 = some none := by
  simp [persistentAncestor]

theorem persistentAncestor_some (hlen : st.info.length = st.ptrs.ra.length) {n : Nat} (hn : st.ptrs.ra.length = n) (hc : Closed (nd st.ptrs.ra) n) (hr : (nd st.ptrs.ra 1).parent = 0)
    {x k : Nat} (h : Dep (nd st.ptrs.ra) x k) (hx : x < n) {fuel : Nat} (hf : k + 1 < fuel) :
    ∃ r, persistentAncestor fuel st x = some r ∧ ∀ g, r = some g → g.nonPersistent = false := by
  induction h generalizing fuel with
  | root =>
    cases fuel with
    | zero => omega
    | succ fuel =>
      cases fuel with
      | zero => omega
      | succ fuel =>
        rw [persistentAncestor, if_neg (by omega), ni_get (by omega), nd_get (by omega)]
        simp only [Option.bind_eq_bind, Option.bind_some, hr, persistentAncestor_zero]
        split
        · exact ⟨none, rfl, by simp⟩
        · rename_i f _
          by_cases hf : f.nonPersistent = true
          · exact ⟨none, by simp [hf], by simp⟩
          · exact ⟨some f, by simp [hf], by intro g hg; cases hg; simpa using hf⟩
  | @up x k h1 h2 ih =>
    cases fuel with
    | zero => omega
    | succ fuel =>
      obtain ⟨r, hr1, hr2⟩ := ih (hc x h1 hx) (fuel := fuel) (by omega)
      rw [persistentAncestor, if_neg (by omega), ni_get (by omega), nd_get (by omega)]
      simp only [Option.bind_eq_bind, Option.bind_some, hr1]
      split
      · exact ⟨r, rfl, hr2⟩
      · rename_i f _
        by_cases hf : f.nonPersistent = true
        · exact ⟨r, by simp [hf], hr2⟩
        · exact ⟨some f, by simp [hf], by intro g hg; cases hg; simpa using hf⟩

/-- what `mr_save_inner` is called with -/
structure Call (mem : Mem) (tds : List Td) (U : Prop) (root : Obj) (st : St) (ks : Nat → List Nat) (obj : Nat → Obj) (O : Nat → Option Nat) (S : Nat → Prop)
    (data : Nat) (fd : Fd) (count p k : Nat) (o : Obj) : Prop where
  inv : Inv mem tds U root st ks obj O S
  p1 : 1 ≤ p
  p2 : p < st.ptrs.ra.length
  status : O p = some k
  slot : slot mem tds (obj p) k = some o
  ofd : ofFd data fd = o
  ok : FdOK tds fd
  count1 : 1 ≤ count
  count2 : (obj p).ty = .pointer → count = 1
  notS : (obj p).ty = .pointer → ¬ S p
  np : fd.nonPersistent = true → (obj p).ty ≠ .struct
  arr : fd.ty = .array → fd.nonPersistent = false
  last : ∀ z, (ks p).getLast? = some z → Anc (nd st.ptrs.ra) z st.ptrs.lastChild
  lc : 1 ≤ st.ptrs.lastChild ∧ st.ptrs.lastChild < st.ptrs.ra.length
  named : (obj p).ty = .struct → (members tds (obj p))[k]? = some fd ∧ count = 1
  unnamed : fd.unnamed = false → (obj p).ty = .struct ∨ (obj p).ty = .string

/-- result of `mr_get_persistent_fd` for an object `o` -/
def PfdOK (tds : List Td) (o : Obj) (r : Option Fd) : Prop :=
  (∀ g, r = some g → g.nonPersistent = false) ∧
  (needsTd o = true → ∃ g, r = some g ∧ g.td = o.td ∧ (o.ty = .pointer ∨ o.ty = .array → g.base = tyOf tds o.td))

theorem object_td {a : Nat} {ty aux : MrType} {td : Option Nat} {c s : Nat} (h : needsTd (object a ty aux td c s) = true) :
    (object a ty aux td c s).td = td := by
  cases ty <;> simp only [object] at h ⊢ <;> try (simp [needsTd] at h)
  case pointer =>
    by_cases hu : untyped aux = true
    · simp [hu, needsTd] at h
    · simp [hu]

theorem object_ty (a : Nat) (ty aux : MrType) (td : Option Nat) (c s : Nat) : (object a ty aux td c s).ty = ty := by
  cases ty <;> simp only [object]
  case pointer => split <;> rfl

theorem object_addr (a : Nat) (ty aux : MrType) (td : Option Nat) (c s : Nat) : (object a ty aux td c s).addr = a := by
  cases ty <;> simp only [object]
  case pointer => split <;> rfl

theorem persistent_self {fd : Fd} {data : Nat} (hf : FdOK tds fd) (hnp : fd.nonPersistent = false) : PfdOK tds (ofFd data fd) (some fd) := by
  refine ⟨by intro g hg; cases hg; exact hnp, ?_⟩
  intro hn
  refine ⟨fd, rfl, (object_td hn).symm, ?_⟩
  intro hty
  have htd : (ofFd data fd).td = fd.td := object_td hn
  rw [htd]
  have hty' : (ofFd data fd).ty = fd.ty := object_ty _ _ _ _ _ _
  rw [hty'] at hty
  obtain ⟨_, _, _, h⟩ := hf
  rcases hty with hty | hty
  · rw [hty] at h
    simp only at h
    rcases h with h | ⟨b, h1, h2, h3⟩
    · simp [ofFd, object, hty, h, needsTd] at hn
    · rw [h3 hnp, tyOf_has h1]
  · rw [hty] at h
    simp only at h
    obtain ⟨b, c, h1, _, h3, _⟩ := h
    rw [h3, tyOf_has h1]

theorem ptrFd_ok {o : Obj} {td : Option Nat} (h : ObjOK tds o) (htd : needsTd o = true → o.td = td) : PfdOK tds o (ptrFd tds td) := by
  constructor
  · intro g hg
    unfold ptrFd at hg
    simp only [Option.bind_eq_bind, Option.bind_eq_some_iff] at hg
    obtain ⟨t, _, d, _, hg⟩ := hg
    cases hg
    rfl
  · intro hn
    have ht := htd hn
    have hhas : ∃ b, HasTd tds o.td b := by
      unfold ObjOK at h
      cases hty : o.ty <;> rw [hty] at h <;> simp only [needsTd, hty] at hn <;> try (cases hn)
      case struct => exact ⟨_, h⟩
      case enum => exact ⟨_, h⟩
      case array => obtain ⟨b, h, _⟩ := h; exact ⟨b, h⟩
      case pointer =>
        rcases h with h | ⟨b, h, _⟩
        · simp [h] at hn
        · exact ⟨b, h⟩
    obtain ⟨b, t, d, h1, h2, h3⟩ := hhas
    rw [← ht, h1]
    refine ⟨{ name := d.name, ty := .pointer, aux := d.ty, base := d.ty, td := some t, size := 8 }, ?_, rfl, ?_⟩
    · simp [ptrFd, h2]
    · intro _
      simp [tyOf, h2]

theorem slot_ok (hT : Types tds) {o c : Obj} {k : Nat} (h : ObjOK tds o) (hc : slot mem tds o k = some c) : ObjOK tds c ∧ Norm c := by
  unfold slot at hc
  split at hc
  · split at hc
    · exact ⟨target_ok h hc, norm_target hc⟩
    · cases hc
  · exact ⟨components_ok hT h (List.mem_of_getElem? hc), norm_components (List.mem_of_getElem? hc)⟩

/-- elements of arrays and targets of pointers have the descriptor of the array or pointer -/
theorem slot_td {o c : Obj} {k : Nat} (hc : slot mem tds o k = some c) (hs : o.ty ≠ .struct) (hn : needsTd c = true) :
    (o.ty = .pointer ∨ o.ty = .array) ∧ needsTd o = true ∧ c.td = o.td := by
  unfold slot at hc
  split at hc
  · split at hc
    · unfold target at hc
      split at hc
      · rename_i hty
        split at hc
        · cases hc
        · rename_i hu
          cases hc
          rw [object_td hn]
          simp only [Bool.or_eq_true, not_or] at hu
          exact ⟨Or.inl hty, by simp [needsTd, hty, hu.1], rfl⟩
      · split at hc
        · cases hc
        · cases hc
          simp [needsTd] at hn
      · cases hc
    · cases hc
  · have hm := List.mem_of_getElem? hc
    unfold components at hm
    split at hm
    · rename_i hty; exact absurd hty hs
    · rename_i hty
      simp only [List.mem_map] at hm
      obtain ⟨j, _, he⟩ := hm
      rw [← he] at hn ⊢
      rw [object_td hn]
      exact ⟨Or.inr hty, by simp [needsTd, hty], rfl⟩
    · cases hm

theorem persist_ok (hT : Types tds) {data : Nat} {fd : Fd} {p k : Nat} {o : Obj} (hI : Inv mem tds U root st ks obj O S)
    (h1 : 1 ≤ p) (h2 : p < st.ptrs.ra.length) (hslot : slot mem tds (obj p) k = some o) (hofd : ofFd data fd = o) (hok : FdOK tds fd)
    (hnotS : (obj p).ty = .pointer → ¬ S p) (hnp : fd.nonPersistent = true → (obj p).ty ≠ .struct) :
    ∃ r, persistentFd tds st fd p = some r ∧ PfdOK tds o r := by
  unfold persistentFd
  by_cases hfd : fd.nonPersistent = true
  · rw [if_pos hfd]
    have hsp := hI.inv.seen p h1 h2
    obtain ⟨ho, _⟩ := slot_ok hT hsp.ok hslot
    obtain ⟨kd, hkd⟩ := hI.inv.tree.dep p h1 h2
    have hlt := dep_lt (tree_closed hI.inv.tree) hkd h2
    obtain ⟨r, hr1, hr2⟩ := persistentAncestor_some hI.len rfl (tree_closed hI.inv.tree) hI.inv.tree.root hkd h2
      (fuel := st.ptrs.ra.length + 1) (by omega)
    rw [hr1]
    have htd : needsTd o = true → o.td = fd.td := by
      intro hn
      rw [← hofd] at hn ⊢
      exact object_td hn
    by_cases hn : needsTd o = true
    · obtain ⟨h3, h4, h5⟩ := slot_td hslot (hnp hfd) hn
      obtain ⟨g, hg1, hg2, hg3⟩ := hsp.td h4
      by_cases hgp : g.nonPersistent = true
      · obtain ⟨hS, hpar⟩ := hsp.np g hg1 hgp
        rcases h3 with h3 | h3
        · exact absurd hS (hnotS h3)
        · have hp0 := hpar h3
          have hrn : r = none := by
            rw [persistentAncestor, if_neg (by omega), ni_get (by rw [hI.len]; exact h2), nd_get h2] at hr1
            simp only [Option.bind_eq_bind, Option.bind_some, hg1, hgp, if_true, hp0] at hr1
            cases hlen : st.ptrs.ra.length with
            | zero => omega
            | succ m =>
              rw [hlen, persistentAncestor_zero] at hr1
              cases hr1; rfl
          rw [hrn]
          exact ⟨_, rfl, ptrFd_ok ho htd⟩
      · have hrg : r = some g := by
          rw [persistentAncestor, if_neg (by omega), ni_get (by rw [hI.len]; exact h2), nd_get h2] at hr1
          simp only [Option.bind_eq_bind, Option.bind_some, hg1, hgp] at hr1
          cases hr1; rfl
        rw [hrg]
        refine ⟨some g, rfl, ⟨?_, ?_⟩⟩
        · intro g' hg'; cases hg'; simpa using hgp
        · intro _
          refine ⟨g, rfl, by rw [hg2, h5], ?_⟩
          intro _
          rw [h5]
          exact hg3 (by simpa using hgp) h3
    · cases r with
      | none => exact ⟨_, rfl, ptrFd_ok ho htd⟩
      | some g => exact ⟨_, rfl, ⟨hr2, fun h => absurd h hn⟩⟩
  · rw [if_neg hfd]
    refine ⟨_, rfl, ?_⟩
    rw [← hofd]
    exact persistent_self hok (by simpa using hfd)

/-! ### a new node -/

theorem elementSize_plain {ty : MrType} {td td' : Option Nat} (h : plain ty = true) (h' : ty = .struct ∨ ty = .enum → td = td') :
    elementSize tds ty td = elementSize tds ty td' := by
  cases ty <;> simp [plain] at h <;> simp [elementSize, typeSize] at h' ⊢
  · rw [h']
  · rw [h']

theorem elementSize_object {a : Nat} {ty aux : MrType} {td : Option Nat} {c s : Nat} (h : plain ty = true) :
    elementSize tds (object a ty aux td c s).ty (object a ty aux td c s).td = elementSize tds ty td := by
  rw [object_ty]
  apply elementSize_plain h
  intro hty
  rcases hty with hty | hty <;> subst hty <;> rfl

/-- the members of a new node -/
def newInfo (data : Nat) (fd : Fd) (count nu : Nat) : Info :=
  { addr := data, fd := some fd, aux := fd.aux, size := fd.size * count, unnamed := fd.unnamed, nextUntyped := nu }

/-- the noted type of an enum -/
theorem seen_enum {data : Nat} {fd : Fd} {o : Obj} (hofd : ofFd data fd = o) (hok : FdOK tds fd) (he : o.ty = .enum) :
    typeSize fd.aux ≤ elementSize tds o.ty o.td := by
  have hty : o.ty = fd.ty := by rw [← hofd]; exact object_ty _ _ _ _ _ _
  have hfe : fd.ty = .enum := by rw [← hty]; exact he
  obtain ⟨_, _, h3, h4⟩ := hok
  rw [hfe] at h3 h4
  have h5 := h3 rfl
  have ho : o.td = fd.td := by rw [← hofd]; simp [ofFd, object, hfe]
  rw [he, ho, ← h5]
  exact h4.2

theorem seen_new {data : Nat} {fd : Fd} {count nu parent : Nat} {o : Obj} (hofd : ofFd data fd = o) (hok : FdOK tds fd) (ho : ObjOK tds o) (hno : Norm o)
    (hc : 1 ≤ count) (harr : fd.ty = .array → fd.nonPersistent = true → parent = 0) :
    Seen mem tds { parent := parent, ty := o.ty } (newInfo data fd count nu) o True := by
  have hty : o.ty = fd.ty := by rw [← hofd]; exact object_ty _ _ _ _ _ _
  refine ⟨?_, rfl, ho, hno, ?_, ?_, ?_, rfl, ?_, rfl, ?_, ?_, fun he => seen_enum hofd hok he, fun _ _ h => by cases h⟩
  · rw [← hofd]; exact (object_addr _ _ _ _ _ _).symm
  · intro h
    rw [hty] at h
    rw [← hofd]
    simp only [ofFd, object, h, newInfo]
    split <;> rfl
  · intro hn
    refine ⟨fd, rfl, ?_, ?_⟩
    · rw [← hofd] at hn ⊢
      exact (object_td hn).symm
    · intro hnp h
      have := (persistent_self (data := data) hok hnp).2
      rw [hofd] at this
      obtain ⟨g, hg, _, h3⟩ := this hn
      cases hg
      exact h3 h
  · intro hp
    have hes : elementSize tds o.ty o.td = elementSize tds fd.ty fd.td := by
      rw [hty] at hp
      rw [← hofd]
      exact elementSize_object hp
    rw [hty] at hp
    rw [hes, ← hok.2.2.1 hp]
    exact Nat.le_mul_of_pos_right _ hc
  · intro g hg hgp
    cases hg
    refine ⟨trivial, ?_⟩
    intro h
    exact harr (by rw [← hty]; exact h) hgp
  · intro h; exact absurd trivial h
  · intro h; exact absurd trivial h

theorem push_ok (hT : Types tds) {data : Nat} {fd : Fd} {count p k : Nat} {o : Obj} (C : Call mem tds U root st ks obj O S data fd count p k o)
    (hu : U → identified o.ty = true → ∀ i, 1 ≤ i → i < st.ptrs.ra.length → obj i ≠ o) :
    ∃ st', link (newNode st { addr := data, fd := fd, size := fd.size * count, parent := p }) p st.ptrs.ra.length = some st' ∧
      Inv mem tds U root st' (updF ks p (ks p ++ [st.ptrs.ra.length])) (updF obj st.ptrs.ra.length o)
        (updF (updF O p (adv (obj p) k)) st.ptrs.ra.length (some 0)) (fun j => j = st.ptrs.ra.length ∨ S j) ∧
      st'.ptrs.ra.length = st.ptrs.ra.length + 1 ∧ st'.ptrs.lastChild = st.ptrs.ra.length ∧
      ni st'.info st.ptrs.ra.length = newInfo data fd count (st.index (data / 4)) ∧
      (nd st'.ptrs.ra st.ptrs.ra.length).parent = p ∧ (∀ j, j < st.ptrs.ra.length → ni st'.info j = ni st.info j) ∧
      (∀ j, j < st.ptrs.ra.length → (nd st'.ptrs.ra j).parent = (nd st.ptrs.ra j).parent) := by
  generalize hn : st.ptrs.ra.length = n
  have hI := C.inv.inv
  rw [hn] at hI
  have h2 : p < n := hn ▸ C.p2
  have hsp := hI.seen p C.p1 h2
  obtain ⟨ho, hno⟩ := slot_ok hT hsp.ok C.slot
  have hty : o.ty = fd.ty := by rw [← C.ofd]; exact object_ty _ _ _ _ _ _
  have haddr : o.addr = data := by rw [← C.ofd]; exact object_addr _ _ _ _ _ _
  have hseen : Seen mem tds { parent := p, ty := o.ty } (newInfo data fd count (st.index (data / 4))) o True :=
    seen_new C.ofd C.ok ho hno C.count1 (fun h h' => by rw [C.arr h] at h'; cases h')
  have hpush := inv_push hI (pd := { parent := p, ty := o.ty }) C.p1 h2 C.status C.slot rfl hseen (by rw [haddr]; rfl)
    (by
      intro hp hpl
      rw [hty] at hpl
      rw [← C.ofd, ofFd, elementSize_object hpl, ← C.ok.2.2.1 hpl]
      show fd.size * count ≤ fd.size
      rw [C.count2 hp]; omega)
    (fun hU hc => by rw [← hn]; exact hu hU hc) (fun h => (C.named h).1.symm)
    (fun h f hf => by
      rw [(C.named h).1] at hf
      cases hf
      refine ⟨fun _ => ?_, fun _ => rfl⟩
      show fd.size * count = fd.size
      rw [(C.named h).2]; omega) C.unnamed
  have hd := detached_new hI.tree (by have := C.p1; omega) C.p1 h2 (open_ref hI C.p1 h2 C.status) hsp.cref (pd := { parent := p, ty := o.ty }) rfl rfl rfl
  have hnd : nd (st.ptrs.ra ++ [({ parent := p, ty := fd.ty } : Pd)]) = updF (nd st.ptrs.ra) n { parent := p, ty := o.ty } := by
    rw [nd_snoc, hn, hty]
  obtain ⟨ra', e1, e2, e3⟩ := addChild_nd (s := { st.ptrs with ra := st.ptrs.ra ++ [({ parent := p, ty := fd.ty } : Pd)] }) (n := n + 1) (p := p) (c := n) (ks := ks)
    (by simp [hn]) (by rw [hnd]; exact hd) (by
      intro z hz
      have h3 := C.last z hz
      obtain ⟨h4, h5⟩ := C.lc
      rw [hnd]
      rw [hn] at h5
      refine ⟨anc_congr (tree_closed hI.tree) ?_ h3 h5, h4, by show st.ptrs.lastChild < n + 1; omega⟩
      intro j _ hj
      rw [updF_ne _ _ (by omega)])
  rw [hnd] at e3
  refine ⟨{ ptrs := { ra := ra', lastChild := n }, info := st.info ++ [newInfo data fd count (st.index (data / 4))],
            index := fun b => if b = data / 4 then n else st.index b }, ?_, ⟨?_, ?_⟩, e2, rfl, ?_, ?_, ?_, ?_⟩
  · unfold link newNode
    simp only [e1, hn]
    rfl
  · simp [e2, C.inv.len, hn]
  · show InvF mem tds U root (nd ra') (ni (st.info ++ [newInfo data fd count (st.index (data / 4))])) (fun b => if b = data / 4 then n else st.index b) ra'.length _ _ _ _
    rw [e2, e3, ni_snoc, C.inv.len, hn]
    rw [haddr] at hpush
    exact hpush
  · show ni (st.info ++ [newInfo data fd count (st.index (data / 4))]) n = _
    rw [ni_snoc, C.inv.len, hn, updF_same]
  · show (nd ra' n).parent = p
    rw [e3]
    simp [attached]
  · intro j hj
    show ni (st.info ++ [newInfo data fd count (st.index (data / 4))]) j = _
    rw [ni_snoc, C.inv.len, hn, updF_ne _ _ (by omega)]
  · intro j hj
    show (nd ra' j).parent = _
    rw [e3]
    simp [attached, updF, Nat.ne_of_lt hj]

/-! ### moving a node -/

theorem moveNodes_ok (hT : Types tds) {data : Nat} {fd : Fd} {count p k r q : Nat} {o : Obj} (C : Call mem tds U root st ks obj O S data fd count p k o)
    (hpl : ptrLike (obj p).ty = false) (hr1 : 1 < r) (hr2 : r < st.ptrs.ra.length) (hro : obj r = o) (hne : neverEqual o.ty = false)
    (hq : (nd st.ptrs.ra r).parent = q) (hql : ptrLike (obj q).ty = true) (hab : ¬ Anc (nd st.ptrs.ra) r p) :
    ∃ st', moveNodes tds st { addr := data, fd := fd, size := fd.size * count, parent := p } q = some (st', 1) ∧
      Inv mem tds U root st' (updF (updF ks q []) p (ks p ++ [r])) obj (updF O p (some (k + 1))) S ∧
      st'.ptrs.ra.length = st.ptrs.ra.length ∧ st'.ptrs.lastChild = r ∧ (∀ j, (ni st'.info j).null = (ni st.info j).null) ∧
      (∀ j, j ≠ r → (nd st'.ptrs.ra j).parent = (nd st.ptrs.ra j).parent) := by
  have hI := C.inv.inv
  have hslot := C.slot
  unfold slot at hslot
  rw [if_neg (by simp [hpl])] at hslot
  rw [← hro] at hslot
  have hq1 := (hI.tree.own _ _ (hI.tree.mem r hr1 hr2))
  rw [hq] at hq1
  have hpq : p ≠ q := by
    intro he
    rw [he, hql] at hpl
    cases hpl
  have hrq : r ≠ q := by
    intro he
    obtain ⟨kd, hkd⟩ := hI.tree.dep r (by omega) hr2
    have hkd2 := hkd
    rw [he] at hkd2
    have := Dep.up (P := nd st.ptrs.ra) hr1 (by rw [hq]; exact hkd2)
    have := dep_unique hkd this
    omega
  have hedge : ks q = [r] ∧ (nd st.ptrs.ra q).firstChild = r := by
    rcases edge hI hr1 hr2 with ⟨_, _, h4, h5, _⟩ | ⟨h3, _⟩
    · rw [hq] at h4 h5; exact ⟨h4, h5⟩
    · rw [hq, hql] at h3; cases h3
  have hnext : (nd st.ptrs.ra r).next = 0 := by
    have hch := hI.tree.chain q hq1.1 hq1.2.1
    rw [hedge.1] at hch
    exact hch.2.2
  have hsr := hI.seen r (by omega) hr2
  have hty : o.ty = fd.ty := by rw [← C.ofd]; exact object_ty _ _ _ _ _ _
  obtain ⟨s1, e1, i1, x1, l1, c1, hP, hP2, hP3, hP4, hP5, hP6⟩ := setReference_ok st q r hq1.2.1 hr2
  obtain ⟨pfd, epf, hpf⟩ := persist_ok hT C.inv C.p1 C.p2 C.slot C.ofd C.ok C.notS C.np
  have epf1 : persistentFd tds s1 fd p = some pfd := by
    rw [persistentFd_congr i1 l1 (fun j => (hP j).1)]; exact epf
  obtain ⟨s2, e2, p2, x2, l2, n2⟩ := updInfo_ok s1 r (fun i => { i with fd := pfd, aux := fd.aux, unnamed := fd.unnamed, size := fd.size * count - 0 * fd.size })
    (by rw [i1, C.inv.len]; exact hr2)
  obtain ⟨s3, e3, i3, x3, l3, c3, n3⟩ := updPd_ok s2 r (fun pd => { pd with ty := fd.ty }) (by rw [p2, l1]; exact hr2)
  have hnd3 : ∀ j, nd s3.ptrs.ra j = nd s1.ptrs.ra j := by
    intro j
    rw [n3, p2]
    unfold updF
    by_cases hj : j = r
    · subst hj
      have : (nd s1.ptrs.ra j).ty = fd.ty := by rw [(hP j).2.2.1, hsr.ty, hro, hty]
      rw [if_pos rfl, ← this]
    · rw [if_neg hj]
  have hnd3' : nd s3.ptrs.ra = nd s1.ptrs.ra := funext hnd3
  have hd := detached_move hI (P1 := nd s1.ptrs.ra) C.p1 C.p2 C.status hpl hr1 hr2 hq hql hab (fun j => ⟨(hP j).1, (hP j).2.1, (hP j).2.2.2⟩) hP2 hP3
  have hlen3 : s3.ptrs.ra.length = st.ptrs.ra.length := by rw [l3, p2, l1]
  obtain ⟨ra', f1, f2, f3⟩ := addChild_nd (s := s3.ptrs) (n := st.ptrs.ra.length) (p := p) (c := r) (ks := updF ks q []) hlen3 (by rw [hnd3']; exact hd) (by
    intro z hz
    rw [updF_ne _ _ hpq] at hz
    have h3 := C.last z hz
    obtain ⟨h4, h5⟩ := C.lc
    rw [hnd3', c3, p2, c1]
    exact ⟨anc_congr (tree_closed hI.tree) (fun j _ _ => (hP j).1) h3 h5, h4, h5⟩)
  rw [hnd3'] at f3
  have hmove := inv_move hI (P1 := nd s1.ptrs.ra) (x := { ni st.info r with fd := pfd, aux := fd.aux, unnamed := fd.unnamed, size := fd.size * count - 0 * fd.size })
    C.p1 C.p2 C.status hpl hr1 hr2 hq hql hab hslot (fun j => ⟨(hP j).1, (hP j).2.1, (hP j).2.2.2⟩) (fun j => (hP j).2.2.1) hP2 hP3 hP4
    (by
      rw [hro]
      rw [hro] at hsr
      have hnp : o.ty ≠ .pointer := by intro h; rw [h] at hne; simp [neverEqual] at hne
      refine ⟨hsr.addr, hsr.ty, hsr.ok, hsr.norm, fun h => absurd h hnp, ?_, ?_, hsr.cref, ?_, hsr.opq, hsr.null, fun _ h => absurd h hnp, fun he => seen_enum C.ofd C.ok he, hsr.unset⟩
      · intro hn
        obtain ⟨g, h1, h2, h3⟩ := hpf.2 hn
        exact ⟨g, h1, h2, fun _ => h3⟩
      · intro hp
        have hp' := hp
        rw [hty] at hp
        rw [← C.ofd, ofFd, elementSize_object hp, ← C.ok.2.2.1 hp]
        show fd.size ≤ fd.size * count - 0 * fd.size
        have := Nat.le_mul_of_pos_right fd.size C.count1
        omega
      · intro g hg hgp
        rw [hpf.1 g hg] at hgp
        cases hgp)
    rfl ⟨hP5, hP6⟩ (by
      intro h
      rw [(C.named h).1]
      show pfd = some fd
      have hnp : fd.nonPersistent ≠ true := fun h' => C.np h' h
      unfold persistentFd at epf
      rw [if_neg hnp] at epf
      exact (Option.some.inj epf).symm)
    (by
      intro h f hf
      rw [(C.named h).1] at hf
      cases hf
      refine ⟨fun _ => ?_, fun _ => rfl⟩
      show fd.size * count - 0 * fd.size = fd.size
      rw [(C.named h).2]; omega) C.unnamed
  refine ⟨{ s3 with ptrs := { ra := ra', lastChild := r } }, ?_, ⟨?_, ?_⟩, f2, rfl, ?_, ?_⟩
  · unfold moveNodes
    rw [nd_get hq1.2.1]
    simp only [Option.bind_eq_bind, Option.bind_some]
    rw [hedge.2, e1]
    simp only [Option.bind_some]
    cases hl : s1.ptrs.ra.length with
    | zero => omega
    | succ m =>
      rw [moveLoop, if_neg (by omega), nd_get (by omega)]
      simp only [Option.bind_eq_bind, Option.bind_some, epf1, e2, e3]
      unfold link
      simp only [Option.bind_eq_bind, f1, Option.bind_some, (hP r).2.1, hnext]
      rw [moveLoop, if_pos rfl]
  · show s3.info.length = ra'.length
    rw [i3, l2, i1, C.inv.len, f2]
  · show InvF mem tds U root (nd ra') (ni s3.info) s3.index ra'.length _ _ _ _
    rw [f2, f3, i3, n2, x3, x2, x1, i1]
    exact hmove
  · intro j
    show (ni s3.info j).null = _
    rw [i3, n2, i1]
    unfold updF
    by_cases hj : j = r
    · subst hj; simp
    · simp [hj]
  · intro j hj
    show (nd ra' j).parent = _
    rw [f3]
    simp [attached, hj, (hP j).1]

end Verif.Lemmas.SaveRun
