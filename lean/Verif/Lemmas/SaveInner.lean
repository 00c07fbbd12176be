import Verif.Lemmas.SaveHandler
/-!
`mr_save_inner` adds an object with all its components.
-/
namespace Verif.Lemmas.SaveInner
open Verif.Model Verif.Model.Ptrs Verif.Model.Save Verif.Spec.Ptrs Verif.Spec.Save Verif.Lemmas.SaveTree Verif.Lemmas.SaveInv Verif.Lemmas.SaveStep
  Verif.Lemmas.SaveRun Verif.Lemmas.SaveResolve Verif.Lemmas.SaveHandler

variable {mem : Mem} {tds : List Td} {U : Prop} {root : Obj} {st : St} {ks : Nat → List Nat} {obj : Nat → Obj} {O : Nat → Option Nat} {S : Nat → Prop}

/-- what a handler achieves -/
structure Done (mem : Mem) (tds : List Td) (U : Prop) (root : Obj) (d : Nat) (st st' : St) (ks : Nat → List Nat) (obj : Nat → Obj) (O : Nat → Option Nat) (S : Nat → Prop)
    (idx : Nat) (ks' : Nat → List Nat) (obj' : Nat → Obj) (O' : Nat → Option Nat) : Prop where
  inv : Inv mem tds U root st' ks' obj' O' S
  acc : Acc mem tds st st' ks ks' obj obj' O O' idx
  status : O' idx = pend mem tds (obj idx)
  null : ((obj idx).ty = .string ∨ (obj idx).ty = .pointer ∧ (obj idx).aux ≠ .none) ∨ ((obj idx).ty = .func ∨ (obj idx).ty = .funcType) → ((ni st'.info idx).null = true ↔ mem.ptr (obj idx).addr = 0)
  psize : (obj idx).ty = .pointer → untyped (obj idx).aux = false → mem.ptr (obj idx).addr ≠ 0 → (ni st'.info idx).size = elementSize tds (obj idx).aux (obj idx).td
  count : st'.ptrs.ra.length ≤ st.ptrs.ra.length + (if (obj idx).ty = .string then 1 else ((components tds (obj idx)).map (cnt tds d)).sum)
  chars : (obj idx).ty = .charArray → ks' = ks

theorem open_nil {idx data : Nat} {fd : Fd} (H : Open mem tds U root st ks obj O S idx data fd) : ks idx = [] := by
  by_cases hpl : ptrLike (obj idx).ty = true
  · exact (open_ptr H.inv.inv H.i1 H.i2 H.status hpl).2.2.2
  · have hf := H.inv.inv.filled idx H.i1 H.i2
    rw [H.status] at hf
    have := filled_length hf (by simpa using hpl)
    exact List.length_eq_zero_iff.1 this

theorem acc_status {st' : St} {ks' : Nat → List Nat} {obj' : Nat → Obj} {O' : Nat → Option Nat} {idx : Nat} {k : Option Nat}
    (h : Acc mem tds st st' ks ks' obj obj' O O' idx) (hi : idx < st.ptrs.ra.length) : Acc mem tds st st' ks ks' obj obj' O (updF O' idx k) idx :=
  ⟨h.grow, h.objs, fun j h1 h2 => by rw [updF_ne _ _ h2]; exact h.stat j h1 h2, fun j h1 h2 => by rw [updF_ne _ _ (by omega)]; exact h.news j h1 h2,
    h.lc, h.anc, h.last, h.frame, h.nulls, h.keep⟩

theorem updF_self {α : Type} (f : Nat → α) (i : Nat) : updF f i (f i) = f := by
  funext j
  unfold updF
  split
  · rename_i h; rw [h]
  · rfl

/-- only members of the node itself change -/
theorem simple_ok {idx data : Nat} {fd : Fd} (H : Open mem tds U root st ks obj O S idx data fd) {st' : St} {x : Info} (hp : st'.ptrs = st.ptrs) (hix : st'.index = st.index)
    (hl : st'.info.length = st.info.length) (hni : ni st'.info = updF (ni st.info) idx x) (hx : Seen mem tds (nd st.ptrs.ra idx) x (obj idx) (S idx))
    (hxn : x.nextUntyped = (ni st.info idx).nextUntyped) (hxs : (obj idx).ty ≠ .pointer → x.size = (ni st.info idx).size) (hxa : (obj idx).ty = .bitfield → x.aux = (ni st.info idx).aux) (hfd : x.fd = (ni st.info idx).fd) (hun : x.unnamed = (ni st.info idx).unnamed)
    (hf : Filled mem tds (nd st.ptrs.ra) st.ptrs.ra.length ks obj idx (pend mem tds (obj idx))) :
    Inv mem tds U root st' ks obj (updF O idx (pend mem tds (obj idx))) S ∧ Acc mem tds st st' ks ks obj obj O (updF O idx (pend mem tds (obj idx))) idx := by
  constructor
  · refine ⟨by rw [hl, hp]; exact H.inv.len, ?_⟩
    rw [hp, hix, hni]
    refine inv_status (inv_info H.inv.inv hx hxn (fun h => hxs (by intro h'; rw [h'] at h; cases h)) (fun _ _ => hfd) ?_ hun) hf
    intro p j f h1 h2 h3 h4 h5
    have ho := member_obj H.inv.inv h1 h2 h3 h4 h5
    have hty : (obj idx).ty = f.ty := by rw [ho]; exact object_ty _ _ _ _ _ _
    obtain ⟨g1, g2⟩ := H.inv.inv.fixed p h1 h2 h3 j idx f h4 h5
    refine ⟨fun h6 => ?_, fun h6 => (hxa (hty.trans h6)).trans (g2 h6)⟩
    rw [hxs (by rw [hty]; rcases h6 with h | h <;> rw [h] <;> simp)]
    exact g1 h6
  · refine acc_status ⟨by rw [hp]; omega, fun _ _ => rfl, fun _ _ _ => rfl, ?_, ?_, ?_, ?_, fun _ _ _ _ => rfl, ?_, fun j _ => by rw [hp]⟩ H.i2
    · intro j h1 h2; rw [hp] at h2; omega
    · rw [hp, H.lc]; exact ⟨H.i1, H.i2⟩
    · rw [hp, H.lc]; exact Anc.self
    · intro z hz
      rw [open_nil H] at hz
      cases hz
    · intro j _ hj
      rw [hni, updF_ne _ _ hj]

theorem filled_open {idx data : Nat} {fd : Fd} (H : Open mem tds U root st ks obj O S idx data fd) :
    Filled mem tds (nd st.ptrs.ra) st.ptrs.ra.length ks obj idx (some 0) := by
  have := H.inv.inv.filled idx H.i1 H.i2
  rw [H.status] at this
  exact this

theorem filled_pointer {idx data : Nat} {fd : Fd} (H : Open mem tds U root st ks obj O S idx data fd) (hpl : ptrLike (obj idx).ty = true)
    (ht : (obj idx).ty = .pointer ∨ target mem tds (obj idx) = none) :
    Filled mem tds (nd st.ptrs.ra) st.ptrs.ra.length ks obj idx (pend mem tds (obj idx)) := by
  have hf := filled_open H
  unfold pend
  by_cases h : (obj idx).ty = .pointer ∧ (target mem tds (obj idx)).isSome = true
  · rw [if_pos h]; exact hf
  · rw [if_neg h]
    have hn : target mem tds (obj idx) = none := by
      rcases ht with ht | ht
      · cases hx : target mem tds (obj idx) with
        | none => rfl
        | some o => exact absurd ⟨ht, by simp [hx]⟩ h
      · exact ht
    unfold Filled at hf ⊢
    rw [if_pos hpl] at hf ⊢
    rw [hn]
    exact hf.2

theorem filled_leaf {idx data : Nat} {fd : Fd} (H : Open mem tds U root st ks obj O S idx data fd) (hpl : ptrLike (obj idx).ty = false)
    (hc : components tds (obj idx) = []) : Filled mem tds (nd st.ptrs.ra) st.ptrs.ra.length ks obj idx (pend mem tds (obj idx)) := by
  have : pend mem tds (obj idx) = none := by
    unfold pend
    rw [if_neg]
    intro h
    simp [ptrLike, h.1] at hpl
  rw [this]
  exact complete (filled_open H) hpl (by simp [hc])

theorem pend_none {o : Obj} (h : o.ty ≠ .pointer) : pend mem tds o = none := by
  unfold pend
  rw [if_neg]
  exact fun h' => h h'.1

/-! ### structures and arrays -/

/-- after `k` components -/
def LoopInv (mem : Mem) (tds : List Td) (U : Prop) (root : Obj) (d : Nat) (st1 : St) (ks1 : Nat → List Nat) (obj1 : Nat → Obj) (O1 : Nat → Option Nat) (S : Nat → Prop)
    (idx k : Nat) (st : St) : Prop :=
  ∃ ks obj O, Inv mem tds U root st ks obj O S ∧ Acc mem tds st1 st ks1 ks obj1 obj O1 O idx ∧ O idx = some k ∧
    st.ptrs.ra.length ≤ st1.ptrs.ra.length + (((components tds (obj1 idx)).take k).map (cnt tds d)).sum

theorem loop_step {rk : Nat → Nat} {d : Nat} {inner : St → Nat → Fd → Nat → Nat → Option (St × Nat)} (hin : InnerOK mem tds U root rk d inner)
    {st1 : St} {ks1 : Nat → List Nat} {obj1 : Nat → Obj} {O1 : Nat → Option Nat} {idx k : Nat} (h : LoopInv mem tds U root d st1 ks1 obj1 O1 S idx k st)
    (h1 : 1 ≤ idx) (h2 : idx < st1.ptrs.ra.length) (hty : (obj1 idx).ty = .struct ∨ (obj1 idx).ty = .array) {c : Obj} (hc : (components tds (obj1 idx))[k]? = some c)
    {data count : Nat} {fd : Fd} (hofd : ofFd data fd = c) (hok : FdOK tds fd) (hcount : 1 ≤ count) (hnp : fd.nonPersistent = true → (obj1 idx).ty ≠ .struct)
    (harr : fd.ty = .array → fd.nonPersistent = false) (hneed : need rk c ≤ d)
    (hnm : (obj1 idx).ty = .struct → (members tds (obj1 idx))[k]? = some fd ∧ count = 1) (hun : fd.unnamed = false → (obj1 idx).ty = .struct) :
    ∃ st', inner st data fd count idx = some (st', 1) ∧ LoopInv mem tds U root d st1 ks1 obj1 O1 S idx (k + 1) st' := by
  obtain ⟨ks, obj, O, hI, hA, hO, hlen⟩ := h
  have ho := hA.objs idx h2
  have hg := hA.grow
  have hnp' : (obj idx).ty ≠ .pointer := by rw [ho]; rcases hty with h | h <;> rw [h] <;> simp
  have hns' : (obj idx).ty ≠ .string := by rw [ho]; rcases hty with h | h <;> rw [h] <;> simp
  have hpl : ptrLike (obj idx).ty = false := by simp [ptrLike, hnp', hns']
  have hslot : slot mem tds (obj idx) k = some c := by
    unfold slot
    rw [if_neg (by simp [hpl]), ho]
    exact hc
  have C : Call mem tds U root st ks obj O S data fd count idx k c :=
    ⟨hI, h1, by omega, hO, hslot, hofd, hok, hcount, fun h => absurd h hnp', fun h => absurd h hnp', by rw [ho]; exact hnp, harr, hA.last, hA.lc, by rw [ho]; exact hnm, fun h => Or.inl (by rw [ho]; exact hun h)⟩
  obtain ⟨st', ks', obj', O', e1, e2, e3, e4⟩ := hin _ _ _ _ _ _ _ _ _ _ _ C hneed
  refine ⟨st', e1, ks', obj', O', e2, acc_post hA h2 e3 e2 (by rw [← ho]; exact hnp') (fun h => absurd h (by rw [← ho]; exact hns')), ?_, ?_⟩
  · rw [e3.statP]; simp [adv, hpl]
  · rw [take_snoc hc, List.map_append, List.sum_append]
    simp only [List.map_cons, List.map_nil, List.sum_cons, List.sum_nil]
    omega

theorem loop_done {d : Nat} {idx data : Nat} {fd : Fd} {st' : St} (H : Open mem tds U root st ks obj O S idx data fd)
    (h : LoopInv mem tds U root d st ks obj O S idx (components tds (obj idx)).length st') (hty : (obj idx).ty = .struct ∨ (obj idx).ty = .array) :
    ∃ ks' obj' O', Done mem tds U root d st st' ks obj O S idx ks' obj' O' := by
  obtain ⟨ks', obj', O', hI, hA, hO, hlen⟩ := h
  have ho := hA.objs idx H.i2
  have hg := hA.grow
  have hi2 := H.i2
  have hnp' : (obj idx).ty ≠ .pointer := by rcases hty with h | h <;> rw [h] <;> simp
  have hns' : (obj idx).ty ≠ .string := by rcases hty with h | h <;> rw [h] <;> simp
  have hpl : ptrLike (obj' idx).ty = false := by rw [ho]; simp [ptrLike, hnp', hns']
  have hf := hI.inv.filled idx H.i1 (by omega)
  rw [hO] at hf
  have hf' := complete hf hpl (by rw [ho]; omega)
  refine ⟨ks', obj', updF O' idx none, ⟨hI.len, inv_status hI.inv hf'⟩, acc_status hA H.i2, ?_, ?_, ?_, ?_, ?_⟩
  · rw [updF_same, pend_none hnp']
  · rintro ((h | h) | h)
    · exact absurd h hns'
    · exact absurd h.1 hnp'
    · exfalso
      rcases hty with e | e <;> rw [e] at h <;> rcases h with h | h <;> cases h
  · intro h; exact absurd h hnp'
  · rw [if_neg hns']
    rw [List.take_of_length_le (Nat.le_refl _)] at hlen
    exact hlen
  · intro h; rcases hty with h' | h' <;> rw [h'] at h <;> cases h

theorem saveFields_ok (hT : Types tds) {rk : Nat → Nat} {d : Nat} {inner : St → Nat → Fd → Nat → Nat → Option (St × Nat)} (hin : InnerOK mem tds U root rk d inner)
    {st1 : St} {ks1 : Nat → List Nat} {obj1 : Nat → Obj} {O1 : Nat → Option Nat} {idx : Nat} (h1 : 1 ≤ idx) (h2 : idx < st1.ptrs.ra.length)
    (hty : (obj1 idx).ty = .struct) {t : Nat} {dd : Td} (htd : (obj1 idx).td = some t) (hdd : tds[t]? = some dd) (hdt : dd.ty = .struct)
    (hneed : ∀ c ∈ components tds (obj1 idx), need rk c ≤ d) (fs : List Fd) (k : Nat) (hfs : dd.fields.drop k = fs) (hk : k ≤ dd.fields.length) (st : St)
    (h : LoopInv mem tds U root d st1 ks1 obj1 O1 S idx k st) :
    ∃ st', saveFields inner (obj1 idx).addr idx fs st = some (st', 1) ∧ LoopInv mem tds U root d st1 ks1 obj1 O1 S idx (components tds (obj1 idx)).length st' := by
  have hcomp : components tds (obj1 idx) = dd.fields.map fun f => ofFd ((obj1 idx).addr + f.offset) f := by
    simp [components, hty, htd, hdd]
  induction fs generalizing k st with
  | nil =>
    refine ⟨st, rfl, ?_⟩
    have : k = dd.fields.length := by
      have := congrArg List.length hfs
      simp at this
      omega
    rw [hcomp, List.length_map, ← this]
    exact h
  | cons f fs ih =>
    have hf : dd.fields[k]? = some f := by
      have := congrArg (fun l : List Fd => l[0]?) hfs
      simpa using this
    have hlt : k < dd.fields.length := (List.getElem?_eq_some_iff.1 hf).1
    have hc : (components tds (obj1 idx))[k]? = some (ofFd ((obj1 idx).addr + f.offset) f) := by
      rw [hcomp, List.getElem?_map, hf]; rfl
    obtain ⟨hok, hper⟩ := hT.fields t dd hdd hdt f (List.mem_of_getElem? hf)
    obtain ⟨st', e1, e2⟩ := loop_step hin h h1 h2 (Or.inl hty) hc rfl hok (Nat.le_refl 1) (by intro h; rw [hper] at h; cases h) (fun _ => hper)
      (hneed _ (List.mem_of_getElem? hc)) (fun _ => ⟨by simp [members, htd, hdd, hf], rfl⟩) (fun _ => hty)
    obtain ⟨st2, e3, e4⟩ := ih (k + 1) (by
      have : dd.fields.drop (k + 1) = (dd.fields.drop k).drop 1 := by rw [List.drop_drop]
      rw [this, hfs]; rfl) hlt st' e2
    refine ⟨st2, ?_, e4⟩
    rw [saveFields, e1]
    simp only [Option.bind_eq_bind, Option.bind_some]
    exact e3

theorem saveElements_ok {rk : Nat → Nat} {d : Nat} {inner : St → Nat → Fd → Nat → Nat → Option (St × Nat)} (hin : InnerOK mem tds U root rk d inner)
    {st1 : St} {ks1 : Nat → List Nat} {obj1 : Nat → Obj} {O1 : Nat → Option Nat} {idx : Nat} (h1 : 1 ≤ idx) (h2 : idx < st1.ptrs.ra.length)
    (hty : (obj1 idx).ty = .array) {data : Nat} {efd : Fd} (hok : FdOK tds efd) (hnp : efd.nonPersistent = true) (heu : efd.unnamed = true) (hna : efd.ty ≠ .array)
    (hcomp : ∀ k, k < (components tds (obj1 idx)).length → (components tds (obj1 idx))[k]? = some (ofFd (data + k * efd.size) efd))
    (hneed : ∀ c ∈ components tds (obj1 idx), need rk c ≤ d) (fuel k : Nat) (hk : k ≤ (components tds (obj1 idx)).length)
    (hf : (components tds (obj1 idx)).length - k < fuel) (st : St) (h : LoopInv mem tds U root d st1 ks1 obj1 O1 S idx k st) :
    ∃ st', saveElements inner data efd (components tds (obj1 idx)).length idx fuel st k = some (st', (components tds (obj1 idx)).length) ∧
      LoopInv mem tds U root d st1 ks1 obj1 O1 S idx (components tds (obj1 idx)).length st' := by
  induction fuel generalizing k st with
  | zero => omega
  | succ fuel ih =>
    rw [saveElements]
    by_cases hlt : k < (components tds (obj1 idx)).length
    · rw [if_pos hlt]
      have hc := hcomp k hlt
      obtain ⟨st', e1, e2⟩ := loop_step hin h h1 h2 (Or.inr hty) hc rfl hok (count := (components tds (obj1 idx)).length - k) (by omega)
        (by intro _; rw [hty]; simp) (fun h => absurd h hna) (hneed _ (List.mem_of_getElem? hc)) (fun h => by rw [hty] at h; cases h) (fun h => by rw [heu] at h; cases h)
      obtain ⟨st2, e3, e4⟩ := ih (k + 1) (by omega) (by omega) st' e2
      refine ⟨st2, ?_, e4⟩
      rw [e1]
      simp only [Option.bind_eq_bind, Option.bind_some]
      exact e3
    · rw [if_neg hlt]
      have : k = (components tds (obj1 idx)).length := by omega
      subst this
      exact ⟨st, rfl, h⟩

/-! ### the handlers -/

theorem obj_ty {idx data : Nat} {fd : Fd} (H : Open mem tds U root st ks obj O S idx data fd) : (obj idx).ty = fd.ty := by
  rw [← H.ofd]; exact object_ty _ _ _ _ _ _

theorem obj_addr {idx data : Nat} {fd : Fd} (H : Open mem tds U root st ks obj O S idx data fd) : (obj idx).addr = data := by
  rw [← H.ofd]; exact object_addr _ _ _ _ _ _

/-- the size of an array that is a member of a structure -/
theorem member_size (hT : Types tds) {idx data : Nat} {fd : Fd} (H : Open mem tds U root st ks obj O S idx data fd) (hfty : fd.ty = .array) {p j : Nat} {f : Fd}
    (h1 : 1 ≤ p) (h2 : p < st.ptrs.ra.length) (h3 : (obj p).ty = .struct) (h4 : (ks p)[j]? = some idx) (h5 : (members tds (obj p))[j]? = some f) : f.size = fd.size := by
  have ho := member_obj H.inv.inv h1 h2 h3 h4 h5
  have hok := (H.inv.inv.seen p h1 h2).ok
  unfold ObjOK at hok
  rw [h3] at hok
  obtain ⟨t, d, ht, hd, hdt⟩ := hok
  have hmem : f ∈ d.fields := by
    unfold members at h5
    rw [ht] at h5
    simp only [Option.bind_some, hd, Option.map_some, Option.getD_some] at h5
    exact List.mem_of_getElem? h5
  have hf := (hT.fields t d hd hdt f hmem).1.2.2.2
  have hg := H.ok.2.2.2
  have hfy : f.ty = .array := by
    have := obj_ty H
    rw [ho, show (ofFd ((obj p).addr + f.offset) f).ty = f.ty from object_ty _ _ _ _ _ _, hfty] at this
    exact this
  rw [hfy] at hf
  rw [hfty] at hg
  obtain ⟨b, c, _, _, _, f4, f5⟩ := hf
  obtain ⟨b', c', _, _, _, g4, g5⟩ := hg
  have he := H.ofd
  rw [ho] at he
  simp only [ofFd, object, hfy, hfty, f4, g4, List.headD_cons] at he
  injection he with _ _ e3 e4 e5 _
  rw [f5, g5, e3, e4, e5]

/-- a member changes that means nothing for the type -/
theorem leaf_ok {idx data d : Nat} {fd : Fd} (H : Open mem tds U root st ks obj O S idx data fd) (f : Info → Info)
    (h1 : fd.ty ≠ .pointer) (h2 : fd.ty ≠ .string) (hc : components tds (obj idx) = [])
    (hf : ∀ x, (f x).addr = x.addr ∧ (f x).fd = x.fd ∧ (f x).size = x.size ∧ (f x).opq = x.opq ∧ (f x).nextUntyped = x.nextUntyped ∧ (f x).unnamed = x.unnamed)
    (ha : fd.ty = .enum → ∀ x, typeSize x.aux ≤ elementSize tds .enum (obj idx).td → typeSize (f x).aux ≤ elementSize tds .enum (obj idx).td)
    (hb : fd.ty = .bitfield → ∀ x, (f x).aux = x.aux)
    (hz : ∀ x, (f x).null = true → x.null = true ∨ (fd.ty = .func ∨ fd.ty = .funcType) ∧ mem.ptr data = 0)
    (hw : fd.ty = .func ∨ fd.ty = .funcType → (∀ x, (f x).null = true) ∧ mem.ptr data = 0) :
    ∃ st', updInfo st idx f = some st' ∧ ∃ ks' obj' O', Done mem tds U root d st st' ks obj O S idx ks' obj' O' := by
  obtain ⟨st', e1, e2, e3, e4, e5⟩ := updInfo_ok st idx f (by rw [H.inv.len]; exact H.i2)
  have hs := H.inv.inv.seen idx H.i1 H.i2
  have hty := obj_ty H
  obtain ⟨f1, f2, f3, f4, f5, f6⟩ := hf (ni st.info idx)
  have hpl : ptrLike (obj idx).ty = false := by simp [ptrLike, hty, h1, h2]
  have hx : Seen mem tds (nd st.ptrs.ra idx) (f (ni st.info idx)) (obj idx) (S idx) := by
    refine ⟨by rw [f1]; exact hs.addr, hs.ty, hs.ok, hs.norm, fun h => absurd h (by rw [hty]; exact h1), by rw [f2]; exact hs.td,
      by rw [f3]; exact hs.size, hs.cref, by rw [f2]; exact hs.np, by rw [f4]; exact hs.opq, fun h => absurd H.stack h, fun h => absurd H.stack h,
      fun he => by have h1 := hs.eaux he; rw [he] at h1 ⊢; exact ha (by rw [← hty]; exact he) _ h1,
      fun g1 g2 g3 => (hz _ g3).elim (hs.unset g1 g2) (fun h => by rw [hty, obj_addr H]; exact h)⟩
  obtain ⟨hI, hA⟩ := simple_ok H e2 e3 e4 e5 hx f5 (fun _ => f3) (fun h => hb (by rw [← hty]; exact h) _) f2 f6 (filled_leaf H hpl hc)
  refine ⟨st', e1, ks, obj, _, hI, hA, updF_same _ _ _, ?_, ?_, ?_, fun _ => rfl⟩
  · rintro ((h | h) | h)
    · exact absurd h (by rw [hty]; exact h2)
    · exact absurd h.1 (by rw [hty]; exact h1)
    · obtain ⟨w1, w2⟩ := hw (by rw [← hty]; exact h)
      rw [e5, updF_same, w1, obj_addr H, w2]
      simp
  · intro h; exact absurd h (by rw [hty]; exact h1)
  · rw [e2]; omega

/-- nothing to do -/
theorem nothing_ok {idx data d : Nat} {fd : Fd} (H : Open mem tds U root st ks obj O S idx data fd)
    (h1 : fd.ty ≠ .pointer) (h2 : fd.ty ≠ .string) (hc : components tds (obj idx) = []) (hz : fd.ty = .func ∨ fd.ty = .funcType → mem.ptr data ≠ 0) :
    ∃ ks' obj' O', Done mem tds U root d st st ks obj O S idx ks' obj' O' := by
  have hs := H.inv.inv.seen idx H.i1 H.i2
  have hty := obj_ty H
  have hpl : ptrLike (obj idx).ty = false := by simp [ptrLike, hty, h1, h2]
  obtain ⟨hI, hA⟩ := simple_ok H (st' := st) rfl rfl rfl (updF_self _ _).symm hs rfl (fun _ => rfl) (fun _ => rfl) rfl rfl (filled_leaf H hpl hc)
  refine ⟨ks, obj, _, hI, hA, updF_same _ _ _, ?_, ?_, by omega, fun _ => rfl⟩
  · rintro ((h | h) | h)
    · exact absurd h (by rw [hty]; exact h2)
    · exact absurd h.1 (by rw [hty]; exact h1)
    · rw [H.null, obj_addr H]
      simp [hz (by rw [← hty]; exact h)]
  · intro h; exact absurd h (by rw [hty]; exact h1)

theorem target_null {o : Obj} (h : mem.ptr o.addr = 0) : target mem tds o = none := by
  unfold target
  split
  · simp [h]
  · simp [h]
  · rfl

theorem null_ok {idx data d : Nat} {fd : Fd} (H : Open mem tds U root st ks obj O S idx data fd)
    (hpl : ptrLike fd.ty = true) (hnull : mem.ptr data = 0) :
    ∃ st', updInfo st idx (fun n => { n with null := true }) = some st' ∧ ∃ ks' obj' O', Done mem tds U root d st st' ks obj O S idx ks' obj' O' := by
  obtain ⟨st', e1, e2, e3, e4, e5⟩ := updInfo_ok st idx (fun n => { n with null := true }) (by rw [H.inv.len]; exact H.i2)
  have hs := H.inv.inv.seen idx H.i1 H.i2
  have hty := obj_ty H
  have haddr := obj_addr H
  have hpl' : ptrLike (obj idx).ty = true := by rw [hty]; exact hpl
  have htn : target mem tds (obj idx) = none := target_null (by rw [haddr]; exact hnull)
  have hx : Seen mem tds (nd st.ptrs.ra idx) { ni st.info idx with null := true } (obj idx) (S idx) :=
    ⟨hs.addr, hs.ty, hs.ok, hs.norm, hs.aux, hs.td, hs.size, hs.cref, hs.np, hs.opq, fun h => absurd H.stack h, fun h => absurd H.stack h, hs.eaux,
      fun g1 g2 => by simp [ptrLike, g1, g2] at hpl'⟩
  obtain ⟨hI, hA⟩ := simple_ok H e2 e3 e4 e5 hx rfl (fun _ => rfl) (fun _ => rfl) rfl rfl (filled_pointer H hpl' (Or.inr htn))
  refine ⟨st', e1, ks, obj, _, hI, hA, updF_same _ _ _, ?_, ?_, ?_, fun _ => rfl⟩
  · intro _
    rw [e5, updF_same, haddr]
    simp [hnull]
  · intro _ _ h
    rw [haddr] at h
    exact absurd hnull h
  · rw [e2]; omega

theorem pointer_ok (hT : Types tds) {idx data d parent : Nat} {fd : Fd} (H : Open mem tds U root st ks obj O S idx data fd) (hfty : fd.ty = .pointer) :
    ∃ st', savePointer mem tds st idx data parent fd = some (st', 1) ∧ ∃ ks' obj' O', Done mem tds U root d st st' ks obj O S idx ks' obj' O' := by
  unfold savePointer
  by_cases hnull : mem.ptr data = 0
  · rw [if_pos hnull]
    obtain ⟨st', e1, e2⟩ := null_ok (d := d) H (by simp [ptrLike, hfty]) hnull
    exact ⟨st', by rw [e1]; rfl, e2⟩
  · rw [if_neg hnull]
    have hsf := H.ok.1
    have hop := H.ok.2.1
    have hps : pointerSize mem st fd parent (elementSize tds fd.aux fd.td) = some (elementSize tds fd.aux fd.td) := by
      unfold pointerSize sizeValue
      rw [hsf]; rfl
    simp only [Option.bind_eq_bind, hps, Option.bind_some, hop]
    generalize hel : elementSize tds fd.aux fd.td = elem
    obtain ⟨st', e1, e2, e3, e4, e5⟩ := updInfo_ok st idx (fun n => { n with size := elem, opq := (false && elem != 0), null := (false && elem == 0) || (!(false && elem != 0) && (elem == 0 || decide (elem < elem))) }) (by rw [H.inv.len]; exact H.i2)
    have hs := H.inv.inv.seen idx H.i1 H.i2
    have hty := obj_ty H
    have haddr := obj_addr H
    have hpl : ptrLike (obj idx).ty = true := by rw [hty, hfty]; rfl
    have hnp : plain (obj idx).ty = false := by rw [hty, hfty]; rfl
    have hx : Seen mem tds (nd st.ptrs.ra idx) { ni st.info idx with size := elem, opq := (false && elem != 0), null := (false && elem == 0) || (!(false && elem != 0) && (elem == 0 || decide (elem < elem))) } (obj idx) (S idx) :=
      ⟨hs.addr, hs.ty, hs.ok, hs.norm, hs.aux, hs.td, (by intro h; rw [hnp] at h; cases h), hs.cref, hs.np, by simp,
        fun h => absurd H.stack h, fun h => absurd H.stack h, hs.eaux, fun _ h => absurd (by rw [hty, hfty]) h⟩
    obtain ⟨hI, hA⟩ := simple_ok H e2 e3 e4 e5 hx rfl (fun h => absurd (by rw [hty, hfty]) h) (fun _ => rfl) rfl rfl (filled_pointer H hpl (Or.inl (by rw [hty, hfty])))
    have haux : (obj idx).aux = fd.aux := by
      rw [← H.ofd]
      simp only [ofFd, object, hfty]
      split <;> rfl
    refine ⟨st', by rw [e1]; rfl, ks, obj, _, hI, hA, updF_same _ _ _, ?_, ?_, ?_, fun _ => rfl⟩
    · intro h
      have haux2 : fd.aux ≠ .none := by
        rcases h with (h | h) | h
        · rw [hty, hfty] at h; cases h
        · rw [← haux]; exact h.2
        · rw [hty, hfty] at h; rcases h with h | h <;> cases h
      have hpos : 0 < elem := by
        rw [← hel]
        have hok := H.ok.2.2.2
        rw [hfty] at hok
        simp only at hok
        rcases hok with h | ⟨b, h1, h2, _⟩
        · have : fd.aux = .void := by
            simp only [untyped, Bool.or_eq_true, decide_eq_true_eq] at h
            rcases h with h | h
            · exact h
            · exact absurd h haux2
          rw [this]; simp [elementSize, typeSize]
        · exact elementSize_leads hT h1 h2
      rw [e5, updF_same, haddr]
      have : elem ≠ 0 := by omega
      simp [hnull, this]
    · intro _ hu _
      rw [e5, updF_same, haux]
      have htd : (obj idx).td = fd.td := by
        rw [haux] at hu
        rw [← H.ofd]
        simp [ofFd, object, hfty, hu]
      rw [htd]
      exact hel.symm
    · rw [e2]; omega

theorem string_ok {rk : Nat → Nat} {d : Nat} {inner : St → Nat → Fd → Nat → Nat → Option (St × Nat)} (hin : InnerOK mem tds U root rk d inner)
    {idx data : Nat} {fd : Fd} (H : Open mem tds U root st ks obj O S idx data fd) (hfty : fd.ty = .string) (hnn : mem.ptr data ≠ 0) (hd : 1 ≤ d) :
    ∃ st', inner st (mem.ptr data) { fd with nonPersistent := true, ty := .charArray, size := 1 } 1 idx = some (st', 1) ∧
      ∃ ks' obj' O', Done mem tds U root d st st' ks obj O S idx ks' obj' O' := by
  have hty := obj_ty H
  have haddr := obj_addr H
  have hi2 := H.i2
  have hnil := open_nil H
  have hpl : ptrLike (obj idx).ty = true := by rw [hty, hfty]; rfl
  have htn : target mem tds (obj idx) = some { addr := mem.ptr data, ty := .charArray } := by
    simp [target, hty, hfty, haddr, hnn]
  have C : Call mem tds U root st ks obj O S (mem.ptr data) { fd with nonPersistent := true, ty := .charArray, size := 1 } 1 idx 0 { addr := mem.ptr data, ty := .charArray } := by
    refine ⟨H.inv, H.i1, H.i2, H.status, ?_, rfl, ?_, Nat.le_refl 1, fun _ => rfl, ?_, ?_, ?_, ?_, ?_, (fun h => by rw [hty, hfty] at h; cases h), fun _ => Or.inr (by rw [hty, hfty])⟩
    · unfold slot
      rw [if_pos hpl, if_pos rfl]
      exact htn
    · exact ⟨H.ok.1, H.ok.2.1, by simp [plain], trivial⟩
    · intro h; rw [hty, hfty] at h; cases h
    · intro _; rw [hty, hfty]; simp
    · intro h; cases h
    · intro z hz; rw [hnil] at hz; cases hz
    · rw [H.lc]; exact ⟨H.i1, H.i2⟩
  obtain ⟨st', ks', obj', O', e1, e2, e3, e4⟩ := hin _ _ _ _ _ _ _ _ _ _ _ C (by simp only [need]; exact hd)
  have hA := acc_post (acc_refl H.i1 H.i2 H.lc hnil) H.i2 e3 e2 (by rw [hty, hfty]; simp) (by
    intro _
    rw [H.lc]
    exact ⟨Anc.self, hnil⟩)
  refine ⟨st', e1, ks', obj', O', e2, hA, ?_, ?_, ?_, ?_, ?_⟩
  · rw [e3.statP, pend_none (by rw [hty, hfty]; simp)]
    simp [adv, hpl]
  · intro _
    rw [e3.nulls idx H.i2, H.null, haddr]
    simp [hnn]
  · intro h; rw [hty, hfty] at h; cases h
  · rw [if_pos (by rw [hty, hfty])]
    have := cnt_leaf (tds := tds) (o := { addr := mem.ptr data, ty := .charArray }) rfl (by simp) d
    omega
  · intro h; rw [hty, hfty] at h; cases h

theorem struct_ok (hT : Types tds) {rk : Nat → Nat} (hrk : Nested tds rk) {d : Nat} {inner : St → Nat → Fd → Nat → Nat → Option (St × Nat)} (hin : InnerOK mem tds U root rk d inner)
    {idx data : Nat} {fd : Fd} (H : Open mem tds U root st ks obj O S idx data fd) (hfty : fd.ty = .struct) (hneed : need rk (obj idx) ≤ d + 1) :
    ∃ t dd st', fd.td = some t ∧ tds[t]? = some dd ∧ saveFields inner data idx dd.fields st = some (st', 1) ∧
      ∃ ks' obj' O', Done mem tds U root d st st' ks obj O S idx ks' obj' O' := by
  have hty := obj_ty H
  have haddr := obj_addr H
  have hs := H.inv.inv.seen idx H.i1 H.i2
  have hok := H.ok.2.2.2
  rw [hfty] at hok
  obtain ⟨t, dd, h1, h2, h3⟩ := hok
  have htd : (obj idx).td = some t := by
    rw [← H.ofd]
    simp [ofFd, object, hfty, h1]
  have hL : LoopInv mem tds U root d st ks obj O S idx 0 st :=
    ⟨ks, obj, O, H.inv, acc_refl H.i1 H.i2 H.lc (open_nil H), H.status, by simp⟩
  obtain ⟨st', e1, e2⟩ := saveFields_ok hT hin H.i1 H.i2 (by rw [hty, hfty]) htd h2 h3 (by
    intro c hc
    have := need_component hT hrk hs.ok hc
    omega) dd.fields 0 rfl (Nat.zero_le _) st hL
  rw [haddr] at e1
  exact ⟨t, dd, st', h1, h2, e1, loop_done H e2 (Or.inl (by rw [hty, hfty]))⟩

theorem ofFd_element {tds : List Td} {fd : Fd} {b : MrType} {c a : Nat} (h1 : HasTd tds fd.td b) (hl : Leads fd.aux b) (hb : fd.base = b) (hd : fd.dims = [c]) :
    ofFd a (elementFd fd c) = object a fd.aux (tyOf tds fd.td) fd.td 0 0 ∧ (elementFd fd c).ty ≠ .array := by
  have he : elementFd fd c = { fd with nonPersistent := true, unnamed := true, offset := 0, size := fd.size / c, ty := fd.aux, aux := fd.base } := by
    simp [elementFd, hd]
  rw [he]
  simp only [ofFd, tyOf_has h1, hb]
  rcases hl with ⟨h2, h3⟩ | ⟨h2, _⟩
  · rw [h2]
    cases b <;> simp [plain] at h3 <;> simp [object]
  · rw [h2]
    simp [object]

theorem fdOK_element {fd : Fd} {b : MrType} {c : Nat} (hf : FdOK tds fd) (h1 : HasTd tds fd.td b) (hl : Leads fd.aux b) (hb : fd.base = b) (hd : fd.dims = [c])
    (hc : c ≠ 0) (hz : fd.size = c * elementSize tds fd.aux fd.td) : FdOK tds (elementFd fd c) := by
  have he : elementFd fd c = { fd with nonPersistent := true, unnamed := true, offset := 0, size := fd.size / c, ty := fd.aux, aux := fd.base } := by
    simp [elementFd, hd]
  rw [he]
  refine ⟨hf.1, hf.2.1, ?_, ?_⟩
  · intro _
    show fd.size / c = elementSize tds fd.aux fd.td
    rw [hz, Nat.mul_comm, Nat.mul_div_cancel _ (by omega)]
  · show match fd.aux with
      | .struct => HasTd tds fd.td .struct
      | .enum => HasTd tds fd.td .enum ∧ typeSize fd.base ≤ fd.size / c
      | .pointer => untyped fd.base = true ∨ ∃ b, HasTd tds fd.td b ∧ Leads fd.base b ∧ (true = false → fd.base = b)
      | .array => _
      | .union | .anonUnion | .namedAnonUnion => False
      | _ => True
    rcases hl with ⟨h2, h3⟩ | ⟨h2, h3⟩
    · rw [h2]
      cases b <;> simp [plain] at h3 <;> first | trivial | exact h1 | exact ⟨h1, by rw [hb]; exact Nat.zero_le _⟩
    · rw [h2]
      simp only
      rcases h3 with h3 | h3
      · exact Or.inr ⟨b, h1, Or.inl ⟨hb, h3⟩, fun h => absurd h (by simp)⟩
      · exact Or.inl (by rw [hb]; exact h3)

theorem array_ok (hT : Types tds) {rk : Nat → Nat} (hrk : Nested tds rk) {d : Nat} {inner : St → Nat → Fd → Nat → Nat → Option (St × Nat)} (hin : InnerOK mem tds U root rk d inner)
    {idx data parent : Nat} {fd : Fd} (H : Open mem tds U root st ks obj O S idx data fd) (hfty : fd.ty = .array) (hneed : need rk (obj idx) ≤ d + 1) :
    ∃ st', saveArray mem inner st idx data parent fd = some (st', 1) ∧
      ∃ ks' obj' O', Done mem tds U root d st st' ks obj O S idx ks' obj' O' := by
  have hty := obj_ty H
  have haddr := obj_addr H
  have hs := H.inv.inv.seen idx H.i1 H.i2
  have hok := H.ok.2.2.2
  rw [hfty] at hok
  obtain ⟨b, c, h1, h2, h3, h4, h5⟩ := hok
  have hobj : obj idx = { addr := data, ty := .array, td := fd.td, aux := fd.aux, count := c, step := fd.size / c } := by
    rw [← H.ofd]
    simp [ofFd, object, hfty, h4]
  have hcl : (components tds (obj idx)).length = c := by
    rw [hobj]; simp [components]
  unfold saveArray
  rw [h4]
  simp only [List.getElem?_cons_zero, Option.bind_eq_bind, Option.bind_some]
  by_cases hc : c = 0
  · rw [if_pos hc]
    exact ⟨st, rfl, nothing_ok H (by rw [hfty]; simp) (by rw [hfty]; simp) (List.length_eq_zero_iff.1 (by omega)) (fun h => by rw [hfty] at h; rcases h with h | h <;> cases h)⟩
  · rw [if_neg hc]
    have hep := elementSize_leads hT h1 h2
    have hsz : fd.size ≠ 0 := by
      rw [h5]
      intro h
      rcases Nat.mul_eq_zero.1 h with h | h <;> omega
    rw [if_neg hsz]
    have hac : arrayCount mem st fd parent c (elementFd fd c).size = some c := by
      unfold arrayCount
      split
      · rfl
      · unfold sizeValue
        rw [H.ok.1]; rfl
    simp only [List.length_cons, List.length_nil, Nat.zero_add, if_true, hac, Option.bind_some, true_and]
    obtain ⟨he1, he2⟩ := ofFd_element (a := 0) h1 h2 h3 h4
    have hefd := fdOK_element H.ok h1 h2 h3 h4 hc h5
    have hes : (elementFd fd c).size = fd.size / c := by simp [elementFd, h4]
    have hcomp : ∀ k, k < (components tds (obj idx)).length → (components tds (obj idx))[k]? = some (ofFd (data + k * (elementFd fd c).size) (elementFd fd c)) := by
      intro k hk
      rw [hcl] at hk
      rw [(ofFd_element h1 h2 h3 h4).1, hobj, hes]
      simp [components, List.getElem?_map, hk]
    -- the size member
    have hsize : ∃ st1, (if fd.nonPersistent = false then updInfo st idx fun i => { i with size := c * (elementFd fd c).size } else some st) = some st1 ∧
        Open mem tds U root st1 ks obj O S idx data fd ∧ st1.ptrs = st.ptrs ∧ (∀ j, (ni st1.info j).null = (ni st.info j).null) := by
      by_cases hnp : fd.nonPersistent = false
      · rw [if_pos hnp]
        obtain ⟨st1, e1, e2, e3, e4, e5⟩ := updInfo_ok st idx (fun i => { i with size := c * (elementFd fd c).size }) (by rw [H.inv.len]; exact H.i2)
        have hpn : plain (obj idx).ty = false := by rw [hty, hfty]; rfl
        have hx : Seen mem tds (nd st.ptrs.ra idx) { ni st.info idx with size := c * (elementFd fd c).size } (obj idx) (S idx) :=
          ⟨hs.addr, hs.ty, hs.ok, hs.norm, hs.aux, hs.td, (by intro h; rw [hpn] at h; cases h), hs.cref, hs.np, hs.opq,
            fun h => absurd H.stack h, fun h => absurd H.stack h, hs.eaux, hs.unset⟩
        have hn : ∀ j, (ni st1.info j).null = (ni st.info j).null := by
          intro j
          rw [e5]
          unfold updF
          by_cases hj : j = idx
          · subst hj; simp
          · simp [hj]
        refine ⟨st1, e1, ⟨⟨by rw [e4, e2]; exact H.inv.len, ?_⟩, H.i1, by rw [e2]; exact H.i2, H.status, H.ofd, H.ok, H.stack, by rw [e2]; exact H.lc, by rw [hn]; exact H.null⟩, e2, hn⟩
        rw [e2, e3, e5]
        refine inv_info H.inv.inv hx rfl (fun h => by rw [hpn] at h; cases h) (fun _ _ => rfl) ?_ rfl
        intro p j f g1 g2 g3 g4 g5
        refine ⟨fun _ => ?_, (H.inv.inv.fixed p g1 g2 g3 j idx f g4 g5).2⟩
        show c * (elementFd fd c).size = f.size
        rw [member_size hT H hfty g1 g2 g3 g4 g5, hes, h5, Nat.mul_div_cancel_left _ (by omega)]
      · rw [if_neg hnp]
        exact ⟨st, rfl, H, rfl, fun _ => rfl⟩
    obtain ⟨st1, f1, H1, f2, f3⟩ := hsize
    have hL : LoopInv mem tds U root d st1 ks obj O S idx 0 st1 :=
      ⟨ks, obj, O, H1.inv, acc_refl H1.i1 H1.i2 H1.lc (open_nil H1), H1.status, by simp⟩
    obtain ⟨st', e1, e2⟩ := saveElements_ok hin H1.i1 H1.i2 (by rw [hty, hfty]) hefd (by simp [elementFd, h4]) (by simp [elementFd, h4]) he2 hcomp (by
      intro o ho
      have := need_component hT hrk hs.ok ho
      omega) (c + 1) 0 (Nat.zero_le _) (by omega) st1 hL
    rw [hcl] at e1
    obtain ⟨ks', obj', O', D⟩ := loop_done H1 e2 (Or.inr (by rw [hty, hfty]))
    refine ⟨st', ?_, ks', obj', O', ?_⟩
    · rw [f1]
      simp only [Option.bind_some, e1]
      simp [hc]
    · have A := D.acc
      refine ⟨D.inv, ⟨?_, ?_, ?_, ?_, A.lc, A.anc, A.last, ?_, ?_, by rw [← f2]; exact A.keep⟩, D.status, D.null, D.psize, ?_, ?_⟩
      · rw [← f2]; exact A.grow
      · rw [← f2]; exact A.objs
      · rw [← f2]; exact A.stat
      · rw [← f2]; exact A.news
      · rw [← f2]; exact A.frame
      · intro j h1 h2
        rw [← f3 j]
        exact A.nulls j (by rw [f2]; exact h1) h2
      · rw [← f2]; exact D.count
      · intro h; rw [hty, hfty] at h; cases h

theorem handler_ok (hT : Types tds) {rk : Nat → Nat} (hrk : Nested tds rk) {d : Nat} {inner : St → Nat → Fd → Nat → Nat → Option (St × Nat)} (hin : InnerOK mem tds U root rk d inner)
    {idx data parent : Nat} {fd : Fd} (H : Open mem tds U root st ks obj O S idx data fd) (hneed : need rk (obj idx) ≤ d + 1) :
    ∃ st', handler mem tds inner st idx data parent fd = some (st', 1) ∧
      ∃ ks' obj' O', Done mem tds U root d st st' ks obj O S idx ks' obj' O' := by
  have hty := obj_ty H
  have haddr := obj_addr H
  have hleaf : fd.ty ≠ .struct → fd.ty ≠ .array → components tds (obj idx) = [] := by
    intro h1 h2
    unfold components
    rw [hty]
    split
    · rename_i h; exact absurd h h1
    · rename_i h; exact absurd h h2
    · rfl
  unfold handler
  split
  · rename_i hf
    have hc := hleaf (by rw [hf]; simp) (by rw [hf]; simp)
    by_cases hn : mem.ptr data = 0
    · rw [if_pos hn]
      obtain ⟨st', e1, e2⟩ := leaf_ok (d := d) H (fun n => { n with null := true }) (by rw [hf]; simp) (by rw [hf]; simp) hc (fun x => ⟨rfl, rfl, rfl, rfl, rfl, rfl⟩) (fun _ _ h => h) (fun _ _ => rfl)
        (fun _ _ => Or.inr ⟨by simp [hf], hn⟩) (fun _ => ⟨fun _ => rfl, hn⟩)
      exact ⟨st', by rw [e1]; rfl, e2⟩
    · rw [if_neg hn]
      exact ⟨st, rfl, nothing_ok H (by rw [hf]; simp) (by rw [hf]; simp) hc (fun _ => hn)⟩
  · rename_i hf
    have hc := hleaf (by rw [hf]; simp) (by rw [hf]; simp)
    by_cases hn : mem.ptr data = 0
    · rw [if_pos hn]
      obtain ⟨st', e1, e2⟩ := leaf_ok (d := d) H (fun n => { n with null := true }) (by rw [hf]; simp) (by rw [hf]; simp) hc (fun x => ⟨rfl, rfl, rfl, rfl, rfl, rfl⟩) (fun _ _ h => h) (fun _ _ => rfl)
        (fun _ _ => Or.inr ⟨by simp [hf], hn⟩) (fun _ => ⟨fun _ => rfl, hn⟩)
      exact ⟨st', by rw [e1]; rfl, e2⟩
    · rw [if_neg hn]
      exact ⟨st, rfl, nothing_ok H (by rw [hf]; simp) (by rw [hf]; simp) hc (fun _ => hn)⟩
  · rename_i hf
    by_cases hn : mem.ptr data = 0
    · rw [if_pos hn]
      obtain ⟨st', e1, e2⟩ := null_ok (d := d) H (by simp [ptrLike, hf]) hn
      exact ⟨st', by rw [e1]; rfl, e2⟩
    · rw [if_neg hn]
      have : need rk (obj idx) = 2 := by simp [need, hty, hf]
      exact string_ok hin H hf hn (by omega)
  · rename_i hf
    have hc := hleaf (by rw [hf]; simp) (by rw [hf]; simp)
    obtain ⟨st', e1, e2⟩ := leaf_ok (d := d) H (fun n => if intType n.aux then n else { n with aux := effectiveType tds fd.td }) (by rw [hf]; simp) (by rw [hf]; simp) hc
      (fun x => by split <;> exact ⟨rfl, rfl, rfl, rfl, rfl, rfl⟩) (by
        intro _ x hx
        split
        · exact hx
        · have hok := H.ok.2.2.2
          rw [hf] at hok
          obtain ⟨⟨t, dd, h1, h2, h3⟩, _⟩ := hok
          have ho : (obj idx).td = fd.td := by rw [← H.ofd]; simp [ofFd, object, hf]
          rw [ho, h1]
          simpa [effectiveType, elementSize, typeSize, h2] using hT.enums t dd h2 h3) (fun h => by rw [hf] at h; cases h)
      (fun x h => Or.inl (by split at h <;> exact h)) (fun h => by rw [hf] at h; rcases h with h | h <;> cases h)
    refine ⟨st', ?_, e2⟩
    unfold saveEnum
    rw [e1]; rfl
  · rename_i hf
    obtain ⟨t, dd, st', h1, h2, h3, h4⟩ := struct_ok hT hrk hin H hf hneed
    exact ⟨st', by rw [h1]; simp [h2, h3], h4⟩
  · rename_i hf
    exact array_ok hT hrk hin H hf hneed
  · rename_i hf
    exact pointer_ok hT H hf
  all_goals try
    (rename_i hf
     have hok := H.ok.2.2.2
     rw [hf] at hok
     exact False.elim hok)
  · rename_i h1 h2 h3 h4 h5 h6 h7 h8 h9 h10
    exact ⟨st, rfl, nothing_ok H h7 h3 (hleaf h5 h6) (fun h => by rcases h with h | h <;> contradiction)⟩

end Verif.Lemmas.SaveInner
