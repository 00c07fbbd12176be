import Verif.Lemmas.SimResolve
/-!
`mr_save_inner` does the same in two runs.
-/
namespace Verif.Lemmas.SimInner
open Verif.Model Verif.Model.Ptrs Verif.Model.Save Verif.Spec.Ptrs Verif.Spec.Save Verif.Spec.Copy Verif.Lemmas.SaveTree Verif.Lemmas.SaveInv Verif.Lemmas.SaveStep
  Verif.Lemmas.SaveRun Verif.Lemmas.SaveResolve Verif.Lemmas.SaveHandler Verif.Lemmas.SaveInner Verif.Lemmas.SaveMain Verif.Lemmas.SimTwin Verif.Lemmas.SimObj Verif.Lemmas.SimResolve

variable {mem mem' : Mem} {tds : List Td} {U U' : Prop} {root root' : Obj} {pl : Obj → Nat}
variable {st st' : St} {ks ks' : Nat → List Nat} {obj obj' : Nat → Obj} {O O' : Nat → Option Nat} {S S' : Nat → Prop}

abbrev Inner := St → Nat → Fd → Nat → Nat → Option (St × Nat)

/-- the two functions do the same for objects of depth up to `d` -/
def SimOK (mem mem' : Mem) (tds : List Td) (U U' : Prop) (root root' : Obj) (rk : Nat → Nat) (d : Nat) (inner inner' : Inner) : Prop :=
  ∀ (st st' : St) (ks ks' : Nat → List Nat) (obj obj' : Nat → Obj) (O O' : Nat → Option Nat) (S S' : Nat → Prop) (data data' : Nat) (fd : Fd) (count p k k' : Nat) (o o' : Obj),
    Call mem tds U root st ks obj O S data fd count p k o → Call mem' tds U' root' st' ks' obj' O' S' data' fd count p k' o' → Twin st st' → need rk o ≤ d →
    ∀ s s', inner st data fd count p = some (s, 1) → inner' st' data' fd count p = some (s', 1) → Twin s s'

theorem loop_call {d : Nat} {st1 : St} {ks1 : Nat → List Nat} {obj1 : Nat → Obj} {O1 : Nat → Option Nat} {idx k : Nat} (h : LoopInv mem tds U root d st1 ks1 obj1 O1 S idx k st)
    (h1 : 1 ≤ idx) (h2 : idx < st1.ptrs.ra.length) (hty : (obj1 idx).ty = .struct ∨ (obj1 idx).ty = .array) {c : Obj} (hc : (components tds (obj1 idx))[k]? = some c)
    {data count : Nat} {fd : Fd} (hofd : ofFd data fd = c) (hok : FdOK tds fd) (hcount : 1 ≤ count) (hnp : fd.nonPersistent = true → (obj1 idx).ty ≠ .struct)
    (harr : fd.ty = .array → fd.nonPersistent = false)
    (hnm : (obj1 idx).ty = .struct → (members tds (obj1 idx))[k]? = some fd ∧ count = 1) (hun : fd.unnamed = false → (obj1 idx).ty = .struct) :
    ∃ ks obj O, Call mem tds U root st ks obj O S data fd count idx k c := by
  obtain ⟨ks, obj, O, hI, hA, hO, hlen⟩ := h
  have ho := hA.objs idx h2
  have hg := hA.grow
  have hnp' : (obj idx).ty ≠ .pointer := by rw [ho]; rcases hty with h | h <;> rw [h] <;> simp
  have hns' : (obj idx).ty ≠ .string := by rw [ho]; rcases hty with h | h <;> rw [h] <;> simp
  have hpl : ptrLike (obj idx).ty = false := by simp [ptrLike, hnp', hns']
  have hslot : slot mem tds (obj idx) k = some c := by
    unfold slot
    rw [if_neg (by simp [hpl]), ho]
    exact hc
  exact ⟨ks, obj, O, hI, h1, by omega, hO, hslot, hofd, hok, hcount, fun h => absurd h hnp', fun h => absurd h hnp', by rw [ho]; exact hnp, harr, hA.last, hA.lc, by rw [ho]; exact hnm, fun h => Or.inl (by rw [ho]; exact hun h)⟩

section
variable {rk : Nat → Nat} {d : Nat} {inner inner' : Inner}
variable {st1 st1' : St} {ks1 ks1' : Nat → List Nat} {obj1 obj1' : Nat → Obj} {O1 O1' : Nat → Option Nat} {idx : Nat}

theorem saveFields_sim (hT : Types tds) (hin : InnerOK mem tds U root rk d inner) (hin' : InnerOK mem' tds U' root' rk d inner')
    (hsim : SimOK mem mem' tds U U' root root' rk d inner inner') (h1 : 1 ≤ idx) (h2 : idx < st1.ptrs.ra.length) (h2' : idx < st1'.ptrs.ra.length)
    (hty : (obj1 idx).ty = .struct) (hty' : (obj1' idx).ty = .struct) {t : Nat} {dd : Td} (htd : (obj1 idx).td = some t) (htd' : (obj1' idx).td = some t)
    (hdd : tds[t]? = some dd) (hdt : dd.ty = .struct)
    (hneed : ∀ c ∈ components tds (obj1 idx), need rk c ≤ d) (hneed' : ∀ c ∈ components tds (obj1' idx), need rk c ≤ d)
    (fs : List Fd) (k : Nat) (hfs : dd.fields.drop k = fs) (hk : k ≤ dd.fields.length) (st st' : St)
    (h : LoopInv mem tds U root d st1 ks1 obj1 O1 S idx k st) (h' : LoopInv mem' tds U' root' d st1' ks1' obj1' O1' S' idx k st') (ht : Twin st st')
    {s s' : St} (e : saveFields inner (obj1 idx).addr idx fs st = some (s, 1)) (e' : saveFields inner' (obj1' idx).addr idx fs st' = some (s', 1)) : Twin s s' := by
  have hcomp : components tds (obj1 idx) = dd.fields.map fun f => ofFd ((obj1 idx).addr + f.offset) f := by
    simp [components, hty, htd, hdd]
  have hcomp' : components tds (obj1' idx) = dd.fields.map fun f => ofFd ((obj1' idx).addr + f.offset) f := by
    simp [components, hty', htd', hdd]
  induction fs generalizing k st st' with
  | nil =>
    cases e; cases e'
    exact ht
  | cons f fs ih =>
    have hf : dd.fields[k]? = some f := by
      have := congrArg (fun l : List Fd => l[0]?) hfs
      simpa using this
    have hlt : k < dd.fields.length := (List.getElem?_eq_some_iff.1 hf).1
    have hc : (components tds (obj1 idx))[k]? = some (ofFd ((obj1 idx).addr + f.offset) f) := by
      rw [hcomp, List.getElem?_map, hf]; rfl
    have hc' : (components tds (obj1' idx))[k]? = some (ofFd ((obj1' idx).addr + f.offset) f) := by
      rw [hcomp', List.getElem?_map, hf]; rfl
    obtain ⟨hok, hper⟩ := hT.fields t dd hdd hdt f (List.mem_of_getElem? hf)
    obtain ⟨t1, a1, a2⟩ := loop_step hin h h1 h2 (Or.inl hty) hc rfl hok (Nat.le_refl 1) (by intro h; rw [hper] at h; cases h) (fun _ => hper)
      (hneed _ (List.mem_of_getElem? hc)) (fun _ => ⟨by simp [members, htd, hdd, hf], rfl⟩) (fun _ => hty)
    obtain ⟨t1', b1, b2⟩ := loop_step hin' h' h1 h2' (Or.inl hty') hc' rfl hok (Nat.le_refl 1) (by intro h; rw [hper] at h; cases h) (fun _ => hper)
      (hneed' _ (List.mem_of_getElem? hc')) (fun _ => ⟨by simp [members, htd', hdd, hf], rfl⟩) (fun _ => hty')
    obtain ⟨_, _, _, C⟩ := loop_call h h1 h2 (Or.inl hty) hc rfl hok (Nat.le_refl 1) (by intro h; rw [hper] at h; cases h) (fun _ => hper)
      (fun _ => ⟨by simp [members, htd, hdd, hf], rfl⟩) (fun _ => hty)
    obtain ⟨_, _, _, C'⟩ := loop_call h' h1 h2' (Or.inl hty') hc' rfl hok (Nat.le_refl 1) (by intro h; rw [hper] at h; cases h) (fun _ => hper)
      (fun _ => ⟨by simp [members, htd', hdd, hf], rfl⟩) (fun _ => hty')
    have ht1 := hsim _ _ _ _ _ _ _ _ _ _ _ _ _ _ _ _ _ _ _ C C' ht (hneed _ (List.mem_of_getElem? hc)) _ _ a1 b1
    rw [saveFields, a1] at e
    rw [saveFields, b1] at e'
    simp only [Option.bind_eq_bind, Option.bind_some] at e e'
    exact ih (k + 1) (by
      have : dd.fields.drop (k + 1) = (dd.fields.drop k).drop 1 := by rw [List.drop_drop]
      rw [this, hfs]; rfl) hlt t1 t1' a2 b2 ht1 e e'

theorem saveElements_sim (hin : InnerOK mem tds U root rk d inner) (hin' : InnerOK mem' tds U' root' rk d inner')
    (hsim : SimOK mem mem' tds U U' root root' rk d inner inner') (h1 : 1 ≤ idx) (h2 : idx < st1.ptrs.ra.length) (h2' : idx < st1'.ptrs.ra.length)
    (hty : (obj1 idx).ty = .array) (hty' : (obj1' idx).ty = .array) {data data' : Nat} {efd : Fd} (hok : FdOK tds efd) (hnp : efd.nonPersistent = true) (heu : efd.unnamed = true) (hna : efd.ty ≠ .array)
    {c : Nat}
    (hcomp : ∀ k, k < c → (components tds (obj1 idx))[k]? = some (ofFd (data + k * efd.size) efd))
    (hcomp' : ∀ k, k < c → (components tds (obj1' idx))[k]? = some (ofFd (data' + k * efd.size) efd))
    (hneed : ∀ c ∈ components tds (obj1 idx), need rk c ≤ d) (hneed' : ∀ c ∈ components tds (obj1' idx), need rk c ≤ d) (fuel k : Nat) (st st' : St)
    (h : LoopInv mem tds U root d st1 ks1 obj1 O1 S idx k st) (h' : LoopInv mem' tds U' root' d st1' ks1' obj1' O1' S' idx k st') (ht : Twin st st')
    {s s' : St} {n n' : Nat} (e : saveElements inner data efd c idx fuel st k = some (s, n)) (e' : saveElements inner' data' efd c idx fuel st' k = some (s', n')) : Twin s s' := by
  induction fuel generalizing k st st' with
  | zero => cases e
  | succ fuel ih =>
    rw [saveElements] at e e'
    by_cases hlt : k < c
    · rw [if_pos hlt] at e e'
      have hc := hcomp k hlt
      have hc' := hcomp' k hlt
      obtain ⟨t1, a1, a2⟩ := loop_step hin h h1 h2 (Or.inr hty) hc rfl hok (count := c - k) (by omega)
        (by intro _; rw [hty]; simp) (fun h => absurd h hna) (hneed _ (List.mem_of_getElem? hc)) (fun h => by rw [hty] at h; cases h) (fun h => by rw [heu] at h; cases h)
      obtain ⟨t1', b1, b2⟩ := loop_step hin' h' h1 h2' (Or.inr hty') hc' rfl hok (count := c - k) (by omega)
        (by intro _; rw [hty']; simp) (fun h => absurd h hna) (hneed' _ (List.mem_of_getElem? hc')) (fun h => by rw [hty'] at h; cases h) (fun h => by rw [heu] at h; cases h)
      obtain ⟨_, _, _, C⟩ := loop_call h h1 h2 (Or.inr hty) hc rfl hok (count := c - k) (by omega)
        (by intro _; rw [hty]; simp) (fun h => absurd h hna) (fun h => by rw [hty] at h; cases h) (fun h => by rw [heu] at h; cases h)
      obtain ⟨_, _, _, C'⟩ := loop_call h' h1 h2' (Or.inr hty') hc' rfl hok (count := c - k) (by omega)
        (by intro _; rw [hty']; simp) (fun h => absurd h hna) (fun h => by rw [hty'] at h; cases h) (fun h => by rw [heu] at h; cases h)
      have ht1 := hsim _ _ _ _ _ _ _ _ _ _ _ _ _ _ _ _ _ _ _ C C' ht (hneed _ (List.mem_of_getElem? hc)) _ _ a1 b1
      rw [a1] at e
      rw [b1] at e'
      simp only [Option.bind_eq_bind, Option.bind_some] at e e'
      exact ih (k + 1) t1 t1' a2 b2 ht1 e e'
    · rw [if_neg hlt] at e e'
      cases e; cases e'
      exact ht

end

theorem null_same (hiso : Iso mem mem' tds root pl) {o : Obj} (hr : Reach mem tds root o)
    (hty : o.ty = .func ∨ o.ty = .funcType ∨ o.ty = .string ∨ o.ty = .pointer) : mem'.ptr (pl o) = 0 ↔ mem.ptr o.addr = 0 := by
  have hl := hiso.lead o hr
  rcases hty with h | h | h | h
  · exact hiso.null o hr (Or.inl h)
  · exact hiso.null o hr (Or.inr (Or.inl h))
  · unfold target at hl
    rw [show (moved o (pl o)).ty = o.ty from rfl, show (moved o (pl o)).addr = pl o from rfl, h] at hl
    simp only at hl
    by_cases h0 : mem.ptr o.addr = 0
    · rw [if_pos h0] at hl
      by_cases h1 : mem'.ptr (pl o) = 0
      · simp [h0, h1]
      · rw [if_neg h1] at hl; cases hl
    · rw [if_neg h0] at hl
      by_cases h1 : mem'.ptr (pl o) = 0
      · rw [if_pos h1] at hl; cases hl
      · simp [h0, h1]
  · by_cases hu : untyped o.aux = true
    · exact hiso.null o hr (Or.inr (Or.inr ⟨h, hu⟩))
    · unfold target at hl
      rw [show (moved o (pl o)).ty = o.ty from rfl, show (moved o (pl o)).addr = pl o from rfl, show (moved o (pl o)).aux = o.aux from rfl, h] at hl
      simp only [hu, Bool.false_or, beq_iff_eq] at hl
      by_cases h0 : mem.ptr o.addr = 0
      · rw [if_pos h0] at hl
        by_cases h1 : mem'.ptr (pl o) = 0
        · simp [h0, h1]
        · rw [if_neg h1] at hl; cases hl
      · rw [if_neg h0] at hl
        by_cases h1 : mem'.ptr (pl o) = 0
        · rw [if_pos h1] at hl; cases hl
        · simp [h0, h1]

theorem string_call {idx data : Nat} {fd : Fd} (H : Open mem tds U root st ks obj O S idx data fd) (hfty : fd.ty = .string) (hnn : mem.ptr data ≠ 0) :
    Call mem tds U root st ks obj O S (mem.ptr data) { fd with nonPersistent := true, ty := .charArray, size := 1 } 1 idx 0 { addr := mem.ptr data, ty := .charArray } := by
  have hty := obj_ty H
  have haddr := obj_addr H
  have hnil := open_nil H
  have hpl : ptrLike (obj idx).ty = true := by rw [hty, hfty]; rfl
  have htn : target mem tds (obj idx) = some { addr := mem.ptr data, ty := .charArray } := by
    simp [target, hty, hfty, haddr, hnn]
  refine ⟨H.inv, H.i1, H.i2, H.status, ?_, rfl, ?_, Nat.le_refl 1, fun _ => rfl, ?_, ?_, ?_, ?_, ?_, (fun h => by rw [hty, hfty] at h; cases h), fun _ => Or.inr (by rw [hty, hfty])⟩
  · unfold slot
    rw [if_pos hpl, if_pos rfl]
    exact htn
  · exact ⟨H.ok.1, H.ok.2.1, by simp [plain], trivial⟩
  · intro h; rw [hty, hfty] at h; cases h
  · intro _; rw [hty, hfty]; simp
  · intro h; cases h
  · intro z hz; rw [hnil] at hz; cases hz
  · rw [H.lc]; exact ⟨H.i1, H.i2⟩

theorem null_blind : Blind (fun n : Info => { n with null := true }) := by
  intro x y h
  obtain ⟨g1, g2, g3, g4, g5, g6⟩ := core_eq h
  simp [core, g1, g2, g3, g4, g6]

section
variable {rk : Nat → Nat} {d : Nat} {inner inner' : Inner} {idx data data' parent : Nat} {fd : Fd}

theorem open_size (hT : Types tds) {c : Nat} (hc : c = fd.size) (hs : Seen mem tds (nd st.ptrs.ra idx) (ni st.info idx) (obj idx) (S idx)) (H : Open mem tds U root st ks obj O S idx data fd) (hfty : fd.ty = .array) {st1 : St}
    (e : (if fd.nonPersistent = false then updInfo st idx fun i => { i with size := c } else some st) = some st1) :
    Open mem tds U root st1 ks obj O S idx data fd := by
  by_cases hnp : fd.nonPersistent = false
  · rw [if_pos hnp] at e
    obtain ⟨st2, e1, e2, e3, e4, e5⟩ := updInfo_ok st idx (fun i => { i with size := c }) (by rw [H.inv.len]; exact H.i2)
    rw [e1] at e
    cases e
    have hpn : plain (obj idx).ty = false := by rw [obj_ty H, hfty]; rfl
    have hx : Seen mem tds (nd st.ptrs.ra idx) { ni st.info idx with size := c } (obj idx) (S idx) :=
      ⟨hs.addr, hs.ty, hs.ok, hs.norm, hs.aux, hs.td, (by intro h; rw [hpn] at h; cases h), hs.cref, hs.np, hs.opq,
        fun h => absurd H.stack h, fun h => absurd H.stack h, hs.eaux, hs.unset⟩
    have hn : ∀ j, (ni st1.info j).null = (ni st.info j).null := by
      intro j
      rw [e5]
      unfold updF
      by_cases hj : j = idx
      · subst hj; simp
      · simp [hj]
    refine ⟨⟨by rw [e4, e2]; exact H.inv.len, ?_⟩, H.i1, by rw [e2]; exact H.i2, H.status, H.ofd, H.ok, H.stack, by rw [e2]; exact H.lc, by rw [hn]; exact H.null⟩
    rw [e2, e3, e5]
    exact inv_info H.inv.inv hx rfl (fun h => by rw [hpn] at h; cases h) (fun _ _ => rfl)
      (fun p j f g1 g2 g3 g4 g5 => ⟨fun _ => by rw [member_size hT H hfty g1 g2 g3 g4 g5]; exact hc, (H.inv.inv.fixed p g1 g2 g3 j idx f g4 g5).2⟩) rfl
  · rw [if_neg hnp] at e
    cases e
    exact H

theorem array_sim (hT : Types tds) (hrk : Nested tds rk) (hin : InnerOK mem tds U root rk d inner) (hin' : InnerOK mem' tds U' root' rk d inner')
    (hsim : SimOK mem mem' tds U U' root root' rk d inner inner')
    (H : Open mem tds U root st ks obj O S idx data fd) (H' : Open mem' tds U' root' st' ks' obj' O' S' idx data' fd) (hfty : fd.ty = .array) (ht : Twin st st')
    (hneed : need rk (obj idx) ≤ d + 1) (hneed' : need rk (obj' idx) ≤ d + 1) {s s' : St}
    (e : saveArray mem inner st idx data parent fd = some (s, 1)) (e' : saveArray mem' inner' st' idx data' parent fd = some (s', 1)) : Twin s s' := by
  have hty := obj_ty H
  have hty' := obj_ty H'
  have hs := H.inv.inv.seen idx H.i1 H.i2
  have hs' := H'.inv.inv.seen idx H'.i1 H'.i2
  have hok := H.ok.2.2.2
  rw [hfty] at hok
  obtain ⟨b, c, h1, h2, h3, h4, h5⟩ := hok
  have hobj : obj idx = { addr := data, ty := .array, td := fd.td, aux := fd.aux, count := c, step := fd.size / c } := by
    rw [← H.ofd]
    simp [ofFd, object, hfty, h4]
  have hobj' : obj' idx = { addr := data', ty := .array, td := fd.td, aux := fd.aux, count := c, step := fd.size / c } := by
    rw [← H'.ofd]
    simp [ofFd, object, hfty, h4]
  unfold saveArray at e e'
  rw [h4] at e e'
  simp only [List.getElem?_cons_zero, Option.bind_eq_bind, Option.bind_some] at e e'
  by_cases hc : c = 0
  · rw [if_pos hc] at e e'
    cases e; cases e'
    exact ht
  · rw [if_neg hc] at e e'
    have hep := elementSize_leads hT h1 h2
    have hsz : fd.size ≠ 0 := by
      rw [h5]
      intro h
      rcases Nat.mul_eq_zero.1 h with h | h <;> omega
    rw [if_neg hsz] at e e'
    have hac : ∀ mem st, arrayCount mem st fd parent c (elementFd fd c).size = some c := by
      intro mem st
      unfold arrayCount
      split
      · rfl
      · unfold sizeValue
        rw [H.ok.1]; rfl
    simp only [List.length_cons, List.length_nil, Nat.zero_add, if_true, hac, Option.bind_some, true_and] at e e'
    obtain ⟨he1, he2⟩ := ofFd_element (a := 0) h1 h2 h3 h4
    have hefd := fdOK_element H.ok h1 h2 h3 h4 hc h5
    have hes : (elementFd fd c).size = fd.size / c := by simp [elementFd, h4]
    have hcomp : ∀ k, k < c → (components tds (obj idx))[k]? = some (ofFd (data + k * (elementFd fd c).size) (elementFd fd c)) := by
      intro k hk
      rw [(ofFd_element h1 h2 h3 h4).1, hobj, hes]
      simp [components, List.getElem?_map, hk]
    have hcomp' : ∀ k, k < c → (components tds (obj' idx))[k]? = some (ofFd (data' + k * (elementFd fd c).size) (elementFd fd c)) := by
      intro k hk
      rw [(ofFd_element h1 h2 h3 h4).1, hobj', hes]
      simp [components, List.getElem?_map, hk]
    rw [Option.bind_eq_some_iff] at e e'
    obtain ⟨s1, e1, e⟩ := e
    obtain ⟨s1', e1', e'⟩ := e'
    have H1 := open_size hT (by rw [hes, h5, Nat.mul_div_cancel_left _ (by omega)]) hs H hfty e1
    have H1' := open_size hT (by rw [hes, h5, Nat.mul_div_cancel_left _ (by omega)]) hs' H' hfty e1'
    have ht1 : Twin s1 s1' := by
      by_cases hnp : fd.nonPersistent = false
      · rw [if_pos hnp] at e1 e1'
        exact updInfo_twin ht (fun x y h => by
          obtain ⟨g1, g2, g3, g4, g5, g6⟩ := core_eq h
          simp [core, g1, g2, g4, g5, g6]) e1 e1'
      · rw [if_neg hnp] at e1 e1'
        cases e1; cases e1'
        exact ht
    rw [Option.bind_eq_some_iff] at e e'
    obtain ⟨⟨s2, i2⟩, e2, e⟩ := e
    obtain ⟨⟨s2', i2'⟩, e2', e'⟩ := e'
    obtain ⟨rfl, _⟩ := Prod.mk.inj (Option.some.inj e)
    obtain ⟨rfl, _⟩ := Prod.mk.inj (Option.some.inj e')
    have hL : LoopInv mem tds U root d s1 ks obj O S idx 0 s1 :=
      ⟨ks, obj, O, H1.inv, acc_refl H1.i1 H1.i2 H1.lc (open_nil H1), H1.status, by simp⟩
    have hL' : LoopInv mem' tds U' root' d s1' ks' obj' O' S' idx 0 s1' :=
      ⟨ks', obj', O', H1'.inv, acc_refl H1'.i1 H1'.i2 H1'.lc (open_nil H1'), H1'.status, by simp⟩
    exact saveElements_sim hin hin' hsim H1.i1 H1.i2 H1'.i2 (by rw [hty, hfty]) (by rw [hty', hfty]) hefd (by simp [elementFd, h4]) (by simp [elementFd, h4]) he2 hcomp hcomp'
      (fun o ho => by have := need_component hT hrk hs.ok ho; omega) (fun o ho => by have := need_component hT hrk hs'.ok ho; omega) _ 0 _ _ hL hL' ht1 e2 e2'

theorem handler_sim (hT : Types tds) (hrk : Nested tds rk) (hin : InnerOK mem tds U root rk d inner) (hin' : InnerOK mem' tds U' root' rk d inner')
    (hsim : SimOK mem mem' tds U U' root root' rk d inner inner') {top : Obj} (hiso : Iso mem mem' tds top pl)
    (H : Open mem tds U root st ks obj O S idx data fd) (H' : Open mem' tds U' root' st' ks' obj' O' S' idx data' fd) (ht : Twin st st')
    (hr : Reach mem tds top (obj idx)) (ho : obj' idx = moved (obj idx) (pl (obj idx)))
    (hneed : need rk (obj idx) ≤ d + 1) (hneed' : need rk (obj' idx) ≤ d + 1) {s s' : St}
    (e : handler mem tds inner st idx data parent fd = some (s, 1)) (e' : handler mem' tds inner' st' idx data' parent fd = some (s', 1)) : Twin s s' := by
  have hty := obj_ty H
  have hty' := obj_ty H'
  have haddr := obj_addr H
  have haddr' := obj_addr H'
  have hpl : data' = pl (obj idx) := by rw [← haddr', ho]; rfl
  have hs := H.inv.inv.seen idx H.i1 H.i2
  have hs' := H'.inv.inv.seen idx H'.i1 H'.i2
  have hnull : fd.ty = .func ∨ fd.ty = .funcType ∨ fd.ty = .string ∨ fd.ty = .pointer → (mem'.ptr data' = 0 ↔ mem.ptr data = 0) := by
    intro h
    rw [← hty] at h
    rw [hpl, ← haddr]
    exact null_same hiso hr h
  have hfunc : fd.ty = .func ∨ fd.ty = .funcType →
      ((if mem.ptr data = 0 then updInfo st idx fun n => { n with null := true } else some st) >>= fun st => some (st, 1)) = some (s, 1) →
      ((if mem'.ptr data' = 0 then updInfo st' idx fun n => { n with null := true } else some st') >>= fun st => some (st, 1)) = some (s', 1) → Twin s s' := by
    intro hf e e'
    have hn := hnull (by rcases hf with h | h <;> simp [h])
    simp only [Option.bind_eq_bind, Option.bind_eq_some_iff] at e e'
    obtain ⟨t, e1, e2⟩ := e
    obtain ⟨t', e1', e2'⟩ := e'
    cases e2; cases e2'
    by_cases h0 : mem.ptr data = 0
    · rw [if_pos h0] at e1
      rw [if_pos (hn.2 h0)] at e1'
      exact updInfo_twin ht null_blind e1 e1'
    · rw [if_neg h0] at e1
      rw [if_neg (fun h => h0 (hn.1 h))] at e1'
      cases e1; cases e1'
      exact ht
  unfold handler at e e'
  cases hfty : fd.ty <;> simp only [hfty] at e e'
  case func => exact hfunc (Or.inl hfty) e e'
  case funcType => exact hfunc (Or.inr hfty) e e'
  case string =>
    have hn := hnull (by simp [hfty])
    by_cases h0 : mem.ptr data = 0
    · rw [if_pos h0] at e
      rw [if_pos (hn.2 h0)] at e'
      simp only [Option.bind_eq_bind, Option.bind_eq_some_iff] at e e'
      obtain ⟨t, e1, e2⟩ := e
      obtain ⟨t', e1', e2'⟩ := e'
      cases e2; cases e2'
      exact updInfo_twin ht null_blind e1 e1'
    · rw [if_neg h0] at e
      have h0' : mem'.ptr data' ≠ 0 := fun h => h0 (hn.1 h)
      rw [if_neg h0'] at e'
      refine hsim _ _ _ _ _ _ _ _ _ _ _ _ _ _ _ _ _ _ _ (string_call H hfty h0) (string_call H' hfty h0') ht ?_ _ _ e e'
      have : need rk (obj idx) = 2 := by simp [need, hty, hfty]
      simp only [need]
      omega
  case enum =>
    unfold saveEnum at e e'
    simp only [Option.bind_eq_bind, Option.bind_eq_some_iff] at e e'
    obtain ⟨t, e1, e2⟩ := e
    obtain ⟨t', e1', e2'⟩ := e'
    cases e2; cases e2'
    refine updInfo_twin ht (fun x y h => ?_) e1 e1'
    obtain ⟨g1, g2, g3, g4, g5, g6⟩ := core_eq h
    simp only [g2]
    split
    · exact h
    · simp [core, g1, g3, g4, g5, g6]
  case struct =>
    have hok := H.ok.2.2.2
    rw [hfty] at hok
    obtain ⟨t, dd, h1, h2, h3⟩ := hok
    rw [h1] at e e'
    simp only [Option.bind_eq_bind, Option.bind_some, h2] at e e'
    have htd : (obj idx).td = some t := by
      rw [← H.ofd]
      simp [ofFd, object, hfty, h1]
    have htd' : (obj' idx).td = some t := by
      rw [← H'.ofd]
      simp [ofFd, object, hfty, h1]
    have hL : LoopInv mem tds U root d st ks obj O S idx 0 st :=
      ⟨ks, obj, O, H.inv, acc_refl H.i1 H.i2 H.lc (open_nil H), H.status, by simp⟩
    have hL' : LoopInv mem' tds U' root' d st' ks' obj' O' S' idx 0 st' :=
      ⟨ks', obj', O', H'.inv, acc_refl H'.i1 H'.i2 H'.lc (open_nil H'), H'.status, by simp⟩
    refine saveFields_sim hT hin hin' hsim H.i1 H.i2 H'.i2 (by rw [hty, hfty]) (by rw [hty', hfty]) htd htd' h2 h3
      (fun o ho => by have := need_component hT hrk hs.ok ho; omega) (fun o ho => by have := need_component hT hrk hs'.ok ho; omega) dd.fields 0 rfl (Nat.zero_le _) _ _ hL hL' ht
      (by rw [haddr]; exact e) (by rw [haddr']; exact e')
  case array => exact array_sim hT hrk hin hin' hsim H H' hfty ht hneed hneed' e e'
  case pointer =>
    have hn := hnull (by simp [hfty])
    unfold savePointer at e e'
    by_cases h0 : mem.ptr data = 0
    · rw [if_pos h0] at e
      rw [if_pos (hn.2 h0)] at e'
      simp only [Option.bind_eq_bind, Option.bind_eq_some_iff] at e e'
      obtain ⟨t, e1, e2⟩ := e
      obtain ⟨t', e1', e2'⟩ := e'
      cases e2; cases e2'
      exact updInfo_twin ht null_blind e1 e1'
    · rw [if_neg h0] at e
      rw [if_neg (fun h => h0 (hn.1 h))] at e'
      have hps : ∀ mem st, pointerSize mem st fd parent (elementSize tds fd.aux fd.td) = some (elementSize tds fd.aux fd.td) := by
        intro mem st
        unfold pointerSize sizeValue
        rw [H.ok.1]; rfl
      simp only [hps, Option.bind_eq_bind, Option.bind_some, Option.bind_eq_some_iff] at e e'
      obtain ⟨t, e1, e2⟩ := e
      obtain ⟨t', e1', e2'⟩ := e'
      cases e2; cases e2'
      refine updInfo_twin ht (fun x y h => ?_) e1 e1'
      obtain ⟨g1, g2, g3, g4, g5, g6⟩ := core_eq h
      simp [core, g1, g2, g4]
  case union => cases e
  case anonUnion => cases e
  case namedAnonUnion => cases e
  all_goals
    cases e; cases e'
    exact ht

end

theorem need_moved (rk : Nat → Nat) (o : Obj) (a : Nat) : need rk (moved o a) = need rk o := rfl

/-- `mr_save_inner` in both runs -/
theorem saveInner_sim (hT : Types tds) {rk : Nat → Nat} (hrk : Nested tds rk) (hiso : Iso mem mem' tds root pl) (d : Nat) :
    ∀ fuel fuel', d ≤ fuel → d ≤ fuel' → SimOK mem mem' tds (Single mem tds root) (Single mem' tds (moved root (pl root))) root (moved root (pl root)) rk d
      (saveInner mem tds fuel) (saveInner mem' tds fuel') := by
  induction d with
  | zero =>
    intro fuel fuel' _ _ st st' ks ks' obj obj' O O' S S' data data' fd count p k k' o o' _ _ _ hn
    have := need_pos rk o
    omega
  | succ d ih =>
    intro fuel fuel' hf hf' st st' ks ks' obj obj' O O' S S' data data' fd count p k k' o o' C C' ht hneed s s' e e'
    cases fuel with
    | zero => omega
    | succ fuel =>
    cases fuel' with
    | zero => omega
    | succ fuel' =>
      obtain ⟨_, hro, ho⟩ := same_call hiso ht C C'
      have hs := same_st hiso ht C.inv C'.inv
      have hpo := hs.objs p C.p1 C.p2
      have haddr : o.addr = data := by rw [← C.ofd]; exact object_addr _ _ _ _ _ _
      have haddr' : o'.addr = data' := by rw [← C'.ofd]; exact object_addr _ _ _ _ _ _
      rw [saveInner] at e e'
      simp only [Option.bind_eq_bind, Option.bind_eq_some_iff] at e e'
      obtain ⟨⟨t, b, m⟩, r1, e⟩ := e
      obtain ⟨⟨t', b', m'⟩, r1', e'⟩ := e'
      obtain ⟨hb, ht1⟩ := resolve_sim hT hiso ht C C' (size_ok hT C) _ _ r1 r1'
      subst hb
      cases b' with
      | true =>
        simp only [if_true] at e e'
        cases e; cases e'
        exact ht1
      | false =>
        simp only [Bool.false_eq_true, if_false, Option.bind_eq_some_iff] at e e'
        obtain ⟨b1, b2, b3⟩ := C.inv.inv.bhead (data / 4)
        obtain ⟨c1, c2, c3⟩ := C'.inv.inv.bhead (data' / 4)
        have hx := resolve_loop hT C (size_ok hT C) (savePointerContent mem tds (saveInner mem tds fuel)) (st.ptrs.ra.length + 1) (st.index (data / 4)) (by omega) b1 b2 (by
          intro i h1 h2 h3
          have := b3 i h1 h2
          rw [h3, haddr] at this
          exact absurd rfl this)
        have hx' := resolve_loop hT C' (size_ok hT C') (savePointerContent mem' tds (saveInner mem' tds fuel')) (st'.ptrs.ra.length + 1) (st'.index (data' / 4)) (by omega) c1 c2 (by
          intro i h1 h2 h3
          have := c3 i h1 h2
          rw [h3, haddr'] at this
          exact absurd rfl this)
        rw [r1] at hx
        rw [r1'] at hx'
        rcases hx with ⟨hx, hpass⟩ | ⟨_, _, _, hx, _⟩
        · rcases hx' with ⟨hx', hpass'⟩ | ⟨_, _, _, hx', _⟩
          · cases hx; cases hx'
            obtain ⟨st1, f1, f2, f3, f4, f5, f6, f7, f8⟩ := push_ok hT C (fun hU hc => no_dup hU C hpass hc)
            obtain ⟨st1', g1, g2, g3, g4, g5, g6, g7, g8⟩ := push_ok hT C' (fun hU hc => no_dup hU C' hpass' hc)
            obtain ⟨q1, q2, ⟨q3, q4⟩, q5, pf, q6, q7, q8, q9⟩ := e
            obtain ⟨q1', q2', ⟨q3', q4'⟩, q5', pf', q6', q7', q8', q9'⟩ := e'
            rw [f1] at q2
            rw [g1] at q2'
            cases q2; cases q2'
            cases q9; cases q9'
            have hlen : st'.ptrs.ra.length = st.ptrs.ra.length := by rw [ht.ptrs]
            have ht2 : Twin st1 st1' := by
              rw [hlen] at g1
              exact link_twin (newNode_twin (cur := ⟨data, fd, fd.size * count, p⟩) (cur' := ⟨data', fd, fd.size * count, p⟩) ht ⟨rfl, rfl, rfl⟩) f1 g1
            rw [hlen] at g2 g3 g4 g5 g6 q5' q8'
            generalize hn : st.ptrs.ra.length = n at *
            have hpn : p < n := hn ▸ C.p2
            have hop : Open mem tds (Single mem tds root) root st1 (updF ks p (ks p ++ [n])) (updF obj n o) (updF (updF O p (adv (obj p) k)) n (some 0)) (fun j => j = n ∨ S j) n data fd := by
              refine ⟨f2, by have := C.p1; omega, by omega, updF_same _ _ _, by rw [updF_same]; exact C.ofd, C.ok, Or.inl rfl, f4, by rw [f5]; rfl⟩
            have hop' : Open mem' tds (Single mem' tds (moved root (pl root))) (moved root (pl root)) st1' (updF ks' p (ks' p ++ [n])) (updF obj' n o') (updF (updF O' p (adv (obj' p) k')) n (some 0)) (fun j => j = n ∨ S' j) n data' fd := by
              refine ⟨g2, by have := C.p1; omega, by omega, updF_same _ _ _, by rw [updF_same]; exact C'.ofd, C.ok, Or.inl rfl, g4, by rw [g5]; rfl⟩
            have ht3 := handler_sim hT hrk (saveInner_ok (root := root) hT hrk d fuel (by omega)) (saveInner_ok (root := moved root (pl root)) hT hrk d fuel' (by omega))
              (ih fuel fuel' (by omega) (by omega)) hiso hop hop' ht2 (by rw [updF_same]; exact hro) (by rw [updF_same, updF_same]; exact ho)
              (by rw [updF_same]; exact hneed) (by rw [updF_same, ho]; exact hneed) q5 q5'
            rw [persistentFd_twin ht3, q6] at q6'
            cases q6'
            exact updInfo_twin ht3 (fun x y h => by
              obtain ⟨g1, g2, g3, g4, g5, g6⟩ := core_eq h
              simp [core, g2, g3, g4, g5, g6]) q8 q8'
          · cases hx'
        · cases hx

end Verif.Lemmas.SimInner
