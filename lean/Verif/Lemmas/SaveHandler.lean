import Verif.Lemmas.SaveResolve
/-!
The handlers of the types: what is below a new node.
-/
namespace Verif.Lemmas.SaveHandler
open Verif.Model Verif.Model.Ptrs Verif.Model.Save Verif.Spec.Ptrs Verif.Spec.Save Verif.Lemmas.SaveTree Verif.Lemmas.SaveInv Verif.Lemmas.SaveStep
  Verif.Lemmas.SaveRun Verif.Lemmas.SaveResolve

variable {mem : Mem} {tds : List Td} {U : Prop} {root : Obj} {st : St} {ks : Nat → List Nat} {obj : Nat → Obj} {O : Nat → Option Nat} {S : Nat → Prop}

/-- recursion depth for an object, from the nesting of the structures -/
def need (rk : Nat → Nat) (o : Obj) : Nat :=
  match o.ty with
  | .struct => (match o.td with | some t => 3 * rk t + 4 | none => 1)
  | .array => if o.aux = .struct then (match o.td with | some t => 3 * rk t + 5 | none => 3) else 3
  | .string => 2
  | _ => 1

/-- the nodes of an object without what its pointers lead to -/
def cnt (tds : List Td) : Nat → Obj → Nat
  | 0, _ => 0
  | d + 1, o => 1 + (if o.ty = .string then 1 else ((components tds o).map (cnt tds d)).sum)

/-- `Types.nested` with a given rank -/
def Nested (tds : List Td) (rk : Nat → Nat) : Prop :=
  ∀ (t : Nat) (d : Td) (f : Fd) (t' : Nat), tds[t]? = some d → d.ty = .struct → f ∈ d.fields →
    (f.ty = .struct ∨ f.ty = .array ∧ f.aux = .struct) → f.td = some t' → rk t' < rk t

theorem need_pos (rk : Nat → Nat) (o : Obj) : 1 ≤ need rk o := by
  unfold need
  split <;> try omega
  · split <;> omega
  · split
    · split <;> omega
    · omega

theorem need_ofFd_le {rk : Nat → Nat} {f : Fd} {a m : Nat} (hf : FdOK tds f) (hm : 3 ≤ m)
    (h : ∀ t, (f.ty = .struct ∨ f.ty = .array ∧ f.aux = .struct) → f.td = some t → 3 * rk t + 5 ≤ m) : need rk (ofFd a f) ≤ m := by
  unfold ofFd
  obtain ⟨_, _, _, hf⟩ := hf
  cases hty : f.ty <;> rw [hty] at hf <;> simp only [object] <;> try (simp only [need]; omega)
  case struct =>
    obtain ⟨t, d, h1, _⟩ := hf
    have := h t (Or.inl hty) h1
    simp only [need, h1]; omega
  case array =>
    obtain ⟨b, c, ⟨t, d, h1, _⟩, _⟩ := hf
    simp only [need, h1]
    by_cases ha : f.aux = .struct
    · have := h t (Or.inr ⟨hty, ha⟩) h1
      rw [if_pos ha]; omega
    · rw [if_neg ha]; omega
  case pointer =>
    split <;> simp only [need] <;> omega

theorem need_component {rk : Nat → Nat} (hT : Types tds) (hrk : Nested tds rk) {o c : Obj} (ho : ObjOK tds o) (hc : c ∈ components tds o) :
    need rk c + 1 ≤ need rk o := by
  unfold components at hc
  split at hc
  · rename_i hty
    simp only [ObjOK, hty] at ho
    obtain ⟨t, d, h1, h2, h3⟩ := ho
    simp only [h1, Option.bind_some, h2, List.mem_map] at hc
    obtain ⟨f, hf, he⟩ := hc
    have hno : need rk o = 3 * rk t + 4 := by simp [need, hty, h1]
    rw [hno, ← he]
    have := need_ofFd_le (rk := rk) (a := o.addr + f.offset) (m := 3 * rk t + 3) (hT.fields t d h2 h3 f hf).1 (by omega) (by
      intro t' h4 h5
      have := hrk t d f t' h2 h3 hf h4 h5
      omega)
    omega
  · rename_i hty
    simp only [ObjOK, hty] at ho
    obtain ⟨b, ⟨t, d, h1, h2, h3⟩, h4, _⟩ := ho
    simp only [List.mem_map] at hc
    obtain ⟨j, _, he⟩ := hc
    have hno : need rk o = if o.aux = .struct then 3 * rk t + 5 else 3 := by simp [need, hty, h1]
    rw [hno, ← he]
    rcases h4 with ⟨h4, h5⟩ | ⟨h4, h5⟩
    · rw [h4]
      cases b <;> simp [plain] at h5 <;> simp [object, need, h1]
    · rw [h4]
      simp only [object]
      split <;> simp [need]
  · cases hc

theorem cnt_leaf {o : Obj} (h : components tds o = []) (hs : o.ty ≠ .string) (d : Nat) : cnt tds d o ≤ 1 := by
  cases d with
  | zero => simp [cnt]
  | succ d => simp [cnt, h, hs]

/-- `inner` behaves like `mr_save_inner` for objects of depth up to `d` -/
def InnerOK (mem : Mem) (tds : List Td) (U : Prop) (root : Obj) (rk : Nat → Nat) (d : Nat) (inner : St → Nat → Fd → Nat → Nat → Option (St × Nat)) : Prop :=
  ∀ (st : St) (ks : Nat → List Nat) (obj : Nat → Obj) (O : Nat → Option Nat) (S : Nat → Prop) (data : Nat) (fd : Fd) (count p k : Nat) (o : Obj),
    Call mem tds U root st ks obj O S data fd count p k o → need rk o ≤ d →
    ∃ st' ks' obj' O', inner st data fd count p = some (st', 1) ∧ Inv mem tds U root st' ks' obj' O' S ∧
      Post mem tds st st' ks ks' obj obj' O O' p k o ∧ st'.ptrs.ra.length ≤ st.ptrs.ra.length + cnt tds d o

/-- what happened below node `idx` -/
structure Acc (mem : Mem) (tds : List Td) (st st' : St) (ks ks' : Nat → List Nat) (obj obj' : Nat → Obj) (O O' : Nat → Option Nat) (idx : Nat) : Prop where
  grow : st.ptrs.ra.length ≤ st'.ptrs.ra.length
  objs : ∀ j, j < st.ptrs.ra.length → obj' j = obj j
  stat : ∀ j, j < st.ptrs.ra.length → j ≠ idx → O' j = O j
  news : ∀ j, st.ptrs.ra.length ≤ j → j < st'.ptrs.ra.length → O' j = pend mem tds (obj' j)
  lc : 1 ≤ st'.ptrs.lastChild ∧ st'.ptrs.lastChild < st'.ptrs.ra.length
  anc : Anc (nd st'.ptrs.ra) idx st'.ptrs.lastChild
  last : ∀ z, (ks' idx).getLast? = some z → Anc (nd st'.ptrs.ra) z st'.ptrs.lastChild
  frame : ∀ j, j < st.ptrs.ra.length → j ≠ idx → ptrLike (obj j).ty = false → ks' j = ks j
  nulls : ∀ j, j < st.ptrs.ra.length → j ≠ idx → (ni st'.info j).null = (ni st.info j).null
  keep : ∀ j, Anc (nd st.ptrs.ra) j idx → (nd st'.ptrs.ra j).parent = (nd st.ptrs.ra j).parent

/-- node `idx` was just added -/
structure Open (mem : Mem) (tds : List Td) (U : Prop) (root : Obj) (st : St) (ks : Nat → List Nat) (obj : Nat → Obj) (O : Nat → Option Nat) (S : Nat → Prop)
    (idx data : Nat) (fd : Fd) : Prop where
  inv : Inv mem tds U root st ks obj O S
  i1 : 1 ≤ idx
  i2 : idx < st.ptrs.ra.length
  status : O idx = some 0
  ofd : ofFd data fd = obj idx
  ok : FdOK tds fd
  stack : S idx
  lc : st.ptrs.lastChild = idx
  null : (ni st.info idx).null = false

theorem acc_refl {idx : Nat} (h1 : 1 ≤ idx) (h2 : idx < st.ptrs.ra.length) (hl : st.ptrs.lastChild = idx) (hk : ks idx = []) :
    Acc mem tds st st ks ks obj obj O O idx := by
  refine ⟨Nat.le_refl _, fun _ _ => rfl, fun _ _ _ => rfl, fun j h3 h4 => by omega, by omega, by rw [hl]; exact Anc.self, ?_, fun _ _ _ _ => rfl, fun _ _ _ => rfl, fun _ _ => rfl⟩
  intro z hz
  rw [hk] at hz
  cases hz

theorem acc_post {st1 st2 : St} {ks1 ks2 : Nat → List Nat} {obj1 obj2 : Nat → Obj} {O1 O2 : Nat → Option Nat} {idx k : Nat} {o : Obj}
    (h : Acc mem tds st st1 ks ks1 obj obj1 O O1 idx) (hi : idx < st.ptrs.ra.length)
    (hp : Post mem tds st1 st2 ks1 ks2 obj1 obj2 O1 O2 idx k o) (hI : Inv mem tds U root st2 ks2 obj2 O2 S) (hty : (obj idx).ty ≠ .pointer)
    (hlc : (obj idx).ty = .string → Anc (nd st2.ptrs.ra) idx st1.ptrs.lastChild ∧ ks1 idx = []) :
    Acc mem tds st st2 ks ks2 obj obj2 O O2 idx := by
  have ho := h.objs idx hi
  have hl := hp.last (by rw [ho]; exact hty)
  have hg1 := h.grow
  have hg2 := hp.grow
  have key : Anc (nd st2.ptrs.ra) idx st2.ptrs.lastChild ∧ ∀ z, (ks2 idx).getLast? = some z → Anc (nd st2.ptrs.ra) z st2.ptrs.lastChild := by
    rcases hl with ⟨z, hz1, hz2⟩ | ⟨h1, h2, h3⟩
    · obtain ⟨_, _, h3, h4, h5⟩ := hI.inv.tree.own idx z (List.mem_of_getLast? hz1)
      refine ⟨anc_trans (Anc.up h3 (by rw [h5]; exact Anc.self)) hz2, ?_⟩
      intro z' hz'
      rw [hz1] at hz'
      cases hz'
      exact hz2
    · rw [ho] at h1
      rw [h2]
      refine ⟨(hlc h1).1, ?_⟩
      intro z hz
      rw [h3, (hlc h1).2] at hz
      cases hz
  refine ⟨by omega, ?_, ?_, ?_, hp.lc, key.1, key.2, ?_, ?_, fun j hj => (hp.keep j (anc_keep hj h.keep)).trans (h.keep j hj)⟩
  · intro j hj
    rw [hp.objs j (by omega), h.objs j hj]
  · intro j hj hne
    rw [hp.stat j (by omega) hne, h.stat j hj hne]
  · intro j h1 h2
    by_cases hj : j < st1.ptrs.ra.length
    · rw [hp.stat j hj (by omega), h.news j h1 hj, hp.objs j hj]
    · exact hp.news j (by omega) h2
  · intro j hj hne hpl
    rw [hp.frame j (by omega) hne (by rw [h.objs j hj]; exact hpl), h.frame j hj hne hpl]
  · intro j hj hne
    rw [hp.nulls j (by omega), h.nulls j hj hne]

/-- all components are saved -/
theorem complete {P : Nat → Pd} {n : Nat} {i k : Nat} (h : Filled mem tds P n ks obj i (some k)) (hpl : ptrLike (obj i).ty = false)
    (hk : (components tds (obj i)).length ≤ k) : Filled mem tds P n ks obj i none := by
  unfold Filled at h ⊢
  rw [if_neg (by simp [hpl])] at h ⊢
  refine ⟨h.1, ?_⟩
  rw [h.2.2, List.take_of_length_le hk]

theorem elementSize_pos (hT : Types tds) {ty : MrType} {td : Option Nat} (hp : plain ty = true) (hs : ty = .struct ∨ ty = .enum → HasTd tds td ty) : 0 < elementSize tds ty td := by
  cases ty <;> simp [plain] at hp <;> simp only [elementSize, typeSize] <;> try (simp; done)
  · obtain ⟨t, d, h1, h2, h3⟩ := hs (Or.inl rfl)
    have := hT.sized t d h2 (Or.inl h3)
    simp [h1, h2, this]
  · obtain ⟨t, d, h1, h2, h3⟩ := hs (Or.inr rfl)
    have := hT.sized t d h2 (Or.inr h3)
    simp [h1, h2, this]

theorem elementSize_leads (hT : Types tds) {aux b : MrType} {td : Option Nat} (h : HasTd tds td b) (hl : Leads aux b) : 0 < elementSize tds aux td := by
  rcases hl with ⟨h1, h2⟩ | ⟨h1, _⟩
  · subst h1
    exact elementSize_pos hT h2 fun _ => h
  · subst h1
    simp [elementSize, typeSize]

end Verif.Lemmas.SaveHandler
