import Verif.Lemmas.SaveTree
import Verif.Spec.Save
/-!
The invariant of `mr_save` while it builds the nodes.
-/
namespace Verif.Lemmas.SaveInv
open Verif.Model Verif.Model.Ptrs Verif.Model.Save Verif.Spec.Ptrs Verif.Spec.Save Verif.Lemmas.SaveTree

def ni (l : List Info) (i : Nat) : Info := (l[i]?).getD {}

theorem ni_get {l : List Info} {i : Nat} (h : i < l.length) : l[i]? = some (ni l i) := by simp [ni, h]

theorem ni_set (l : List Info) (i : Nat) (v : Info) (h : i < l.length) : ni (l.set i v) = updF (ni l) i v := by
  funext j
  unfold ni updF
  rw [List.getElem?_set]
  by_cases hj : j = i
  · subst hj; simp [h]
  · simp [hj, Ne.symm hj]

theorem ni_snoc (l : List Info) (v : Info) : ni (l ++ [v]) = updF (ni l) l.length v := by
  funext j
  unfold ni updF
  by_cases hj : j = l.length
  · subst hj; simp
  · rw [if_neg hj]
    by_cases h : j < l.length
    · rw [List.getElem?_append_left h]
    · show ((l ++ [v])[j]?).getD {} = (l[j]?).getD {}
      rw [List.getElem?_eq_none (by simp; omega), List.getElem?_eq_none (by omega)]

theorem nd_snoc (l : List Pd) (v : Pd) : nd (l ++ [v]) = updF (nd l) l.length v := by
  funext j
  unfold nd updF
  by_cases hj : j = l.length
  · subst hj; simp
  · rw [if_neg hj]
    by_cases h : j < l.length
    · rw [List.getElem?_append_left h]
    · show ((l ++ [v])[j]?).getD {} = (l[j]?).getD {}
      rw [List.getElem?_eq_none (by simp; omega), List.getElem?_eq_none (by omega)]

theorem updF_same {α : Type} (f : Nat → α) (i : Nat) (v : α) : updF f i v i = v := by simp [updF]

theorem updF_ne {α : Type} (f : Nat → α) {i j : Nat} (v : α) (h : j ≠ i) : updF f i v j = f j := by simp [updF, h]

theorem updInfo_ok (st : St) (i : Nat) (f : Info → Info) (h : i < st.info.length) :
    ∃ st', updInfo st i f = some st' ∧ st'.ptrs = st.ptrs ∧ st'.index = st.index ∧ st'.info.length = st.info.length ∧
      ni st'.info = updF (ni st.info) i (f (ni st.info i)) := by
  refine ⟨{ st with info := st.info.set i (f (ni st.info i)) }, ?_, rfl, rfl, by simp, ni_set _ _ _ h⟩
  unfold updInfo
  rw [ni_get h]
  simp [wr, h]

theorem updPd_ok (st : St) (i : Nat) (f : Pd → Pd) (h : i < st.ptrs.ra.length) :
    ∃ st', updPd st i f = some st' ∧ st'.info = st.info ∧ st'.index = st.index ∧ st'.ptrs.ra.length = st.ptrs.ra.length ∧
      st'.ptrs.lastChild = st.ptrs.lastChild ∧ nd st'.ptrs.ra = updF (nd st.ptrs.ra) i (f (nd st.ptrs.ra i)) := by
  refine ⟨{ st with ptrs := { st.ptrs with ra := st.ptrs.ra.set i (f (nd st.ptrs.ra i)) } }, ?_, rfl, rfl, by simp, rfl, ?_⟩
  · unfold updPd
    rw [upd_nd _ h]
    rfl
  · funext j
    exact nd_set _ _ _ _ h

/-! ### objects -/

def ptrLike (ty : MrType) : Bool := ty == .pointer || ty == .string

/-- objects with a type descriptor -/
def needsTd (o : Obj) : Bool :=
  match o.ty with
  | .struct | .enum | .array => true
  | .pointer => !untyped o.aux
  | _ => false

/-- objects of the types covered -/
def ObjOK (tds : List Td) (o : Obj) : Prop :=
  match o.ty with
  | .struct => HasTd tds o.td .struct
  | .enum => HasTd tds o.td .enum
  | .pointer => untyped o.aux = true ∨ ∃ b, HasTd tds o.td b ∧ Leads o.aux b
  | .array => ∃ b, HasTd tds o.td b ∧ Leads o.aux b ∧ (o.count ≠ 0 → o.step = elementSize tds o.aux o.td)
  | .union | .anonUnion | .namedAnonUnion => False
  | _ => True

/-- only the members that belong to the type are used -/
def Norm (o : Obj) : Prop := object o.addr o.ty o.aux o.td o.count o.step = o

theorem norm_object (a : Nat) (ty aux : MrType) (td : Option Nat) (c s : Nat) : Norm (object a ty aux td c s) := by
  cases ty <;> simp only [Norm, object]
  case pointer =>
    by_cases h : untyped aux = true
    · simp [h]
    · simp [h]

theorem norm_components {tds : List Td} {o c : Obj} (hc : c ∈ components tds o) : Norm c := by
  unfold components at hc
  split at hc
  · split at hc
    · simp only [List.mem_map] at hc
      obtain ⟨f, _, he⟩ := hc
      rw [← he]; exact norm_object _ _ _ _ _ _
    · cases hc
  · simp only [List.mem_map] at hc
    obtain ⟨j, _, he⟩ := hc
    rw [← he]; exact norm_object _ _ _ _ _ _
  · cases hc

theorem norm_target {mem : Mem} {tds : List Td} {o c : Obj} (hc : target mem tds o = some c) : Norm c := by
  unfold target at hc
  split at hc
  · split at hc
    · cases hc
    · cases hc; exact norm_object _ _ _ _ _ _
  · split at hc
    · cases hc
    · cases hc; rfl
  · cases hc

theorem tyOf_has {tds : List Td} {td : Option Nat} {b : MrType} (h : HasTd tds td b) : tyOf tds td = b := by
  obtain ⟨t, d, h1, h2, h3⟩ := h
  simp [tyOf, h1, h2, h3]

theorem object_ok {tds : List Td} {addr : Nat} {ty aux : MrType} {td : Option Nat} {b : MrType} (h : HasTd tds td b) (hl : Leads ty b) (ha : aux = b) :
    ObjOK tds (object addr ty aux td 0 0) := by
  subst ha
  rcases hl with ⟨h1, h2⟩ | ⟨h1, h2⟩
  · subst h1
    cases ty <;> simp [object, ObjOK, plain] at h2 ⊢ <;> exact h
  · subst h1
    by_cases hu : untyped aux = true
    · simp [object, ObjOK, hu]
    · simp only [object, hu, ObjOK]
      right
      refine ⟨aux, h, Or.inl ⟨rfl, ?_⟩⟩
      rcases h2 with h | h
      · exact h
      · exact absurd h hu

theorem ofFd_ok {tds : List Td} {addr : Nat} {f : Fd} (h : FdOK tds f) : ObjOK tds (ofFd addr f) := by
  obtain ⟨_, _, _, h⟩ := h
  cases hty : f.ty <;> simp only [hty] at h <;> simp only [ofFd, object, hty, ObjOK]
  case struct => exact h
  case enum => exact h.1
  case array =>
    obtain ⟨b, c, h1, h2, _, h3, h4⟩ := h
    refine ⟨b, h1, h2, ?_⟩
    rw [h3, h4]
    simp only [List.headD_cons]
    intro hc
    rw [Nat.mul_comm, Nat.mul_div_cancel _ (by omega)]
  case pointer =>
    rcases h with h | ⟨b, h1, h2, _⟩
    · simp [h]
    · by_cases hu : untyped f.aux = true
      · simp [hu]
      · simp only [hu]
        exact Or.inr ⟨b, h1, h2⟩

theorem components_ok {tds : List Td} (hT : Types tds) {o c : Obj} (h : ObjOK tds o) (hc : c ∈ components tds o) : ObjOK tds c := by
  unfold components at hc
  split at hc
  · rename_i hty
    simp only [ObjOK, hty] at h
    obtain ⟨t, d, h1, h2, h3⟩ := h
    simp only [h1, Option.bind_some, h2, List.mem_map] at hc
    obtain ⟨f, hf, he⟩ := hc
    rw [← he]
    exact ofFd_ok (hT.fields t d h2 h3 f hf).1
  · rename_i hty
    simp only [ObjOK, hty] at h
    obtain ⟨b, h1, h2, _⟩ := h
    simp only [List.mem_map] at hc
    obtain ⟨j, _, he⟩ := hc
    rw [← he]
    exact object_ok h1 h2 (tyOf_has h1)
  · simp at hc

theorem target_ok {mem : Mem} {tds : List Td} {o c : Obj} (h : ObjOK tds o) (hc : target mem tds o = some c) : ObjOK tds c := by
  unfold target at hc
  split at hc
  · rename_i hty
    simp only [ObjOK, hty] at h
    split at hc
    · simp at hc
    · rename_i hu
      simp only [Bool.or_eq_true, beq_iff_eq, not_or] at hu
      rcases h with h | ⟨b, h1, h2⟩
      · exact absurd h hu.1
      · cases hc
        exact object_ok h1 h2 (tyOf_has h1)
  · split at hc
    · simp at hc
    · cases hc
      simp [ObjOK]
  · simp at hc

/-! ### the invariant -/

/-- the members of a node agree with its object; `s`: the node is still being saved -/
structure Seen (mem : Mem) (tds : List Td) (pd : Pd) (x : Info) (o : Obj) (s : Prop) : Prop where
  addr : x.addr = o.addr
  ty : pd.ty = o.ty
  ok : ObjOK tds o
  norm : Norm o
  aux : o.ty = .pointer → x.aux = o.aux
  td : needsTd o = true → ∃ g, x.fd = some g ∧ g.td = o.td ∧
    (g.nonPersistent = false → o.ty = .pointer ∨ o.ty = .array → g.base = tyOf tds o.td)
  size : plain o.ty = true → elementSize tds o.ty o.td ≤ x.size
  cref : pd.cref = false
  np : ∀ g, x.fd = some g → g.nonPersistent = true → s ∧ (o.ty = .array → pd.parent = 0)
  opq : x.opq = false
  null : ¬ s → (o.ty = .string ∨ o.ty = .pointer ∧ o.aux ≠ .none) ∨ (o.ty = .func ∨ o.ty = .funcType) → (x.null = true ↔ mem.ptr o.addr = 0)
  psize : ¬ s → o.ty = .pointer → untyped o.aux = false → mem.ptr o.addr ≠ 0 → x.size = elementSize tds o.aux o.td
  eaux : o.ty = .enum → typeSize x.aux ≤ elementSize tds o.ty o.td
  unset : o.ty ≠ .string → o.ty ≠ .pointer → x.null = true → (o.ty = .func ∨ o.ty = .funcType) ∧ mem.ptr o.addr = 0

/-- the members of the node of a field that are those of the field -/
def Fixed (f : Fd) (x : Info) : Prop := (f.ty = .array ∨ f.ty = .charArray → x.size = f.size) ∧ (f.ty = .bitfield → x.aux = f.aux)

/-- how far node `i` is saved: `some k`: the first `k` components, nothing for pointers; `none`: completely -/
def Filled (mem : Mem) (tds : List Td) (P : Nat → Pd) (n : Nat) (ks : Nat → List Nat) (obj : Nat → Obj) (i : Nat) (k : Option Nat) : Prop :=
  if ptrLike (obj i).ty = true then
    match k with
    | some k => k = 0 ∧ (P i).firstChild = 0 ∧ (P i).ref = false
    | none =>
      match target mem tds (obj i) with
      | none => (P i).firstChild = 0 ∧ (P i).ref = false
      | some o => 1 ≤ (P i).firstChild ∧ (P i).firstChild < n ∧ obj (P i).firstChild = o ∧
          (((P i).ref = false ∧ ks i = [(P i).firstChild]) ∨ ((P i).ref = true ∧ ks i = [] ∧ (P (P i).firstChild).parent ≠ i))
  else (P i).ref = false ∧
    match k with
    | some k => k ≤ (components tds (obj i)).length ∧ (ks i).map obj = (components tds (obj i)).take k
    | none => (ks i).map obj = components tds (obj i)

/-- `j` is the last node before `hi` with an address in `b`, 0 if there is none -/
def Prev (obj : Nat → Obj) (b hi j : Nat) : Prop :=
  j < hi ∧ (j ≠ 0 → (obj j).addr / 4 = b) ∧ ∀ m, j < m → m < hi → (obj m).addr / 4 ≠ b

structure InvF (mem : Mem) (tds : List Td) (U : Prop) (root : Obj) (P : Nat → Pd) (I : Nat → Info) (index : Nat → Nat) (n : Nat)
    (ks : Nat → List Nat) (obj : Nat → Obj) (O : Nat → Option Nat) (S : Nat → Prop) : Prop where
  pos : 1 ≤ n
  tree : Tree P n ks
  seen : ∀ i, 1 ≤ i → i < n → Seen mem tds (P i) (I i) (obj i) (S i)
  filled : ∀ i, 1 ≤ i → i < n → Filled mem tds P n ks obj i (O i)
  rootObj : 1 < n → obj 1 = root
  kidsize : ∀ c, 1 < c → c < n → (obj (P c).parent).ty = .pointer → plain (obj c).ty = true → (I c).size ≤ elementSize tds (obj c).ty (obj c).td
  bnext : ∀ i, 1 ≤ i → i < n → Prev obj ((obj i).addr / 4) i (I i).nextUntyped
  bhead : ∀ b, Prev obj b n (index b)
  uniq : U → ∀ i j, 1 ≤ i → i < n → 1 ≤ j → j < n → identified (obj i).ty = true → obj i = obj j → i = j
  mark : ∀ i, 1 ≤ i → i < n → (P i).ref = true → (P (P i).firstChild).refd = true
  names : ∀ i, 1 ≤ i → i < n → (obj i).ty = .struct → ∀ (j c : Nat), (ks i)[j]? = some c → (I c).fd = (members tds (obj i))[j]?
  rsize : 1 < n → plain (obj 1).ty = true → (I 1).size = elementSize tds (obj 1).ty (obj 1).td
  fixed : ∀ i, 1 ≤ i → i < n → (obj i).ty = .struct → ∀ (j c : Nat) (f : Fd), (ks i)[j]? = some c → (members tds (obj i))[j]? = some f →
    Fixed f (I c)
  unnamed : ∀ i, 1 ≤ i → i < n → (I i).unnamed = false → 1 < i ∧ ((obj (P i).parent).ty = .struct ∨ (obj (P i).parent).ty = .string)

/-- the invariant for the state of `mr_save` -/
structure Inv (mem : Mem) (tds : List Td) (U : Prop) (root : Obj) (st : St) (ks : Nat → List Nat) (obj : Nat → Obj) (O : Nat → Option Nat) (S : Nat → Prop) : Prop where
  len : st.info.length = st.ptrs.ra.length
  inv : InvF mem tds U root (nd st.ptrs.ra) (ni st.info) st.index st.ptrs.ra.length ks obj O S

/-- where the next child of a node with object `o` comes from -/
def slot (mem : Mem) (tds : List Td) (o : Obj) (k : Nat) : Option Obj :=
  if ptrLike o.ty = true then (if k = 0 then target mem tds o else none) else (components tds o)[k]?

/-- the node after its next child was saved -/
def adv (o : Obj) (k : Nat) : Option Nat := if ptrLike o.ty = true then none else some (k + 1)

theorem filled_congr {mem : Mem} {tds : List Td} {P P' : Nat → Pd} {n n' : Nat} {ks ks' : Nat → List Nat} {obj obj' : Nat → Obj} {i : Nat} {k : Option Nat}
    (h : Filled mem tds P n ks obj i k) (hn : n ≤ n') (ho : ∀ j, j < n → obj' j = obj j) (hi : i < n) (hk : ks' i = ks i)
    (hks : ∀ c ∈ ks i, c < n)
    (hr : (P' i).ref = (P i).ref) (hf : (P' i).firstChild = (P i).firstChild) (hp : ∀ j, 1 ≤ j → j < n → (P' j).parent ≠ i ∨ (P' j).parent = (P j).parent) :
    Filled mem tds P' n' ks' obj' i k := by
  unfold Filled at h ⊢
  rw [ho i hi, hk, hr, hf]
  have hm : (ks i).map obj' = (ks i).map obj := List.map_congr_left fun c hc => ho c (hks c hc)
  split
  · rename_i hpl
    rw [if_pos hpl] at h
    cases k with
    | some k => exact h
    | none =>
      simp only at h ⊢
      cases ht : target mem tds (obj i) with
      | none => rw [ht] at h; exact h
      | some o =>
        rw [ht] at h
        obtain ⟨h1, h2, h3, h4⟩ := h
        refine ⟨h1, by omega, by rw [ho _ h2]; exact h3, ?_⟩
        rcases h4 with h4 | ⟨h4, h5, h6⟩
        · exact Or.inl h4
        · refine Or.inr ⟨h4, h5, ?_⟩
          rcases hp _ h1 h2 with h | h
          · exact h
          · rw [h]; exact h6
  · rename_i hpl
    rw [if_neg hpl] at h
    rw [hm]
    exact h

theorem filled_length {mem : Mem} {tds : List Td} {ks : Nat → List Nat} {obj : Nat → Obj} {P : Nat → Pd} {n : Nat} {i k : Nat} (h : Filled mem tds P n ks obj i (some k)) (hpl : ptrLike (obj i).ty = false) :
    (ks i).length = k := by
  unfold Filled at h
  rw [if_neg (by simp [hpl])] at h
  have := congrArg List.length h.2.2
  simp at this
  have h2 := h.2.1
  omega

/-- in a tree every node but the root is a component or the target of its parent -/
theorem edge {mem : Mem} {tds : List Td} {U : Prop} {root : Obj} {P : Nat → Pd} {I : Nat → Info} {index : Nat → Nat} {n : Nat}
    {ks : Nat → List Nat} {obj : Nat → Obj} {O : Nat → Option Nat} {S : Nat → Prop} (h : InvF mem tds U root P I index n ks obj O S)
    {c : Nat} (h1 : 1 < c) (h2 : c < n) :
    (ptrLike (obj (P c).parent).ty = true ∧ target mem tds (obj (P c).parent) = some (obj c) ∧ ks (P c).parent = [c] ∧
      (P (P c).parent).firstChild = c ∧ (P (P c).parent).ref = false) ∨
    (ptrLike (obj (P c).parent).ty = false ∧ ∃ j : Nat, (ks (P c).parent)[j]? = some c ∧ (components tds (obj (P c).parent))[j]? = some (obj c)) := by
  have hm := h.tree.mem c h1 h2
  obtain ⟨h3, h4, _, _, _⟩ := h.tree.own _ _ hm
  have hf := h.filled _ h3 h4
  have hch := h.tree.chain _ h3 h4
  generalize hq : (P c).parent = q at *
  unfold Filled at hf
  by_cases hpl : ptrLike (obj q).ty = true
  · rw [if_pos hpl] at hf
    refine Or.inl ⟨hpl, ?_⟩
    have hcr := (h.seen q h3 h4).cref
    cases ho : O q with
    | some k =>
      rw [ho] at hf
      obtain ⟨_, h5, h6⟩ := hf
      rw [kidsHead_plain h6 hcr, h5] at hch
      have := chainF_head hch
      cases hk : ks q with
      | nil => rw [hk] at hm; cases hm
      | cons x l =>
        rw [hk] at hch
        exact absurd hch.1.symm hch.2.1
    | none =>
      rw [ho] at hf
      simp only at hf
      cases ht : target mem tds (obj q) with
      | none =>
        rw [ht] at hf
        obtain ⟨h5, h6⟩ := hf
        rw [kidsHead_plain h6 hcr, h5] at hch
        cases hk : ks q with
        | nil => rw [hk] at hm; cases hm
        | cons x l =>
          rw [hk] at hch
          exact absurd hch.1.symm hch.2.1
      | some o =>
        rw [ht] at hf
        obtain ⟨h5, h6, h7, h8⟩ := hf
        rcases h8 with ⟨h8, h9⟩ | ⟨h8, h9, _⟩
        · rw [h9] at hm
          simp at hm
          rw [← hm] at h7 h9
          exact ⟨by rw [h7], h9, hm.symm, h8⟩
        · rw [h9] at hm; cases hm
  · rw [if_neg hpl] at hf
    refine Or.inr ⟨by simpa using hpl, ?_⟩
    obtain ⟨j, hj, hj'⟩ := List.getElem_of_mem hm
    have hj2 : (ks q)[j]? = some c := by rw [List.getElem?_eq_getElem hj, hj']
    refine ⟨j, hj2, ?_⟩
    have hmap : ((ks q).map obj)[j]? = some (obj c) := by simp [hj2]
    cases ho : O q with
    | some k =>
      rw [ho] at hf
      rw [hf.2.2, List.getElem?_take] at hmap
      split at hmap
      · exact hmap
      · cases hmap
    | none =>
      rw [ho] at hf
      rw [hf.2] at hmap
      exact hmap

theorem anc_reach {mem : Mem} {tds : List Td} {U : Prop} {root : Obj} {P : Nat → Pd} {I : Nat → Info} {index : Nat → Nat} {n : Nat}
    {ks : Nat → List Nat} {obj : Nat → Obj} {O : Nat → Option Nat} {S : Nat → Prop} (h : InvF mem tds U root P I index n ks obj O S)
    {a x : Nat} (ha : Anc P a x) (hx : x < n) : Reach mem tds (obj a) (obj x) := by
  induction ha with
  | self => exact Reach.self
  | @up x h1 h2 ih =>
    have hp := tree_closed h.tree x h1 hx
    have := ih hp
    rcases edge h h1 hx with ⟨_, h3, _⟩ | ⟨_, j, _, h4⟩
    · exact Reach.lead this h3
    · exact Reach.part this (List.mem_of_getElem? h4)

theorem dep_anc {P : Nat → Pd} {x k : Nat} (h : Dep P x k) : Anc P 1 x := by
  induction h with
  | root => exact Anc.self
  | up h1 _ ih => exact Anc.up h1 ih

theorem reach_root {mem : Mem} {tds : List Td} {U : Prop} {root : Obj} {P : Nat → Pd} {I : Nat → Info} {index : Nat → Nat} {n : Nat}
    {ks : Nat → List Nat} {obj : Nat → Obj} {O : Nat → Option Nat} {S : Nat → Prop} (h : InvF mem tds U root P I index n ks obj O S)
    {x : Nat} (h1 : 1 ≤ x) (hx : x < n) : Reach mem tds root (obj x) := by
  obtain ⟨k, hk⟩ := h.tree.dep x h1 hx
  rw [← h.rootObj (by omega)]
  exact anc_reach h (dep_anc hk) hx

end Verif.Lemmas.SaveInv
