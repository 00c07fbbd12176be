import Verif.Lemmas.XdrSeg
import Verif.Lemmas.Dfs
/-!
Where the loaded objects will be.
-/
namespace Verif.Lemmas.XdrPlan
open Verif.Model Verif.Model.Ptrs Verif.Model.Save Verif.Model.Copy Verif.Model.Xdr Verif.Model.XdrGraph Verif.Spec.Ptrs Verif.Spec.Save Verif.Spec.Copy Verif.Spec.XdrGraph
  Verif.Lemmas.SaveTree Verif.Lemmas.SaveFinal Verif.Lemmas.SaveInv Verif.Lemmas.CopyLayout Verif.Lemmas.CopyView Verif.Lemmas.CopyTops Verif.Lemmas.CopyMem Verif.Lemmas.CopyPlace Verif.Lemmas.CopyDone Verif.Lemmas.XdrSeg

/-- a saved graph and the program that loads it -/
structure Plan where
  ld : Nat
  m : Bytes
  mem : Mem
  tds : List Td
  root : Obj
  fd : Fd
  live : Blocks
  max : Nat
  st : St
  k : Forest
  n : Nat
  obj : Nat → Obj
  top : Nat → Nat
  dst : Nat
  live0 : Blocks
  alloc : Blocks → Nat → Nat
  fuel : Nat
  junk : Nat → Bytes

namespace Plan
variable (P : Plan)

/-- what is known about the saved graph -/
structure Core : Prop where
  C : GCtx P.m P.mem P.tds P.root P.live P.max P.st P.k P.n P.obj P.top
  root : P.root = ofFd P.root.addr P.fd
  fd : FdOK P.tds P.fd

structure OK : Prop extends P.Core where
  S : Storable P.tds
  ld : P.ld ≤ 16
  alloc : Allocator P.alloc
  enough : Enough P.alloc P.m P.mem P.tds P.root P.live0
  room : covered P.live0 P.dst (extent P.tds P.root) = true ∧ P.dst ≠ 0 ∧ P.dst + extent P.tds P.root ≤ 2 ^ 64
  max : P.max < 2 ^ 32
  fuel : P.max ≤ P.fuel
  small : P.n < 2 ^ 32

instance : Coe P.OK P.Core := ⟨OK.toCore⟩

/-- the nodes in document order -/
abbrev N : List Nat := 1 :: P.k.nodes

/-- index of a node in the document -/
abbrev idx (i : Nat) : Nat := (nd P.st.ptrs.ra i).idx

noncomputable def need (t : Nat) : Nat := CopyPlace.need P.m P.tds (P.obj t)

/-- the object that is allocated when node `i` is loaded -/
def own (i : Nat) : Option Nat := if isCell (P.obj i) then (List.range P.n).find? fun t => decide (1 < t) && pa P.st t == i else none

/-- the blocks in use before node `j` of the document is loaded -/
noncomputable def liveAt : Nat → Blocks
  | 0 => P.live0
  | j + 1 =>
    match (P.N[j]?).bind P.own with
    | some t => liveAt j ++ [(P.alloc (liveAt j) (P.need t), P.need t)]
    | none => liveAt j

/-- the address of the block of a node -/
noncomputable def b (t : Nat) : Nat := if t = 1 then P.dst else P.alloc (P.liveAt (P.idx (pa P.st t) - 1)) (P.need t)

/-- the address of the loaded object -/
noncomputable def A (i : Nat) : Nat := na P.top P.obj P.b i

/-- the nodes for which blocks were allocated before node `j` of the document is loaded -/
def starts (j : Nat) : List Nat := (P.N.take j).filterMap P.own

noncomputable def blk (t : Nat) : Nat × Nat := (P.b t, P.need t)

end Plan

/-- parents come first -/
theorem rep_before {ra : List Pd} : ∀ (f : Forest) (par h : Nat), Rep ra par h f → ∀ (q c : Nat), f.nodes[q]? = some c →
    (nd ra c).parent = par ∨ ∃ q', q' < q ∧ f.nodes[q']? = some (nd ra c).parent := by
  intro f
  induction f with
  | nil => intro _ _ _ q c h; cases h
  | cons i k s ihk ihs =>
    intro par h hr q c hq
    obtain ⟨_, _, pd, e1, e2, e3, e4⟩ := hr
    unfold Forest.nodes at hq ⊢
    cases q with
    | zero =>
      cases hq
      left
      obtain ⟨hh, _⟩ := SaveDone.get_nd e1
      rw [hh]; exact e2
    | succ q =>
      rw [List.getElem?_cons_succ] at hq
      by_cases hk : q < k.nodes.length
      · rw [List.getElem?_append_left hk] at hq
        right
        rcases ihk _ _ e3 q c hq with h | ⟨q', h1, h2⟩
        · exact ⟨0, by omega, by rw [h]; rfl⟩
        · exact ⟨q' + 1, by omega, by rw [List.getElem?_cons_succ, List.getElem?_append_left (by omega)]; exact h2⟩
      · rw [List.getElem?_append_right (by omega)] at hq
        rcases ihs _ _ e4 _ c hq with h | ⟨q', h1, h2⟩
        · exact Or.inl h
        · right
          exact ⟨k.nodes.length + q' + 1, by omega, by
            rw [List.getElem?_cons_succ, List.getElem?_append_right (by omega), show k.nodes.length + q' - k.nodes.length = q' from by omega]; exact h2⟩

variable {P : Plan} (H : P.OK)
include H

omit H in
theorem Plan.Core.own_iff (H : P.Core) {i t : Nat} : P.own i = some t ↔ 1 < t ∧ t < P.n ∧ pa P.st t = i ∧ isCell (P.obj i) = true := by
  have V := H.C.V
  unfold Plan.own
  constructor
  · intro h
    split at h
    · rename_i hc
      have h1 := List.find?_some h
      have h2 := List.mem_of_find?_eq_some h
      simp at h1 h2
      exact ⟨h1.1, h2, h1.2, hc⟩
    · cases h
  · rintro ⟨h1, h2, h3, h4⟩
    rw [if_pos h4]
    cases hf : (List.range P.n).find? fun t => decide (1 < t) && pa P.st t == i with
    | none =>
      have := List.find?_eq_none.1 hf t (by simp [h2])
      simp [h1, h3] at this
    | some t' =>
      have g1 := List.find?_some hf
      have g2 := List.mem_of_find?_eq_some hf
      simp at g1 g2
      have h1' := V.lead t h1 h2 (by rw [h3]; exact h4)
      have h2' := V.lead t' g1.1 g2 (by rw [show pa P.st t' = i from g1.2]; exact h4)
      rw [h3] at h1'
      rw [show pa P.st t' = i from g1.2, h1'] at h2'
      have hp := V.up t h1 h2
      rw [h3] at hp
      have hid := H.C.S.cells _ _ (V.reach _ hp.1 hp.2) h1'
      rw [V.uniq t t' (by omega) h2 (by omega) g2 hid (Option.some.inj h2')]

omit H in
theorem Plan.Core.own_none (H : P.Core) {i : Nat} (h : P.own i = none) {t : Nat} (h1 : 1 < t) (h2 : t < P.n) (h3 : pa P.st t = i) : isCell (P.obj i) = false := by
  cases hc : isCell (P.obj i) with
  | false => rfl
  | true => rw [H.own_iff.2 ⟨h1, h2, h3, hc⟩] at h; cases h

omit H in
theorem Plan.Core.range (H : P.Core) {i : Nat} (h : i ∈ P.N) : 1 ≤ i ∧ i < P.n := ((H.C.V.inTree i).1 h).1

omit H in
theorem Plan.Core.idx_at (H : P.Core) {j i : Nat} (h : P.N[j]? = some i) : P.idx i = j + 1 := by
  have h1 := H.C.V.F.ids j i h
  rw [(H.C.V.get (H.range (List.mem_of_getElem? h)).2).1] at h1
  simpa using h1

omit H in
theorem Plan.Core.at_idx (H : P.Core) {i : Nat} (h : i ∈ P.N) : P.N[P.idx i - 1]? = some i ∧ 1 ≤ P.idx i ∧ P.idx i ≤ P.N.length := by
  obtain ⟨j, hj⟩ := List.mem_iff_getElem?.1 h
  have hl := (List.getElem?_eq_some_iff.1 hj).1
  rw [H.idx_at hj]
  exact ⟨hj, by omega, by omega⟩

omit H in
theorem Plan.Core.len_le (H : P.Core) : P.N.length ≤ P.n := Dfs.nodup_len H.C.V.F.nodup (n := P.n) fun x hx => (H.range hx).2

theorem Plan.OK.len_lt : P.N.length < 2 ^ 32 := Nat.lt_of_le_of_lt H.len_le H.small

theorem Plan.OK.step_some {j i t : Nat} (hj : P.N[j]? = some i) (ht : P.own i = some t) :
    P.b t = P.alloc (P.liveAt j) (P.need t) ∧ P.liveAt (j + 1) = P.liveAt j ++ [P.blk t] := by
  obtain ⟨h1, h2, h3, h4⟩ := H.own_iff.1 ht
  have hb : P.b t = P.alloc (P.liveAt j) (P.need t) := by
    unfold Plan.b
    rw [if_neg (by omega), h3, H.idx_at hj]
    rfl
  refine ⟨hb, ?_⟩
  have : P.liveAt (j + 1) = match (P.N[j]?).bind P.own with
    | some t => P.liveAt j ++ [(P.alloc (P.liveAt j) (P.need t), P.need t)]
    | none => P.liveAt j := rfl
  rw [this, hj, Option.bind_some, ht]
  simp only [Plan.blk, hb]

theorem Plan.OK.step_none {j i : Nat} (hj : P.N[j]? = some i) (ht : P.own i = none) : P.liveAt (j + 1) = P.liveAt j := by
  have : P.liveAt (j + 1) = match (P.N[j]?).bind P.own with
    | some t => P.liveAt j ++ [(P.alloc (P.liveAt j) (P.need t), P.need t)]
    | none => P.liveAt j := rfl
  rw [this, hj, Option.bind_some, ht]

omit H in
theorem Plan.starts_succ {j i : Nat} (hj : P.N[j]? = some i) : P.starts (j + 1) = P.starts j ++ (P.own i).toList := by
  unfold Plan.starts
  rw [List.take_add_one, List.filterMap_append, hj]
  cases h : P.own i <;> simp [h]

omit H in
theorem Plan.mem_starts {j t : Nat} : t ∈ P.starts j ↔ ∃ p i, p < j ∧ P.N[p]? = some i ∧ P.own i = some t := by
  unfold Plan.starts
  rw [List.mem_filterMap]
  constructor
  · rintro ⟨i, h1, h2⟩
    obtain ⟨p, hp⟩ := List.mem_iff_getElem?.1 h1
    rw [List.getElem?_take] at hp
    split at hp
    · exact ⟨p, i, by assumption, hp, h2⟩
    · cases hp
  · rintro ⟨p, i, h1, h2, h3⟩
    exact ⟨i, List.mem_of_getElem? (i := p) (by rw [List.getElem?_take, if_pos h1]; exact h2), h3⟩

omit H in
theorem Plan.starts_mono {j j' : Nat} (h : j ≤ j') {t : Nat} (ht : t ∈ P.starts j) : t ∈ P.starts j' := by
  rw [Plan.mem_starts] at *
  obtain ⟨p, i, h1, h2⟩ := ht
  exact ⟨p, i, by omega, h2⟩

theorem Plan.OK.live_eq : ∀ j, j ≤ P.N.length → P.liveAt j = P.live0 ++ (P.starts j).map P.blk := by
  intro j
  induction j with
  | zero => intro _; simp [Plan.liveAt, Plan.starts]
  | succ j ih =>
    intro hl
    have hj : P.N[j]? = some (P.N[j]'(by omega)) := List.getElem?_eq_getElem _
    rw [Plan.starts_succ hj]
    cases ho : P.own (P.N[j]'(by omega)) with
    | none => rw [H.step_none hj ho, ih (by omega)]; simp
    | some t => rw [(H.step_some hj ho).2, ih (by omega)]; simp

omit H in
theorem Plan.Core.starts_nodup (H : P.Core) (j : Nat) : (P.starts j).Nodup := by
  unfold Plan.starts
  have : (P.N.take j).Nodup := H.C.V.F.nodup.sublist (List.take_sublist _ _)
  generalize P.N.take j = l at this
  induction l with
  | nil => exact List.nodup_nil
  | cons i l ih =>
    rw [List.nodup_cons] at this
    rw [List.filterMap_cons]
    cases ho : P.own i with
    | none => exact ih this.2
    | some t =>
      simp only
      rw [List.nodup_cons]
      refine ⟨fun h => ?_, ih this.2⟩
      obtain ⟨i', h1, h2⟩ := List.mem_filterMap.1 h
      have h3 := (H.own_iff.1 h2).2.2.1
      have h4 := (H.own_iff.1 ho).2.2.1
      rw [← h4, h3] at this
      exact this.1 h1

omit H in
theorem Plan.Core.starts_start (H : P.Core) {j t : Nat} (h : t ∈ P.starts j) : 1 < t ∧ t < P.n ∧ isCell (P.obj (pa P.st t)) = true := by
  obtain ⟨p, i, _, _, h3⟩ := Plan.mem_starts.1 h
  obtain ⟨g1, g2, g3, g4⟩ := H.own_iff.1 h3
  exact ⟨g1, g2, by rw [g3]; exact g4⟩

/-- there is memory for every block -/
theorem Plan.OK.grown : ∀ j, j ≤ P.N.length → Grown P.alloc P.live0 ((P.starts j).map P.blk) ∧ ∀ t ∈ P.starts j, P.b t ≠ 0 := by
  intro j
  induction j with
  | zero =>
    intro _
    simp only [Plan.starts, List.take_zero, List.filterMap_nil, List.map_nil]
    exact ⟨.none, fun t h => by cases h⟩
  | succ j ih =>
    intro hl
    obtain ⟨hg, hnz⟩ := ih (by omega)
    have hj : P.N[j]? = some (P.N[j]'(by omega)) := List.getElem?_eq_getElem _
    rw [Plan.starts_succ hj]
    cases ho : P.own (P.N[j]'(by omega)) with
    | none => simp only [Option.toList, List.append_nil]; exact ⟨hg, hnz⟩
    | some t =>
      have hb := (H.step_some hj ho).1
      rw [H.live_eq j (by omega)] at hb
      obtain ⟨total, e1, e2⟩ := H.enough
      have hst := Plan.starts_succ hj
      rw [ho] at hst
      have hall : ∀ x ∈ P.starts (j + 1), 1 < x ∧ x < P.n ∧ isCell (P.obj (pa P.st x)) = true := fun x hx => H.starts_start hx
      have hinj : ((P.starts (j + 1)).map P.obj).Nodup := by
        have : ∀ l : List Nat, (∀ x ∈ l, 1 < x ∧ x < P.n ∧ isCell (P.obj (pa P.st x)) = true) → l.Nodup → (l.map P.obj).Nodup := by
          intro l
          induction l with
          | nil => intro _ _; exact List.nodup_nil
          | cons a l ih =>
            intro g1 g2
            rw [List.nodup_cons] at g2
            rw [List.map_cons, List.nodup_cons]
            refine ⟨fun h => ?_, ih (fun x hx => g1 x (by simp [hx])) g2.2⟩
            obtain ⟨y, hy, hya⟩ := List.mem_map.1 h
            obtain ⟨a1, a2, a3⟩ := g1 a (by simp)
            obtain ⟨y1, y2, _⟩ := g1 y (by simp [hy])
            have hup := H.C.V.up a a1 a2
            have hid := H.C.S.cells _ _ (H.C.V.reach _ hup.1 hup.2) (H.C.V.lead a a1 a2 a3)
            have := H.C.V.uniq a y (by omega) a2 (by omega) y2 hid hya.symm
            rw [this] at g2
            exact g2.1 hy
        exact this _ hall (H.starts_nodup _)
      have hsum := e2 ((P.starts (j + 1)).map fun x => (P.obj x, P.need x)) (by rw [List.map_map]; exact hinj) (by
        intro p hpm
        obtain ⟨x, hx, rfl⟩ := List.mem_map.1 hpm
        obtain ⟨x1, x2, x3⟩ := hall x hx
        exact ⟨H.C.V.outer H.C.S.cells x1 x2 x3, (start_need H.C (Or.inr ⟨x1, x2, x3⟩)).1⟩)
      have hne : P.alloc (P.live0 ++ (P.starts j).map P.blk) (P.need t) ≠ 0 := by
        apply e1 _ _ hg
        rw [hst] at hsum
        rw [List.map_map] at hsum ⊢
        rw [List.map_append, List.sum_append] at hsum
        have hf : (Prod.snd ∘ P.blk) = Prod.snd ∘ fun x => (P.obj x, P.need x) := rfl
        rw [hf]
        simpa using hsum
      simp only [Option.toList, List.map_append, List.map_cons, List.map_nil]
      constructor
      · have := Grown.more hg hne
        rw [← hb] at this
        exact this
      · intro x hx
        rw [List.mem_append, List.mem_singleton] at hx
        rcases hx with hx | rfl
        · exact hnz x hx
        · rw [hb]; exact hne

omit H in
theorem Plan.Core.start_mem (H : P.Core) {t : Nat} (h : Start P.st P.n P.obj t) (h1 : t ≠ 1) : t ∈ P.starts P.N.length := by
  rcases h with h | ⟨g1, g2, g3⟩
  · exact absurd h h1
  · have hp := H.C.V.up t g1 g2
    obtain ⟨j, hj⟩ := List.mem_iff_getElem?.1 (H.C.V.cell_tree hp.1 hp.2 g3)
    exact Plan.mem_starts.2 ⟨j, _, (List.getElem?_eq_some_iff.1 hj).1, hj, H.own_iff.2 ⟨g1, g2, rfl, g3⟩⟩

omit H in
theorem Plan.Core.b_one (H : P.Core) : P.b 1 = P.dst := by simp [Plan.b]

omit H in
theorem Plan.Core.need_one (H : P.Core) : P.need 1 = extent P.tds P.root := by
  have := start_need H.C (t := 1) (Or.inl rfl)
  rw [H.C.V.F.top] at this
  unfold Plan.need
  rw [H.C.V.F.top]
  exact this.2.2.2.2 (root_ty H.C).2

/-- a new block is apart from those in use -/
theorem Plan.OK.fresh {j i t : Nat} (hj : P.N[j]? = some i) (ht : P.own i = some t) : P.b t ≠ 0 ∧ P.b t + P.need t ≤ 2 ^ 64 ∧
    ∀ c ∈ P.liveAt j, Apart (P.b t) (P.need t) c.1 c.2 := by
  have hl := (List.getElem?_eq_some_iff.1 hj).1
  have hb := (H.step_some hj ht).1
  have hnz := (H.grown (j + 1) (by omega)).2 t (Plan.mem_starts.2 ⟨j, i, by omega, hj, ht⟩)
  refine ⟨hnz, ?_, ?_⟩
  · rw [hb] at hnz ⊢
    exact H.alloc.space _ _ hnz
  · intro c hc
    rw [hb] at hnz ⊢
    exact H.alloc.fresh _ _ hnz c hc

theorem Plan.OK.apart_old {t : Nat} {j : Nat} (ht : t ∈ P.starts j) {a x : Nat} (hc : covered P.live0 a x = true) : Apart (P.b t) (P.need t) a x := by
  obtain ⟨p, i, _, h2, h3⟩ := Plan.mem_starts.1 ht
  have hl := (List.getElem?_eq_some_iff.1 h2).1
  obtain ⟨c, c1, c2⟩ := covered_mem.1 hc
  have := (H.fresh h2 h3).2.2 c (by rw [H.live_eq p (by omega)]; simp [c1])
  unfold Apart at *
  omega

theorem Plan.OK.apart_new {t t' j : Nat} (ht : t ∈ P.starts j) (ht' : t' ∈ P.starts j) (hne : t ≠ t') : Apart (P.b t) (P.need t) (P.b t') (P.need t') := by
  have key : ∀ {p p' i i' t t' : Nat}, P.N[p]? = some i → P.N[p']? = some i' → P.own i = some t → P.own i' = some t' → p < p' → Apart (P.b t) (P.need t) (P.b t') (P.need t') := by
    intro p p' i i' t t' h1 h2 h3 h4 hlt
    have hl := (List.getElem?_eq_some_iff.1 h2).1
    have := (H.fresh h2 h4).2.2 (P.blk t) (by
      rw [H.live_eq p' (by omega)]
      exact List.mem_append_right _ (List.mem_map_of_mem (Plan.mem_starts.2 ⟨p, i, hlt, h1, h3⟩)))
    simp only [Plan.blk] at this
    unfold Apart at *
    omega
  obtain ⟨p, i, _, h2, h3⟩ := Plan.mem_starts.1 ht
  obtain ⟨p', i', _, h2', h3'⟩ := Plan.mem_starts.1 ht'
  rcases Nat.lt_trichotomy p p' with h | h | h
  · exact key h2 h2' h3 h3' h
  · subst h
    rw [h2] at h2'
    cases h2'
    rw [h3] at h3'
    exact absurd (Option.some.inj h3') hne
  · have := key h2' h2 h3' h3 h
    unfold Apart at *
    omega

theorem Plan.OK.blocks : Blk P.m P.tds P.st P.n P.obj P.b := by
  intro t t' h h' hne
  show Apart (P.b t) (P.need t) (P.b t') (P.need t')
  by_cases h1 : t = 1
  · subst h1
    have ht' := H.start_mem h' (Ne.symm hne)
    have := H.apart_old ht' H.room.1
    rw [H.b_one, H.need_one]
    unfold Apart at *
    omega
  · have ht := H.start_mem h h1
    by_cases h1' : t' = 1
    · subst h1'
      rw [H.b_one, H.need_one]
      exact H.apart_old ht H.room.1
    · exact H.apart_new ht (H.start_mem h' h1') hne

theorem Plan.OK.b_ok {t : Nat} (h : Start P.st P.n P.obj t) : P.b t ≠ 0 ∧ P.b t + P.need t ≤ 2 ^ 64 := by
  by_cases h1 : t = 1
  · subst h1
    rw [H.b_one, H.need_one]
    exact H.room.2
  · obtain ⟨p, i, _, h2, h3⟩ := Plan.mem_starts.1 (H.start_mem h h1)
    have := H.fresh h2 h3
    exact ⟨this.1, this.2.1⟩

theorem Plan.OK.A_ok {i : Nat} (h1 : 1 ≤ i) (h2 : i < P.n) : P.A i ≠ 0 ∧ P.A i < 2 ^ 64 := by
  have hs := top_start H.C.V H.C.tops i h1 h2
  have hb := H.b_ok hs
  have hr := in_block H.C (b := P.b) h1 h2
  unfold Plan.need at hb
  unfold Plan.A
  omega

omit H in
/-- parents are in the tree, before their children -/
theorem Plan.Core.before (H : P.Core) {j c : Nat} (hj : P.N[j]? = some c) (hc : c ≠ 1) : ∃ p, p < j ∧ P.N[p]? = some (pa P.st c) := by
  have hr := H.range (List.mem_of_getElem? hj)
  have hp := H.C.V.up c (by omega) hr.2
  have hN : (Forest.cons 1 P.k .nil).nodes = P.N := by simp [Forest.nodes]
  rcases rep_before _ _ _ H.C.V.F.tree j c (by rw [hN]; exact hj) with h | ⟨q, h1, h2⟩
  · have : pa P.st c = 0 := h
    omega
  · rw [hN] at h2
    exact ⟨q, h1, h2⟩

/-- the block of a node is there when the node is loaded -/
theorem Plan.OK.avail {i : Nat} (h1 : 1 ≤ i) (h2 : i < P.n) : ∀ j, P.N[j]? = some i → P.top i = 1 ∨ P.top i ∈ P.starts j := by
  refine node_induction H.C.V H.C.tops (motive := fun i => ∀ j, P.N[j]? = some i → P.top i = 1 ∨ P.top i ∈ P.starts j) ?_ ?_ ?_ i h1 h2
  · intro _ _; exact Or.inl H.C.tops.root
  · intro c c1 c2 c3 j hj
    obtain ⟨p, p1, p2⟩ := H.before hj (by omega)
    right
    rw [H.C.tops.cell c c1 c2 c3]
    exact Plan.mem_starts.2 ⟨p, _, p1, p2, H.own_iff.2 ⟨c1, c2, rfl, c3⟩⟩
  · intro c c1 c2 c3 ih j hj
    obtain ⟨p, p1, p2⟩ := H.before hj (by omega)
    rw [H.C.tops.up c c1 c2 c3]
    rcases ih p p2 with h | h
    · exact Or.inl h
    · exact Or.inr (Plan.starts_mono (by omega) h)

/-- what belongs to the block of a node may be accessed -/
theorem Plan.OK.access {i j x : Nat} (hj : P.N[j]? = some i) (hx : (P.obj i).addr + x ≤ (P.obj (P.top i)).addr + P.need (P.top i)) : covered (P.liveAt j) (P.A i) x = true := by
  have hr := H.range (List.mem_of_getElem? hj)
  have hl := (List.getElem?_eq_some_iff.1 hj).1
  have hn := node_range H.C hr.1 hr.2
  rw [H.live_eq j (by omega)]
  have hA : P.A i = P.b (P.top i) + ((P.obj i).addr - (P.obj (P.top i)).addr) := rfl
  rcases H.avail hr.1 hr.2 j hj with h | h
  · apply covered_mono
    refine covered_part H.room.1 ?_ ?_
    · rw [hA, h, H.b_one]; omega
    · rw [hA]
      rw [h] at hx hn ⊢
      rw [H.need_one] at hx
      rw [H.b_one]
      omega
  · apply covered_mem.2
    refine ⟨P.blk (P.top i), List.mem_append_right _ (List.mem_map_of_mem h), ?_⟩
    simp only [Plan.blk]
    omega

theorem Plan.OK.access_end {i x : Nat} (hi : i ∈ P.N) (hx : (P.obj i).addr + x ≤ (P.obj (P.top i)).addr + P.need (P.top i)) :
    covered (P.liveAt P.N.length) (P.A i) x = true := by
  obtain ⟨j, hj⟩ := List.mem_iff_getElem?.1 hi
  have hl := (List.getElem?_eq_some_iff.1 hj).1
  obtain ⟨c, c1, c2⟩ := covered_mem.1 (H.access hj hx)
  apply covered_mem.2
  refine ⟨c, ?_, c2⟩
  rw [H.live_eq j (by omega)] at c1
  rw [H.live_eq _ (Nat.le_refl _)]
  rcases List.mem_append.1 c1 with h | h
  · exact List.mem_append_left _ h
  · obtain ⟨t, h1, h2⟩ := List.mem_map.1 h
    exact List.mem_append_right _ (List.mem_map.2 ⟨t, Plan.starts_mono (by omega) h1, h2⟩)

end Verif.Lemmas.XdrPlan
