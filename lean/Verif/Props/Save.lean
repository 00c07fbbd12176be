import Verif.Lemmas.SaveDone
/-!
# C42: an object graph is saved completely and every object once

`Reach` and `Saved` are in Spec/Save.lean: a saved graph is a tree of nodes, each with its object; structures
and arrays have their components as children, a pointer has its target as child or refers to its node.
-/
namespace Verif.Props.Save
open Verif.Model Verif.Model.Ptrs Verif.Model.Save Verif.Spec.Ptrs Verif.Spec.Save Verif.Lemmas.SaveDone

variable {mem : Mem} {tds : List Td} {root : Obj} {st : St} {k : Forest} {obj : Nat → Obj}

/-! ## what `Saved` means -/

/-- a chain through the array is determined by its head -/
theorem chain_unique {ra : List Pd} {l : List Nat} : ∀ {l' : List Nat} {h : Nat}, Chain ra h l → Chain ra h l' → l = l' := by
  induction l with
  | nil =>
    intro l' h h1 h2
    cases l' with
    | nil => rfl
    | cons c l' => exact absurd (h2.1.symm.trans h1) h2.2.1
  | cons c l ih =>
    intro l' h h1 h2
    cases l' with
    | nil => exact absurd (h1.1.symm.trans h2) h1.2.1
    | cons c' l' =>
      obtain ⟨a1, _, pd, a3, a4⟩ := h1
      obtain ⟨b1, _, pd', b3, b4⟩ := h2
      have hc : c = c' := a1.symm.trans b1
      subst hc
      rw [a3] at b3
      cases b3
      rw [ih a4 b4]

theorem chain_mem {ra : List Pd} {l : List Nat} : ∀ {h : Nat}, Chain ra h l → ∀ c ∈ l, c ≠ 0 ∧ ∃ pd, ra[c]? = some pd := by
  induction l with
  | nil => intro _ _ c hc; cases hc
  | cons x l ih =>
    intro h hch c hc
    obtain ⟨_, h2, pd, h3, h4⟩ := hch
    rcases List.mem_cons.1 hc with rfl | hc
    · exact ⟨h2, pd, h3⟩
    · exact ih h4 c hc

theorem roots_chain {ra : List Pd} {par : Nat} (f : Forest) : ∀ {head : Nat}, Rep ra par head f → Chain ra head f.roots := by
  induction f with
  | nil => intro _ h; exact h
  | cons i k s _ ih =>
    intro head h
    obtain ⟨h1, h2, pd, h3, _, _, h4⟩ := h
    exact ⟨h1, h2, pd, h3, ih h4⟩

/-- the children of a node are reachable if its object is -/
theorem kids_reachable (h : Saved mem tds root st k obj) {i : Nat} {pd : Pd} (hi : 1 ≤ i) (hpd : st.ptrs.ra[i]? = some pd)
    (hr : Reach mem tds root (obj i)) {f : Forest} (hf : Rep st.ptrs.ra i (kidsHead pd) f) : ∀ c ∈ f.roots, Reach mem tds root (obj c) := by
  have hch := roots_chain f hf
  unfold kidsHead at hch
  split at hch
  · cases hl : f.roots with
    | nil => intro c hc; cases hc
    | cons c l => rw [hl] at hch; exact absurd hch.1.symm hch.2.1
  · rename_i hnr
    simp only [Bool.or_eq_true, not_or] at hnr
    by_cases hp : pd.ty = .pointer ∨ pd.ty = .string
    · have hl := h.lead i pd hi hpd hp
      cases ht : target mem tds (obj i) with
      | none =>
        rw [ht] at hl
        rw [hl.1] at hch
        cases hl : f.roots with
        | nil => intro c hc; cases hc
        | cons c l => rw [hl] at hch; exact absurd hch.1.symm hch.2.1
      | some o =>
        rw [ht] at hl
        obtain ⟨t, t1, t2, t3, t4, _⟩ := hl
        have hone : Chain st.ptrs.ra pd.firstChild [pd.firstChild] := ⟨rfl, t1, t, t2, (t4 (by simpa using hnr.1)).2⟩
        rw [chain_unique hch hone]
        intro c hc
        rw [List.mem_singleton.1 hc, t3]
        exact .lead hr ht
    · obtain ⟨_, l, l1, l2⟩ := h.parts i pd hi hpd (fun h => hp (Or.inl h)) (fun h => hp (Or.inr h))
      rw [chain_unique hch l1]
      intro c hc
      refine .part hr ?_
      rw [← l2.1]
      exact List.mem_map_of_mem hc

theorem nodes_reachable (h : Saved mem tds root st k obj) (f : Forest) : ∀ {par head : Nat}, Rep st.ptrs.ra par head f →
    (∀ c ∈ f.roots, Reach mem tds root (obj c)) → ∀ c ∈ f.nodes, Reach mem tds root (obj c) := by
  induction f with
  | nil => intro _ _ _ _ c hc; cases hc
  | cons i k s ihk ihs =>
    intro par head hrep hroots c hc
    obtain ⟨_, h2, pd, h3, _, h5, h6⟩ := hrep
    have hri := hroots i (by simp [Forest.roots])
    simp only [Forest.nodes, List.mem_cons, List.mem_append] at hc
    rcases hc with rfl | hc | hc
    · exact hri
    · exact ihk h5 (kids_reachable h (by omega) h3 hri h5) c hc
    · exact ihs h6 (fun c hc => hroots c (by simp [Forest.roots, hc])) c hc

/-- In a saved graph every object that can be reached has a node. -/
theorem C42_saved_complete (h : Saved mem tds root st k obj) {o : Obj} (hr : Reach mem tds root o) :
    ∃ i, i ∈ 1 :: k.nodes ∧ obj i = o := by
  have hget : ∀ i, i ∈ 1 :: k.nodes → ∃ pd, 1 ≤ i ∧ st.ptrs.ra[i]? = some pd := by
    intro i hi
    have := (h.every i).1 hi
    exact ⟨_, this.1, List.getElem?_eq_getElem this.2⟩
  have hin : ∀ (i : Nat) (pd : Pd), i ≠ 0 → st.ptrs.ra[i]? = some pd → i ∈ 1 :: k.nodes := fun i pd h0 hi =>
    (h.every i).2 ⟨by omega, (List.getElem?_eq_some_iff.1 hi).1⟩
  induction hr with
  | self => exact ⟨1, by simp, h.top⟩
  | @part b c _ hc ih =>
    obtain ⟨i, hi, hb⟩ := ih
    obtain ⟨pd, h1, h2⟩ := hget i hi
    obtain ⟨x, _, _, hty, _⟩ := h.node i pd h1 h2
    by_cases hp : pd.ty = .pointer ∨ pd.ty = .string
    · rw [hty, hb] at hp
      unfold components at hc
      rcases hp with hp | hp <;> rw [hp] at hc <;> cases hc
    · obtain ⟨_, l, l1, l2⟩ := h.parts i pd h1 h2 (fun h => hp (Or.inl h)) (fun h => hp (Or.inr h))
      rw [hb] at l2
      rw [← l2.1] at hc
      obtain ⟨j, hj, hjc⟩ := List.mem_map.1 hc
      obtain ⟨j0, pdj, hpdj⟩ := chain_mem l1 j hj
      exact ⟨j, hin j pdj j0 hpdj, hjc⟩
  | @lead b c _ hc ih =>
    obtain ⟨i, hi, hb⟩ := ih
    obtain ⟨pd, h1, h2⟩ := hget i hi
    obtain ⟨x, _, _, hty, _⟩ := h.node i pd h1 h2
    have hp : pd.ty = .pointer ∨ pd.ty = .string := by
      rw [hty, hb]
      unfold target at hc
      split at hc
      · rename_i h; exact Or.inl h
      · rename_i h; exact Or.inr h
      · cases hc
    have hl := h.lead i pd h1 h2 hp
    rw [hb, hc] at hl
    obtain ⟨t, t1, t2, t3, _⟩ := hl
    exact ⟨pd.firstChild, hin _ t t1 t2, t3⟩

/-- In a saved graph every node stands for an object that can be reached. -/
theorem C42_saved_sound (h : Saved mem tds root st k obj) {i : Nat} (hi : i ∈ 1 :: k.nodes) : Reach mem tds root (obj i) := by
  have := nodes_reachable h (.cons 1 k .nil) h.tree (by
    intro c hc
    simp only [Forest.roots, List.mem_singleton] at hc
    rw [hc, h.top]
    exact .self) i (by simpa [Forest.nodes] using hi)
  exact this

/-! ## C42 -/

/-- **C42, part.** Saving ends and gives the whole graph, whatever the graph looks like: shared objects,
cycles, pointers into other objects.  Missing: unions, arrays whose number of elements is in a size field,
arrays with more than one dimension, opaque data. -/
theorem C42_graph_saved_partial (hT : Types tds) {data : Nat} {fd : Fd} (hok : FdOK tds fd) (hfin : Finite mem tds (ofFd data fd)) :
    ∃ N, ∀ fuel, N ≤ fuel → ∃ st k obj, saveGraph mem tds fuel data fd = some (st, 1) ∧ Saved mem tds (ofFd data fd) st k obj := by
  obtain ⟨K, hK⟩ := hfin
  obtain ⟨N, hN⟩ := Lemmas.SaveGraph.graph_ok hT hok hK
  refine ⟨N, fun fuel hf => ?_⟩
  obtain ⟨st, ks, obj, O, e1, e2, e3, e4⟩ := hN fuel hf
  obtain ⟨k, hs⟩ := saved_of_inv e2 e3 e4
  exact ⟨st, k, obj, e1, hs⟩

/-- **C42, part.** If everything is at one place only (`Single`), every object that can be reached has exactly
one node; only pointers and bit fields to which other pointers lead can occur again.  All pointers to an object
lead to its one node. -/
theorem C42_once_partial (hT : Types tds) {data : Nat} {fd : Fd} (hok : FdOK tds fd) (hfin : Finite mem tds (ofFd data fd))
    (hs : Single mem tds (ofFd data fd)) :
    ∃ N, ∀ fuel, N ≤ fuel → ∃ st k obj, saveGraph mem tds fuel data fd = some (st, 1) ∧ Saved mem tds (ofFd data fd) st k obj ∧
      (∀ o, Reach mem tds (ofFd data fd) o → identified o.ty = true →
        ∃ i, i ∈ 1 :: k.nodes ∧ obj i = o ∧ ∀ j ∈ 1 :: k.nodes, obj j = o → j = i) ∧
      (∀ (i j : Nat) (a b : Pd) (o : Obj), 1 ≤ i → 1 ≤ j → st.ptrs.ra[i]? = some a → st.ptrs.ra[j]? = some b →
        target mem tds (obj i) = some o → target mem tds (obj j) = some o → identified o.ty = true → a.firstChild = b.firstChild) := by
  obtain ⟨K, hK⟩ := hfin
  obtain ⟨N, hN⟩ := Lemmas.SaveGraph.graph_ok hT hok hK
  refine ⟨N, fun fuel hf => ?_⟩
  obtain ⟨st, ks, obj, O, e1, e2, e3, e4⟩ := hN fuel hf
  obtain ⟨k, h⟩ := saved_of_inv e2 e3 e4
  have huniq := e2.inv.uniq hs
  have hrange : ∀ i, i ∈ 1 :: k.nodes → 1 ≤ i ∧ i < st.ptrs.ra.length := fun i => (h.every i).1
  refine ⟨st, k, obj, e1, h, ?_, ?_⟩
  · intro o hr hid
    obtain ⟨i, hi, ho⟩ := C42_saved_complete h hr
    refine ⟨i, hi, ho, fun j hj hoj => ?_⟩
    exact (huniq i j (hrange i hi).1 (hrange i hi).2 (hrange j hj).1 (hrange j hj).2 (by rw [ho]; exact hid) (by rw [ho, hoj])).symm
  · intro i j a b o hi hj ha hb hti htj hid
    have hptr : ∀ (i : Nat) (a : Pd), 1 ≤ i → st.ptrs.ra[i]? = some a → target mem tds (obj i) = some o →
        a.firstChild ≠ 0 ∧ a.firstChild < st.ptrs.ra.length ∧ obj a.firstChild = o := by
      intro i a hi ha ht
      obtain ⟨x, _, _, hty, _⟩ := h.node i a hi ha
      have hp : a.ty = .pointer ∨ a.ty = .string := by
        rw [hty]
        unfold target at ht
        split at ht
        · rename_i h; exact Or.inl h
        · rename_i h; exact Or.inr h
        · cases ht
      have hl := h.lead i a hi ha hp
      rw [ht] at hl
      obtain ⟨t, t1, t2, t3, _⟩ := hl
      exact ⟨t1, (List.getElem?_eq_some_iff.1 t2).1, t3⟩
    obtain ⟨a1, a2, a3⟩ := hptr i a hi ha hti
    obtain ⟨b1, b2, b3⟩ := hptr j b hj hb htj
    exact huniq _ _ (by omega) a2 (by omega) b2 (by rw [a3]; exact hid) (by rw [a3, b3])

/-! ## a graph that meets the hypotheses -/

/-- a list closed under components and targets contains everything reachable -/
theorem reach_closed (K : List Obj) (hp : ∀ x ∈ K, ∀ c ∈ components tds x, c ∈ K) (ht : ∀ x ∈ K, ∀ c ∈ (target mem tds x).toList, c ∈ K)
    {a : Obj} (ha : a ∈ K) {o : Obj} (h : Reach mem tds a o) : o ∈ K := by
  induction h with
  | self => exact ha
  | part _ hc ih => exact hp _ ih _ hc
  | lead _ hc ih => exact ht _ ih _ (by rw [hc]; simp)

/-- a check of `Single` on a list of objects; `far` is the part of the list reachable from an object -/
theorem single_of_list {root : Obj} (K : List Obj) (hK : ∀ o, Reach mem tds root o → o ∈ K) (h1 : ∀ x ∈ K, root ∉ components tds x)
    (h2 : ∀ x ∈ K, ∀ y ∈ K, ∀ i ∈ List.range (components tds x).length, ∀ j ∈ List.range (components tds y).length,
      (components tds x)[i]? = (components tds y)[j]? → ((components tds x)[i]?.map fun c => identified c.ty) = some true → x = y ∧ i = j)
    (h3 : ∀ x ∈ K, ∀ o ∈ (target mem tds x).toList, ∀ y ∈ K, o ∈ components tds y → identified o.ty = true → ¬ Reach mem tds o y) : Single mem tds root := by
  refine ⟨fun _ x hx => h1 x (hK x hx), ?_, ?_⟩
  · intro x y c i j hx hy hid hi hj
    have hi' := (List.getElem?_eq_some_iff.1 hi).1
    have hj' := (List.getElem?_eq_some_iff.1 hj).1
    exact h2 x (hK x hx) y (hK y hy) i (List.mem_range.2 hi') j (List.mem_range.2 hj') (by rw [hi, hj]) (by rw [hi]; simp [hid])
  · intro x y o hx hy ht hid ho
    exact h3 x (hK x hx) o (by rw [ht]; simp) y (hK y hy) ho hid

namespace Example

/-- `int` -/
def tInt : Td := { ty := .int32, size := 4 }

def intField (offset : Nat) : Fd := { ty := .int32, base := .int32, td := some 0, size := 4, offset := offset }

def ptrField (offset : Nat) (ty : MrType) (td : Nat) : Fd := { ty := .pointer, aux := ty, base := ty, td := some td, size := 8, offset := offset }

/-- `struct node { struct node * next; int x; }` -/
def tNode : Td := { ty := .struct, size := 16, fields := [ptrField 0 .struct 1, intField 8] }

/-- `struct item { int k; struct node n; char * name; }` -/
def tItem : Td := { ty := .struct, size := 32, fields := [intField 0, { ty := .struct, base := .struct, td := some 1, size := 16, offset := 8 }, { ty := .string, base := .string, size := 8, offset := 24 }] }

/-- `struct pair { struct node * p; struct item * q; int a[2]; struct node * r; }` -/
def tPair : Td := { ty := .struct, size := 32, fields := [ptrField 0 .struct 1, ptrField 8 .struct 2, { ty := .array, aux := .int32, base := .int32, td := some 0, size := 8, offset := 16, dims := [2] }, ptrField 24 .struct 1] }

def sample : List Td := [tInt, tNode, tItem, tPair]

/-- descriptor of the object passed to `MR_SAVE` -/
def rootFd (t size : Nat) : Fd := { ty := .struct, base := .struct, td := some t, size := size, nonPersistent := true }

/-- a pair at 1000: `p` and `r` lead to the node at 2008 inside the item at 2000 to which `q` leads; the node
leads to itself -/
def heap : Mem := { ptr := fun a => if a = 1000 then 2008 else if a = 1008 then 2000 else if a = 1024 then 2008 else if a = 2008 then 2008 else if a = 2024 then 3000 else 0, int := fun _ => 0 }

def objs : List Obj :=
  [{ addr := 1000, ty := .struct, td := some 3 }, { addr := 1000, ty := .pointer, aux := .struct, td := some 1 },
   { addr := 1008, ty := .pointer, aux := .struct, td := some 2 }, { addr := 1016, ty := .array, aux := .int32, td := some 0, count := 2, step := 4 },
   { addr := 1024, ty := .pointer, aux := .struct, td := some 1 }, { addr := 1016, ty := .int32 }, { addr := 1020, ty := .int32 },
   { addr := 2008, ty := .struct, td := some 1 }, { addr := 2008, ty := .pointer, aux := .struct, td := some 1 }, { addr := 2016, ty := .int32 },
   { addr := 2000, ty := .struct, td := some 2 }, { addr := 2000, ty := .int32 }, { addr := 2024, ty := .string }, { addr := 3000, ty := .charArray }]

/-- the objects reachable from the node at 2008 -/
def nodeObjs : List Obj :=
  [{ addr := 2008, ty := .struct, td := some 1 }, { addr := 2008, ty := .pointer, aux := .struct, td := some 1 }, { addr := 2016, ty := .int32 }]

theorem reach_objs : ∀ o, Reach heap sample (ofFd 1000 (rootFd 3 32)) o → o ∈ objs := fun _ h =>
  reach_closed objs (by decide +kernel) (by decide +kernel) (by decide +kernel) h

theorem types : Types sample := by
  refine ⟨?_, ?_, (fun t d ht => have : ∀ d ∈ sample, d.ty = .enum → typeSize d.effective ≤ d.size := by decide +kernel
    this d (List.mem_of_getElem? ht)), ⟨fun t => if t = 1 then 1 else if t = 2 then 2 else if t = 3 then 3 else 0, ?_⟩⟩
  · intro t d ht hd f hf
    have hcases : t = 0 ∨ t = 1 ∨ t = 2 ∨ t = 3 := by
      have := (List.getElem?_eq_some_iff.1 ht).1
      simp [sample] at this; omega
    have hI : ∀ o, FdOK sample (intField o) ∧ (intField o).nonPersistent = false := fun o => by
      refine ⟨⟨rfl, rfl, (fun _ => rfl), trivial⟩, rfl⟩
    have hP : ∀ o t d, sample[t]? = some d → d.ty = .struct → FdOK sample (ptrField o .struct t) ∧ (ptrField o .struct t).nonPersistent = false := fun o t d h1 h2 =>
      ⟨⟨rfl, rfl, (fun h => by cases h), Or.inr ⟨.struct, ⟨t, d, rfl, h1, h2⟩, Or.inl ⟨rfl, rfl⟩, fun _ => rfl⟩⟩, rfl⟩
    rcases hcases with rfl | rfl | rfl | rfl
    · cases ht; cases hd
    · cases ht
      simp only [tNode, List.mem_cons, List.not_mem_nil, or_false] at hf
      rcases hf with rfl | rfl
      · exact hP 0 1 tNode rfl rfl
      · exact hI 8
    · cases ht
      simp only [tItem, List.mem_cons, List.not_mem_nil, or_false] at hf
      rcases hf with rfl | rfl | rfl
      · exact hI 0
      · exact ⟨⟨rfl, rfl, (fun _ => rfl), ⟨1, tNode, rfl, rfl, rfl⟩⟩, rfl⟩
      · exact ⟨⟨rfl, rfl, (fun _ => rfl), trivial⟩, rfl⟩
    · cases ht
      simp only [tPair, List.mem_cons, List.not_mem_nil, or_false] at hf
      rcases hf with rfl | rfl | rfl | rfl
      · exact hP 0 1 tNode rfl rfl
      · exact hP 8 2 tItem rfl rfl
      · exact ⟨⟨rfl, rfl, (fun h => by cases h), ⟨.int32, 2, ⟨0, tInt, rfl, rfl, rfl⟩, Or.inl ⟨rfl, rfl⟩, rfl, rfl, rfl⟩⟩, rfl⟩
      · exact hP 24 1 tNode rfl rfl
  · intro t d ht _
    have : ∀ d ∈ sample, 0 < d.size := by decide +kernel
    exact this d (List.mem_of_getElem? ht)
  · intro t d f t' ht hd hf hty htd
    have hcases : t = 0 ∨ t = 1 ∨ t = 2 ∨ t = 3 := by
      have := (List.getElem?_eq_some_iff.1 ht).1
      simp [sample] at this; omega
    rcases hcases with rfl | rfl | rfl | rfl <;> cases ht
    · cases hd
    · simp only [tNode, List.mem_cons, List.not_mem_nil, or_false] at hf
      rcases hf with rfl | rfl <;> simp [ptrField, intField] at hty
    · simp only [tItem, List.mem_cons, List.not_mem_nil, or_false] at hf
      rcases hf with rfl | rfl | rfl <;> simp [intField] at hty
      cases htd
      decide
    · simp only [tPair, List.mem_cons, List.not_mem_nil, or_false] at hf
      rcases hf with rfl | rfl | rfl | rfl <;> simp [ptrField] at hty

theorem root_ok : FdOK sample (rootFd 3 32) := ⟨rfl, rfl, (fun _ => rfl), ⟨3, tPair, rfl, rfl, rfl⟩⟩

theorem finite : Finite heap sample (ofFd 1000 (rootFd 3 32)) := ⟨objs, reach_objs⟩

theorem single : Single heap sample (ofFd 1000 (rootFd 3 32)) := by
  refine single_of_list objs reach_objs (by decide +kernel) (by decide +kernel) ?_
  intro x hx o ho y hy hc hid hr
  have hfar : ∀ x ∈ objs, ∀ o ∈ (target heap sample x).toList, ∀ y ∈ objs, o ∈ components sample y → o = { addr := 2008, ty := .struct, td := some 1 } ∧ y ∉ nodeObjs := by
    decide +kernel
  obtain ⟨h1, h2⟩ := hfar x hx o ho y hy hc
  subst h1
  exact h2 (reach_closed nodeObjs (by decide +kernel) (by decide +kernel) (by decide +kernel) hr)

/-- this cyclic graph meets the hypotheses; its first object has one node -/
example : ∃ N, ∀ fuel, N ≤ fuel → ∃ st k obj, saveGraph heap sample fuel 1000 (rootFd 3 32) = some (st, 1) ∧ Saved heap sample (ofFd 1000 (rootFd 3 32)) st k obj ∧
    ∃ i, i ∈ 1 :: k.nodes ∧ obj i = { addr := 2008, ty := .struct, td := some 1 } ∧ ∀ j ∈ 1 :: k.nodes, obj j = { addr := 2008, ty := .struct, td := some 1 } → j = i := by
  obtain ⟨N, h⟩ := C42_once_partial types root_ok finite single
  refine ⟨N, fun fuel hf => ?_⟩
  obtain ⟨st, k, obj, h1, h2, h3, _⟩ := h fuel hf
  refine ⟨st, k, obj, h1, h2, h3 _ ?_ rfl⟩
  have h1 : Reach heap sample (ofFd 1000 (rootFd 3 32)) { addr := 1000, ty := .pointer, aux := .struct, td := some 1 } := .part .self (by decide +kernel)
  exact .lead h1 (by decide +kernel)

/-- the nodes: parent, first child, next, reference, address, type -/
def shape (st : St) : List ((Nat × Nat × Nat) × (Bool × Nat × MrType)) :=
  (st.ptrs.ra.zip st.info).map fun (pd, x) => ((pd.parent, pd.firstChild, pd.next), (pd.ref, x.addr, pd.ty))

/-- the node at 2008 is saved below the first pointer, and later moved into its item; all three pointers become references -/
example : (saveGraph heap sample 40 1000 (rootFd 3 32)).map (fun r => shape r.1) = some
    [((0, 0, 0), (false, 0, .none)), ((0, 2, 0), (false, 1000, .struct)), ((1, 8, 3), (true, 1000, .pointer)), ((1, 11, 4), (false, 1008, .pointer)),
     ((1, 5, 7), (false, 1016, .array)), ((4, 0, 6), (false, 1016, .int32)), ((4, 0, 0), (false, 1020, .int32)), ((1, 8, 0), (true, 1024, .pointer)),
     ((11, 9, 13), (false, 2008, .struct)), ((8, 8, 10), (true, 2008, .pointer)), ((8, 0, 0), (false, 2016, .int32)), ((3, 12, 0), (false, 2000, .struct)),
     ((11, 0, 8), (false, 2000, .int32)), ((11, 14, 0), (false, 2024, .string)), ((13, 0, 0), (false, 3000, .charArray))] := by
  decide +kernel

end Example

/-! ## where the claim fails -/

namespace Deviation
open Example

/-- `struct elem { struct list * l; int x; }`, `struct list { int k; struct elem e; }`, `struct top { struct elem * p; }` -/
def tElem : Td := { ty := .struct, size := 16, fields := [ptrField 0 .struct 2, intField 8] }
def tList : Td := { ty := .struct, size := 24, fields := [intField 0, { ty := .struct, base := .struct, td := some 1, size := 16, offset := 8 }] }
def tTop : Td := { ty := .struct, size := 8, fields := [ptrField 0 .struct 1] }
def tds2 : List Td := [tInt, tElem, tList, tTop]

/-- the top at 1000 leads to the elem at 2008, which leads to the list at 2000 around it -/
def mem2 : Mem := { ptr := fun a => if a = 1000 then 2008 else if a = 2008 then 2000 else 0, int := fun _ => 0 }

/-- the nodes for the structure of type number `t` at `addr` -/
def nodesOf (r : Option (St × Nat)) (addr t : Nat) : Option Nat :=
  r.map fun r => ((r.1.ptrs.ra.zip r.1.info).filter fun (pd, x) => pd.ty == .struct && x.addr == addr && (x.fd.bind Fd.td) == some t).length

end Deviation

open Example Deviation in
/-- An object that leads back to the structure it is embedded in is saved twice if a pointer to it is met
first: `ref_is_parent` forbids to move it. -/
theorem C42_deviation_embedded : nodesOf (saveGraph mem2 tds2 40 1000 (rootFd 3 8)) 2008 1 = some 2 := by decide +kernel

open Example Deviation in
/-- The object passed to `MR_SAVE` is saved twice if it is embedded into something it leads to. -/
theorem C42_deviation_root : nodesOf (saveGraph mem2 tds2 40 2008 (rootFd 1 16)) 2008 1 = some 2 := by decide +kernel

namespace Deviation
open Example

/-- `struct pp { int * p; int ** q; }` with `q = &p` -/
def tPp : Td := { ty := .struct, size := 16, fields := [ptrField 0 .int32 0, { ty := .pointer, aux := .pointer, base := .int32, td := some 0, size := 8, offset := 8 }] }
def mem3 : Mem := { ptr := fun a => if a = 1000 then 2000 else if a = 1008 then 1000 else 0, int := fun _ => 0 }

end Deviation

open Example Deviation in
/-- A pointer to a pointer is never recognised: the pointer at 1000 has a node as member and another one below
`q`; its target has one node. -/
theorem C42_deviation_pointer_cell :
    ((saveGraph mem3 [tInt, tPp] 40 1000 (rootFd 1 16)).map fun r =>
      (((r.1.ptrs.ra.zip r.1.info).filter fun (pd, x) => pd.ty == .pointer && x.addr == 1000).length,
       ((r.1.ptrs.ra.zip r.1.info).filter fun (pd, x) => pd.ty == .int32 && x.addr == 2000).length)) = some (2, 1) := by decide +kernel

end Verif.Props.Save
