import Verif.Lemmas.XdrCell
import Verif.Props.Dfs
/-!
Saving and loading of all nodes, but for the references.
-/
namespace Verif.Lemmas.XdrForest
open Verif.Model Verif.Model.Ptrs Verif.Model.Save Verif.Model.Copy Verif.Model.Xdr Verif.Model.XdrGraph Verif.Spec.Ptrs Verif.Spec.Save Verif.Spec.Copy Verif.Spec.XdrGraph
  Verif.Lemmas.SaveTree Verif.Lemmas.SaveFinal Verif.Lemmas.SaveInv Verif.Lemmas.CopyLayout Verif.Lemmas.CopyView Verif.Lemmas.CopyTops Verif.Lemmas.CopyMem Verif.Lemmas.CopyPlace Verif.Lemmas.CopyDone Verif.Lemmas.XdrSeg Verif.Lemmas.XdrPlan Verif.Lemmas.XdrStep Verif.Lemmas.XdrFit Verif.Lemmas.XdrNode Verif.Lemmas.XdrMem Verif.Lemmas.Xdr

/-- the bytes of a node in the document -/
def outB (P : Plan) (i : Nat) : List Nat := ((nodeBytes (src P) P.st.ptrs.ra (nd P.st.ptrs.ra i) (ni P.st.info i)).getD none).getD []

/-- the memory after `j` nodes were loaded -/
structure Inv (P : Plan) (m0 : Bytes) (j : Nat) (m : Bytes) : Prop where
  good : ∀ p i, p < j → P.N[p]? = some i → Good P i m
  kept : ∀ q, ¬ (8 * P.dst ≤ q ∧ q < 8 * (P.dst + extent P.tds P.root)) → (∀ t ∈ P.starts j, ¬ (8 * P.b t ≤ q ∧ q < 8 * (P.b t + P.need t))) → bitAt m q = bitAt m0 q

variable {P : Plan} (H : P.OK)
include H

/-- the bits of a node are in its block -/
theorem seg_block {i : Nat} (hi : i ∈ P.N) : 8 * P.b (P.top i) ≤ 8 * P.A i + (sg P i).1 ∧ 8 * P.A i + (sg P i).2 ≤ 8 * (P.b (P.top i) + P.need (P.top i)) := by
  have hr := H.range hi
  have h1 := seg_in H hi
  have h2 := node_range H.C hr.1 hr.2
  have hA : P.A i = P.b (P.top i) + ((P.obj i).addr - (P.obj (P.top i)).addr) := rfl
  omega

/-- the bits of two nodes are apart -/
theorem seg_apart {i i' s : Nat} (hi : i ∈ P.N) (hi' : i' ∈ P.N) (hne : i ≠ i') (h1 : 8 * P.A i + (sg P i).1 ≤ s) (h2 : s < 8 * P.A i + (sg P i).2)
    (h3 : 8 * P.A i' + (sg P i').1 ≤ s) (h4 : s < 8 * P.A i' + (sg P i').2) : False := by
  have hr := H.range hi
  have hr' := H.range hi'
  have b1 := seg_block H hi
  have b2 := seg_block H hi'
  by_cases ht : P.top i = P.top i'
  · have n1 := node_range H.C hr.1 hr.2
    have n2 := node_range H.C hr'.1 hr'.2
    have hA : P.A i = P.b (P.top i) + ((P.obj i).addr - (P.obj (P.top i)).addr) := rfl
    have hA' : P.A i' = P.b (P.top i') + ((P.obj i').addr - (P.obj (P.top i')).addr) := rfl
    rw [← ht] at hA' n2
    exact seg_source H.C H.S H.ld hi hi' hne ht (s := s - 8 * P.b (P.top i) + 8 * (P.obj (P.top i)).addr)
      (show 8 * (P.obj i).addr + (sg P i).1 ≤ _ by omega) (show _ < 8 * (P.obj i).addr + (sg P i).2 by omega)
      (show 8 * (P.obj i').addr + (sg P i').1 ≤ _ by omega) (show _ < 8 * (P.obj i').addr + (sg P i').2 by omega)
  · have : Apart (P.b (P.top i)) (P.need (P.top i)) (P.b (P.top i')) (P.need (P.top i')) :=
      H.blocks _ _ (top_start H.C.V H.C.tops i hr.1 hr.2) (top_start H.C.V H.C.tops i' hr'.1 hr'.2) ht
    unfold Apart at this
    omega

/-- no node is in the text of a string -/
theorem text_top {i t i' : Nat} (ho : P.own i = some t) (hty : (P.obj i).ty = .string) (hi' : i' ∈ P.N) : P.top i' ≠ t := by
  intro he
  obtain ⟨h1, h2, h3, h4⟩ := H.own_iff.1 ho
  have hr' := H.range hi'
  have htt : (P.obj t).ty = .charArray := H.C.V.text_ty h1 h2 (by rw [h3]; exact hty)
  have hins := top_inside H.C.V H.C.tops i' hr'.1 hr'.2
  rw [he] at hins
  have hob : P.obj i' = P.obj t := by
    have hno := no_parts (tds := P.tds) htt
    generalize P.obj t = oc at hno hins
    generalize P.obj i' = oj at hins
    cases inner_of hins with
    | self => rfl
    | step h _ => exact absurd h (hno _)
  have hl := H.C.V.lead t h1 h2 (by rw [h3]; exact h4)
  have hup := H.C.V.up t h1 h2
  have hid := H.C.S.cells _ _ (H.C.V.reach _ hup.1 hup.2) hl
  have := H.C.V.uniq t i' (by omega) h2 hr'.1 hr'.2 hid hob.symm
  subst this
  exact ((H.C.V.inTree t).1 hi').2 ⟨by omega, by rw [h3]; exact hty⟩

theorem text_apart {i t i' s : Nat} (ho : P.own i = some t) (hty : (P.obj i).ty = .string) (hi' : i' ∈ P.N)
    (h1 : 8 * P.b t ≤ s) (h2 : s < 8 * (P.b t + P.need t)) (h3 : 8 * P.A i' + (sg P i').1 ≤ s) (h4 : s < 8 * P.A i' + (sg P i').2) : False := by
  have hr' := H.range hi'
  obtain ⟨g1, g2, g3, g4⟩ := H.own_iff.1 ho
  have hb := seg_block H hi'
  have : Apart (P.b t) (P.need t) (P.b (P.top i')) (P.need (P.top i')) :=
    H.blocks _ _ (Or.inr ⟨g1, g2, by rw [g3]; exact g4⟩) (top_start H.C.V H.C.tops i' hr'.1 hr'.2) (Ne.symm (text_top H ho hty hi'))
  unfold Apart at this
  omega

/-- two nodes have different blocks -/
theorem own_inj {i i' t : Nat} (h : P.own i = some t) (h' : P.own i' = some t) : i = i' := by
  rw [← (H.own_iff.1 h).2.2.1, (H.own_iff.1 h').2.2.1]

theorem own_apart {i i' t t' : Nat} (h : P.own i = some t) (h' : P.own i' = some t') (hne : i ≠ i') : Apart (P.b t) (P.need t) (P.b t') (P.need t') := by
  obtain ⟨g1, g2, g3, g4⟩ := H.own_iff.1 h
  obtain ⟨g1', g2', g3', g4'⟩ := H.own_iff.1 h'
  exact H.blocks _ _ (Or.inr ⟨g1, g2, by rw [g3]; exact g4⟩) (Or.inr ⟨g1', g2', by rw [g3']; exact g4'⟩) (by rintro rfl; exact hne (own_inj H h h'))

theorem pos_inj {p q i : Nat} (h1 : P.N[p]? = some i) (h2 : P.N[q]? = some i) : p = q := by
  have := H.idx_at h1
  have := H.idx_at h2
  omega

/-- a block allocated later is apart from the bits of a node -/
theorem later_apart {p j i i' t s : Nat} (hp : P.N[p]? = some i') (hj : P.N[j]? = some i) (hlt : p < j) (ho : P.own i = some t)
    (h1 : 8 * P.b t ≤ s) (h2 : s < 8 * (P.b t + P.need t)) (h3 : 8 * P.A i' + (sg P i').1 ≤ s) (h4 : s < 8 * P.A i' + (sg P i').2) : False := by
  have hi' := List.mem_of_getElem? hp
  have hr' := H.range hi'
  obtain ⟨g1, g2, g3, g4⟩ := H.own_iff.1 ho
  have hb := seg_block H hi'
  have hne : t ≠ P.top i' := by
    intro he
    rcases H.avail hr'.1 hr'.2 p hp with h | h
    · omega
    · obtain ⟨q, x, q1, q2, q3⟩ := Plan.mem_starts.1 h
      rw [← he] at q3
      have := own_inj H ho q3
      subst this
      have := pos_inj H q2 hj
      omega
  have : Apart (P.b t) (P.need t) (P.b (P.top i')) (P.need (P.top i')) :=
    H.blocks _ _ (Or.inr ⟨g1, g2, by rw [g3]; exact g4⟩) (top_start H.C.V H.C.tops i' hr'.1 hr'.2) hne
  unfold Apart at this
  omega

theorem inv_step {m0 m m' : Bytes} {i j : Nat} (hj : P.N[j]? = some i) (hI : Inv P m0 j m) (hE : Eff P i m m') : Inv P m0 (j + 1) m' := by
  have hi := List.mem_of_getElem? hj
  have hr := H.range hi
  constructor
  · intro p i' hp hpi
    by_cases he : p = j
    · subst he
      rw [hj] at hpi
      cases hpi
      exact hE.good
    · have hlt : p < j := by omega
      have hi' := List.mem_of_getElem? hpi
      have hne : i ≠ i' := by
        rintro rfl
        exact he (pos_inj H hpi hj)
      refine good_congr H hi' (hI.good p i' hlt hpi) ?_ ?_
      · intro q q1 q2
        refine hE.kept q (fun h => seg_apart H hi hi' hne h.1 h.2 q1 q2) fun t ht h => ?_
        exact later_apart H hpi hj hlt ht h.1 h.2 q1 q2
      · intro t ht hty q q1 q2
        refine hE.kept q (fun h => text_apart H ht hty hi q1 q2 h.1 h.2) fun t' ht' h => ?_
        have := own_apart H ht ht' (Ne.symm hne)
        unfold Apart at this
        omega
  · intro q h1 h2
    have hst := Plan.starts_succ (P := P) hj
    rw [hE.kept q, hI.kept q h1]
    · intro t ht
      exact h2 t (by rw [hst]; simp [ht])
    · intro h
      have hb := seg_block H hi
      rcases H.avail hr.1 hr.2 j hj with ht | ht
      · rw [ht, H.b_one, H.need_one] at hb
        exact h1 (by omega)
      · exact h2 (P.top i) (by rw [hst]; simp [ht]) (by omega)
    · intro t ht
      exact h2 t (by rw [hst, ht]; simp)

theorem nodes_len {j : Nat} (h : j ≤ P.N.length) : (nodesAt P j).length = j + 1 := by
  unfold nodesAt
  rw [List.length_cons, List.length_map, List.length_take, Nat.min_eq_left h]

/-- the bytes of a node, and how they are loaded -/
theorem works_out {i j : Nat} {ks : List Nat} (hj : P.N[j]? = some i) (hk : Chain P.st.ptrs.ra (kidsHead (nd P.st.ptrs.ra i)) ks) :
    nodeBytes (src P) P.st.ptrs.ra (nd P.st.ptrs.ra i) (ni P.st.info i) = some (some (outB P i)) ∧
    ∀ buf p p' m, Doc buf p (outB P i) p' → ∃ m', openNode (env P buf) (rec P i).parent ⟨m, P.liveAt j, nodesAt P j, p⟩ (P.A i) (fdOf P i) =
      some (true, ⟨m', P.liveAt (j + 1), nodesAt P (j + 1), p'⟩, ks.map (item P)) ∧ Eff P i m m' := by
  obtain ⟨out, h1, h2⟩ := works H hj hk
  have : outB P i = out := by unfold outB; rw [h1]; rfl
  rw [this]
  exact ⟨h1, h2⟩

/-- loading of a list of siblings with all that is below them -/
theorem load_forest {buf : List Nat} {m0 : Bytes} : ∀ (f : Forest) (fuel par h q j p p' : Nat) (m : Bytes), Rep P.st.ptrs.ra par h f → f.nodes.length ≤ fuel →
    (∀ (x c : Nat), f.nodes[x]? = some c → P.N[j + x]? = some c) → (∀ c ∈ f.nodes, (nd P.st.ptrs.ra c).parent = par → (rec P c).parent = q) →
    Doc buf p (f.nodes.flatMap (outB P)) p' → Inv P m0 j m →
    ∃ m', loadAll (loadInner (env P buf) fuel q) ⟨m, P.liveAt j, nodesAt P j, p⟩ (f.roots.map (item P)) =
      some (true, ⟨m', P.liveAt (j + f.nodes.length), nodesAt P (j + f.nodes.length), p'⟩) ∧ Inv P m0 (j + f.nodes.length) m' := by
  intro f
  induction f with
  | nil =>
    intro fuel par h q j p p' m _ _ _ _ hD hI
    simp only [Forest.nodes, List.flatMap_nil] at hD
    rw [hD.nil]
    exact ⟨m, rfl, hI⟩
  | cons i k s ihk ihs =>
    intro fuel par h q j p p' m hR hf hN hpar hD hI
    obtain ⟨_, h0, pd, e1, e2, e3, e4⟩ := hR
    obtain ⟨hnd, _⟩ := SaveDone.get_nd e1
    simp only [Forest.nodes, List.length_cons, List.length_append, List.flatMap_cons, List.flatMap_append] at hf hD
    have hj : P.N[j]? = some i := by simpa using hN 0 i (by simp [Forest.nodes])
    have hjl := (List.getElem?_eq_some_iff.1 hj).1
    have hNk : ∀ (x c : Nat), k.nodes[x]? = some c → P.N[j + 1 + x]? = some c := by
      intro x c hx
      have hl := (List.getElem?_eq_some_iff.1 hx).1
      have := hN (x + 1) c (by simp only [Forest.nodes, List.getElem?_cons_succ]; rw [List.getElem?_append_left hl]; exact hx)
      rwa [show j + (x + 1) = j + 1 + x from by omega] at this
    have hNs : ∀ (x c : Nat), s.nodes[x]? = some c → P.N[j + 1 + k.nodes.length + x]? = some c := by
      intro x c hx
      have := hN (k.nodes.length + x + 1) c (by
        simp only [Forest.nodes, List.getElem?_cons_succ]
        rw [List.getElem?_append_right (by omega), show k.nodes.length + x - k.nodes.length = x from by omega]
        exact hx)
      rwa [show j + (k.nodes.length + x + 1) = j + 1 + k.nodes.length + x from by omega] at this
    obtain ⟨fuel, rfl⟩ : ∃ x, fuel = x + 1 := ⟨fuel - 1, by omega⟩
    obtain ⟨p1, hD1, hD2⟩ := hD.split
    obtain ⟨p2, hD2, hD3⟩ := hD2.split
    obtain ⟨_, hw⟩ := works_out H hj (ks := k.roots) (by rw [hnd]; exact chain_roots _ _ _ e3)
    obtain ⟨m1, w1, w2⟩ := hw buf p p1 m hD1
    have hI1 := inv_step H hj hI w2
    obtain ⟨m2, k1, k2⟩ := ihk fuel i _ (j + 1) (j + 1) p1 p2 m1 e3 (by omega) hNk (by
      intro c hc hcp
      obtain ⟨x, hx⟩ := List.mem_iff_getElem?.1 hc
      have h1 := hNk x c hx
      have hc1 : c ≠ 1 := by
        rintro rfl
        have := pos_inj H h1 (show P.N[0]? = some 1 from rfl)
        omega
      unfold rec
      simp only [if_neg hc1]
      have : pa P.st c = i := hcp
      rw [this, H.idx_at hj]) hD2 hI1
    obtain ⟨m3, s1, s2⟩ := ihs (fuel + 1) par _ q (j + 1 + k.nodes.length) p2 p' m2 e4 (by omega) hNs (fun c hc => hpar c (by simp [Forest.nodes, hc])) hD3 k2
    refine ⟨m3, ?_, ?_⟩
    · have hq := hpar i (by simp [Forest.nodes]) (by rw [hnd]; exact e2)
      simp only [Forest.roots, List.map_cons]
      have hit : item P i = (P.A i, fdOf P i) := rfl
      have hin : loadInner (env P buf) (fuel + 1) q ⟨m, P.liveAt j, nodesAt P j, p⟩ (item P i) =
          some (true, ⟨m2, P.liveAt (j + 1 + k.nodes.length), nodesAt P (j + 1 + k.nodes.length), p2⟩) := by
        unfold loadInner
        rw [hit, ← hq]
        simp only [w1, Option.bind_eq_bind, Option.bind_some, if_true, nodes_len H (by omega : j ≤ P.N.length)]
        exact k1
      unfold loadAll
      simp only [hin, Option.bind_eq_bind, Option.bind_some, if_true]
      rw [s1]
      simp only [Forest.nodes, List.length_cons, List.length_append]
      rw [show j + 1 + k.nodes.length + s.nodes.length = j + (k.nodes.length + s.nodes.length + 1) from by omega]
    · simp only [Forest.nodes, List.length_cons, List.length_append]
      rw [show j + (k.nodes.length + s.nodes.length + 1) = j + 1 + k.nodes.length + s.nodes.length from by omega]
      exact s2

/-- the document -/
def document (P : Plan) : List Nat := P.N.flatMap (outB P)

omit H in
theorem nodes_eq : (Forest.cons 1 P.k .nil).nodes = P.N := by simp [Forest.nodes]

theorem load_all {m0 : Bytes} {fuel : Nat} (hf : P.N.length ≤ fuel) (hlen : (document P).length < 2 ^ 32) :
    ∃ m', loadInner (env P (document P)) fuel 0 { m := m0, live := P.live0, nodes := [{}], pos := 0 } (P.dst, P.fd) =
      some (true, ⟨m', P.liveAt P.N.length, nodesAt P P.N.length, (document P).length⟩) ∧ Inv P m0 P.N.length m' := by
  have hD : Doc (document P) 0 (document P) (document P).length := ⟨[], [], by simp, rfl, by simp, hlen⟩
  obtain ⟨m', h1, h2⟩ := load_forest H (buf := document P) (m0 := m0) (.cons 1 P.k .nil) fuel 0 1 0 0 0 (document P).length m0 H.C.V.F.tree
    (by rw [nodes_eq]; exact hf) (by intro x c hx; rw [nodes_eq] at hx; simpa using hx)
    (by
      intro c hc hp
      rw [nodes_eq] at hc
      have hr := H.range hc
      by_cases h1 : c = 1
      · simp [rec, h1]
      · have := H.C.V.up c (by omega) hr.2
        have h2 : pa P.st c = 0 := hp
        omega)
    (by rw [nodes_eq]; exact hD) ⟨fun p i h => by omega, fun _ _ _ => rfl⟩
  refine ⟨m', ?_, ?_⟩
  · rw [nodes_eq, Nat.zero_add] at h1
    simp only [Forest.roots, List.map_cons, List.map_nil] at h1
    have hit : item P 1 = (P.dst, P.fd) := by
      unfold item fdOf
      have : P.A 1 = P.dst := by
        have := na_start H.C.tops (b := P.b) (t := 1) (Or.inl rfl)
        unfold Plan.A
        rw [this, H.b_one]
      simp [this]
    rw [hit] at h1
    unfold loadAll at h1
    simp only [Option.bind_eq_bind] at h1
    obtain ⟨⟨ok, s⟩, g1, g2⟩ := Option.bind_eq_some_iff.1 h1
    have hs : (⟨m0, P.liveAt 0, nodesAt P 0, 0⟩ : LSt) = { m := m0, live := P.live0, nodes := [{}], pos := 0 } := by
      simp [Plan.liveAt, nodesAt]
    rw [hs] at g1
    rw [g1]
    cases ok with
    | false => simp at g2
    | true =>
      simp only [if_true, loadAll, Option.some.injEq, Prod.mk.injEq, true_and] at g2
      rw [g2]
  · rw [nodes_eq, Nat.zero_add] at h2
    exact h2

/-! ### saving -/

theorem save_forest : ∀ (f : Forest) (l : Int) (out : List Nat) (es : List (Nat × Int × Order)), (∀ par h, Rep P.st.ptrs.ra par h f → (∀ c ∈ f.nodes, c ∈ P.N) →
    callAll (saveNode (src P) P.st.info) (f.events l ++ es) (P.st.ptrs.ra, out) =
      callAll (saveNode (src P) P.st.info) es (P.st.ptrs.ra, out ++ f.nodes.flatMap (outB P))) := by
  intro f
  induction f with
  | nil => intro l out es par h _ _; simp [Forest.events, Forest.nodes]
  | cons i k s ihk ihs =>
    intro l out es par h hR hN
    obtain ⟨_, h0, pd, e1, e2, e3, e4⟩ := hR
    obtain ⟨hnd, hlt⟩ := SaveDone.get_nd e1
    have hi := hN i (by simp [Forest.nodes])
    obtain ⟨j, hj⟩ := List.mem_iff_getElem?.1 hi
    obtain ⟨hw, _⟩ := works_out H hj (ks := k.roots) (by rw [hnd]; exact chain_roots _ _ _ e3)
    have hr := H.range hi
    obtain ⟨g1, g2⟩ := H.C.V.get hr.2
    simp only [Forest.events, Forest.nodes, List.cons_append, List.append_assoc]
    rw [callAll]
    simp only [saveNode, g1, g2, hw, Option.bind_eq_bind, Option.bind_some, Bool.true_eq_false, if_false]
    rw [ihk _ _ _ i _ e3 (fun c hc => hN c (by simp [Forest.nodes, hc]))]
    simp only [callAll, saveNode, Option.bind_eq_bind, Option.bind_some, Bool.true_eq_false, if_false]
    rw [ihs _ _ _ par _ e4 (fun c hc => hN c (by simp [Forest.nodes, hc]))]
    simp [List.append_assoc]

omit H in
theorem keeps_save (S : Src) (info : List Info) : KeepsLinks (saveNode S info) := by
  intro s i level order ok s' h
  unfold saveNode at h
  cases order with
  | post => simp only [Option.some.injEq, Prod.mk.injEq] at h; rw [← h.2]
  | pre =>
    simp only [Option.bind_eq_bind] at h
    obtain ⟨pd, _, h⟩ := Option.bind_eq_some_iff.1 h
    obtain ⟨x, _, h⟩ := Option.bind_eq_some_iff.1 h
    obtain ⟨r, _, h⟩ := Option.bind_eq_some_iff.1 h
    cases r with
    | none => simp only [Option.some.injEq, Prod.mk.injEq] at h; rw [← h.2]
    | some b => simp only [Option.some.injEq, Prod.mk.injEq] at h; rw [← h.2]

theorem save_all : xdrSave (src P) P.st = some (true, document P) := by
  unfold xdrSave
  rw [Props.Dfs.C28_from_root _ (keeps_save _ _) _ _ _ _ H.C.V.F.tree H.C.V.F.nodup]
  have := save_forest H (.cons 1 P.k .nil) 0 [] [] 0 1 H.C.V.F.tree (fun c hc => by rw [nodes_eq] at hc; exact hc)
  rw [List.append_nil, List.nil_append, nodes_eq] at this
  rw [this]
  rfl

end Verif.Lemmas.XdrForest
