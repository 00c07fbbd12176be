import Verif.Lemmas.LoadGraph
import Verif.Lemmas.DocWalk
import Verif.Props.Dfs
/-!
The nodes of a saved graph that are written.
-/
namespace Verif.Lemmas.JsonPruned
open Verif.Model Verif.Model.Ptrs Verif.Model.Save Verif.Model.Copy Verif.Spec.Ptrs Verif.Spec.Save
  Verif.Lemmas.SaveTree Verif.Lemmas.SaveFinal Verif.Lemmas.SaveInv Verif.Lemmas.CopyLayout Verif.Lemmas.CopyView Verif.Lemmas.XdrSeg Verif.Lemmas.XdrPlan Verif.Lemmas.XdrFit
open Verif.Lemmas.XdrNode (refers cell_cases)
open Verif.Spec.Copy (isCell)

variable {P : Plan}

/-- references lead to nodes that are marked -/
theorem marked (H : P.Core) {i : Nat} (hi : i ∈ P.N) (hr : refers P i = true) :
    isCell (P.obj i) = true ∧ (nd P.st.ptrs.ra i).firstChild ∈ P.N ∧ (nd P.st.ptrs.ra (nd P.st.ptrs.ra i).firstChild).refd = true := by
  have hrg := H.range hi
  have hget := (H.C.V.get hrg.2).1
  have hvty := H.C.V.ty hrg.1 hrg.2
  have hcell : isCell (P.obj i) = true := by
    apply Classical.byContradiction
    intro hc
    have h1 : (P.obj i).ty ≠ .pointer := fun h => hc (by simp [isCell, h])
    have h2 : (P.obj i).ty ≠ .string := fun h => hc (by simp [isCell, h])
    obtain ⟨e1, e2, _⟩ := H.C.V.F.parts i _ hi hget (by rw [hvty]; exact h1) (by rw [hvty]; exact h2)
    simp [refers, e1, e2] at hr
  refine ⟨hcell, ?_⟩
  have hpl : (P.obj i).ty = .pointer ∨ (P.obj i).ty = .string := by simpa [isCell] using hcell
  have fin : ∀ t : Pd, P.st.ptrs.ra[(nd P.st.ptrs.ra i).firstChild]? = some t → t.refd = true → (nd P.st.ptrs.ra (nd P.st.ptrs.ra i).firstChild).refd = true := by
    intro t ht hd
    rw [(SaveDone.get_nd ht).1]
    exact hd
  rcases hpl with hpl | hpl
  · cases hu : untyped (P.obj i).aux with
    | true =>
      rcases H.C.V.F.void i _ hi hget (by rw [hvty]; exact hpl) hu with ⟨g1, g2, _⟩ | ⟨_, _, g3, _, t, g4, g5⟩ | ⟨_, _, g3, _, _, t, g4, _, _, g5⟩
      · simp [refers, g1, g2] at hr
      · exact ⟨g3, fin t g4 g5⟩
      · exact ⟨g3, fin t g4 g5⟩
    | false =>
      have hq := H.C.V.F.pointer i _ hi hget (by rw [hvty]; exact hpl) hu
      cases htg : target P.mem P.tds (P.obj i) with
      | none => rw [htg] at hq; simp [refers, hq.1, hq.2.2] at hr
      | some o =>
        rw [htg] at hq
        obtain ⟨q0, q1, _, tp, q3, _, q5⟩ := hq
        have : (nd P.st.ptrs.ra i).ref = true := by simpa [refers, q0] using hr
        exact ⟨q1, fin tp q3 (q5 this).2⟩
  · have hq := H.C.V.F.string i _ hi hget (by rw [hvty]; exact hpl)
    cases htg : target P.mem P.tds (P.obj i) with
    | none => rw [htg] at hq; simp [refers, hq.2.1, hq.2.2] at hr
    | some o =>
      rw [htg] at hq
      rcases hq with ⟨g1, g2, _⟩ | ⟨_, _, g3, _, t, g4, g5⟩ | ⟨_, _, g3, _, t, g4, _, _, _, g5⟩
      · simp [refers, g1, g2] at hr
      · exact ⟨g3, fin t g4 g5⟩
      · exact ⟨g3, fin t g4 g5⟩

/-- a node of the array before and after the removal -/
structure Same (pd pd' : Pd) : Prop where
  parent : pd'.parent = pd.parent
  ty : pd'.ty = pd.ty
  ref : pd'.ref = pd.ref
  cref : pd'.cref = pd.cref
  first : (pd.ref || pd.cref) = true → pd'.firstChild = pd.firstChild

/-- what is left of the tree of a saved graph without its empty nodes -/
structure Pruned (P : Plan) (ra' : List Pd) (k' : Forest) : Prop where
  removed : removeEmptyNodes P.st.ptrs.ra = some ra'
  without : withoutEmpty P.st.ptrs.ra false (.cons 1 P.k .nil) = .cons 1 k' .nil
  rep : Rep ra' 0 1 (.cons 1 k' .nil)
  nodup : (1 :: k'.nodes).Nodup
  sub : ∀ i ∈ 1 :: k'.nodes, i ∈ P.N
  len : (1 :: k'.nodes).length ≤ P.N.length
  ids : ∀ j x : Nat, (1 :: k'.nodes)[j]? = some x → (ra'[x]?).map Pd.idx = some (j + 1)
  node : ∀ i ∈ P.N, ∃ pd', ra'[i]? = some pd' ∧ Same (nd P.st.ptrs.ra i) pd'
  gone : ∀ i ∈ P.N, i ∉ 1 :: k'.nodes → container (P.obj i).ty = true ∧ (nd P.st.ptrs.ra i).refd = false

theorem pruned (H : P.Core) : ∃ ra' k', Pruned P ra' k' := by
  have hnodes : ∀ k : Forest, (Forest.cons 1 k .nil).nodes = 1 :: k.nodes := fun k => by simp [Forest.nodes]
  obtain ⟨ra', k', e1, e2, e3, e4, e5, _, e7, _⟩ := Props.Dfs.C40_exactly_empty P.st.ptrs.ra P.k H.C.V.F.tree H.C.V.F.nodup (by
    intro x hx pd hpd hr
    have hx' : x ∈ P.N := List.mem_cons_of_mem _ hx
    rw [← (SaveDone.get_nd hpd).1] at hr ⊢
    have := H.range (marked H hx' hr).2.1
    omega)
  have hsub := Props.Dfs.without_sublist P.st.ptrs.ra (.cons 1 P.k .nil) false
  rw [e2, hnodes, hnodes] at hsub
  refine ⟨ra', k', e1, e2, e3, hsub.nodup H.C.V.F.nodup, fun i hi => hsub.subset hi, hsub.length_le, ?_, ?_, ?_⟩
  · by_cases hk : k' = P.k
    · rw [e4 hk, hk]; exact H.C.V.F.ids
    · exact e5 hk
  · intro i hi
    have hr := H.range hi
    obtain ⟨pd', a1, a2, a3, a4, a5, _, a7⟩ := e7 i _ (H.C.V.get hr.2).1
    refine ⟨pd', a1, a2, a3, a4, a5, fun h => a7 ?_ h⟩
    rintro rfl
    have := (marked H hi h).1
    rw [H.C.V.F.top, H.C.S.base.2] at this
    cases this
  · intro i hi hn
    have hr := H.range hi
    apply Classical.byContradiction
    intro hc
    have := Props.Dfs.C40_content_kept P.st.ptrs.ra (.cons 1 P.k .nil) false i (by rw [hnodes]; exact hi)
      (fun y hy => by rw [hnodes] at hy; rw [H.C.V.len]; exact (H.range hy).2) (by
        intro pd hpd
        rw [← (SaveDone.get_nd hpd).1]
        unfold droppable
        rw [H.C.V.ty hr.1 hr.2]
        cases h1 : container (P.obj i).ty <;> cases h2 : (nd P.st.ptrs.ra i).refd <;> simp_all)
    rw [e2, hnodes] at this
    exact hn this

/-- the targets of references are written -/
theorem Pruned.kept (H : P.Core) {ra' : List Pd} {k' : Forest} (R : Pruned P ra' k') {i : Nat} (hi : i ∈ P.N) (hr : refers P i = true) :
    (nd P.st.ptrs.ra i).firstChild ∈ 1 :: k'.nodes := by
  obtain ⟨_, h1, h2⟩ := marked H hi hr
  apply Classical.byContradiction
  intro hc
  rw [(R.gone _ h1 hc).2] at h2
  cases h2

end Verif.Lemmas.JsonPruned
