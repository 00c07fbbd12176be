import Verif.Lemmas.SimInner
import Verif.Lemmas.CopyLayout
/-!
`mr_save` builds the same nodes for isomorphic graphs, before the post-processing.
-/
namespace Verif.Lemmas.SimGraph
open Verif.Model Verif.Model.Ptrs Verif.Model.Save Verif.Spec.Ptrs Verif.Spec.Save Verif.Spec.Copy Verif.Lemmas.SaveTree Verif.Lemmas.SaveInv Verif.Lemmas.SaveStep
  Verif.Lemmas.SaveRun Verif.Lemmas.SaveResolve Verif.Lemmas.SaveHandler Verif.Lemmas.SaveInner Verif.Lemmas.SaveMain Verif.Lemmas.SaveLoop Verif.Lemmas.SaveGraph
  Verif.Lemmas.SimTwin Verif.Lemmas.SimObj Verif.Lemmas.SimResolve Verif.Lemmas.SimInner

variable {mem mem' : Mem} {tds : List Td} {root : Obj} {pl : Obj → Nat}

theorem moved_ofFd (a b : Nat) (fd : Fd) : moved (ofFd a fd) b = ofFd b fd := CopyLayout.moved_object _ _ _ _ _ _ _

/-- what is reachable from the copy is a copy -/
theorem reach_moved (hiso : Iso mem mem' tds root pl) {o' : Obj} (h : Reach mem' tds (moved root (pl root)) o') : ∃ o, Reach mem tds root o ∧ o' = moved o (pl o) := by
  induction h with
  | self => exact ⟨root, .self, rfl⟩
  | part _ hc ih =>
    obtain ⟨o, h1, rfl⟩ := ih
    rw [hiso.parts o h1] at hc
    obtain ⟨c, hc1, rfl⟩ := List.mem_map.1 hc
    exact ⟨c, .part h1 hc1, rfl⟩
  | lead _ hc ih =>
    obtain ⟨o, h1, rfl⟩ := ih
    rw [hiso.lead o h1] at hc
    cases ht : target mem tds o with
    | none => rw [ht] at hc; cases hc
    | some t =>
      rw [ht] at hc
      injection hc with hc
      exact ⟨t, .lead h1 ht, hc.symm⟩

theorem root_sim (hT : Types tds) {rk : Nat → Nat} (hrk : Nested tds rk) {data : Nat} {fd : Fd} (hok : FdOK tds fd) (hun : fd.unnamed = true) (hiso : Iso mem mem' tds (ofFd data fd) pl)
    {d fuel fuel' : Nat} (hd : d ≤ fuel) (hd' : d ≤ fuel') (hneed : need rk (ofFd data fd) ≤ d + 1) {s s' : St}
    (e : saveInner mem tds (fuel + 1) start data fd 1 0 = some (s, 1)) (e' : saveInner mem' tds (fuel' + 1) start (pl (ofFd data fd)) fd 1 0 = some (s', 1)) : Twin s s' := by
  have hm := moved_ofFd data (pl (ofFd data fd)) fd
  have hop := first_open (mem := mem) data fd hok hun (Single mem tds (ofFd data fd))
  have hop' := first_open (mem := mem') (pl (ofFd data fd)) fd hok hun (Single mem' tds (ofFd (pl (ofFd data fd)) fd))
  generalize hdata' : pl (ofFd data fd) = data' at *
  rw [← hm, ← hdata'] at hop'
  have ht : Twin (first data fd) (first data' fd) := ⟨rfl, rfl⟩
  rw [saveInner] at e e'
  have hres : ∀ tds content data, resolveMatched tds content start { addr := data, fd := fd, size := fd.size * 1, parent := 0 } (start.ptrs.ra.length + 1) (start.index (data / 4)) =
      some (start, false, 0) := fun _ _ _ => rfl
  have hle : start.ptrs.ra.length = 1 := rfl
  simp only [hres, Option.bind_eq_bind, Option.bind_some, Bool.false_eq_true, if_false] at e e'
  simp only [hle, first_eq, Option.bind_some, Option.bind_eq_some_iff] at e e'
  obtain ⟨⟨q3, q4⟩, q5, pf, q6, q7, q8, q9⟩ := e
  obtain ⟨⟨q3', q4'⟩, q5', pf', q6', q7', q8', q9'⟩ := e'
  cases q9; cases q9'
  rw [hdata'] at hop'
  have ht3 := handler_sim hT hrk (saveInner_ok (root := ofFd data fd) hT hrk d fuel hd) (saveInner_ok (root := moved (ofFd data fd) (pl (ofFd data fd))) hT hrk d fuel' hd')
    (saveInner_sim hT hrk hiso d fuel fuel' hd hd') hiso hop (by rw [hdata']; exact hop') ht .self (by rw [hdata']) hneed (by rw [need_moved]; exact hneed) q5 q5'
  rw [persistentFd_twin ht3, q6] at q6'
  cases q6'
  exact updInfo_twin ht3 (fun x y h => by
    obtain ⟨g1, g2, g3, g4, g5, g6⟩ := core_eq h
    simp [core, g2, g3, g4, g5, g6]) q8 q8'

theorem hasContent_twin {st st' : St} (h : Twin st st') (i : Nat) : hasContent (nd st'.ptrs.ra i) (ni st'.info i) = hasContent (nd st.ptrs.ra i) (ni st.info i) := by
  unfold hasContent
  obtain ⟨g1, g2, g3, g4, g5, g6⟩ := core_eq (h.ni i)
  rw [h.ptrs, g2, g5, g6]

theorem contents_sim (hT : Types tds) {rk : Nat → Nat} (hrk : Nested tds rk) (hiso : Iso mem mem' tds root pl) {d depth depth' : Nat} (hd : d ≤ depth) (hd' : d ≤ depth')
    (hneed : ∀ x, Reach mem tds root x → need rk x ≤ d) (fuel : Nat) :
    ∀ (fuel' : Nat) (st st' : St) (ks ks' : Nat → List Nat) (obj obj' : Nat → Obj) (O O' : Nat → Option Nat) (i : Nat), Loop mem tds root st ks obj O i →
      Loop mem' tds (moved root (pl root)) st' ks' obj' O' i → 1 ≤ i → Twin st st' → ∀ s s', saveContents mem tds depth fuel st i = some (s, 1) →
      saveContents mem' tds depth' fuel' st' i = some (s', 1) → Twin s s' := by
  induction fuel with
  | zero => intro _ _ _ _ _ _ _ _ _ _ _ _ _ _ s s' e; cases e
  | succ fuel ih =>
    intro fuel' st st' ks ks' obj obj' O O' i h h' h1 ht s s' e e'
    cases fuel' with
    | zero => cases e'
    | succ fuel' =>
    rw [saveContents] at e e'
    have hlen : st'.ptrs.ra.length = st.ptrs.ra.length := by rw [ht.ptrs]
    rw [hlen] at e'
    by_cases h2 : i < st.ptrs.ra.length
    · have h2' : i < st'.ptrs.ra.length := by omega
      rw [if_pos h2, nd_get h2, ni_get (by rw [h.inv.len]; exact h2)] at e
      rw [if_pos h2, nd_get h2', ni_get (by rw [h'.inv.len]; exact h2')] at e'
      simp only [Option.bind_eq_bind, Option.bind_some] at e e'
      rw [hasContent_twin ht] at e'
      have hs := same_st hiso ht h.inv h'.inv
      have ho := hs.objs i h1 h2
      have hr := reach_root h.inv.inv h1 h2
      by_cases hc : hasContent (nd st.ptrs.ra i) (ni st.info i) = true
      · rw [if_pos hc] at e e'
        obtain ⟨hty, hts⟩ := (hasContent_iff h h1 h2).1 hc
        obtain ⟨hty', _⟩ := (hasContent_iff h' h1 h2').1 (by rw [hasContent_twin ht]; exact hc)
        obtain ⟨o, hto⟩ := Option.isSome_iff_exists.1 hts
        have hto' : target mem' tds (obj' i) = some (moved o (pl o)) := by rw [ho, hiso.lead _ hr, hto]; rfl
        have hro : Reach mem tds root o := Reach.lead hr hto
        have hn := hneed o hro
        obtain ⟨st2, ks2, obj2, O2, e1, e2, e3, e4⟩ := content_ok hT (saveInner_ok (root := root) hT hrk d depth hd) h h1 h2 hty hto hn
        obtain ⟨st2', ks2', obj2', O2', f1, f2, f3, f4⟩ := content_ok hT (saveInner_ok (root := moved root (pl root)) hT hrk d depth' hd') h' h1 h2' hty' hto' (by rw [need_moved]; exact hn)
        obtain ⟨C, hC⟩ := content_call hT h h1 h2 hty hto
        obtain ⟨C', hC'⟩ := content_call hT h' h1 h2' hty' hto'
        obtain ⟨g1, g2, g3, g4, g5, g6⟩ := core_eq (ht.ni i)
        obtain ⟨u, _, _, _, u1, _⟩ := saveInner_ok (root := root) hT hrk d depth hd _ _ _ _ _ _ _ _ _ _ _ C hn
        obtain ⟨u', _, _, _, u1', _⟩ := saveInner_ok (root := moved root (pl root)) hT hrk d depth' hd' _ _ _ _ _ _ _ _ _ _ _ C' (by rw [need_moved]; exact hn)
        have v1 := hC _ _ u1
        have v1' := hC' _ _ u1'
        rw [g1, g2] at C' u1'
        have ht2 := saveInner_sim hT hrk hiso d depth depth' hd hd' _ _ _ _ _ _ _ _ _ _ _ _ _ _ _ _ _ _ _ C C' ht hn _ _ u1 u1'
        rw [e1] at v1 e
        rw [f1] at v1' e'
        cases v1
        cases v1'
        simp only [Option.bind_some] at e e'
        rw [if_neg (by omega)] at e e'
        exact ih fuel' _ _ _ _ _ _ _ _ _ e2 f2 (by omega) ht2 s s' e e'
      · rw [if_neg hc] at e e'
        have next : ∀ {mem : Mem} {root : Obj} {st : St} {ks : Nat → List Nat} {obj : Nat → Obj} {O : Nat → Option Nat}, Loop mem tds root st ks obj O i → i < st.ptrs.ra.length →
            hasContent (nd st.ptrs.ra i) (ni st.info i) ≠ true → Loop mem tds root st ks obj O (i + 1) := by
          intro mem root st ks obj O h h2 hc
          have hiff := hasContent_iff h h1 h2
          refine ⟨h.inv, ?_, fun j j1 j2 j3 => h.todo j j1 (by omega) j3, h.lc⟩
          intro j j1 j2 j3
          by_cases hj : j = i
          · subst hj
            rw [h.todo j j1 (Nat.le_refl _) j3, pend, if_neg]
            exact fun h => hc (hiff.2 h)
          · exact h.done j j1 (by omega) j3
        exact ih fuel' _ _ _ _ _ _ _ _ _ (next h h2 hc) (next h' h2' (by rw [hasContent_twin ht]; exact hc)) (by omega) ht s s' e e'
    · rw [if_neg h2] at e e'
      cases e; cases e'
      exact ht

/-- both runs end with the same nodes -/
theorem graph_sim (hT : Types tds) {data : Nat} {fd : Fd} (hok : FdOK tds fd) (hfin : Finite mem tds (ofFd data fd)) :
    ∃ L, ∀ (mem' : Mem) (pl : Obj → Nat), Iso mem mem' tds (ofFd data fd) pl → ∃ N, ∀ fuel fuel', L ≤ fuel → N ≤ fuel' → ∃ st st' ks ks' obj obj' O O', saveGraph mem tds fuel data fd = some (st, 1) ∧
      saveGraph mem' tds fuel' (pl (ofFd data fd)) fd = some (st', 1) ∧ Twin st st' ∧
      Inv mem tds (Single mem tds (ofFd data fd)) (ofFd data fd) st ks obj O (fun _ => False) ∧
      Inv mem' tds (Single mem' tds (moved (ofFd data fd) (pl (ofFd data fd)))) (moved (ofFd data fd) (pl (ofFd data fd))) st' ks' obj' O' (fun _ => False) ∧
      (∀ j, 1 ≤ j → j < st.ptrs.ra.length → O j = none) ∧ (∀ j, 1 ≤ j → j < st'.ptrs.ra.length → O' j = none) ∧ 1 < st.ptrs.ra.length ∧
      ∀ i, 1 ≤ i → i < st.ptrs.ra.length → obj' i = moved (obj i) (pl (obj i)) := by
  obtain ⟨K, hK⟩ := hfin
  obtain ⟨N1, hN1⟩ := graph_ok hT hok hK
  obtain ⟨rk, hrk⟩ := hT.nested
  let d := (K.map (need rk)).sum
  have hneed : ∀ x, Reach mem tds (ofFd data fd) x → need rk x ≤ d := fun x hx => le_sum K (need rk) (hK x hx)
  refine ⟨N1 + d + 2, fun mem' pl hiso => ?_⟩
  have hm := moved_ofFd data (pl (ofFd data fd)) fd
  have hK' : ∀ x, Reach mem' tds (ofFd (pl (ofFd data fd)) fd) x → x ∈ K.map fun o => moved o (pl o) := by
    intro x hx
    rw [← hm] at hx
    obtain ⟨o, h1, rfl⟩ := reach_moved hiso hx
    exact List.mem_map.2 ⟨o, hK o h1, rfl⟩
  obtain ⟨N2, hN2⟩ := graph_ok (data := pl (ofFd data fd)) hT hok hK'
  refine ⟨N2 + d + 2, fun fuel fuel' hf hf' => ?_⟩
  obtain ⟨st, ks, obj, O, e1, e2, e3, e4⟩ := hN1 fuel (by omega)
  obtain ⟨st', ks', obj', O', f1, f2, f3, f4⟩ := hN2 fuel' (by omega)
  rw [← hm] at f2
  have ht : Twin st st' := by
    cases fuel with
    | zero => omega
    | succ fuel =>
    cases fuel' with
    | zero => omega
    | succ fuel' =>
      have hok' : FdOK tds { fd with unnamed := true } := hok
      have hofd : ∀ a, ofFd a { fd with unnamed := true } = ofFd a fd := fun _ => rfl
      have hroot : need rk (ofFd data { fd with unnamed := true }) ≤ d + 1 := by have := hneed _ .self; rw [hofd]; omega
      obtain ⟨st1, ks1, obj1, O1, a1, a2, a3, a4, a5, a6⟩ := root_ok (mem := mem) (data := data) hT hrk (d := d) (fuel := fuel) (by omega) hok' rfl hroot
      obtain ⟨st1', ks1', obj1', O1', b1, b2, b3, b4, b5, b6⟩ := root_ok (mem := mem') (data := pl (ofFd data fd)) hT hrk (d := d) (fuel := fuel') (by omega) hok' rfl (by
        rw [hofd, ← hm, need_moved]; exact hroot)
      rw [hofd] at a2 a6 b2
      rw [← hm] at b2
      have ht1 := root_sim (fd := { fd with unnamed := true }) (data := data) hT hrk hok' rfl (by rw [hofd]; exact hiso) (d := d) (fuel := fuel) (fuel' := fuel') (by omega) (by omega) hroot a1 b1
      unfold saveGraph at e1 f1
      rw [a1] at e1
      rw [b1] at f1
      simp only [Option.bind_eq_bind, Option.bind_some] at e1 f1
      rw [if_neg (by omega)] at e1 f1
      exact contents_sim hT hrk hiso (d := d) (by omega) (by omega) hneed (fuel + 1) (fuel' + 1) st1 st1' ks1 ks1' obj1 obj1' O1 O1' 1
        ⟨a2, fun j j1 j2 => by omega, fun j j1 _ j3 => a4 j j1 j3, a5⟩ ⟨b2, fun j j1 j2 => by omega, fun j j1 _ j3 => b4 j j1 j3, b5⟩ (by omega) ht1 _ _ e1 f1
  exact ⟨st, st', ks, ks', obj, obj', O, O', e1, f1, ht, e2, f2, e3, f3, e4, (same_st hiso ht e2 f2).objs⟩

end Verif.Lemmas.SimGraph
