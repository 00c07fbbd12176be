import Verif.Lemmas.CopyRun
import Verif.Props.Dfs
/-!
The walk of the copy: the new addresses of all nodes.
-/
namespace Verif.Lemmas.CopyWalk
open Verif.Model Verif.Model.Ptrs Verif.Model.Save Verif.Model.Copy Verif.Spec.Ptrs Verif.Spec.Save Verif.Spec.Copy Verif.Lemmas.SaveTree Verif.Lemmas.SaveInv
  Verif.Lemmas.CopyLayout Verif.Lemmas.CopyView Verif.Lemmas.CopyTops Verif.Lemmas.CopyMem Verif.Lemmas.CopyPlace Verif.Lemmas.CopyRun

theorem calc_keeps (info : List Info) : KeepsLinks (calcRelativeAddr info) := by
  intro s i l o ok s' h
  unfold calcRelativeAddr at h
  cases o with
  | post => simp only [Option.some.injEq, Prod.mk.injEq] at h; rw [← h.2]
  | pre =>
    simp only at h
    split at h
    · simp only [Option.some.injEq, Prod.mk.injEq] at h; rw [← h.2]
    · simp only [Option.bind_eq_bind, Option.bind_eq_some_iff] at h
      obtain ⟨pd, _, x, _, p, _, h⟩ := h
      split at h
      · simp only [Option.some.injEq, Prod.mk.injEq] at h; rw [← h.2]
      · cases h

variable {alloc : Blocks → Nat → Nat} {m : Bytes} {mem : Mem} {tds : List Td} {root : Obj} {live : Blocks} {dst max : Nat} {st : St} {k : Forest} {n : Nat} {obj : Nat → Obj} {top : Nat → Nat}
  (C : Ctx m mem tds root live dst max st k n obj top)
include C

theorem events_ok {b : Nat → Nat} (hb : ∀ t, Start st n obj t → b t ≠ 0) (F : Forest) : ∀ {par head : Nat} (f : Nat → Nat) (l : Int) (es : List (Nat × Int × Order)),
    Rep st.ptrs.ra par head F → (∀ x ∈ F.nodes, x ∈ 1 :: k.nodes) → (par = 0 → ∀ x ∈ F.roots, x = 1) → (par ≠ 0 → f par ≠ 0) →
    (∀ x ∈ 1 :: k.nodes, f x ≠ 0 → f x = na top obj b x) → (par ≠ 0 → par ∈ 1 :: k.nodes) → (∀ x ∈ 1 :: k.nodes, Start st n obj x → f x ≠ 0) →
    ∃ f', callAll (calcRelativeAddr st.info) (F.events l ++ es) (st.ptrs.ra, f) = callAll (calcRelativeAddr st.info) es (st.ptrs.ra, f') ∧
      (∀ x ∈ 1 :: k.nodes, f' x ≠ 0 → f' x = na top obj b x) ∧ (∀ x, f x ≠ 0 → f' x = f x) ∧ ∀ x ∈ F.nodes, f' x ≠ 0 := by
  induction F with
  | nil =>
    intro par head f l es _ _ _ _ hG _ _
    exact ⟨f, rfl, hG, fun _ _ => rfl, fun x hx => by cases hx⟩
  | cons i kk ss ihk ihs =>
    intro par head f l es hrep hin hroot hpar hG hparin hS
    obtain ⟨_, h0, pd, hpd, hpp, hk, hs⟩ := hrep
    have hiin := hin i (by simp [Forest.nodes])
    have hir := ((C.V.inTree i).1 hiin).1
    rw [(C.V.get hir.2).1] at hpd
    cases hpd
    -- the call before the children
    have hpre : ∃ f1 : Nat → Nat, calcRelativeAddr st.info (st.ptrs.ra, f) i l .pre = some (true, (st.ptrs.ra, f1)) ∧
        (∀ x ∈ 1 :: k.nodes, f1 x ≠ 0 → f1 x = na top obj b x) ∧ (∀ x, f x ≠ 0 → f1 x = f x) ∧ f1 i ≠ 0 := by
      unfold calcRelativeAddr
      simp only
      by_cases hf : f i ≠ 0
      · rw [if_pos hf]
        exact ⟨f, rfl, hG, fun _ _ => rfl, hf⟩
      · rw [if_neg hf]
        have hns : ¬ Start st n obj i := fun h => hf (hS i hiin h)
        have hi1 : 1 < i := by
          by_cases h : i = 1
          · exact absurd (Or.inl h) hns
          · omega
        have hcell : isCell (obj (pa st i)) = false := by
          cases h : isCell (obj (pa st i)) with
          | false => rfl
          | true => exact absurd (Or.inr ⟨hi1, hir.2, h⟩) hns
        have hup := C.V.up i hi1 hir.2
        have hpar0 : par ≠ 0 := by rw [← hpp]; have := hup.1; unfold pa at this; omega
        obtain ⟨a1, a2⟩ := na_up C.toGCtx (b := b) hi1 hir.2 hcell
        rw [(C.V.get hir.2).1, (C.V.get hir.2).2]
        simp only [Option.bind_eq_bind, Option.bind_some]
        rw [(C.V.get hup.2).2]
        simp only [Option.bind_some]
        rw [C.V.addr hir.1 hir.2, C.V.addr hup.1 hup.2, if_pos a1]
        have hfp : f (pa st i) = na top obj b (pa st i) := by
          unfold pa
          rw [hpp]
          exact hG par (hparin hpar0) (hpar hpar0)
        refine ⟨_, rfl, ?_, ?_, ?_⟩
        · intro x hx hne
          unfold setAt at hne ⊢
          by_cases hxi : x = i
          · rw [if_pos hxi]
            rw [hxi, a2, ← hfp]
          · rw [if_neg hxi] at hne ⊢
            exact hG x hx hne
        · intro x hx
          unfold setAt
          rw [if_neg]
          rintro rfl
          exact hf hx
        · unfold setAt
          rw [if_pos rfl]
          have : f (pa st i) ≠ 0 := by unfold pa; rw [hpp]; exact hpar hpar0
          unfold pa at this
          omega
    obtain ⟨f1, p1, p2, p3, p4⟩ := hpre
    obtain ⟨f2, k1, k2, k3, k4⟩ := ihk f1 (l + 1) ((i, l, .post) :: (ss.events l ++ es)) hk (fun x hx => hin x (by simp [Forest.nodes, hx]))
      (fun h => absurd h h0) (fun _ => p4) p2 (fun _ => hiin) (fun x hx h => by rw [p3 x (hS x hx h)]; exact hS x hx h)
    obtain ⟨f3, s1, s2, s3, s4⟩ := ihs f2 l es hs (fun x hx => hin x (by simp [Forest.nodes, hx]))
      (fun h x hx => hroot h x (by simp [Forest.roots, hx])) (fun h => by
        have := p3 par (hpar h)
        rw [k3 par (by rw [this]; exact hpar h), this]
        exact hpar h) k2 hparin (fun x hx h => by
        have := p3 x (hS x hx h)
        rw [k3 x (by rw [this]; exact hS x hx h), this]
        exact hS x hx h)
    refine ⟨f3, ?_, s2, ?_, ?_⟩
    · simp only [Forest.events, List.cons_append, List.append_assoc]
      rw [callAll, p1]
      simp only [Option.bind_eq_bind, Option.bind_some, Bool.true_eq_false, if_false]
      rw [k1, callAll]
      have : calcRelativeAddr st.info (st.ptrs.ra, f2) i l .post = some (true, (st.ptrs.ra, f2)) := rfl
      rw [this]
      simp only [Option.bind_eq_bind, Option.bind_some, Bool.true_eq_false, if_false]
      exact s1
    · intro x hx
      have h1 := p3 x hx
      have h2 := k3 x (by rw [h1]; exact hx)
      rw [s3 x (by rw [h2, h1]; exact hx), h2, h1]
    · intro x hx
      simp only [Forest.nodes, List.mem_cons, List.mem_append] at hx
      rcases hx with rfl | hx | hx
      · have h2 := k3 x p4
        rw [s3 x (by rw [h2]; exact p4), h2]
        exact p4
      · rw [s3 x (k4 x hx)]
        exact k4 x hx
      · exact s4 x hx

theorem walk_ok {s : CSt} (hL : LoopInv alloc m tds root live dst st n obj n s) :
    ∃ f, dfs (calcRelativeAddr st.info) 1 (st.ptrs.ra, s.res) = some (true, (st.ptrs.ra, f)) ∧
      ∀ x ∈ 1 :: k.nodes, f x = na top obj (base st obj dst s) x := by
  have htree := C.V.F.tree
  rw [Props.Dfs.C28_from_root _ (calc_keeps _) _ _ _ _ htree C.V.F.nodup]
  have hb : ∀ t, Start st n obj t → base st obj dst s t ≠ 0 := by
    rintro t (rfl | ⟨h1, h2, h3⟩)
    · simp [base, C.D.room.2.1]
    · exact hL.nz t ⟨h1, h2, h3, (C.V.up t h1 h2).2⟩
  have hnodes : (Forest.cons 1 k .nil).nodes = 1 :: k.nodes := by simp [Forest.nodes]
  -- the nodes of blocks
  have hstart : ∀ x ∈ 1 :: k.nodes, Start st n obj x → s.res x = base st obj dst s x ∧ s.res x ≠ 0 := by
    rintro x hx (rfl | ⟨h1, h2, h3⟩)
    · rw [hL.res1]
      exact ⟨by simp [base], C.D.room.2.1⟩
    · have hty : (obj x).ty ≠ .charArray := by
        intro h
        have hns := ((C.V.inTree x).1 hx).2
        have hpl : (obj (pa st x)).ty = .pointer ∨ (obj (pa st x)).ty = .string := by simpa [isCell] using h3
        rcases hpl with hp | hp
        · exact C.V.ptr_ty h1 h2 hp h
        · exact hns ⟨by omega, hp⟩
      have he : base st obj dst s x = s.res x := by
        unfold base
        rw [if_neg (by omega), if_neg hty]
      rw [he]
      exact ⟨rfl, by rw [← he]; exact hb x (Or.inr ⟨h1, h2, h3⟩)⟩
  obtain ⟨f, e1, e2, _, e4⟩ := events_ok C hb (.cons 1 k .nil) (par := 0) (head := 1) s.res 0 [] htree (fun x hx => by rw [← hnodes]; exact hx)
    (fun _ x hx => by simpa [Forest.roots] using hx) (fun h => absurd rfl h) (by
      intro x hx hne
      have hst : Start st n obj x := by
        by_cases h : x = 1
        · exact Or.inl h
        · exact asg_start (hL.res x h hne).1
      rw [na_start C.tops hst]
      exact (hstart x hx hst).1) (fun h => absurd rfl h) (fun x hx h => (hstart x hx h).2)
  rw [List.append_nil] at e1
  refine ⟨f, by rw [e1]; rfl, fun x hx => e2 x hx (e4 x (by rw [hnodes]; exact hx))⟩

end Verif.Lemmas.CopyWalk
