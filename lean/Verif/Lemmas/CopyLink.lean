import Verif.Lemmas.CopyWalk
/-!
The last loop of the copy: the pointers in the copy.
-/
namespace Verif.Lemmas.CopyLink
open Verif.Model Verif.Model.Ptrs Verif.Model.Save Verif.Model.Copy Verif.Spec.Ptrs Verif.Spec.Save Verif.Spec.Copy Verif.Lemmas.SaveTree Verif.Lemmas.SaveInv
  Verif.Lemmas.CopyLayout Verif.Lemmas.CopyView Verif.Lemmas.CopyTops Verif.Lemmas.CopyMem Verif.Lemmas.CopyPlace Verif.Lemmas.CopyRun

/-- what is written into the copy of the pointer or string of node `i` -/
def Res (st : St) (mem : Mem) (tds : List Td) (root : Obj) (n : Nat) (obj : Nat → Obj) (na : Nat → Nat) (i : Nat) : Option Nat → Prop
  | none => target mem tds (obj i) = none ∧
      ((obj i).ty = .pointer → (obj i).aux = .void → mem.ptr (obj i).addr ≠ 0 → ∀ j, 1 ≤ j → j < n → (obj j).addr ≠ mem.ptr (obj i).addr) ∧
      ((obj i).ty = .pointer → untyped (obj i).aux = true → (nd st.ptrs.ra i).ref = false)
  | some v => v < 2 ^ 64 ∧
      ((∃ j, 1 ≤ j ∧ j < n ∧ v = na j ∧ (target mem tds (obj i) = some (obj j) ∨
          ((obj i).ty = .pointer ∧ untyped (obj i).aux = true ∧ (obj j).addr = mem.ptr (obj i).addr ∧ (nd st.ptrs.ra i).ref = true ∧ (nd st.ptrs.ra i).firstChild = j))) ∨
       ((obj i).ty = .pointer ∧ untyped (obj i).aux = true ∧ ∃ t, Outer mem tds root t ∧ t.ty = .charArray ∧ t.addr = mem.ptr (obj i).addr ∧ (nd st.ptrs.ra i).ref = false ∧ (nd st.ptrs.ra i).cref = true))

variable {alloc : Blocks → Nat → Nat} {m : Bytes} {mem : Mem} {tds : List Td} {root : Obj} {live : Blocks} {dst max : Nat} {st : St} {k : Forest} {n : Nat} {obj : Nat → Obj} {top : Nat → Nat}
  (C : Ctx m mem tds root live dst max st k n obj top)
include C

theorem need_root : need m tds (obj 1) = extent tds root := by
  have := (start_need C.toGCtx (t := 1) (Or.inl rfl)).2.2.2.2
  rw [C.V.F.top] at this ⊢
  exact this (root_ty C.toGCtx).2

/-- the blocks after the first loop -/
theorem blocks_ok {s : CSt} (hL : LoopInv alloc m tds root live dst st n obj n s) :
    Blk m tds st n obj (base st obj dst s) ∧
    (∀ t, Start st n obj t → covered s.live (base st obj dst s t) (need m tds (obj t)) = true) ∧
    (∀ t, Start st n obj t → base st obj dst s t + need m tds (obj t) ≤ 2 ^ 64) ∧
    ∀ t, Start st n obj t → ∀ x, x < need m tds (obj t) → s.m (base st obj dst s t + x) = m ((obj t).addr + x) := by
  have hb1 : base st obj dst s 1 = dst := by simp [base]
  have hasg : ∀ t, Start st n obj t → t = 1 ∨ Asg st n obj n t := by
    rintro t (h | ⟨h1, h2, h3⟩)
    · exact Or.inl h
    · exact Or.inr ⟨h1, h2, h3, (C.V.up t h1 h2).2⟩
  have hdst : ∀ t, Asg st n obj n t → Apart (base st obj dst s t) (need m tds (obj t)) dst (extent tds root) := by
    intro t ht
    have := C.D.room.1
    rw [covered_mem] at this
    obtain ⟨b, hb1, hb2⟩ := this
    have := hL.old t ht b hb1
    unfold Apart at *
    omega
  obtain ⟨cs, _, c2, c3, _⟩ := hL.new
  refine ⟨?_, ?_, ?_, ?_⟩
  · intro t t' ht ht' hne
    rcases hasg t ht with rfl | h
    · rcases hasg t' ht' with rfl | h'
      · exact absurd rfl hne
      · rw [hb1, need_root C]
        have := hdst t' h'
        unfold Apart at *
        omega
    · rcases hasg t' ht' with rfl | h'
      · rw [hb1, need_root C]
        exact hdst t h
      · exact hL.pair t t' h h' hne
  · intro t ht
    rcases hasg t ht with rfl | h
    · rw [hb1, need_root C, c3]
      exact covered_mono C.D.room.1
    · rw [covered_mem, c3]
      exact ⟨_, List.mem_append_right _ (List.mem_map.2 ⟨t, (c2 t).2 h, rfl⟩), Nat.le_refl _, Nat.le_refl _⟩
  · intro t ht
    rcases hasg t ht with rfl | h
    · rw [hb1, need_root C]
      exact C.D.room.2.2
    · exact hL.lim t h
  · intro t ht x hx
    exact hL.bytes t (hasg t ht) x hx

theorem relink_ok {s : CSt} (hL : LoopInv alloc m tds root live dst st n obj n s) {f : Nat → Nat} (hf : ∀ x ∈ 1 :: k.nodes, f x = na top obj (base st obj dst s) x)
    {i : Nat} (h1 : 1 ≤ i) (h2 : i < n) : ∃ w : Option Nat, (isCell (obj i) = true → Res st mem tds root n obj (na top obj (base st obj dst s)) i w) ∧
      (∀ v, w = some v → isCell (obj i) = true) ∧
      ∀ mm : Bytes, relink st { s with m := mm, res := f } i = some { s with m := (match w with | none => mm | some v => setWord mm (na top obj (base st obj dst s) i) v), res := f } := by
  obtain ⟨b1, b2, b3, _⟩ := blocks_ok C hL
  have hlim : ∀ j, 1 ≤ j → j < n → na top obj (base st obj dst s) j < 2 ^ 64 := by
    intro j j1 j2
    have g1 := in_block C.toGCtx (b := base st obj dst s) j1 j2
    have g2 := b3 _ (top_start C.V C.tops j j1 j2)
    omega
  unfold relink
  rw [(C.V.get h2).1, (C.V.get h2).2]
  simp only [Option.bind_eq_bind, Option.bind_some]
  by_cases hin : i ∈ 1 :: k.nodes
  · simp only [C.V.idx hin, if_false, C.V.ty h1 h2]
    have hstore : isCell (obj i) = true → ∀ mm v, store { s with m := mm, res := f } (f i) v = some { s with m := setWord mm (na top obj (base st obj dst s) i) v, res := f } := by
      intro hc mm v
      unfold store
      have g1 := in_block C.toGCtx (b := base st obj dst s) h1 h2
      rw [extent_cell hc] at g1
      rw [hf i hin, if_pos]
      exact covered_part (b2 _ (top_start C.V C.tops i h1 h2)) g1.1 g1.2.1
    have hnull := C.V.F.null i _ _ h1 (C.V.get h2).1 (C.V.get h2).2
    rw [C.V.ty h1 h2] at hnull
    -- the text of a string with its own text
    have htext : ∀ (t : Nat), 1 ≤ t → t < n → t ∉ 1 :: k.nodes →
        s.txt (pa st t) = na top obj (base st obj dst s) t ∧ 1 < t ∧ (obj t).ty = .charArray ∧ isCell (obj (pa st t)) = true := by
      intro t t1 t2 t3
      have ht := C.V.F.off t _ t1 (C.V.get t2).1 t3
      have htt : 1 < t := by
        by_cases h : t = 1
        · rw [h] at t3; simp at t3
        · omega
      have hcp : isCell (obj (pa st t)) = true := by
        obtain ⟨s', e1, e2, _⟩ := ht.2.2.2
        have hu := C.V.up t htt t2
        rw [(C.V.get hu.2).1] at e1
        cases e1
        rw [C.V.ty hu.1 hu.2] at e2
        simp [isCell, e2]
      rw [na_start C.tops (Or.inr ⟨htt, t2, hcp⟩)]
      unfold base
      rw [if_neg (by omega), if_pos ht.2.2.1]
      exact ⟨rfl, htt, ht.2.2.1, hcp⟩
    have hown : ∀ j o, 1 ≤ j → j < n → j ∈ 1 :: k.nodes → (obj j).ty = .string → target mem tds (obj j) = some o → (nd st.ptrs.ra j).ref = false →
        (nd st.ptrs.ra j).cref = false → ∃ t, 1 < t ∧ t < n ∧ obj t = o ∧ s.txt j = na top obj (base st obj dst s) t ∧ (obj t).ty = .charArray ∧ pa st t = j := by
      intro j o j1 j2 j3 j4 j5 j6 j7
      have hq := C.V.F.string j _ j3 (C.V.get j2).1 (by rw [C.V.ty j1 j2]; exact j4)
      rw [j5] at hq
      rcases hq with ⟨_, _, _, t, tp, t1, t2, t3, t4, t5⟩ | ⟨r1, _⟩ | ⟨_, r2, _⟩
      · obtain ⟨e1, e2⟩ := SaveDone.get_nd t2
        rw [C.V.len] at e2
        obtain ⟨u1, u2, u3, _⟩ := htext t t1 e2 t3
        have : pa st t = j := by unfold pa; rw [e1]; exact t4
        rw [this] at u1
        exact ⟨t, u2, e2, t5, u1, u3, this⟩
      · rw [j6] at r1; cases r1
      · rw [j7] at r2; cases r2
    cases hty : (obj i).ty
    case string =>
      simp only
      have hcell : isCell (obj i) = true := by simp [isCell, hty]
      have hst := hstore hcell
      have hnull := hnull (Or.inl hty)
      have hq := C.V.F.string i _ hin (C.V.get h2).1 (by rw [C.V.ty h1 h2]; exact hty)
      cases ht : target mem tds (obj i) with
      | none =>
        have hptr : mem.ptr (obj i).addr = 0 := by
          unfold target at ht
          rw [hty] at ht
          simp only at ht
          split at ht
          · assumption
          · cases ht
        rw [hnull.2 (Or.inr hptr)]
        exact ⟨none, fun _ => ⟨ht, (fun h => by rw [hty] at h; cases h), (fun h => by rw [hty] at h; cases h)⟩, (fun v hv => by cases hv), fun mm => rfl⟩
      | some o =>
        have hnn : (ni st.info i).null = false := by
          cases hh : (ni st.info i).null with
          | false => rfl
          | true =>
            rcases hnull.1 hh with ⟨g, _⟩ | g
            · rw [hty] at g; cases g
            · unfold target at ht
              rw [hty] at ht
              simp [g] at ht
        rw [hnn]
        simp only [Bool.false_eq_true, if_false]
        rw [ht] at hq
        rcases hq with ⟨q1, q2, _⟩ | ⟨q1, _, q3, q4, _⟩ | ⟨q1, q2, q3, q4, sp, q5, q6, q7, q8, _⟩
        · rw [q1, q2]
          simp only [Bool.false_eq_true, if_false]
          obtain ⟨t, t1, t2, t3, t4, _⟩ := hown i o h1 h2 hin hty ht q1 q2
          refine ⟨some (s.txt i), fun _ => ⟨?_, Or.inl ⟨t, by omega, t2, t4, Or.inl (by rw [t3, ht])⟩⟩, fun _ _ => hcell, fun mm => ?_⟩
          · rw [t4]; exact hlim t (by omega) t2
          · exact hst mm _
        · rw [q1]
          simp only [if_true]
          have q3' := ((C.V.inTree _).1 q3).1
          rw [(C.V.get q3'.2).1]
          simp only [Option.bind_some]
          refine ⟨some (f (nd st.ptrs.ra i).firstChild), fun _ => ⟨?_, Or.inl ⟨_, q3'.1, q3'.2, hf _ q3, Or.inl (by rw [q4, ht])⟩⟩, fun _ _ => hcell, fun mm => ?_⟩
          · rw [hf _ q3]; exact hlim _ q3'.1 q3'.2
          · exact hst mm _
        · rw [q1, q2]
          simp only [Bool.false_eq_true, if_false, if_true]
          have q3' := ((C.V.inTree _).1 q3).1
          rw [(C.V.get q3'.2).1] at q5 ⊢
          cases q5
          simp only [Option.bind_some]
          rw [C.V.ty q3'.1 q3'.2] at q6
          obtain ⟨t, t1, t2, t3, t4, _⟩ := hown _ o q3'.1 q3'.2 q3 q6 q4 q7 q8
          refine ⟨some (s.txt (nd st.ptrs.ra i).firstChild), fun _ => ⟨?_, Or.inl ⟨t, by omega, t2, t4, Or.inl (by rw [t3, ht])⟩⟩, fun _ _ => hcell, fun mm => ?_⟩
          · rw [t4]; exact hlim t (by omega) t2
          · exact hst mm _
    case pointer =>
      simp only
      have hcell : isCell (obj i) = true := by simp [isCell, hty]
      have hst := hstore hcell
      have hnull := hnull (Or.inr hty)
      cases hu : untyped (obj i).aux with
      | false =>
        have hq := (C.V.F.pointer i _ hin (C.V.get h2).1 (by rw [C.V.ty h1 h2]; exact hty) hu).2
        cases ht : target mem tds (obj i) with
        | none =>
          rw [ht] at hq
          simp only [hq.1, if_true]
          refine ⟨none, fun _ => ⟨ht, (fun _ h => ?_), (fun _ h => by rw [hu] at h; cases h)⟩, (fun v hv => by cases hv), fun mm => rfl⟩
          rw [h] at hu; cases hu
        | some o =>
          rw [ht] at hq
          obtain ⟨q1, q2, _⟩ := hq
          have q1' := ((C.V.inTree _).1 q1).1
          have hz : (nd st.ptrs.ra i).firstChild ≠ 0 := by omega
          simp only [hz, if_false, (C.V.get q1'.2).1, Option.bind_some]
          refine ⟨some (f (nd st.ptrs.ra i).firstChild), fun _ => ⟨?_, Or.inl ⟨_, q1'.1, q1'.2, hf _ q1, Or.inl (by rw [q2, ht])⟩⟩, fun _ _ => hcell, fun mm => ?_⟩
          · rw [hf _ q1]; exact hlim _ q1'.1 q1'.2
          · exact hst mm _
      | true =>
        have htn : target mem tds (obj i) = none := by
          unfold target
          rw [hty]
          simp [hu]
        have hq := C.V.F.void i _ hin (C.V.get h2).1 (by rw [C.V.ty h1 h2]; exact hty) hu
        rcases hq with ⟨r1, _, q3, q4⟩ | ⟨r1, _, q3, q4, _⟩ | ⟨r1, r2, q3, q4, ⟨o, q5, q6⟩, sp, q7, q8, q9, _⟩
        · simp only [q3, if_true]
          exact ⟨none, fun _ => ⟨htn, (fun _ g1 g2 j j1 j2 => q4 g1 g2 j j1 (by rw [C.V.len]; exact j2)), fun _ _ => r1⟩, (fun v hv => by cases hv), fun mm => rfl⟩
        · have q3' := ((C.V.inTree _).1 q3).1
          have hz : (nd st.ptrs.ra i).firstChild ≠ 0 := by omega
          simp only [hz, if_false, (C.V.get q3'.2).1, Option.bind_some]
          refine ⟨some (f (nd st.ptrs.ra i).firstChild), fun _ => ⟨?_, Or.inl ⟨_, q3'.1, q3'.2, hf _ q3, Or.inr ⟨hty, hu, q4, r1, rfl⟩⟩⟩, fun _ _ => hcell, fun mm => ?_⟩
          · rw [hf _ q3]; exact hlim _ q3'.1 q3'.2
          · exact hst mm _
        · have q3' := ((C.V.inTree _).1 q3).1
          rw [(C.V.get q3'.2).1] at q7
          cases q7
          obtain ⟨t, t1, t2, t3, _, t5, t6⟩ := hown _ o q3'.1 q3'.2 q3 q4 q5 q8 q9
          have hz : (nd st.ptrs.ra i).firstChild ≠ 0 := by omega
          simp only [hz, if_false, (C.V.get q3'.2).1, Option.bind_some]
          refine ⟨some (f (nd st.ptrs.ra i).firstChild), fun _ => ⟨?_, Or.inr ⟨hty, hu, obj t, ?_, t5, by rw [t3]; exact q6, r1, r2⟩⟩, fun _ _ => hcell, fun mm => ?_⟩
          · rw [hf _ q3]; exact hlim _ q3'.1 q3'.2
          · exact C.V.outer C.S.cells t1 t2 (by rw [t6]; simp [isCell, q4])
          · exact hst mm _
    all_goals
      simp only
      refine ⟨none, fun h => ?_, (fun v hv => by cases hv), fun mm => rfl⟩
      unfold isCell at h
      rw [hty] at h
      cases h
  · simp only [C.V.idx_off h1 h2 hin, if_true]
    refine ⟨none, fun h => ?_, (fun v hv => by cases hv), fun mm => rfl⟩
    exact absurd (C.V.cell_tree h1 h2 h) hin

theorem relinkLoop_ok {s : CSt} (hL : LoopInv alloc m tds root live dst st n obj n s) {f : Nat → Nat} (hf : ∀ x ∈ 1 :: k.nodes, f x = na top obj (base st obj dst s) x) :
    ∃ (m' : Bytes) (w : Nat → Option Nat), relinkLoop st (st.ptrs.ra.length - 2) { s with res := f } 2 = some { s with m := m', res := f } ∧
      (∀ i, 1 ≤ i → i < n → isCell (obj i) = true → 1 < i ∧ Res st mem tds root n obj (na top obj (base st obj dst s)) i (w i)) ∧
      (∀ i v, 1 < i → i < n → w i = some v → isCell (obj i) = true ∧ word m' (na top obj (base st obj dst s) i) = v) ∧
      ∀ a, (∀ i v, 1 < i → i < n → w i = some v → ¬ (na top obj (base st obj dst s) i ≤ a ∧ a < na top obj (base st obj dst s) i + 8)) → m' a = s.m a := by
  have hb := (blocks_ok C hL).1
  have hex : ∀ i, ∃ w : Option Nat, 1 ≤ i → i < n → (isCell (obj i) = true → Res st mem tds root n obj (na top obj (base st obj dst s)) i w) ∧
      (∀ v, w = some v → isCell (obj i) = true) ∧
      ∀ mm : Bytes, relink st { s with m := mm, res := f } i = some { s with m := (match w with | none => mm | some v => setWord mm (na top obj (base st obj dst s) i) v), res := f } := by
    intro i
    by_cases h : 1 ≤ i ∧ i < n
    · obtain ⟨w, hw⟩ := relink_ok C hL hf h.1 h.2
      exact ⟨w, fun _ _ => hw⟩
    · exact ⟨none, fun h1 h2 => absurd ⟨h1, h2⟩ h⟩
  obtain ⟨w, hw⟩ := Classical.axiomOfChoice hex
  have hloop : ∀ j i (mm : Bytes), 1 < i → i + j = n →
      (∀ x v, 1 < x → x < i → w x = some v → word mm (na top obj (base st obj dst s) x) = v) →
      (∀ a, (∀ x v, 1 < x → x < i → w x = some v → ¬ (na top obj (base st obj dst s) x ≤ a ∧ a < na top obj (base st obj dst s) x + 8)) → mm a = s.m a) →
      ∃ m', relinkLoop st j { s with m := mm, res := f } i = some { s with m := m', res := f } ∧
        (∀ x v, 1 < x → x < n → w x = some v → word m' (na top obj (base st obj dst s) x) = v) ∧
        (∀ a, (∀ x v, 1 < x → x < n → w x = some v → ¬ (na top obj (base st obj dst s) x ≤ a ∧ a < na top obj (base st obj dst s) x + 8)) → m' a = s.m a) := by
    intro j
    induction j with
    | zero =>
      intro i mm h1 h2 g1 g2
      have : i = n := by omega
      subst this
      exact ⟨mm, rfl, g1, g2⟩
    | succ j ih =>
      intro i mm h1 h2 g1 g2
      unfold relinkLoop
      obtain ⟨w1, w2, w3⟩ := hw i (by omega) (by omega)
      rw [w3 mm]
      simp only [Option.bind_eq_bind, Option.bind_some]
      refine ih (i + 1) _ (by omega) (by omega) ?_ ?_
      · intro x v x1 x2 hx
        by_cases hxi : x = i
        · subst hxi
          rw [hx] at w1 ⊢
          exact word_setWord (w1 (w2 v hx)).1
        · have hold := g1 x v x1 (by omega) hx
          cases hwi : w i with
          | none => exact hold
          | some u =>
            simp only
            have hap := cells_apart C.toGCtx hb (b := base st obj dst s) (i := x) (j := i) (by omega) (by omega) (by omega) (by omega)
              ((hw x (by omega) (by omega)).2.1 v hx) (w2 u hwi) hxi
            rw [← hold]
            apply word_congr
            intro y hy
            unfold Apart at hap
            exact setWord_other (by omega)
      · intro a ha
        cases hwi : w i with
        | none => exact g2 a fun x v x1 x2 hx => ha x v x1 (by omega) hx
        | some u =>
          simp only
          rw [setWord_other (ha i u h1 (by omega) hwi)]
          exact g2 a fun x v x1 x2 hx => ha x v x1 (by omega) hx
  obtain ⟨m', e1, e2, e3⟩ := hloop (n - 2) 2 s.m (by omega) (by have := C.V.n1; omega) (fun x v x1 x2 => by omega) (fun a _ => rfl)
  refine ⟨m', w, by rw [C.V.len]; exact e1, ?_, ?_, e3⟩
  · intro i h1 h2 hc
    refine ⟨?_, (hw i h1 h2).1 hc⟩
    by_cases h : i = 1
    · rw [h, C.V.F.top, C.S.base.2] at hc; cases hc
    · omega
  · intro i v h1 h2 hi
    exact ⟨(hw i (by omega) h2).2.1 v hi, e2 i v h1 h2 hi⟩

end Verif.Lemmas.CopyLink
