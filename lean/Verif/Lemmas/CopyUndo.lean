import Verif.Lemmas.CopyDone
/-!
The end of a copy that fails: the blocks are released.
-/
namespace Verif.Lemmas.CopyUndo
open Verif.Model Verif.Model.Ptrs Verif.Model.Save Verif.Model.Copy Verif.Spec.Ptrs Verif.Spec.Save Verif.Spec.Copy Verif.Lemmas.SaveTree Verif.Lemmas.SaveInv
  Verif.Lemmas.CopyLayout Verif.Lemmas.CopyView Verif.Lemmas.CopyTops Verif.Lemmas.CopyMem Verif.Lemmas.CopyPlace Verif.Lemmas.CopyRun Verif.Lemmas.CopyWalk Verif.Lemmas.CopyLink

theorem eraseP_map {f : Nat → Nat × Nat} {c : Nat} : ∀ {rem : List Nat}, c ∈ rem → (∀ x ∈ rem, (f x).1 = (f c).1 → x = c) →
    (rem.map f).eraseP (fun b => b.1 == (f c).1) = (rem.erase c).map f
  | [], h, _ => by simp at h
  | x :: rem, h, hi => by
    by_cases hx : x = c
    · subst hx
      simp
    · have h2 : c ∈ rem := by
        simp only [List.mem_cons] at h
        rcases h with h | h
        · exact absurd h.symm hx
        · exact h
      have h1 : (f x).1 ≠ (f c).1 := fun h => hx (hi x (by simp) h)
      rw [List.map_cons, List.eraseP_cons_of_neg (by simpa using h1), List.erase_cons_tail (by simpa using hx), List.map_cons,
        eraseP_map h2 fun y hy => hi y (by simp [hy])]

theorem freeBlock_ok {live : Blocks} {f : Nat → Nat × Nat} {rem : List Nat} {c : Nat} (hc : c ∈ rem) (hi : ∀ x ∈ rem, (f x).1 = (f c).1 → x = c)
    (hl : ∀ b ∈ live, b.1 ≠ (f c).1) : freeBlock (live ++ rem.map f) (f c).1 = some (live ++ (rem.erase c).map f) := by
  unfold freeBlock
  rw [if_pos (List.any_eq_true.2 ⟨f c, List.mem_append_right _ (List.mem_map.2 ⟨c, hc, rfl⟩), by simp⟩), List.eraseP_append_right _ (by
    intro b hb
    simpa using hl b hb), eraseP_map hc hi]

/-- the nodes before `i` are processed, the blocks of the nodes `rem` are still allocated -/
structure UndoInv (m : Bytes) (tds : List Td) (live : Blocks) (dst : Nat) (st : St) (n : Nat) (obj : Nat → Obj) (I : Nat) (s : CSt) (i : Nat) (s' : CSt) (rem : List Nat) : Prop where
  txt : s'.txt = s.txt
  mem : s'.m = s.m
  live : s'.live = live ++ rem.map fun c => (base st obj dst s c, need m tds (obj c))
  nodup : rem.Nodup
  sub : ∀ c ∈ rem, Asg st n obj I c ∧ i ≤ pa st c
  text : ∀ c, Asg st n obj I c → (obj c).ty = .charArray → i ≤ pa st c → c ∈ rem
  res : ∀ j, s'.res j ≠ 0 → s'.res j = s.res j ∧ (j = 1 ∨ (j ∈ rem ∧ (obj j).ty ≠ .charArray))
  left : ∀ c ∈ rem, (obj c).ty ≠ .charArray → s'.res c = s.res c

variable {alloc : Blocks → Nat → Nat} {m : Bytes} {mem : Mem} {tds : List Td} {root : Obj} {live : Blocks} {dst max : Nat} {st : St} {k : Forest} {n : Nat} {obj : Nat → Obj} {top : Nat → Nat}
  (C : Ctx m mem tds root live dst max st k n obj top)
include C

theorem drop {I i : Nat} {s s' : CSt} {rem : List Nat} {f : Nat → Nat} {c : Nat} (hU : UndoInv m tds live dst st n obj I s i s' rem) (hc : c ∈ rem)
    (hL : LoopInv alloc m tds root live dst st n obj I s) (hpos : ∀ b ∈ live, 0 < b.2)
    (hf : f = if (obj c).ty = .charArray then s'.res else setAt s'.res c 0) (hk : ∀ x ∈ rem, pa st x = i → x = c)
    (ht : (obj c).ty = .charArray → pa st c = i) :
    freeBlock s'.live (base st obj dst s c) = some (live ++ (rem.erase c).map fun c => (base st obj dst s c, need m tds (obj c))) ∧
    UndoInv m tds live dst st n obj I s (i + 1) { s' with live := live ++ (rem.erase c).map fun c => (base st obj dst s c, need m tds (obj c)), res := f } (rem.erase c) := by
  have hA := (hU.sub c hc).1
  have hn := (start_need C.toGCtx (asg_start hA)).2.1
  have hmem : ∀ x, x ∈ rem.erase c ↔ x ≠ c ∧ x ∈ rem := fun x => hU.nodup.mem_erase_iff
  constructor
  · rw [hU.live]
    refine freeBlock_ok (f := fun c => (base st obj dst s c, need m tds (obj c))) hc ?_ ?_
    · intro x hx he
      refine Classical.byContradiction fun hne => ?_
      have hx' := (hU.sub x hx).1
      have := hL.pair x c hx' hA hne
      have hn' := (start_need C.toGCtx (asg_start hx')).2.1
      simp only at he
      unfold Apart at this
      omega
    · intro b hb he
      have := hL.old c hA b hb
      have := hpos b hb
      simp only at he
      unfold Apart at *
      omega
  · refine ⟨hU.txt, hU.mem, rfl, hU.nodup.erase _, ?_, ?_, ?_, ?_⟩
    · intro x hx
      obtain ⟨h1, h2⟩ := (hmem x).1 hx
      obtain ⟨g1, g2⟩ := hU.sub x h2
      refine ⟨g1, ?_⟩
      have : pa st x ≠ i := fun h => h1 (hk x h2 h)
      omega
    · intro x h1 h2 h3
      refine (hmem x).2 ⟨?_, hU.text x h1 h2 (by omega)⟩
      rintro rfl
      have := ht h2
      omega
    · intro j hj
      simp only at hj ⊢
      rw [hf] at hj ⊢
      by_cases hty : (obj c).ty = .charArray
      · rw [if_pos hty] at hj ⊢
        obtain ⟨g1, g2⟩ := hU.res j hj
        refine ⟨g1, g2.imp id fun g => ⟨(hmem j).2 ⟨?_, g.1⟩, g.2⟩⟩
        rintro rfl
        exact g.2 hty
      · rw [if_neg hty] at hj ⊢
        unfold setAt at hj ⊢
        by_cases hjc : j = c
        · rw [if_pos hjc] at hj; exact absurd rfl hj
        · rw [if_neg hjc] at hj ⊢
          obtain ⟨g1, g2⟩ := hU.res j hj
          exact ⟨g1, g2.imp id fun g => ⟨(hmem j).2 ⟨hjc, g.1⟩, g.2⟩⟩
    · intro x hx hty
      obtain ⟨h1, h2⟩ := (hmem x).1 hx
      simp only
      rw [hf]
      split
      · exact hU.left x h2 hty
      · unfold setAt
        rw [if_neg h1]
        exact hU.left x h2 hty

theorem keep {I i : Nat} {s s' : CSt} {rem : List Nat} (hU : UndoInv m tds live dst st n obj I s i s' rem) (hk : ∀ x ∈ rem, pa st x ≠ i) :
    UndoInv m tds live dst st n obj I s (i + 1) s' rem := by
  refine ⟨hU.txt, hU.mem, hU.live, hU.nodup, ?_, fun x h1 h2 h3 => hU.text x h1 h2 (by omega), hU.res, hU.left⟩
  intro x hx
  obtain ⟨g1, g2⟩ := hU.sub x hx
  have := hk x hx
  exact ⟨g1, by omega⟩

/-- the first child of a pointer -/
theorem not_root (hroot : ∀ x, Reach mem tds root x → x.ty = .pointer → target mem tds x ≠ some root ∧ (untyped x.aux = true → mem.ptr x.addr ≠ root.addr))
    {i : Nat} (h1 : 1 ≤ i) (h2 : i < n) (hty : (obj i).ty = .pointer) : (nd st.ptrs.ra i).firstChild ≠ 1 := by
  intro h
  have hin := C.V.cell_tree h1 h2 (by simp [isCell, hty])
  obtain ⟨r1, r2⟩ := hroot _ (C.V.reach i h1 h2) hty
  cases hu : untyped (obj i).aux with
  | false =>
    have hq := (C.V.F.pointer i _ hin (C.V.get h2).1 (by rw [C.V.ty h1 h2]; exact hty) hu).2
    cases ht : target mem tds (obj i) with
    | none => rw [ht] at hq; rw [hq.1] at h; cases h
    | some o =>
      rw [ht] at hq
      have := hq.2.1
      rw [h, C.V.F.top] at this
      rw [ht, ← this] at r1
      exact r1 rfl
  | true =>
    have hq := C.V.F.void i _ hin (C.V.get h2).1 (by rw [C.V.ty h1 h2]; exact hty) hu
    rcases hq with ⟨_, _, q3, q4⟩ | ⟨_, _, q3, q4, _⟩ | ⟨_, _, q3, q4, _⟩
    · rw [h] at q3; cases q3
    · rw [h, C.V.F.top] at q4
      exact r2 hu q4.symm
    · rw [h, C.V.F.top] at q4
      have := C.S.base.2
      simp [isCell, q4] at this

theorem undo_ok {I i : Nat} {s s' : CSt} {rem : List Nat} (hU : UndoInv m tds live dst st n obj I s i s' rem) (hi1 : 1 < i) (hi2 : i < n)
    (hL : LoopInv alloc m tds root live dst st n obj I s) (hpos : ∀ b ∈ live, 0 < b.2)
    (hroot : ∀ x, Reach mem tds root x → x.ty = .pointer → target mem tds x ≠ some root ∧ (untyped x.aux = true → mem.ptr x.addr ≠ root.addr)) :
    ∃ s'' rem', undo st s' i = some s'' ∧ UndoInv m tds live dst st n obj I s (i + 1) s'' rem' := by
  unfold undo
  rw [(C.V.get hi2).1]
  simp only [Option.bind_eq_bind, Option.bind_some]
  rw [C.V.ty (by omega) hi2, hU.txt]
  -- the child of node `i`
  have hkid : ∀ x ∈ rem, pa st x = i → isCell (obj i) = true := by
    intro x hx hp
    have := (hU.sub x hx).1.2.2.1
    rw [hp] at this
    exact this
  have hbt : ∀ c, Asg st n obj I c → (obj c).ty = .charArray → base st obj dst s c = s.txt (pa st c) := by
    intro c hc ht
    unfold base
    rw [if_neg (by have := hc.1; omega), if_pos ht]
  have hbr : ∀ c, Asg st n obj I c → (obj c).ty ≠ .charArray → base st obj dst s c = s.res c := by
    intro c hc ht
    unfold base
    rw [if_neg (by have := hc.1; omega), if_neg ht]
  by_cases h : (obj i).ty = .string ∧ s.txt i ≠ 0
  · rw [if_pos h]
    obtain ⟨c, g1, g2, g3⟩ := hL.txt i h.2
    have hc := hU.text c g1 g3 (by omega)
    obtain ⟨d1, d2⟩ := drop C hU hc hL hpos (f := s'.res) (by rw [if_pos g3]) (fun x hx hp => by
      have hx' := (hU.sub x hx).1
      exact only_kid C g1.1 g1.2.1 hx'.1 hx'.2.1 (by rw [hp, g2]) g1.2.2.1) (fun _ => g2)
    rw [hbt c g1 g3, g2] at d1
    rw [d1]
    rw [hU.txt] at d2
    exact ⟨_, _, rfl, d2⟩
  · rw [if_neg h]
    by_cases h' : (obj i).ty = .pointer ∧ (nd st.ptrs.ra i).firstChild ≠ 0
    · rw [if_pos h']
      have hn1 := not_root C hroot (by omega) hi2 h'.1
      have hown : ∀ x ∈ rem, pa st x = i → x = (nd st.ptrs.ra i).firstChild ∧ (obj x).ty ≠ .charArray := by
        intro x hx hp
        have hx' := (hU.sub x hx).1
        have := (C.V.owner C.S.cells hx'.1 hx'.2.1 hx'.2.2.1).2.2.2.1
        have ht := C.V.ptr_ty hx'.1 hx'.2.1
        rw [hp] at this ht
        exact ⟨(this h'.1).2.1.symm, ht h'.1⟩
      by_cases hr : s'.res (nd st.ptrs.ra i).firstChild ≠ 0
      · rw [if_pos hr]
        obtain ⟨r1, r2⟩ := hU.res _ hr
        rcases r2 with r2 | ⟨r2, r3⟩
        · exact absurd r2 hn1
        · obtain ⟨d1, d2⟩ := drop C hU r2 hL hpos (f := setAt s'.res (nd st.ptrs.ra i).firstChild 0) (by rw [if_neg r3]) (fun x hx hp => (hown x hx hp).1)
            (fun h => absurd h r3)
          rw [hbr _ (hU.sub _ r2).1 r3, ← r1] at d1
          rw [d1]
          rw [hU.txt] at d2
          exact ⟨_, _, rfl, d2⟩
      · rw [if_neg hr]
        refine ⟨_, _, rfl, keep C hU fun x hx hp => hr ?_⟩
        obtain ⟨o1, o2⟩ := hown x hx hp
        rw [← o1, hU.left x hx o2, ← hbr x (hU.sub x hx).1 o2]
        exact hL.nz x (hU.sub x hx).1
    · rw [if_neg h']
      refine ⟨_, _, rfl, keep C hU fun x hx hp => ?_⟩
      have hc := hkid x hx hp
      have hx' := (hU.sub x hx).1
      simp only [isCell, Bool.or_eq_true, beq_iff_eq] at hc
      rcases hc with hc | hc
      · have := (C.V.owner C.S.cells hx'.1 hx'.2.1 hx'.2.2.1).2.2.2.1
        rw [hp] at this
        have := (this hc).2.1
        exact h' ⟨hc, by have := hx'.1; omega⟩
      · refine h ⟨hc, ?_⟩
        have ht := C.V.text_ty hx'.1 hx'.2.1 (by rw [hp]; exact hc)
        rw [← hp, ← hbt x hx' ht]
        exact hL.nz x hx'

theorem undoLoop_ok {I : Nat} {s : CSt} (hL : LoopInv alloc m tds root live dst st n obj I s) (hpos : ∀ b ∈ live, 0 < b.2)
    (hroot : ∀ x, Reach mem tds root x → x.ty = .pointer → target mem tds x ≠ some root ∧ (untyped x.aux = true → mem.ptr x.addr ≠ root.addr)) :
    ∃ s', undoLoop st (st.ptrs.ra.length - 2) s 2 = some s' ∧ s'.live = live ∧ s'.m = s.m := by
  have hloop : ∀ j i s' rem, 1 < i → i + j = n → UndoInv m tds live dst st n obj I s i s' rem →
      ∃ s'', undoLoop st j s' i = some s'' ∧ s''.live = live ∧ s''.m = s.m := by
    intro j
    induction j with
    | zero =>
      intro i s' rem h1 h2 hU
      refine ⟨s', rfl, ?_, hU.mem⟩
      have : rem = [] := by
        cases rem with
        | nil => rfl
        | cons x rem =>
          obtain ⟨g1, g2⟩ := hU.sub x (by simp)
          have := (C.V.up x g1.1 g1.2.1).2
          omega
      rw [hU.live, this]
      simp
    | succ j ih =>
      intro i s' rem h1 h2 hU
      obtain ⟨s'', rem', e, hU'⟩ := undo_ok C hU h1 (by omega) hL hpos hroot
      unfold undoLoop
      rw [e]
      simp only [Option.bind_eq_bind, Option.bind_some]
      exact ih (i + 1) s'' rem' (by omega) (by omega) hU'
  obtain ⟨cs, c1, c2, c3, c4⟩ := hL.new
  rw [C.V.len]
  refine hloop (n - 2) 2 s cs (by omega) (by have := C.V.n1; omega) ⟨rfl, rfl, c3, c1, ?_, fun c h _ _ => (c2 c).2 h, ?_, fun _ _ _ => rfl⟩
  · intro c hc
    have hc := (c2 c).1 hc
    refine ⟨hc, ?_⟩
    have h1 := (C.V.up c hc.1 hc.2.1).1
    have h2 : pa st c ≠ 1 := by
      intro h
      have := hc.2.2.1
      rw [h, C.V.F.top, C.S.base.2] at this
      cases this
    omega
  · intro j hj
    refine ⟨rfl, ?_⟩
    by_cases h : j = 1
    · exact Or.inl h
    · obtain ⟨g1, g2⟩ := hL.res j h hj
      exact Or.inr ⟨(c2 j).2 g1, g2⟩

end Verif.Lemmas.CopyUndo
