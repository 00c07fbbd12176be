import Verif.Lemmas.CopyPlace
/-!
The first loop of the copy: blocks are allocated and filled.
-/
namespace Verif.Lemmas.CopyRun
open Verif.Model Verif.Model.Ptrs Verif.Model.Save Verif.Model.Copy Verif.Spec.Ptrs Verif.Spec.Save Verif.Spec.Copy Verif.Lemmas.SaveTree Verif.Lemmas.SaveInv
  Verif.Lemmas.CopyLayout Verif.Lemmas.CopyView Verif.Lemmas.CopyTops Verif.Lemmas.CopyMem Verif.Lemmas.CopyPlace

/-- the block of node `c` was made by a node before `i` -/
def Asg (st : St) (n : Nat) (obj : Nat → Obj) (i c : Nat) : Prop := 1 < c ∧ c < n ∧ isCell (obj (pa st c)) = true ∧ pa st c < i

/-- where the block of node `c` is -/
def base (st : St) (obj : Nat → Obj) (dst : Nat) (s : CSt) (c : Nat) : Nat :=
  if c = 1 then dst else if (obj c).ty = .charArray then s.txt (pa st c) else s.res c

/-- the nodes before `i` are processed -/
structure LoopInv (alloc : Blocks → Nat → Nat) (m : Bytes) (tds : List Td) (root : Obj) (live : Blocks) (dst : Nat) (st : St) (n : Nat) (obj : Nat → Obj) (i : Nat) (s : CSt) : Prop where
  res1 : s.res 1 = dst
  res : ∀ j, j ≠ 1 → s.res j ≠ 0 → Asg st n obj i j ∧ (obj j).ty ≠ .charArray
  txt : ∀ j, s.txt j ≠ 0 → ∃ c, Asg st n obj i c ∧ pa st c = j ∧ (obj c).ty = .charArray
  nz : ∀ c, Asg st n obj i c → base st obj dst s c ≠ 0
  lim : ∀ c, Asg st n obj i c → base st obj dst s c + need m tds (obj c) ≤ 2 ^ 64
  bytes : ∀ c, c = 1 ∨ Asg st n obj i c → ∀ x, x < need m tds (obj c) → s.m (base st obj dst s c + x) = m ((obj c).addr + x)
  pair : ∀ c c', Asg st n obj i c → Asg st n obj i c' → c ≠ c' → Apart (base st obj dst s c) (need m tds (obj c)) (base st obj dst s c') (need m tds (obj c'))
  old : ∀ c, Asg st n obj i c → ∀ b ∈ live, Apart (base st obj dst s c) (need m tds (obj c)) b.1 b.2
  kept : ∀ a, ¬ (dst ≤ a ∧ a < dst + extent tds root) →
    (∀ c, Asg st n obj i c → ¬ (base st obj dst s c ≤ a ∧ a < base st obj dst s c + need m tds (obj c))) → s.m a = m a
  new : ∃ cs : List Nat, cs.Nodup ∧ (∀ c, c ∈ cs ↔ Asg st n obj i c) ∧ s.live = live ++ (cs.map fun c => (base st obj dst s c, need m tds (obj c))) ∧
    Grown alloc live (cs.map fun c => (base st obj dst s c, need m tds (obj c)))

variable {alloc : Blocks → Nat → Nat} {m : Bytes} {mem : Mem} {tds : List Td} {root : Obj} {live : Blocks} {dst max : Nat} {st : St} {k : Forest} {n : Nat} {obj : Nat → Obj} {top : Nat → Nat}
  (C : Ctx m mem tds root live dst max st k n obj top)

theorem asg_start {i c : Nat} (h : Asg st n obj i c) : Start st n obj c := Or.inr ⟨h.1, h.2.1, h.2.2.1⟩

/-- the source is not changed -/
theorem source_same {i : Nat} {s : CSt} (hL : LoopInv alloc m tds root live dst st n obj i s) {a l : Nat} (h1 : covered live a l = true)
    (h2 : Apart dst (extent tds root) a l) : ∀ x, x < l → s.m (a + x) = m (a + x) := by
  intro x hx
  rw [covered_mem] at h1
  obtain ⟨b, hb, h3⟩ := h1
  unfold Apart at h2
  refine hL.kept _ (by omega) fun c hc => ?_
  have := hL.old c hc b hb
  unfold Apart at this
  omega

include C in
/-- the pointers in the source -/
theorem source_word {i : Nat} {s : CSt} (hL : LoopInv alloc m tds root live dst st n obj i s) {o : Obj} (ho : Reach mem tds root o) (hc : isCell o = true) :
    load s o.addr = some (mem.ptr o.addr) := by
  have h1 := C.S.read o ho
  have h2 := C.D.away o ho
  rw [extent_cell hc] at h1 h2
  obtain ⟨cs, _, _, hl, _⟩ := hL.new
  unfold load
  rw [if_pos (by rw [hl]; exact covered_mono h1), C.S.ptr]
  congr 1
  exact word_congr (source_same hL h1 h2)

include C in
theorem only_kid {c c' : Nat} (h1 : 1 < c) (h2 : c < n) (h3 : 1 < c') (h4 : c' < n) (hp : pa st c' = pa st c) (hc : isCell (obj (pa st c)) = true) : c' = c := by
  have hu := C.V.up c h1 h2
  have ht := C.V.lead c h1 h2 hc
  have ht' := C.V.lead c' h3 h4 (by rw [hp]; exact hc)
  rw [hp, ht] at ht'
  injection ht' with ht'
  exact (C.V.uniq c c' (by omega) h2 (by omega) h4 (C.S.cells _ _ (C.V.reach _ hu.1 hu.2) ht) ht').symm

/-- a node that makes no block -/
theorem skip {i : Nat} {s : CSt} (hL : LoopInv alloc m tds root live dst st n obj i s) (h : ∀ c, 1 < c → c < n → pa st c = i → isCell (obj i) = false) :
    LoopInv alloc m tds root live dst st n obj (i + 1) s := by
  have ha : ∀ c, Asg st n obj (i + 1) c ↔ Asg st n obj i c := by
    intro c
    unfold Asg
    constructor
    · rintro ⟨h1, h2, h3, h4⟩
      refine ⟨h1, h2, h3, ?_⟩
      by_cases he : pa st c = i
      · have := h c h1 h2 he
        rw [he, this] at h3; cases h3
      · omega
    · rintro ⟨h1, h2, h3, h4⟩
      exact ⟨h1, h2, h3, by omega⟩
  obtain ⟨cs, c1, c2, c3, c4⟩ := hL.new
  exact ⟨hL.res1, fun j h1 h2 => by rw [ha]; exact hL.res j h1 h2,
    fun j h => by obtain ⟨c, g1, g2, g3⟩ := hL.txt j h; exact ⟨c, (ha c).2 g1, g2, g3⟩, fun c hc => hL.nz c ((ha c).1 hc), fun c hc => hL.lim c ((ha c).1 hc),
    fun c hc => hL.bytes c (hc.imp id (ha c).1), fun c c' hc hc' => hL.pair c c' ((ha c).1 hc) ((ha c').1 hc'), fun c hc => hL.old c ((ha c).1 hc),
    fun a h1 h2 => hL.kept a h1 fun c hc => h2 c ((ha c).2 hc), ⟨cs, c1, fun c => by rw [ha]; exact c2 c, c3, c4⟩⟩

include C in
/-- a node that makes a block -/
theorem extend (hA : Allocator alloc) {i c : Nat} {s s' : CSt} (hL : LoopInv alloc m tds root live dst st n obj i s) (h1 : 1 < c) (h2 : c < n)
    (hp : pa st c = i) (hc : isCell (obj i) = true) (hne : alloc s.live (need m tds (obj c)) ≠ 0)
    (hlive : s'.live = s.live ++ [(alloc s.live (need m tds (obj c)), need m tds (obj c))])
    (hm : s'.m = fun x => if alloc s.live (need m tds (obj c)) ≤ x ∧ x < alloc s.live (need m tds (obj c)) + need m tds (obj c) then
      s.m ((obj c).addr + (x - alloc s.live (need m tds (obj c)))) else s.m x)
    (hres : if (obj c).ty = .charArray then s'.res = s.res ∧ s'.txt = setAt s.txt i (alloc s.live (need m tds (obj c)))
      else s'.res = setAt s.res c (alloc s.live (need m tds (obj c))) ∧ s'.txt = s.txt) : LoopInv alloc m tds root live dst st n obj (i + 1) s' := by
  have hst : Start st n obj c := Or.inr ⟨h1, h2, by rw [hp]; exact hc⟩
  obtain ⟨_, n2, n3, _, _⟩ := start_need C.toGCtx hst
  have n4 := start_away C hst
  have hfresh := hA.fresh _ _ hne
  have hspace := hA.space _ _ hne
  have hgrown : ∀ new, Grown alloc live new → s.live = live ++ new → Grown alloc live (new ++ [(alloc s.live (need m tds (obj c)), need m tds (obj c))]) := by
    intro new h hl
    rw [hl]
    exact .more h (by rw [← hl]; exact hne)
  have hsrc := source_same hL n3 n4
  obtain ⟨cs, c1, c2, c3, c4⟩ := hL.new
  generalize alloc s.live (need m tds (obj c)) = a at *
  generalize hnd : need m tds (obj c) = l at *
  have hasg : ∀ c', Asg st n obj (i + 1) c' ↔ c' = c ∨ Asg st n obj i c' := by
    intro c'
    unfold Asg
    constructor
    · rintro ⟨g1, g2, g3, g4⟩
      by_cases he : pa st c' = i
      · exact Or.inl (only_kid C h1 h2 g1 g2 (by rw [he, hp]) (by rw [hp]; exact hc))
      · exact Or.inr ⟨g1, g2, g3, by omega⟩
    · rintro (rfl | ⟨g1, g2, g3, g4⟩)
      · exact ⟨h1, h2, by rw [hp]; exact hc, by omega⟩
      · exact ⟨g1, g2, g3, by omega⟩
  have hnot : ¬ Asg st n obj i c := fun h => by have := h.2.2.2; omega
  have hb : base st obj dst s' c = a := by
    unfold base
    rw [if_neg (by omega)]
    split at hres
    · rename_i ht
      rw [if_pos ht, hres.2, hp]
      simp [setAt]
    · rename_i ht
      rw [if_neg ht, hres.1]
      simp [setAt]
  have hb' : ∀ c', Asg st n obj i c' → base st obj dst s' c' = base st obj dst s c' := by
    intro c' hc'
    have hpc : pa st c' ≠ i := by have := hc'.2.2.2; omega
    have hcc : c' ≠ c := fun h => hnot (h ▸ hc')
    have hc1 : c' ≠ 1 := by have := hc'.1; omega
    unfold base
    simp only [hc1, if_false]
    split at hres
    · rw [hres.1, hres.2]
      simp [setAt, hpc]
    · rw [hres.1, hres.2]
      simp [setAt, hcc]
  -- the new block and the older ones
  have hdst : Apart a l dst (extent tds root) := by
    have := C.D.room.1
    rw [covered_mem] at this
    obtain ⟨b, hb1, hb2⟩ := this
    have := hfresh b (by rw [c3]; simp [hb1])
    unfold Apart at *
    omega
  have hnew : ∀ c', Asg st n obj i c' → Apart a l (base st obj dst s c') (need m tds (obj c')) := by
    intro c' hc'
    exact hfresh (base st obj dst s c', need m tds (obj c')) (by
      rw [c3]
      exact List.mem_append_right _ (List.mem_map.2 ⟨c', (c2 c').2 hc', rfl⟩))
  have hb1 : base st obj dst s' 1 = dst := by simp [base]
  have hb1' : base st obj dst s 1 = dst := by simp [base]
  have hr1 : need m tds (obj 1) = extent tds root := by
    have := (start_need C.toGCtx (t := 1) (Or.inl rfl)).2.2.2.2
    rw [C.V.F.top] at this ⊢
    exact this (root_ty C.toGCtx).2
  have hbytes : ∀ c' : Nat, c' = 1 ∨ Asg st n obj i c' → ∀ x, x < need m tds (obj c') → s'.m (base st obj dst s c' + x) = m ((obj c').addr + x) := by
    intro c' hc' x hx
    rw [hm]
    simp only
    rw [if_neg, hL.bytes c' hc' x hx]
    rcases hc' with rfl | hc'
    · rw [hb1']
      rw [hr1] at hx
      unfold Apart at hdst
      omega
    · have := hnew c' hc'
      unfold Apart at this
      omega
  refine ⟨?_, ?_, ?_, ?_, ?_, ?_, ?_, ?_, ?_, ?_⟩
  · split at hres
    · rw [hres.1]; exact hL.res1
    · rw [hres.1]
      unfold setAt
      rw [if_neg (by omega)]
      exact hL.res1
  · intro j hj1 hj2
    rw [hasg]
    split at hres
    · rw [hres.1] at hj2
      exact ⟨Or.inr (hL.res j hj1 hj2).1, (hL.res j hj1 hj2).2⟩
    · rename_i ht
      rw [hres.1] at hj2
      unfold setAt at hj2
      by_cases hjc : j = c
      · exact ⟨Or.inl hjc, by rw [hjc]; exact ht⟩
      · rw [if_neg hjc] at hj2
        exact ⟨Or.inr (hL.res j hj1 hj2).1, (hL.res j hj1 hj2).2⟩
  · intro j hj
    split at hres
    · rename_i ht
      rw [hres.2] at hj
      unfold setAt at hj
      by_cases hji : j = i
      · exact ⟨c, (hasg c).2 (Or.inl rfl), by rw [hp, hji], ht⟩
      · rw [if_neg hji] at hj
        obtain ⟨c', g1, g2, g3⟩ := hL.txt j hj
        exact ⟨c', (hasg c').2 (Or.inr g1), g2, g3⟩
    · rw [hres.2] at hj
      obtain ⟨c', g1, g2, g3⟩ := hL.txt j hj
      exact ⟨c', (hasg c').2 (Or.inr g1), g2, g3⟩
  · intro c' hc'
    rcases (hasg c').1 hc' with rfl | h
    · rw [hb]; exact hne
    · rw [hb' c' h]; exact hL.nz c' h
  · intro c' hc'
    rcases (hasg c').1 hc' with rfl | h
    · rw [hb, hnd]; exact hspace
    · rw [hb' c' h]; exact hL.lim c' h
  · intro c' hc' x hx
    rcases hc' with rfl | hc'
    · rw [hb1, ← hb1']; exact hbytes 1 (Or.inl rfl) x hx
    · rcases (hasg c').1 hc' with rfl | h
      · rw [hnd] at hx
        rw [hb, hm]
        simp only
        rw [if_pos (by omega), show a + x - a = x from by omega]
        exact hsrc x hx
      · rw [hb' c' h]
        exact hbytes c' (Or.inr h) x hx
  · intro c' c'' hc' hc'' hd
    rcases (hasg c').1 hc' with rfl | h
    · rcases (hasg c'').1 hc'' with rfl | h'
      · exact absurd rfl hd
      · rw [hb, hb' _ h', hnd]
        exact hnew _ h'
    · rcases (hasg c'').1 hc'' with rfl | h'
      · rw [hb, hb' _ h, hnd]
        have := hnew _ h
        unfold Apart at *
        omega
      · rw [hb' _ h, hb' _ h']
        exact hL.pair _ _ h h' hd
  · intro c' hc' b hbl
    rcases (hasg c').1 hc' with rfl | h
    · rw [hb, hnd]
      exact hfresh b (by rw [c3]; simp [hbl])
    · rw [hb' _ h]
      exact hL.old _ h b hbl
  · intro x hx1 hx2
    rw [hm]
    simp only
    have hx3 := hx2 c ((hasg c).2 (Or.inl rfl))
    rw [hb, hnd] at hx3
    rw [if_neg hx3]
    refine hL.kept x hx1 fun c' hc' => ?_
    have := hx2 c' ((hasg c').2 (Or.inr hc'))
    rw [hb' _ hc'] at this
    exact this
  · refine ⟨cs ++ [c], ?_, ?_, ?_⟩
    · rw [List.nodup_append]
      refine ⟨c1, by simp, ?_⟩
      intro x hx y hy
      simp only [List.mem_singleton] at hy
      subst hy
      rintro rfl
      exact hnot ((c2 x).1 hx)
    · intro x
      rw [hasg, List.mem_append, c2, List.mem_singleton]
      exact Or.comm
    · have hmap : (cs.map fun c => (base st obj dst s' c, need m tds (obj c))) = cs.map fun c => (base st obj dst s c, need m tds (obj c)) := by
        apply List.map_congr_left
        intro x hx
        rw [hb' x ((c2 x).1 hx)]
      rw [hlive, c3, List.map_append, List.append_assoc, List.map_singleton, hb, hnd, hmap]
      exact ⟨rfl, hgrown _ c4 c3⟩

include C in
theorem placeChildren_one {c a v : Nat} {res : Nat → Nat} (h1 : 1 < c) (h2 : c < n) (hn : (nd st.ptrs.ra c).next = 0) (hv : (obj c).addr = v) :
    placeChildren st a v (st.ptrs.ra.length + 1) res c = some (setAt res c a) := by
  have hlen := C.V.len
  rw [hlen]
  obtain ⟨f, rfl⟩ : ∃ f, n = f + 1 := ⟨n - 1, by omega⟩
  unfold placeChildren
  rw [if_neg (by omega), (C.V.get h2).1, (C.V.get h2).2]
  simp only [Option.bind_eq_bind, Option.bind_some]
  rw [C.V.addr (by omega) h2, hv, if_pos (Nat.le_refl _), hn]
  unfold placeChildren
  rw [if_pos rfl]
  congr 2
  omega

include C in
theorem copyNode_ok (hA : Allocator alloc) {fuel : Nat} (hfuel : max ≤ fuel) {i : Nat} {s : CSt} (hi1 : 1 < i) (hi2 : i < n)
    (hL : LoopInv alloc m tds root live dst st n obj i s) :
    ∃ ok s', copyNode alloc fuel st s i = some (ok, s') ∧
      ((ok = true ∧ LoopInv alloc m tds root live dst st n obj (i + 1) s') ∨
       (ok = false ∧ s' = s ∧ ∃ c, 1 < c ∧ c < n ∧ pa st c = i ∧ isCell (obj i) = true ∧ alloc s.live (need m tds (obj c)) = 0)) := by
  unfold copyNode
  rw [(C.V.get hi2).1, (C.V.get hi2).2]
  simp only [Option.bind_eq_bind, Option.bind_some]
  by_cases hg : (nd st.ptrs.ra i).idx ≠ 0 ∧ ((ni st.info i).null || (nd st.ptrs.ra i).ref || (nd st.ptrs.ra i).cref) = false
  · rw [if_pos hg]
    obtain ⟨g1, g2⟩ := hg
    simp only [Bool.or_eq_false_iff] at g2
    obtain ⟨⟨g2, g3⟩, g4⟩ := g2
    have hin : i ∈ 1 :: k.nodes := Classical.byContradiction fun h => g1 (C.V.idx_off (by omega) hi2 h)
    rw [C.V.ty (by omega) hi2]
    have hreach := C.V.reach i (by omega) hi2
    have hnull := C.V.F.null i _ _ (by omega) (C.V.get hi2).1 (C.V.get hi2).2
    rw [C.V.ty (by omega) hi2, g2] at hnull
    cases hty : (obj i).ty
    case string =>
      simp only
      have hcell : isCell (obj i) = true := by simp [isCell, hty]
      have hptr : mem.ptr (obj i).addr ≠ 0 := by
        have := hnull (Or.inl hty)
        simp only [Bool.false_eq_true, false_iff, not_or] at this
        exact this.2
      have ht : target mem tds (obj i) = some { addr := mem.ptr (obj i).addr, ty := .charArray } := by
        unfold target
        rw [hty]
        simp only
        rw [if_neg hptr]
      have hq := C.V.F.string i _ hin (C.V.get hi2).1 (by rw [C.V.ty (by omega) hi2]; exact hty)
      rw [ht] at hq
      rcases hq with ⟨_, _, _, t, tp, t1, t2, t3, t4, t5⟩ | ⟨r1, _⟩ | ⟨_, r2, _⟩
      · obtain ⟨e1, e2⟩ := SaveDone.get_nd t2
        rw [C.V.len] at e2
        have htp : pa st t = i := by unfold pa; rw [e1]; exact t4
        have ht1 : 1 < t := by
          by_cases h : t = 1
          · rw [h] at t3; simp at t3
          · omega
        have htty : (obj t).ty = .charArray := by rw [t5]
        obtain ⟨l, l1, l2, l3⟩ := C.S.ends _ _ hreach hty ht
        have l4 := C.D.texts _ _ l hreach hty ht l2
        simp only at l2 l3 l4
        have htaddr : (obj t).addr = mem.ptr (obj i).addr := by rw [t5]
        have hneed : need m tds (obj t) = l + 1 := need_eq (by unfold Needs; rw [if_pos htty, htaddr]; exact ⟨l, rfl, l2⟩)
        obtain ⟨cs, _, _, c3, _⟩ := hL.new
        have hcov : covered s.live (mem.ptr (obj i).addr) (l + 1) = true := by rw [c3]; exact covered_mono l3
        have hlen : strlen s.live s.m fuel (mem.ptr (obj i).addr) = some l :=
          strlen_text l (text_congr l2 fun x hx => source_same hL l3 l4 x (by omega)) hcov (by omega)
        unfold copyString
        rw [C.V.addr (by omega) hi2, source_word C hL hreach hcell]
        simp only [Option.bind_eq_bind, Option.bind_some]
        rw [if_neg hptr]
        unfold strdup
        rw [hlen]
        simp only [Option.bind_eq_bind, Option.bind_some]
        by_cases ha : alloc s.live (l + 1) = 0
        · rw [if_pos ha]
          simp only [Option.bind_some]
          have hz : setAt s.txt i 0 = s.txt := by
            funext j
            unfold setAt
            split
            · rename_i hj
              subst hj
              refine Classical.byContradiction fun h => ?_
              obtain ⟨c', g1, g2, _⟩ := hL.txt j fun h' => h h'.symm
              have := g1.2.2.2
              omega
            · rfl
          rw [hz]
          exact ⟨_, _, rfl, Or.inr ⟨by simp, rfl, t, ht1, e2, htp, hcell, by rw [hneed]; exact ha⟩⟩
        · rw [if_neg ha]
          have hap : Apart (alloc s.live (l + 1)) (l + 1) (mem.ptr (obj i).addr) (l + 1) := by
            rw [covered_mem] at hcov
            obtain ⟨b, hb, hb2⟩ := hcov
            have := hA.fresh _ _ ha b hb
            unfold Apart at *
            omega
          rw [memcpy_ok (by rw [covered_mem]; exact ⟨(alloc s.live (l + 1), l + 1), by simp, by simp⟩) (covered_mono hcov) hap]
          simp only [Option.bind_some]
          refine ⟨_, _, rfl, Or.inl ⟨by simpa using ha, ?_⟩⟩
          refine extend C hA hL ht1 e2 htp hcell (by rw [hneed]; exact ha) (by rw [hneed]) (by rw [hneed, htaddr]) ?_
          rw [if_pos htty, hneed]
          exact ⟨rfl, rfl⟩
      · rw [g3] at r1; cases r1
      · rw [g4] at r2; cases r2
    case pointer =>
      simp only
      have hcell : isCell (obj i) = true := by simp [isCell, hty]
      have hnn := hnull (Or.inr hty)
      simp only [Bool.false_eq_true, false_iff, not_or, not_and] at hnn
      have hptr := hnn.2
      have hu : untyped (obj i).aux = false := by
        cases h : untyped (obj i).aux
        · rfl
        · exact absurd h (hnn.1 hty)
      have ht : ∃ o, target mem tds (obj i) = some o := by
        unfold target
        rw [hty]
        simp only
        rw [if_neg (by simp [hu, hptr])]
        exact ⟨_, rfl⟩
      obtain ⟨o, ht⟩ := ht
      have hq := C.V.F.pointer i _ hin (C.V.get hi2).1 (by rw [C.V.ty (by omega) hi2]; exact hty) hu
      rw [ht] at hq
      obtain ⟨_, q1, q2, t, q3, q4, _⟩ := hq
      have q1' := ((C.V.inTree _).1 q1).1
      rw [(C.V.get q1'.2).1] at q3
      cases q3
      obtain ⟨q4, q5⟩ := q4 g3
      unfold copyPointer
      generalize hfc : (nd st.ptrs.ra i).firstChild = c at *
      have hc1 : 1 < c := by
        by_cases h : c = 1
        · exfalso
          have hrp := C.V.F.tree
          obtain ⟨_, _, pd, r1, r2, _⟩ := hrp
          rw [(C.V.get C.V.n1).1] at r1
          cases r1
          rw [h, r2] at q4
          omega
        · omega
      rw [if_neg (by omega)]
      have hpa : pa st c = i := q4
      have hst : Start st n obj c := Or.inr ⟨hc1, q1'.2, by rw [hpa]; exact hcell⟩
      have hcty : (obj c).ty ≠ .charArray := C.V.ptr_ty hc1 q1'.2 (by rw [hpa]; exact hty)
      obtain ⟨_, n2, n3, _, n6⟩ := start_need C.toGCtx hst
      have n4 := start_away C hst
      have hid := C.S.cells _ _ hreach ht
      have haddr : (obj c).addr = mem.ptr (obj i).addr := by rw [q2]; exact SaveFinal.target_addr ht
      have hsize : (ni st.info i).size = need m tds (obj c) := by
        rw [C.V.psize i (by omega) hi2 hty hu hptr, n6 hcty]
        have hplain : plain (obj c).ty = true := by
          rw [q2]
          rcases SaveResolve.target_ty (C.V.ok _ (by omega) hi2) ht with ⟨_, h | h⟩ | ⟨h, _⟩
          · exact h
          · rw [h] at hid; cases hid
          · rw [hty] at h; cases h
        unfold extent
        rw [if_pos hplain, q2]
        unfold target at ht
        rw [hty] at ht
        simp only at ht
        rw [if_neg (by simp [hu, hptr])] at ht
        injection ht with ht
        rw [← ht, SaveRun.elementSize_object]
        rw [q2, ← ht, SaveRun.object_ty] at hplain
        exact hplain
      simp only [hsize]
      by_cases ha : alloc s.live (need m tds (obj c)) = 0
      · rw [if_pos ha]
        exact ⟨_, _, rfl, Or.inr ⟨rfl, rfl, c, hc1, q1'.2, hpa, hcell, ha⟩⟩
      · rw [if_neg ha]
        obtain ⟨cs, _, _, c3, _⟩ := hL.new
        have hcov : covered s.live (obj c).addr (need m tds (obj c)) = true := by rw [c3]; exact covered_mono n3
        have hap : Apart (alloc s.live (need m tds (obj c))) (need m tds (obj c)) (obj c).addr (need m tds (obj c)) := by
          rw [covered_mem] at hcov
          obtain ⟨b, hb, hb2⟩ := hcov
          have := hA.fresh _ _ ha b hb
          unfold Apart at *
          omega
        rw [C.V.addr (by omega) hi2, source_word C hL hreach hcell]
        simp only [Option.bind_eq_bind, Option.bind_some]
        rw [← haddr, memcpy_ok (by rw [covered_mem]; exact ⟨(alloc s.live (need m tds (obj c)), need m tds (obj c)), by simp, by simp⟩) (covered_mono hcov) hap]
        simp only [Option.bind_some]
        rw [placeChildren_one C hc1 q1'.2 q5 rfl]
        refine ⟨_, _, rfl, Or.inl ⟨rfl, ?_⟩⟩
        refine extend C hA hL hc1 q1'.2 hpa hcell ha rfl rfl ?_
        rw [if_neg hcty]
        exact ⟨rfl, rfl⟩
    all_goals
      simp only
      refine ⟨_, _, rfl, Or.inl ⟨rfl, skip hL fun c _ _ _ => by simp [isCell, hty]⟩⟩
  · rw [if_neg hg]
    refine ⟨_, _, rfl, Or.inl ⟨rfl, skip hL fun c h1 h2 hp => ?_⟩⟩
    cases hc : isCell (obj i) with
    | false => rfl
    | true =>
      exfalso
      have := C.V.owner C.S.cells h1 h2 (by rw [hp]; exact hc)
      rw [hp] at this
      apply hg
      exact ⟨C.V.idx (C.V.cell_tree (by omega) hi2 hc), by rw [this.1, this.2.1, this.2.2.1]; rfl⟩

include C in
theorem copyLoop_ok (hA : Allocator alloc) {fuel : Nat} (hfuel : max ≤ fuel) (j : Nat) : ∀ {i : Nat} {s : CSt}, 1 < i → i + j = n →
    LoopInv alloc m tds root live dst st n obj i s →
    ∃ ok s', copyLoop alloc fuel st j s i = some (ok, s') ∧
      ((ok = true ∧ LoopInv alloc m tds root live dst st n obj n s') ∨
       (ok = false ∧ ∃ i c, LoopInv alloc m tds root live dst st n obj i s' ∧ 1 < c ∧ c < n ∧ pa st c = i ∧ isCell (obj i) = true ∧ alloc s'.live (need m tds (obj c)) = 0)) := by
  induction j with
  | zero =>
    intro i s h1 h2 hL
    have : i = n := by omega
    subst this
    exact ⟨_, _, rfl, Or.inl ⟨rfl, hL⟩⟩
  | succ j ih =>
    intro i s h1 h2 hL
    obtain ⟨ok, s', e, h⟩ := copyNode_ok C hA hfuel h1 (by omega) hL
    unfold copyLoop
    rw [e]
    simp only [Option.bind_eq_bind, Option.bind_some]
    rcases h with ⟨rfl, h⟩ | ⟨rfl, h⟩
    · rw [if_neg (by simp)]
      exact ih (by omega) (by omega) h
    · rw [if_pos rfl]
      obtain ⟨rfl, c, h⟩ := h
      exact ⟨_, _, rfl, Or.inr ⟨rfl, i, c, hL, h⟩⟩

end Verif.Lemmas.CopyRun
