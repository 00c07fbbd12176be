import Verif.Lemmas.CopyLink
/-!
The result of the copy.
-/
namespace Verif.Lemmas.CopyDone
open Verif.Model Verif.Model.Ptrs Verif.Model.Save Verif.Model.Copy Verif.Spec.Ptrs Verif.Spec.Save Verif.Spec.Copy Verif.Lemmas.SaveTree Verif.Lemmas.SaveInv
  Verif.Lemmas.CopyLayout Verif.Lemmas.CopyView Verif.Lemmas.CopyTops Verif.Lemmas.CopyMem Verif.Lemmas.CopyPlace Verif.Lemmas.CopyRun Verif.Lemmas.CopyWalk Verif.Lemmas.CopyLink

open Classical in
noncomputable def place (n : Nat) (obj : Nat → Obj) (na : Nat → Nat) (o : Obj) : Nat :=
  if h : ∃ i, 1 ≤ i ∧ i < n ∧ obj i = o then na (choose h) else 0

/-- what the copy of a pointer without a type holds -/
def Linked (mem mem' : Mem) (st : St) (n : Nat) (obj : Nat → Obj) (place : Obj → Nat) : Prop :=
  ∀ i, 1 ≤ i → i < n → (obj i).ty = .pointer → untyped (obj i).aux = true →
    ((nd st.ptrs.ra i).ref = true → mem'.ptr (place (obj i)) = place (obj (nd st.ptrs.ra i).firstChild)) ∧
    ((nd st.ptrs.ra i).ref = false → (nd st.ptrs.ra i).cref = false → mem'.ptr (place (obj i)) = mem.ptr (obj i).addr)

theorem no_parts {tds : List Td} {o : Obj} (h : o.ty = .charArray) (c : Obj) : c ∉ components tds o := by
  intro hc
  rcases part_ty hc with g | g <;> rw [h] at g <;> cases g

variable {alloc : Blocks → Nat → Nat} {m : Bytes} {mem : Mem} {tds : List Td} {root : Obj} {live : Blocks} {dst max : Nat} {st : St} {k : Forest} {n : Nat} {obj : Nat → Obj} {top : Nat → Nat}
  (C : Ctx m mem tds root live dst max st k n obj top)
include C

theorem place_eq {b : Nat → Nat} {i : Nat} (h1 : 1 ≤ i) (h2 : i < n) : place n obj (na top obj b) (obj i) = na top obj b i := by
  unfold place
  rw [dif_pos ⟨i, h1, h2, rfl⟩]
  have h := Classical.choose_spec (p := fun j => 1 ≤ j ∧ j < n ∧ obj j = obj i) ⟨i, h1, h2, rfl⟩
  exact na_congr C.toGCtx h.1 h.2.1 h1 h2 h.2.2

theorem copied_ok {s : CSt} (hL : LoopInv alloc m tds root live dst st n obj n s) {m' : Bytes} {w : Nat → Option Nat}
    (hw : ∀ i, 1 ≤ i → i < n → isCell (obj i) = true → 1 < i ∧ Res st mem tds root n obj (na top obj (base st obj dst s)) i (w i))
    (hword : ∀ i v, 1 < i → i < n → w i = some v → isCell (obj i) = true ∧ word m' (na top obj (base st obj dst s) i) = v)
    (hkept : ∀ a, (∀ i v, 1 < i → i < n → w i = some v → ¬ (na top obj (base st obj dst s) i ≤ a ∧ a < na top obj (base st obj dst s) i + 8)) → m' a = s.m a)
    {mem' : Mem} (hmem' : ∀ a, mem'.ptr a = word m' a) :
    ∃ new, s.live = live ++ new ∧ Copied m m' mem mem' tds root dst live new (place n obj (na top obj (base st obj dst s))) ∧
      Linked mem mem' st n obj (place n obj (na top obj (base st obj dst s))) := by
  obtain ⟨b1, b2, b3, b4⟩ := blocks_ok C hL
  generalize hbdef : base st obj dst s = b at *
  have hb1 : b 1 = dst := by rw [← hbdef]; simp [base]
  have hpl : ∀ {i : Nat}, 1 ≤ i → i < n → place n obj (na top obj b) (obj i) = na top obj b i := fun h1 h2 => place_eq C h1 h2
  have hnz : ∀ i, 1 ≤ i → i < n → na top obj b i ≠ 0 := by
    intro i h1 h2
    have hs := top_start C.V C.tops i h1 h2
    have : b (top i) ≠ 0 := by
      rcases hs with h | ⟨g1, g2, g3⟩
      · rw [h, hb1]; exact C.D.room.2.1
      · rw [← hbdef]
        exact hL.nz _ ⟨g1, g2, g3, (C.V.up _ g1 g2).2⟩
    unfold na
    omega
  -- bytes of objects in the copy before the pointers are written
  have hbyte : ∀ {i x : Nat}, 1 ≤ i → i < n → (obj i).addr + x < (obj (top i)).addr + need m tds (obj (top i)) → s.m (na top obj b i + x) = m ((obj i).addr + x) := by
    intro i x h1 h2 hx
    have hr := node_range C.toGCtx h1 h2
    have := b4 (top i) (top_start C.V C.tops i h1 h2) ((obj i).addr - (obj (top i)).addr + x) (by omega)
    unfold na
    rw [Nat.add_assoc, this]
    congr 1
    omega
  -- a cell that is not written
  have hunw : ∀ {i : Nat}, 1 < i → i < n → isCell (obj i) = true → w i = none → word m' (na top obj b i) = mem.ptr (obj i).addr := by
    intro i h1 h2 hc hi
    rw [C.S.ptr]
    apply word_congr
    intro x hx
    have hr := node_range C.toGCtx (by omega : 1 ≤ i) h2
    rw [extent_cell hc] at hr
    rw [← hbyte (by omega) h2 (by omega)]
    apply hkept
    intro j v j1 j2 hj hin
    have hcj := (hword j v j1 j2 hj).1
    have hne : i ≠ j := by rintro rfl; rw [hi] at hj; cases hj
    have := cells_apart C.toGCtx b1 (b := b) (by omega : 1 ≤ i) h2 (by omega : 1 ≤ j) j2 hc hcj hne
    unfold Apart at this
    omega
  -- the node of an object allocated separately
  have hout : ∀ {t : Obj}, Outer mem tds root t → ∃ c, 1 < c ∧ c < n ∧ obj c = t ∧ isCell (obj (pa st c)) = true := by
    intro t ht
    obtain ⟨x0, hx0, hx1⟩ := ht.lead
    obtain ⟨c, c1, c2, rfl⟩ := C.V.complete t (.lead hx0 hx1)
    have hc1 : 1 < c := by
      by_cases h : c = 1
      · rw [h] at ht; exact absurd C.V.F.top ht.notRoot
      · omega
    have hup := C.V.up c hc1 c2
    refine ⟨c, hc1, c2, rfl, ?_⟩
    cases h : isCell (obj (pa st c)) with
    | true => rfl
    | false => exact absurd (C.V.part hc1 c2 h) (ht.notPart _ (C.V.reach _ hup.1 hup.2))
  obtain ⟨cs, cn, c2, c3, _⟩ := hL.new
  have haddr : ∀ {i j : Nat}, 1 ≤ i → i < n → 1 ≤ j → j < n → na top obj b i = na top obj b j → (obj i).addr = (obj j).addr := by
    intro i j i1 i2 j1 j2 he
    have ri := node_range C.toGCtx i1 i2
    have rj := node_range C.toGCtx j1 j2
    have := (meet C.toGCtx b1 (b := b) (x := 0) (y := 0) i1 i2 j1 j2 (by omega) (by omega) (by omega)).2
    omega
  refine ⟨_, c3, ⟨?_, ?_, ?_, ?_, ?_, ?_, ?_, ?_, ?_, ?_, ?_, ?_, ?_, ?_, ?_⟩, ?_⟩
  · rw [← C.V.F.top, hpl (Nat.le_refl _) C.V.n1, na_start C.tops (Or.inl rfl), hb1]
  · intro o ho
    obtain ⟨i, i1, i2, rfl⟩ := C.V.complete o ho
    rw [hpl i1 i2]
    exact hnz i i1 i2
  · intro o o' ho ho' he
    obtain ⟨i, i1, i2, rfl⟩ := C.V.complete o ho
    obtain ⟨j, j1, j2, rfl⟩ := C.V.complete o' ho'
    rw [hpl i1 i2, hpl j1 j2] at he
    exact haddr i1 i2 j1 j2 he
  · intro o o' ho ho' he
    obtain ⟨i, i1, i2, rfl⟩ := C.V.complete o ho
    obtain ⟨j, j1, j2, rfl⟩ := C.V.complete o' ho'
    rw [hpl i1 i2, hpl j1 j2] at he
    have hadr : na top obj b i = na top obj b j := congrArg Obj.addr he
    have h2 : moved (moved (obj i) (na top obj b i)) (obj i).addr = moved (moved (obj j) (na top obj b j)) (obj i).addr := by rw [he]
    have h3 : moved (moved (obj i) (na top obj b i)) (obj i).addr = obj i := rfl
    rw [h3] at h2
    rw [h2]
    have h4 : (obj i).addr = (obj j).addr := haddr i1 i2 j1 j2 hadr
    rw [h4]
    rfl
  · intro o ho
    obtain ⟨i, i1, i2, rfl⟩ := C.V.complete o ho
    rw [components_moved]
    apply List.map_congr_left
    intro c hc
    obtain ⟨g1, c', g2, g3, g4, rfl⟩ := C.V.kid_of_part i1 i2 hc
    rw [hpl i1 i2, hpl (by omega) g3]
    have := (na_up C.toGCtx (b := b) g2 g3 (by rw [g4]; exact g1)).2
    rw [g4] at this
    rw [this]
  · intro o ho
    obtain ⟨i, i1, i2, rfl⟩ := C.V.complete o ho
    rw [hpl i1 i2]
    cases hc : isCell (obj i) with
    | false =>
      unfold isCell at hc
      have h1 : target mem tds (obj i) = none := by
        unfold target
        cases hty : (obj i).ty <;> rw [hty] at hc <;> first | rfl | cases hc
      rw [h1]
      unfold target
      have : (moved (obj i) (na top obj b i)).ty = (obj i).ty := rfl
      rw [this]
      cases hty : (obj i).ty <;> rw [hty] at hc <;> first | rfl | cases hc
    | true =>
      obtain ⟨w1, w2⟩ := hw i i1 i2 hc
      cases hwi : w i with
      | none =>
        rw [hwi] at w2
        rw [w2.1]
        refine target_moved_none w2.1 fun h0 => ?_
        rw [hmem', hunw w1 i2 hc hwi, h0]
      | some v =>
        rw [hwi] at w2
        have hv := (hword i v w1 i2 hwi).2
        rcases w2.2 with ⟨j, j1, j2, j3, j4 | ⟨j4, j5, _⟩⟩ | ⟨j4, j5, _⟩
        · rw [j4, target_moved j4 (by rw [hmem', hv, j3]; exact hnz j j1 j2), hmem', hv, j3, Option.map_some, hpl j1 j2]
        all_goals
          have h1 : ∀ mem : Mem, ∀ a, target mem tds (moved (obj i) a) = none := by
            intro mem a
            unfold target
            have e1 : (moved (obj i) a).ty = (obj i).ty := rfl
            have e2 : (moved (obj i) a).aux = (obj i).aux := rfl
            rw [e1, e2, j4]
            simp [j5]
          rw [h1]
          have h2 := h1 mem (obj i).addr
          have h3 : moved (obj i) (obj i).addr = obj i := rfl
          rw [h3] at h2
          rw [h2]
          rfl
  · intro o ho x hx hno
    obtain ⟨i, i1, i2, rfl⟩ := C.V.complete o ho
    rw [hpl i1 i2]
    have hr := node_range C.toGCtx i1 i2
    rw [← hbyte i1 i2 (by omega)]
    apply hkept
    intro j v j1 j2 hj hin
    have hcj := (hword j v j1 j2 hj).1
    obtain ⟨g1, g2⟩ := byte_cell C.toGCtx b1 (b := b) i1 i2 (by omega : 1 ≤ j) j2 hcj hx hin.1 hin.2
    exact hno _ g1 hcj g2
  · intro t ht htty l hl x hx
    obtain ⟨c, hc1, c2, rfl, hcell⟩ := hout ht
    have c1 : 1 ≤ c := by omega
    rw [hpl c1 c2]
    have hst : Start st n obj c := Or.inr ⟨hc1, c2, hcell⟩
    have htop := start_top C.tops hst
    have hneed : need m tds (obj c) = l + 1 := need_eq (by unfold Needs; rw [if_pos htty]; exact ⟨l, rfl, hl⟩)
    rw [← hbyte c1 c2 (by rw [htop, hneed]; omega)]
    apply hkept
    intro j v j1 j2 hj hin
    have hcj := (hword j v j1 j2 hj).1
    have hr := node_range C.toGCtx (by omega : 1 ≤ j) j2
    rw [extent_cell hcj] at hr
    have hm := (meet C.toGCtx b1 (b := b) (i := c) (j := j) (x := x) (y := na top obj b c + x - na top obj b j) c1 c2 (by omega) j2 (by rw [htop, hneed]; omega) (by omega) (by omega)).1
    have hins := top_inside C.V C.tops j (by omega) j2
    rw [← hm, htop] at hins
    have : obj j = obj c := by
      have hno := no_parts (tds := tds) htty
      generalize obj c = oc at hno hins
      generalize obj j = oj at hins
      cases inner_of hins with
      | self => rfl
      | step h _ => exact absurd h (hno _)
    rw [this] at hcj
    unfold isCell at hcj
    rw [htty] at hcj
    cases hcj
  · intro o ho hty hu hno
    obtain ⟨i, i1, i2, rfl⟩ := C.V.complete o ho
    have hc : isCell (obj i) = true := by simp [isCell, hty]
    rw [hpl i1 i2]
    obtain ⟨w1, w2⟩ := hw i i1 i2 hc
    have htn : target mem tds (obj i) = none := by
      unfold target
      rw [hty]
      simp [hu]
    cases hwi : w i with
    | none =>
      rw [hwi] at w2
      right
      refine ⟨by rw [hmem']; exact hunw w1 i2 hc hwi, fun g1 g2 t ht => ?_⟩
      obtain ⟨j, j1, j2, rfl⟩ := C.V.complete t ht
      exact w2.2.1 hty g1 g2 j j1 j2
    | some v =>
      rw [hwi] at w2
      have hv := (hword i v w1 i2 hwi).2
      rcases w2.2 with ⟨j, j1, j2, j3, j4 | ⟨_, _, j4, _⟩⟩ | ⟨_, _, t, t1, t2, t3, _⟩
      · rw [htn] at j4; cases j4
      · left
        refine ⟨_, C.V.reach j j1 j2, j4, ?_⟩
        rw [hmem', hv, j3, hpl j1 j2]
      · exact absurd t3 (hno t t1 t2)
  · intro o ho
    obtain ⟨i, i1, i2, rfl⟩ := C.V.complete o ho
    rw [hpl i1 i2]
    have hr := in_block C.toGCtx (b := b) i1 i2
    rcases top_start C.V C.tops i i1 i2 with h | ⟨g1, g2, g3⟩
    · left
      rw [h, hb1, need_root C] at hr
      exact ⟨hr.1, hr.2.2, hr.2.1⟩
    · right
      exact ⟨_, List.mem_map.2 ⟨top i, (c2 _).2 ⟨g1, g2, g3, (C.V.up _ g1 g2).2⟩, rfl⟩, by rw [hbdef]; exact ⟨hr.1, hr.2.2, hr.2.1⟩⟩
  · intro o ho l hl
    obtain ⟨c, g1, g2, rfl, g3⟩ := hout ho
    have hst : Start st n obj c := Or.inr ⟨g1, g2, g3⟩
    rw [hpl (by omega) g2, na_start C.tops hst, ← need_eq hl, ← hbdef]
    exact List.mem_map.2 ⟨c, (c2 _).2 ⟨g1, g2, g3, (C.V.up _ g1 g2).2⟩, rfl⟩
  · intro x hx
    obtain ⟨c, hc, rfl⟩ := List.mem_map.1 hx
    have hc := (c2 c).1 hc
    refine ⟨obj c, C.V.outer C.S.cells hc.1 hc.2.1 hc.2.2.1, ?_, (start_need C.toGCtx (asg_start hc)).1⟩
    have : 1 ≤ c := by have := hc.1; omega
    rw [hpl this hc.2.1, na_start C.tops (asg_start hc), hbdef]
  · intro x hx y hy
    obtain ⟨c, hc, rfl⟩ := List.mem_map.1 hx
    exact hL.old c ((c2 c).1 hc) y hy
  · rw [List.pairwise_map]
    refine List.Pairwise.imp_of_mem ?_ cn
    intro x y hx hy hne
    exact hL.pair x y ((c2 x).1 hx) ((c2 y).1 hy) hne
  · intro a ha1 ha2
    have hno : ∀ t, Start st n obj t → ¬ (b t ≤ a ∧ a < b t + need m tds (obj t)) := by
      rintro t (rfl | ⟨g1, g2, g3⟩)
      · rw [hb1, need_root C]; exact ha1
      · rw [← hbdef]
        exact ha2 _ (List.mem_map.2 ⟨t, (c2 _).2 ⟨g1, g2, g3, (C.V.up _ g1 g2).2⟩, rfl⟩)
    rw [hkept a]
    · exact hL.kept a ha1 fun c hc => by rw [hbdef]; exact hno c (asg_start hc)
    · intro j v j1 j2 hj hin
      have hcj := (hword j v j1 j2 hj).1
      have hr := in_block C.toGCtx (b := b) (by omega : 1 ≤ j) j2
      rw [extent_cell hcj] at hr
      exact hno _ (top_start C.V C.tops j (by omega) j2) (by omega)
  · intro i i1 i2 hty hu
    have hc : isCell (obj i) = true := by simp [isCell, hty]
    have htn : target mem tds (obj i) = none := by
      unfold target
      rw [hty]
      simp [hu]
    rw [hpl i1 i2]
    obtain ⟨w1, w2⟩ := hw i i1 i2 hc
    cases hwi : w i with
    | none =>
      rw [hwi] at w2
      refine ⟨fun h => ?_, fun _ _ => by rw [hmem']; exact hunw w1 i2 hc hwi⟩
      rw [w2.2.2 hty hu] at h
      cases h
    | some v =>
      rw [hwi] at w2
      have hv := (hword i v w1 i2 hwi).2
      rcases w2.2 with ⟨j, j1, j2, j3, j4 | ⟨_, _, _, j4, j5⟩⟩ | ⟨_, _, t, _, _, _, t3, t4⟩
      · rw [htn] at j4; cases j4
      · refine ⟨fun _ => ?_, fun h => by rw [j4] at h; cases h⟩
        rw [hmem', hv, j3, j5, hpl j1 j2]
      · exact ⟨(fun h => by rw [t3] at h; cases h), (fun _ h => by rw [t4] at h; cases h)⟩

/-- the state before the first loop -/
theorem start_ok : ∃ m0, memcpy live m dst (ni st.info 1).addr (ni st.info 1).size = some m0 ∧
    LoopInv alloc m tds root live dst st n obj 2 { m := m0, live := live, res := setAt (fun _ => 0) 1 dst, txt := fun _ => 0 } := by
  have hroot := C.V.F.top
  have hsz : (ni st.info 1).size = extent tds root := by
    rw [C.V.rsize C.S.base.1]
    unfold extent
    rw [if_pos C.S.base.1]
  have hasg : ∀ c, ¬ Asg st n obj 2 c := by
    rintro c ⟨g1, g2, g3, g4⟩
    have : pa st c = 1 := by have := C.V.up c g1 g2; omega
    rw [this, hroot, C.S.base.2] at g3
    cases g3
  rw [hsz, C.V.addr (Nat.le_refl _) C.V.n1, hroot]
  refine ⟨_, memcpy_ok C.D.room.1 (C.S.read _ .self) (C.D.away _ .self), ?_⟩
  refine ⟨by simp [setAt], ?_, fun j h => absurd rfl h, fun c hc => absurd hc (hasg c), fun c hc => absurd hc (hasg c), ?_, fun c _ hc => absurd hc (hasg c),
    fun c hc => absurd hc (hasg c), ?_, ⟨[], List.nodup_nil, fun c => by simp [hasg c], by simp, .none⟩⟩
  · intro j h1 h2
    simp [setAt, h1] at h2
  · rintro c (rfl | hc) x hx
    · rw [need_root C] at hx
      have : base st obj dst { m := fun b => if dst ≤ b ∧ b < dst + extent tds root then m (root.addr + (b - dst)) else m b, live := live, res := setAt (fun _ => 0) 1 dst, txt := fun _ => 0 } 1 = dst := by simp [base]
      rw [this]
      simp only
      rw [if_pos (by omega), hroot, show dst + x - dst = x from by omega]
    · exact absurd hc (hasg c)
  · intro a h1 _
    simp only
    rw [if_neg h1]

/-- the allocations fail only if there is not enough memory -/
theorem enough_ok (hE : Enough alloc m mem tds root live) {i c : Nat} {s : CSt} (hL : LoopInv alloc m tds root live dst st n obj i s)
    (h1 : 1 < c) (h2 : c < n) (hp : pa st c = i) (hc : isCell (obj i) = true) : alloc s.live (need m tds (obj c)) ≠ 0 := by
  obtain ⟨total, e1, e2⟩ := hE
  obtain ⟨cs, c1, c2, c3, c4⟩ := hL.new
  have hall : ∀ x ∈ cs ++ [c], 1 < x ∧ x < n ∧ isCell (obj (pa st x)) = true := by
    intro x hx
    rw [List.mem_append, List.mem_singleton] at hx
    rcases hx with hx | rfl
    · have := (c2 x).1 hx
      exact ⟨this.1, this.2.1, this.2.2.1⟩
    · exact ⟨h1, h2, by rw [hp]; exact hc⟩
  have hnot : c ∉ cs := fun h => by have := ((c2 c).1 h).2.2.2; omega
  have hnd : (cs ++ [c]).Nodup := by
    rw [List.nodup_append]
    refine ⟨c1, by simp, ?_⟩
    intro x hx y hy
    simp only [List.mem_singleton] at hy
    subst hy
    rintro rfl
    exact hnot hx
  have hinj : ((cs ++ [c]).map obj).Nodup := by
    have : ∀ l : List Nat, (∀ x ∈ l, 1 < x ∧ x < n ∧ isCell (obj (pa st x)) = true) → l.Nodup → (l.map obj).Nodup := by
      intro l
      induction l with
      | nil => intro _ _; exact List.nodup_nil
      | cons a l ih =>
        intro g1 g2
        rw [List.nodup_cons] at g2
        rw [List.map_cons, List.nodup_cons]
        refine ⟨fun h => ?_, ih (fun x hx => g1 x (by simp [hx])) g2.2⟩
        obtain ⟨y, hy, hya⟩ := List.mem_map.1 h
        obtain ⟨a1, a2, a3⟩ := g1 a (by simp)
        obtain ⟨y1, y2, _⟩ := g1 y (by simp [hy])
        have hup := C.V.up a a1 a2
        have hid := C.S.cells _ _ (C.V.reach _ hup.1 hup.2) (C.V.lead a a1 a2 a3)
        have := C.V.uniq a y (by omega) a2 (by omega) y2 hid hya.symm
        rw [this] at g2
        exact g2.1 hy
    exact this _ hall hnd
  have hsum := e2 ((cs ++ [c]).map fun x => (obj x, need m tds (obj x))) (by rw [List.map_map]; exact hinj) (by
    intro p hpm
    obtain ⟨x, hx, rfl⟩ := List.mem_map.1 hpm
    obtain ⟨x1, x2, x3⟩ := hall x hx
    exact ⟨C.V.outer C.S.cells x1 x2 x3, (start_need C.toGCtx (Or.inr ⟨x1, x2, x3⟩)).1⟩)
  rw [c3]
  apply e1 _ _ c4
  rw [List.map_map] at hsum ⊢
  rw [List.map_append, List.sum_append] at hsum
  have hf : (Prod.snd ∘ fun c => (base st obj dst s c, need m tds (obj c))) = Prod.snd ∘ fun x => (obj x, need m tds (obj x)) := rfl
  rw [hf]
  simpa using hsum

end Verif.Lemmas.CopyDone
