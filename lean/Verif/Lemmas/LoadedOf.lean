import Verif.Lemmas.XdrLink
/-!
When a memory holds an image of a saved graph.
-/
namespace Verif.Lemmas.LoadedOf
open Verif.Model Verif.Model.Ptrs Verif.Model.Save Verif.Model.Copy Verif.Model.Xdr Verif.Model.XdrGraph Verif.Spec.Ptrs Verif.Spec.Save Verif.Spec.Copy Verif.Spec.XdrGraph
  Verif.Lemmas.SaveTree Verif.Lemmas.SaveFinal Verif.Lemmas.SaveInv Verif.Lemmas.CopyLayout Verif.Lemmas.CopyView Verif.Lemmas.CopyTops Verif.Lemmas.CopyMem Verif.Lemmas.CopyPlace Verif.Lemmas.CopyDone Verif.Lemmas.XdrSeg Verif.Lemmas.XdrPlan Verif.Lemmas.XdrStep Verif.Lemmas.XdrFit Verif.Lemmas.XdrNode Verif.Lemmas.XdrForest Verif.Lemmas.XdrMem Verif.Lemmas.Xdr Verif.Lemmas.XdrLink

variable {P : Plan}

/-- The objects of the saved graph are at new places; `b` tells where the blocks are. -/
structure Image (P : Plan) (b : Nat → Nat) (m0 m' : Bytes) (new : Blocks) : Prop where
  one : b 1 = P.dst
  blk : Blk P.m P.tds P.st P.n P.obj b
  pos : ∀ t, Start P.st P.n P.obj t → b t ≠ 0
  cells : ∀ i, 1 ≤ i → i < P.n → isCell (P.obj i) = true →
      (∃ j, 1 ≤ j ∧ j < P.n ∧ word m' (na P.top P.obj b i) = na P.top P.obj b j ∧ (target P.mem P.tds (P.obj i) = some (P.obj j) ∨
        ((P.obj i).ty = .pointer ∧ untyped (P.obj i).aux = true ∧ (P.obj j).addr = P.mem.ptr (P.obj i).addr))) ∨
      (refers P i = false ∧ target P.mem P.tds (P.obj i) = none ∧ word m' (na P.top P.obj b i) = 0)
  data : ∀ i, 1 ≤ i → i < P.n → ∀ k, valueByte P.ld P.tds (P.obj i) k → m' (na P.top P.obj b i + k) = P.m ((P.obj i).addr + k)
  bits : ∀ c ∈ P.N, (P.obj c).ty = .bitfield → ∀ f, (ni P.st.info c).fd = some f → ∀ q, f.shift ≤ q → q < f.shift + f.width →
    bitAt m' (8 * na P.top P.obj b c + q) = bitAt P.m (8 * (P.obj c).addr + q)
  chars : ∀ c ∈ P.N, (P.obj c).ty = .charArray → ∀ f, (ni P.st.info c).fd = some f → ∀ k, k < f.size → (∀ i, i < k → P.m ((P.obj c).addr + i) ≠ 0) →
    m' (na P.top P.obj b c + k) = P.m ((P.obj c).addr + k)
  text : ∀ c, 1 < c → c < P.n → (P.obj (pa P.st c)).ty = .string → ∀ l, Text P.m (P.obj c).addr l → ∀ k, k ≤ l → m' (b c + k) = P.m ((P.obj c).addr + k)
  has : ∀ c, 1 < c → c < P.n → isCell (P.obj (pa P.st c)) = true → (b c, P.need c) ∈ new
  only : ∀ x ∈ new, ∃ c, 1 < c ∧ c < P.n ∧ isCell (P.obj (pa P.st c)) = true ∧ x = (b c, P.need c)
  apart : ∀ x ∈ new, ∀ c ∈ P.live0, Apart x.1 x.2 c.1 c.2
  sep : new.Pairwise fun b c => Apart b.1 b.2 c.1 c.2
  kept : ∀ a, ¬ (P.dst ≤ a ∧ a < P.dst + extent P.tds P.root) → (∀ b ∈ new, ¬ (b.1 ≤ a ∧ a < b.1 + b.2)) → m' a = m0 a

/-- the node of a field -/
theorem field_node (H : P.Core) (b : Nat → Nat) {i : Nat} (h1 : 1 ≤ i) (h2 : i < P.n) (hty : (P.obj i).ty = .struct) {f : Fd} (hf : f ∈ members P.tds (P.obj i)) :
    ∃ c, c ∈ P.N ∧ (P.obj c).ty = f.ty ∧ (ni P.st.info c).fd = some f ∧ na P.top P.obj b c = na P.top P.obj b i + f.offset ∧ (P.obj c).addr = (P.obj i).addr + f.offset := by
  obtain ⟨l, l1, l2, l3, l4⟩ := H.C.V.fields i h1 h2 hty
  obtain ⟨j, hj⟩ := List.mem_iff_getElem?.1 hf
  have hlen : l.length = (members P.tds (P.obj i)).length := by
    have := congrArg List.length l2
    rw [List.length_map] at this
    rw [this]
    unfold components members
    rw [hty]
    cases (P.obj i).td.bind (P.tds[·]?) <;> simp
  have hjl := (List.getElem?_eq_some_iff.1 hj).1
  have hc : l[j]? = some (l[j]'(by omega)) := List.getElem?_eq_getElem _
  generalize l[j]'(by omega) = c at hc
  obtain ⟨c1, c2, c3⟩ := (l3 c).1 (List.mem_of_getElem? hc)
  have hfd := l4 j c hc
  rw [hj] at hfd
  obtain ⟨l', j', t, d, f', M⟩ := member_of H.C c1 c2 (by rw [c3]; exact hty)
  have hff := M.fd
  rw [hfd] at hff
  cases hff
  have ha := M.addr
  rw [c3] at ha
  refine ⟨c, (H.C.V.inTree c).2 ⟨⟨by omega, c2⟩, fun h => by rw [c3, hty] at h; cases h.2⟩, M.ty, hfd, ?_, ha⟩
  have := (na_up H.C (b := b) c1 c2 (by rw [c3]; simp [isCell, hty])).2
  rw [c3] at this
  rw [this, ha]
  omega

theorem loaded_of (H : P.Core) {b : Nat → Nat} {m0 m' : Bytes} {new : Blocks} (I : Image P b m0 m' new) {mem' : Mem} (hmem' : ∀ a, mem'.ptr a = word m' a) :
    Loaded P.ld P.m m0 m' P.mem mem' P.tds P.root P.dst P.live0 new (place P.n P.obj (na P.top P.obj b)) := by
  have hpl : ∀ {i : Nat}, 1 ≤ i → i < P.n → place P.n P.obj (na P.top P.obj b) (P.obj i) = na P.top P.obj b i := by
    intro i h1 h2
    unfold place
    rw [dif_pos ⟨i, h1, h2, rfl⟩]
    have h := Classical.choose_spec (p := fun j => 1 ≤ j ∧ j < P.n ∧ P.obj j = P.obj i) ⟨i, h1, h2, rfl⟩
    exact na_congr H.C h.1 h.2.1 h1 h2 h.2.2
  have hnz : ∀ i, 1 ≤ i → i < P.n → na P.top P.obj b i ≠ 0 := by
    intro i h1 h2
    have h3 := (in_block H.C (b := b) h1 h2).1
    have h4 := I.pos _ (top_start H.C.V H.C.tops i h1 h2)
    omega
  have hstA : ∀ {t : Nat}, Start P.st P.n P.obj t → na P.top P.obj b t = b t := fun h => na_start H.C.tops h
  have hout : ∀ {t : Obj}, Outer P.mem P.tds P.root t → ∃ c, 1 < c ∧ c < P.n ∧ P.obj c = t ∧ isCell (P.obj (pa P.st c)) = true := by
    intro t ht
    obtain ⟨x0, hx0, hx1⟩ := ht.lead
    obtain ⟨c, c1, c2, rfl⟩ := H.C.V.complete t (.lead hx0 hx1)
    have hc1 : 1 < c := by
      by_cases h : c = 1
      · rw [h] at ht; exact absurd H.C.V.F.top ht.notRoot
      · omega
    have hup := H.C.V.up c hc1 c2
    refine ⟨c, hc1, c2, rfl, ?_⟩
    cases h : isCell (P.obj (pa P.st c)) with
    | true => rfl
    | false => exact absurd (H.C.V.part hc1 c2 h) (ht.notPart _ (H.C.V.reach _ hup.1 hup.2))
  have haddr : ∀ {i j : Nat}, 1 ≤ i → i < P.n → 1 ≤ j → j < P.n → na P.top P.obj b i = na P.top P.obj b j → (P.obj i).addr = (P.obj j).addr := by
    intro i j i1 i2 j1 j2 he
    have ri := node_range H.C i1 i2
    have rj := node_range H.C j1 j2
    have := (meet H.C I.blk (b := b) (x := 0) (y := 0) i1 i2 j1 j2 (by omega) (by omega) (by rw [Nat.add_zero, Nat.add_zero]; exact he)).2
    omega
  -- what a pointer or string of the loaded graph holds
  have hcellv : ∀ {i : Nat}, i ∈ P.N → isCell (P.obj i) = true →
      (∃ j, 1 ≤ j ∧ j < P.n ∧ mem'.ptr (na P.top P.obj b i) = na P.top P.obj b j ∧ (target P.mem P.tds (P.obj i) = some (P.obj j) ∨
        ((P.obj i).ty = .pointer ∧ untyped (P.obj i).aux = true ∧ (P.obj j).addr = P.mem.ptr (P.obj i).addr))) ∨
      (refers P i = false ∧ target P.mem P.tds (P.obj i) = none ∧ mem'.ptr (na P.top P.obj b i) = 0) := by
    intro i hi hc
    have hr := H.range hi
    rw [hmem']
    exact I.cells i hr.1 hr.2 hc
  refine ⟨?_, ?_, ?_, ?_, ?_, ?_, ?_, ?_, ?_, ?_, ?_, ?_, ?_, ?_, ?_, ?_, ?_⟩
  · rw [← H.C.V.F.top, hpl (Nat.le_refl _) H.C.V.n1, hstA (Or.inl rfl), I.one]
  · intro o ho
    obtain ⟨i, i1, i2, rfl⟩ := H.C.V.complete o ho
    rw [hpl i1 i2]
    exact hnz i i1 i2
  · intro o o' ho ho' he
    obtain ⟨i, i1, i2, rfl⟩ := H.C.V.complete o ho
    obtain ⟨j, j1, j2, rfl⟩ := H.C.V.complete o' ho'
    rw [hpl i1 i2, hpl j1 j2] at he
    exact haddr i1 i2 j1 j2 he
  · intro o o' ho ho' he
    obtain ⟨i, i1, i2, rfl⟩ := H.C.V.complete o ho
    obtain ⟨j, j1, j2, rfl⟩ := H.C.V.complete o' ho'
    rw [hpl i1 i2, hpl j1 j2] at he
    have hadr : na P.top P.obj b i = na P.top P.obj b j := congrArg Obj.addr he
    have h2 : moved (moved (P.obj i) (na P.top P.obj b i)) (P.obj i).addr = moved (moved (P.obj j) (na P.top P.obj b j)) (P.obj i).addr := by rw [he]
    have h3 : moved (moved (P.obj i) (na P.top P.obj b i)) (P.obj i).addr = P.obj i := rfl
    rw [h3] at h2
    rw [h2]
    have h4 : (P.obj i).addr = (P.obj j).addr := haddr i1 i2 j1 j2 hadr
    rw [h4]
    rfl
  · intro o ho
    obtain ⟨i, i1, i2, rfl⟩ := H.C.V.complete o ho
    rw [components_moved]
    apply List.map_congr_left
    intro c hc
    obtain ⟨g1, c', g2, g3, g4, rfl⟩ := H.C.V.kid_of_part i1 i2 hc
    rw [hpl i1 i2, hpl (by omega) g3]
    have := (na_up H.C (b := b) g2 g3 (by rw [g4]; exact g1)).2
    rw [g4] at this
    rw [this]
  · intro o ho
    obtain ⟨i, i1, i2, rfl⟩ := H.C.V.complete o ho
    rw [hpl i1 i2]
    cases hc : isCell (P.obj i) with
    | false =>
      unfold isCell at hc
      have h1 : target P.mem P.tds (P.obj i) = none := by
        unfold target
        cases hty : (P.obj i).ty <;> rw [hty] at hc <;> first | rfl | cases hc
      rw [h1]
      unfold target
      have : (moved (P.obj i) (na P.top P.obj b i)).ty = (P.obj i).ty := rfl
      rw [this]
      cases hty : (P.obj i).ty <;> rw [hty] at hc <;> first | rfl | cases hc
    | true =>
      rcases hcellv (H.C.V.cell_tree i1 i2 hc) hc with ⟨j, j1, j2, j3, j4 | ⟨j4, j5, _⟩⟩ | ⟨_, j4, j5⟩
      · rw [j4, target_moved j4 (by rw [j3]; exact hnz j j1 j2), j3, Option.map_some, hpl j1 j2]
      · have h1 : ∀ mem : Mem, ∀ a, target mem P.tds (moved (P.obj i) a) = none := by
          intro mem a
          unfold target
          have e1 : (moved (P.obj i) a).ty = (P.obj i).ty := rfl
          have e2 : (moved (P.obj i) a).aux = (P.obj i).aux := rfl
          rw [e1, e2, j4]
          simp [j5]
        rw [h1]
        have h2 := h1 P.mem (P.obj i).addr
        have h3 : moved (P.obj i) (P.obj i).addr = P.obj i := rfl
        rw [h3] at h2
        rw [h2]
        rfl
      · rw [j4, target_moved_none j4 fun _ => j5]
        rfl
  · intro o ho x hx
    obtain ⟨i, i1, i2, rfl⟩ := H.C.V.complete o ho
    rw [hpl i1 i2]
    exact I.data i i1 i2 x hx
  · intro o ho hty f hf hft q q1 q2
    obtain ⟨i, i1, i2, rfl⟩ := H.C.V.complete o ho
    rw [hpl i1 i2]
    obtain ⟨c, c1, c2, c3, c4, c5⟩ := field_node H b i1 i2 hty hf
    rw [hft] at c2
    rw [← c4, ← c5]
    exact I.bits c c1 c2 f c3 q q1 q2
  · intro o ho hty f hf hft x hx hz
    obtain ⟨i, i1, i2, rfl⟩ := H.C.V.complete o ho
    rw [hpl i1 i2]
    obtain ⟨c, c1, c2, c3, c4, c5⟩ := field_node H b i1 i2 hty hf
    rw [hft] at c2
    rw [← c4, ← c5]
    rw [← c5] at hz
    exact I.chars c c1 c2 f c3 x hx hz
  · intro t ht htty l hl x hx
    obtain ⟨c, hc1, c2, rfl, hcell⟩ := hout ht
    rw [hpl (by omega) c2]
    have hst : Start P.st P.n P.obj c := Or.inr ⟨hc1, c2, hcell⟩
    have hpt : (P.obj (pa P.st c)).ty = .string := by
      rcases (by simpa [isCell] using hcell : (P.obj (pa P.st c)).ty = .pointer ∨ (P.obj (pa P.st c)).ty = .string) with h | h
      · exact absurd htty (H.C.V.ptr_ty hc1 c2 h)
      · exact h
    rw [hstA hst]
    exact I.text c hc1 c2 hpt l hl x hx
  · intro o ho hty hu
    obtain ⟨i, i1, i2, rfl⟩ := H.C.V.complete o ho
    have hc : isCell (P.obj i) = true := by simp [isCell, hty]
    have hi := H.C.V.cell_tree i1 i2 hc
    rw [hpl i1 i2]
    have htn : target P.mem P.tds (P.obj i) = none := by
      unfold target
      rw [hty]
      simp [hu]
    rcases hcellv hi hc with ⟨j, j1, j2, j3, j4 | ⟨_, _, j4⟩⟩ | ⟨j1, _, j5⟩
    · rw [htn] at j4; cases j4
    · exact Or.inl ⟨_, H.C.V.reach j j1 j2, j4, by rw [j3, hpl j1 j2]⟩
    · refine Or.inr ⟨j5, fun g1 g2 t ht => ?_⟩
      obtain ⟨x, x1, x2, rfl⟩ := H.C.V.complete t ht
      have hvty := H.C.V.ty i1 i2
      rcases H.C.V.F.void i _ hi (H.C.V.get i2).1 (by rw [hvty]; exact hty) hu with ⟨_, _, _, g⟩ | ⟨g, _⟩ | ⟨_, g, _⟩
      · exact g g1 g2 x x1 (by rw [H.C.V.len]; exact x2)
      · simp [refers, g] at j1
      · simp [refers, g] at j1
  · intro o ho
    obtain ⟨i, i1, i2, rfl⟩ := H.C.V.complete o ho
    rw [hpl i1 i2]
    have hr := in_block H.C (b := b) i1 i2
    have hst := top_start H.C.V H.C.tops i i1 i2
    rcases hst with h | ⟨g1, g2, g3⟩
    · left
      have hone : CopyPlace.need P.m P.tds (P.obj 1) = extent P.tds P.root := H.need_one
      rw [h, I.one, hone] at hr
      exact ⟨hr.1, hr.2.2, hr.2.1⟩
    · right
      exact ⟨_, I.has _ g1 g2 g3, hr.1, hr.2.2, hr.2.1⟩
  · intro o ho l hl
    obtain ⟨c, g1, g2, rfl, g3⟩ := hout ho
    have hst : Start P.st P.n P.obj c := Or.inr ⟨g1, g2, g3⟩
    rw [hpl (by omega) g2, hstA hst, ← need_eq hl]
    exact I.has c g1 g2 g3
  · intro x hx
    obtain ⟨c, g1, g2, g3, rfl⟩ := I.only x hx
    have hst : Start P.st P.n P.obj c := Or.inr ⟨g1, g2, g3⟩
    refine ⟨P.obj c, H.C.V.outer H.C.S.cells g1 g2 g3, ?_, (start_need H.C hst).1⟩
    rw [hpl (by omega) g2, hstA hst]
  · exact I.apart
  · exact I.sep
  · exact I.kept

end Verif.Lemmas.LoadedOf
