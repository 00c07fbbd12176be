import Verif.Lemmas.LoadInv
/-!
Loading an arbitrary tree of nodes: allocation, stores, and the start of a node.
-/
namespace Verif.Lemmas.LoadStep
open Verif.Model Verif.Model.Ptrs Verif.Model.Save Verif.Model.Copy Verif.Model.Load Verif.Spec Verif.Spec.Save Verif.Spec.Load
  Verif.Lemmas.XdrMem Verif.Lemmas.CopyMem Verif.Lemmas.LoadSafe Verif.Lemmas.LoadInv
open Verif.Model.XdrGraph (put peek bytesAt bitBytes toBits ofBits bytesWord tdAt tdType wordBytes)
open Verif.Spec.Copy (Apart Layout span Allocator Grown)
open Verif.Lemmas.XdrSafe (home home_mono home_live not_home)

/-- what does not change -/
structure Setup (E : Env) (dst ext : Nat) (live0 : Blocks) : Prop where
  known : Known E.tds
  tree : Tree E.ra
  data : E.data.length = E.ra.length
  names : Distinct E.ra E.data
  alloc : Allocator E.alloc
  space : covered live0 dst ext = true
  used : ∀ b ∈ live0, 0 < b.2
  least : ∀ d ∈ E.data, d.val ≠ .int (BitVec.ofNat 128 (2 ^ 127))

section
variable {E : Env} {dst ext : Nat} {live0 : Blocks} {m0 : Bytes}

theorem inv_mono {cur cur' : Nat} (hle : cur ≤ cur') {s : LSt} (h : Inv E dst ext live0 m0 cur s) : Inv E dst ext live0 m0 cur' s :=
  { h with
    ready := fun c pc x h1 h2 h3 => by
      rcases h.ready c pc x h1 h2 h3 with h4 | ⟨y, h4, h5, h6⟩
      · exact .inl h4
      · exact .inr ⟨y, h4, h5, fun e => by have := h6 e; omega⟩
    fresh := fun j x h1 h2 h3 => h.fresh j x h1 h2 (by omega)
    early := fun j x h1 h2 h3 => h.early j x h1 h2 (by omega) }

theorem cell_live (S : Setup E dst ext live0) {cur : Nat} {s : LSt} (h : Inv E dst ext live0 m0 cur s) {i a n : Nat} (hs : Sits dst ext live0 s i a n) :
    covered s.live a n = true := home_live S.space h.live (sits_home hs)

/-- a new block is apart from everything in use -/
theorem alloc_apart (S : Setup E dst ext live0) {s : LSt} {n : Nat} (h : E.alloc s.live n ≠ 0) {b k : Nat} (hc : covered s.live b k = true) :
    Apart (E.alloc s.live n) n b k := by
  rw [covered_mem] at hc
  obtain ⟨c, hc, h1⟩ := hc
  have := S.alloc.fresh _ _ h c hc
  unfold Apart at *
  omega

/-- a block is allocated and stored into a pointer or string -/
theorem inv_alloc (S : Setup E dst ext live0) {cur : Nat} {s : LSt} (h : Inv E dst ext live0 m0 cur s) {j n : Nat} {x : Node} (hx : s.nodes[j]? = some x) (hc : isCell x)
    (h0 : word s.m x.addr = 0) (hr : x.ref = false ∧ x.cref = false) (hp : x.ty = .pointer → j < cur) (hn : 0 < n) (ha : E.alloc s.live n ≠ 0) {m' : Bytes}
    (hw : word m' x.addr = E.alloc s.live n)
    (hm : ∀ p, ¬ (x.addr ≤ p ∧ p < x.addr + 8) → ¬ (E.alloc s.live n ≤ p ∧ p < E.alloc s.live n + n) → m' p = s.m p) :
    Inv E dst ext live0 m0 cur { s with m := m', live := s.live ++ [(E.alloc s.live n, n)] } ∧
    (∀ b ∈ s.live.drop live0.length, ∀ (k : Nat) (y : Node), s.nodes[k]? = some y → isCell y → word m' y.addr = b.1 → word s.m y.addr = b.1) := by
  have hle : live0.length ≤ s.live.length := by obtain ⟨l, e⟩ := h.live; rw [← e]; simp
  have hsl : live0 ++ s.live.drop live0.length = s.live := by
    obtain ⟨l, e⟩ := h.live
    rw [← e, List.drop_left]
  have hdrop : (s.live ++ [(E.alloc s.live n, n)]).drop live0.length = s.live.drop live0.length ++ [(E.alloc s.live n, n)] := List.drop_append_of_le_length hle
  have hcov : ∀ k y, s.nodes[k]? = some y → isCell y → covered s.live y.addr 8 = true := fun k y hy hcy => cell_live S h (h.cell k y hy hcy)
  have hap : ∀ k y, s.nodes[k]? = some y → isCell y → Apart (E.alloc s.live n) n y.addr 8 := fun k y hy hcy => alloc_apart S ha (hcov k y hy hcy)
  have hother : ∀ k y, k ≠ j → s.nodes[k]? = some y → isCell y → word m' y.addr = word s.m y.addr := by
    intro k y hk hy hcy
    have h1 := h.apart k j y x hk hy hx hcy hc
    have h2 := hap k y hy hcy
    unfold Apart at h1 h2
    exact word_congr fun q hq => hm _ (by omega) (by omega)
  have hne : ∀ b ∈ s.live.drop live0.length, b.1 ≠ E.alloc s.live n := by
    intro b hb e
    have h1 := S.alloc.fresh _ _ ha b (List.mem_of_mem_drop hb)
    have h2 := h.size b hb
    unfold Apart at h1
    omega
  have hback : ∀ b ∈ s.live.drop live0.length, ∀ (k : Nat) (y : Node), s.nodes[k]? = some y → isCell y → word m' y.addr = b.1 → word s.m y.addr = b.1 := by
    intro b hb k y hy hcy e
    by_cases hk : k = j
    · subst hk
      rw [hx] at hy; cases hy
      exact absurd (e.symm.trans hw) (hne b hb)
    · rw [← hother k y hk hy hcy]
      exact e
  refine ⟨⟨h.len, h.live.trans (List.prefix_append _ _), ?_, ?_, ?_, h.blank, ?_, h.apart, ?_, ?_, ?_, h.ready, h.good, ?_, ?_, ?_, h.null, h.bare, h.early, h.back⟩, hback⟩
  · show Grown _ _ (List.drop _ (s.live ++ [(E.alloc s.live n, n)]))
    have := Grown.more (n := n) h.grown (by rw [hsl]; exact ha)
    rw [hsl] at this
    rw [hdrop]
    exact this
  · intro b hb
    rw [hdrop] at hb
    rcases List.mem_append.1 hb with hb | hb
    · exact h.size b hb
    · simp only [List.mem_singleton] at hb; subst hb; exact hn
  · intro p hp'
    have hold : covered (home dst ext live0 s.live) p 1 = false := by
      cases e : covered (home dst ext live0 s.live) p 1 with
      | false => rfl
      | true =>
        rw [home_mono (List.prefix_append _ _) e] at hp'
        cases hp'
    rw [← h.kept p hold]
    refine hm p (not_home (sits_home (h.cell j x hx hc)) hold) ?_
    intro hin
    have : covered (home dst ext live0 (s.live ++ [(E.alloc s.live n, n)])) p 1 = true := by
      rw [covered_mem]
      exact ⟨(E.alloc s.live n, n), by unfold home; rw [hdrop]; simp, by simp only; omega⟩
    rw [show covered (home dst ext live0 (s.live ++ [(E.alloc s.live n, n)])) p 1 = false from hp'] at this
    cases this
  · intro k y hy hcy
    rcases h.cell k y hy hcy with h1 | ⟨b, hb, h1, h2⟩
    · exact .inl h1
    · exact .inr ⟨b, by show b ∈ (s.live ++ _).drop _; rw [hdrop]; simp [hb], h1, fun q z hz hcz e => h2 q z hz hcz (hback b hb q z hz hcz e)⟩
  · intro k y hy hcy
    by_cases hk : k = j
    · subst hk
      rw [hx] at hy; cases hy
      exact .inr ⟨(E.alloc s.live n, n), by show _ ∈ (s.live ++ _).drop _; rw [hdrop]; simp, hw.symm⟩
    · rw [show word (LSt.m ⟨m', s.live ++ [(E.alloc s.live n, n)], s.nodes⟩) y.addr = word s.m y.addr from hother k y hk hy hcy]
      rcases h.val k y hy hcy with h1 | ⟨b, hb, h1⟩
      · exact .inl h1
      · exact .inr ⟨b, by show b ∈ (s.live ++ _).drop _; rw [hdrop]; simp [hb], h1⟩
  · intro k q y z hkq hy hz hcy hcz
    show word m' y.addr ≠ 0 → word m' y.addr ≠ word m' z.addr
    have hj : ∀ k y, k ≠ j → s.nodes[k]? = some y → isCell y → word m' y.addr ≠ E.alloc s.live n := by
      intro k y hk hy hcy e
      rw [hother k y hk hy hcy] at e
      rcases h.val k y hy hcy with h1 | ⟨b, hb, h1⟩
      · exact ha (e.symm.trans h1)
      · exact hne b hb (h1.trans e)
    by_cases hk : k = j
    · subst hk
      rw [hx] at hy; cases hy
      intro _ e
      exact hj q z (Ne.symm hkq) hz hcz (by rw [← e]; exact hw)
    · by_cases hq : q = j
      · subst hq
        rw [hx] at hz; cases hz
        intro _ e
        exact hj k y hk hy hcy (by rw [e]; exact hw)
      · rw [hother k y hk hy hcy, hother q z hq hz hcz]
        exact h.uniq k q y z hkq hy hz hcy hcz
  · intro b hb
    rw [hdrop] at hb
    rcases List.mem_append.1 hb with hb | hb
    · obtain ⟨k, y, hy, hcy, e⟩ := h.held b hb
      have hk : k ≠ j := by
        intro hk
        subst hk
        rw [hx] at hy; cases hy
        exact grown_pos h.grown b hb (e.symm.trans h0)
      exact ⟨k, y, hy, hcy, (hother k y hk hy hcy).trans e⟩
    · simp only [List.mem_singleton] at hb
      subst hb
      exact ⟨j, x, hx, hc, hw⟩
  · intro k y hy ht hk
    by_cases hkj : k = j
    · subst hkj
      rw [hx] at hy; cases hy
      have := hp ht
      omega
    · exact (hother k y hkj hy (.inl ht)).trans (h.fresh k y hy ht hk)
  · intro k y hy hcy hf
    by_cases hkj : k = j
    · subst hkj
      rw [hx] at hy; cases hy
      rw [hr.1, hr.2] at hf
      rcases hf with hf | hf <;> cases hf
    · exact (hother k y hkj hy hcy).trans (h.flag k y hy hcy hf)
  · intro k y hy h1
    exact home_mono (List.prefix_append _ _) (h.place k y hy h1)

/-- a node after it was changed -/
theorem setNode_get {s s' : LSt} {i : Nat} {F : Node → Node} (h : s.setNode i F = some s') : ∃ x, s.nodes[i]? = some x ∧ s'.m = s.m ∧ s'.live = s.live ∧
    s'.nodes[i]? = some (F x) ∧ (∀ j, j ≠ i → s'.nodes[j]? = s.nodes[j]?) ∧ s'.nodes.length = s.nodes.length := by
  unfold LSt.setNode at h
  obtain ⟨x, hx, h⟩ := Option.bind_eq_some_iff.1 h
  unfold wr at h
  rw [if_pos (List.getElem?_eq_some_iff.1 hx).1] at h
  injection h with h
  subst h
  refine ⟨x, hx, rfl, rfl, ?_, fun j hj => ?_, by simp⟩
  · simp only [List.getElem?_set, (List.getElem?_eq_some_iff.1 hx).1, if_true]
  · simp only [List.getElem?_set, if_neg (Ne.symm hj)]

theorem setNode_ok {s : LSt} {i : Nat} {F : Node → Node} (h : i < s.nodes.length) : ∃ s', s.setNode i F = some s' := by
  unfold LSt.setNode wr
  rw [List.getElem?_eq_getElem h]
  simp only [Option.bind_eq_bind, Option.bind_some, if_pos h]
  exact ⟨_, rfl⟩

/-- the flags of a node are changed -/
theorem inv_flag {cur : Nat} {s s' : LSt} (h : Inv E dst ext live0 m0 cur s) {i : Nat} {F : Node → Node} (hs : s.setNode i F = some s')
    (hF : ∀ x, (F x).addr = x.addr ∧ (F x).ty = x.ty ∧ (F x).aux = x.aux ∧ (F x).td = x.td ∧ (F x).sized = x.sized ∧ (F x).fd = x.fd)
    (h0 : ∀ x, s.nodes[i]? = some x → isCell x → word s.m x.addr = 0)
    (h1 : ∀ x, s.nodes[i]? = some x → x.addr ≠ 0 ∧ (x.ty = .pointer → i < cur) ∧
      ((F x).cref = true → ∃ d ∈ E.data, ∃ v, d.val = .int v ∧ v.toInt < 0 ∧ (F x).first = u32 (-v).toNat)) : Inv E dst ext live0 m0 cur s' ∧
    (∀ (j : Nat) (y : Node), s'.nodes[j]? = some y → ∃ x, s.nodes[j]? = some x ∧ y.addr = x.addr ∧ y.ty = x.ty ∧ y.aux = x.aux ∧ y.td = x.td) ∧
    (∀ (j : Nat) (x : Node), s.nodes[j]? = some x → ∃ y, s'.nodes[j]? = some y ∧ y.addr = x.addr ∧ y.ty = x.ty ∧ y.fd = x.fd ∧ (j ≠ i → y = x)) := by
  obtain ⟨x, hx, em, el, hi, hj, hlen⟩ := setNode_get hs
  have hback : ∀ (j : Nat) (y : Node), s'.nodes[j]? = some y → ∃ x, s.nodes[j]? = some x ∧ y.addr = x.addr ∧ y.ty = x.ty ∧ y.aux = x.aux ∧ y.td = x.td ∧
      y.sized = x.sized ∧ (j ≠ i → y = x) := by
    intro j y hy
    by_cases e : j = i
    · subst e
      rw [hi] at hy; cases hy
      have := hF x
      exact ⟨x, hx, this.1, this.2.1, this.2.2.1, this.2.2.2.1, this.2.2.2.2.1, fun e => absurd rfl e⟩
    · rw [hj j e] at hy
      exact ⟨y, hy, rfl, rfl, rfl, rfl, rfl, fun _ => rfl⟩
  have hforth : ∀ (j : Nat) (x : Node), s.nodes[j]? = some x → ∃ y, s'.nodes[j]? = some y ∧ y.addr = x.addr ∧ y.ty = x.ty ∧ y.fd = x.fd ∧ (j ≠ i → y = x) := by
    intro j z hz
    by_cases e : j = i
    · subst e
      rw [hx] at hz; cases hz
      have := hF x
      exact ⟨_, hi, this.1, this.2.1, this.2.2.2.2.2, fun e => absurd rfl e⟩
    · exact ⟨z, by rw [hj j e]; exact hz, rfl, rfl, rfl, fun _ => rfl⟩
  have hcell : ∀ {x y : Node}, y.ty = x.ty → isCell y → isCell x := by intro x y e; unfold isCell; rw [e]; exact id
  refine ⟨⟨?_, ?_, ?_, ?_, ?_, ?_, ?_, ?_, ?_, ?_, ?_, ?_, ?_, ?_, ?_, ?_, ?_, ?_, ?_, ?_⟩, fun j y hy => ?_, hforth⟩
  · rw [hlen]; exact h.len
  · rw [el]; exact h.live
  · rw [el]; exact h.grown
  · rw [el]; exact h.size
  · rw [el, em]; exact h.kept
  · intro j y hy h1
    obtain ⟨x, g1, g2, g3, _⟩ := hback j y hy
    rw [g3]
    exact h.blank j x g1 (by rw [← g2]; exact h1)
  · intro j y hy hc
    obtain ⟨x, g1, g2, g3, _⟩ := hback j y hy
    rw [g2]
    rcases h.cell j x g1 (hcell g3 hc) with h1 | ⟨b, hb, h1, h2⟩
    · exact .inl h1
    · refine .inr ⟨b, by rw [el]; exact hb, h1, fun k z hz hcz e => ?_⟩
      obtain ⟨w, k1, k2, k3, _⟩ := hback k z hz
      have := h2 k w k1 (hcell k3 hcz) (by rw [← k2, ← em]; exact e)
      exact ⟨this.1, k3.trans this.2⟩
  · intro j k y z hne hy hz hcy hcz
    obtain ⟨x, g1, g2, g3, _⟩ := hback j y hy
    obtain ⟨w, k1, k2, k3, _⟩ := hback k z hz
    rw [g2, k2]
    exact h.apart j k x w hne g1 k1 (hcell g3 hcy) (hcell k3 hcz)
  · intro j y hy hc
    obtain ⟨x, g1, g2, g3, _⟩ := hback j y hy
    rw [g2, em, el]
    exact h.val j x g1 (hcell g3 hc)
  · intro j k y z hne hy hz hcy hcz
    obtain ⟨x, g1, g2, g3, _⟩ := hback j y hy
    obtain ⟨w, k1, k2, k3, _⟩ := hback k z hz
    rw [g2, k2, em]
    exact h.uniq j k x w hne g1 k1 (hcell g3 hcy) (hcell k3 hcz)
  · intro b hb
    rw [el] at hb
    obtain ⟨j, x, g1, g2, g3⟩ := h.held b hb
    obtain ⟨y, k1, k2, k3, _⟩ := hforth j x g1
    exact ⟨j, y, k1, hcell k3.symm g2, by rw [em, k2]; exact g3⟩
  · intro c pc y hpc hy hne
    obtain ⟨x, g1, g2, g3, _⟩ := hback c y hy
    rcases h.ready c pc x hpc g1 (by rw [← g2]; exact hne) with h1 | ⟨w, h1, h2, h3⟩
    · exact .inl h1
    · obtain ⟨z, k1, k2, k3, _⟩ := hforth _ w h1
      exact .inr ⟨z, k1, by rw [k2]; exact h2, by rw [k3]; exact h3⟩
  · intro j y hy ht
    obtain ⟨x, g1, g2, g3, g4, g5, g6, _⟩ := hback j y hy
    rw [g6, g4, g5]
    exact h.good j x g1 (by rw [← g3]; exact ht)
  · intro j y hy ht hle
    obtain ⟨x, g1, g2, g3, _⟩ := hback j y hy
    rw [em, g2]
    exact h.fresh j x g1 (by rw [← g3]; exact ht) hle
  · intro j y hy hc hf
    obtain ⟨x, g1, g2, g3, _, _, _, g7⟩ := hback j y hy
    rw [em, g2]
    by_cases e : j = i
    · subst e
      exact h0 x g1 (hcell g3 hc)
    · have := g7 e
      subst this
      exact h.flag j y g1 hc hf
  · intro j y hy h1
    obtain ⟨x, g1, g2, _⟩ := hback j y hy
    rw [el, g2]
    exact h.place j x g1 (by rw [← g2]; exact h1)
  · intro y hy
    obtain ⟨x, g1, g2, _⟩ := hback 0 y hy
    rw [g2]
    exact h.null x g1
  · intro j y hy hz
    by_cases e : j = i
    · subst e
      rw [hi] at hy; cases hy
      rw [(hF x).1] at hz
      exact absurd hz (h1 x hx).1
    · rw [hj j e] at hy
      exact h.bare j y hy hz
  · intro j y hy ht hle
    by_cases e : j = i
    · subst e
      rw [hi] at hy; cases hy
      rw [(hF x).2.1] at ht
      have := (h1 x hx).2.1 ht
      omega
    · rw [hj j e] at hy
      exact h.early j y hy ht hle
  · intro j y hy hc
    by_cases e : j = i
    · subst e
      rw [hi] at hy; cases hy
      exact (h1 x hx).2.2 hc
    · rw [hj j e] at hy
      exact h.back j y hy hc
  · obtain ⟨x, g1, g2, g3, g4, g5, _⟩ := hback j y hy
    exact ⟨x, g1, g2, g3, g4, g5⟩

/-! ### objects that are loaded next -/

/-- the object at `a` can be loaded from the node `i` -/
structure Slot (cur : Nat) (s : LSt) (i a : Nat) (f : Fd) : Prop where
  index : i < E.ra.length
  good : Good E.tds f
  sits : Sits dst ext live0 s i a (room E.tds f)
  zero : f.ty ≠ .bitfield → ∀ k, k < room E.tds f → s.m (a + k) = 0
  away : ∀ (j : Nat) (x : Node), s.nodes[j]? = some x → isCell x → Apart x.addr 8 a (room E.tds f)
  blank : ∀ x : Node, s.nodes[i]? = some x → x.addr = 0
  par : ∀ pd : Pd, E.ra[i]? = some pd → pd.parent = 0 ∨
    ∃ y, s.nodes[pd.parent]? = some y ∧ y.addr ≠ 0 ∧ (y.ty = .pointer → pd.parent < cur ∧ f.ty ≠ .charArray)

abbrev bitty (f : Fd) : Bool := decide (f.ty = .bitfield)

/-- a node is taken for the object at `a` -/
theorem enter {cur : Nat} {s s' : LSt} (h : Inv E dst ext live0 m0 cur s) {i a : Nat} {f : Fd} (hi : Slot (E := E) (dst := dst) (ext := ext) (live0 := live0) cur s i a f)
    (ha : a ≠ 0) (hi0 : i ≠ 0)
    (hs : s.setNode i (fun x => { x with addr := a, ty := f.ty, aux := f.aux, td := f.td, sized := f.sizeField.isSome, fd := f }) = some s') :
    Step E dst ext live0 m0 cur i a (room E.tds f) (bitty f) s s' ∧
    (∃ x, s'.nodes[i]? = some x ∧ x.addr = a ∧ x.ty = f.ty ∧ (isCell x → word s'.m a = 0)) ∧ s'.m = s.m ∧ s'.live = s.live := by
  obtain ⟨x, hx, em, el, hi', hj, hlen⟩ := setNode_get hs
  have hx0 := hi.blank x hx
  have hxn := h.blank i x hx hx0
  have hnc : ¬ isCell x := by
    unfold isCell
    rw [hxn]
    rintro (h | h) <;> cases h
  have hcellty : f.ty = .pointer ∨ f.ty = .string → room E.tds f = 8 ∧ word s.m a = 0 := by
    intro ht
    have hr : room E.tds f = 8 := by
      unfold room
      rcases ht with ht | ht <;> rw [ht] <;> simp [elementSize, typeSize]
    refine ⟨hr, zero_word fun k hk => hi.zero ?_ k (by omega)⟩
    rcases ht with ht | ht <;> rw [ht] <;> simp
  have hback : ∀ (j : Nat) (y : Node), s'.nodes[j]? = some y → (j = i ∧ y.addr = a ∧ y.ty = f.ty ∧ y.aux = f.aux ∧ y.td = f.td ∧ y.sized = f.sizeField.isSome) ∨
      (j ≠ i ∧ s.nodes[j]? = some y) := by
    intro j y hy
    by_cases e : j = i
    · subst e
      rw [hi'] at hy; cases hy
      exact .inl ⟨rfl, rfl, rfl, rfl, rfl, rfl⟩
    · exact .inr ⟨e, by rw [← hj j e]; exact hy⟩
  have hold : ∀ (j : Nat) (y : Node), s.nodes[j]? = some y → y.addr ≠ 0 ∨ isCell y → j ≠ i ∧ s'.nodes[j]? = some y := by
    intro j y hy hc
    have hne : j ≠ i := by
      intro e
      subst e
      rw [hx] at hy; cases hy
      rcases hc with hc | hc
      · exact hc hx0
      · exact hnc hc
    exact ⟨hne, by rw [hj j hne]; exact hy⟩
  have hpos := grown_pos h.grown
  have hcase : ∀ (j : Nat) (y : Node), s'.nodes[j]? = some y → isCell y → (j = i ∧ y.addr = a ∧ (y.ty = f.ty) ∧ room E.tds f = 8 ∧ word s.m y.addr = 0) ∨
      (j ≠ i ∧ s.nodes[j]? = some y) := by
    intro j y hy hc
    rcases hback j y hy with ⟨e1, e2, e3, _⟩ | h1
    · unfold isCell at hc
      rw [e3] at hc
      exact .inl ⟨e1, e2, e3, (hcellty hc).1, by rw [e2]; exact (hcellty hc).2⟩
    · exact .inr h1
  have hsits : ∀ {q b n}, Sits dst ext live0 s q b n → Sits dst ext live0 s' q b n := by
    rintro q b n (h1 | ⟨c, hc, h1, h2⟩)
    · exact .inl h1
    · refine .inr ⟨c, by rw [el]; exact hc, h1, fun k z hz hcz e => ?_⟩
      rw [em] at e
      rcases hcase k z hz hcz with ⟨_, _, _, _, e5⟩ | ⟨_, e2⟩
      · exact absurd (e.symm.trans e5) (hpos c hc)
      · exact h2 k z e2 hcz e
  have hinv : Inv E dst ext live0 m0 cur s' := by
    refine ⟨?_, ?_, ?_, ?_, ?_, ?_, ?_, ?_, ?_, ?_, ?_, ?_, ?_, ?_, ?_, ?_, ?_, ?_, ?_, ?_⟩
    · rw [hlen]; exact h.len
    · rw [el]; exact h.live
    · rw [el]; exact h.grown
    · rw [el]; exact h.size
    · rw [el, em]; exact h.kept
    · intro j y hy h1
      rcases hback j y hy with ⟨_, e2, _⟩ | ⟨_, e2⟩
      · exact absurd (e2.symm.trans h1) ha
      · exact h.blank j y e2 h1
    · intro j y hy hc
      rcases hcase j y hy hc with ⟨e1, e2, e3, e4, e5⟩ | ⟨_, e2⟩
      · rw [e1, e2]
        have := hi.sits
        rw [e4] at this
        exact hsits this
      · exact hsits (h.cell j y e2 hc)
    · intro j k y z hne hy hz hcy hcz
      rcases hcase j y hy hcy with ⟨e1, e2, e3, e4, e5⟩ | ⟨_, e2⟩
      · rcases hcase k z hz hcz with ⟨g1, _⟩ | ⟨_, g2⟩
        · exact absurd (e1.trans g1.symm) hne
        · have := hi.away k z g2 hcz
          rw [e4] at this
          rw [e2]
          unfold Apart at *
          omega
      · rcases hcase k z hz hcz with ⟨g1, g2, g3, g4, g5⟩ | ⟨_, g2⟩
        · have := hi.away j y e2 hcy
          rw [g4] at this
          rw [g2]
          exact this
        · exact h.apart j k y z hne e2 g2 hcy hcz
    · intro j y hy hc
      rw [em, el]
      rcases hcase j y hy hc with ⟨e1, e2, e3, e4, e5⟩ | ⟨_, e2⟩
      · exact .inl e5
      · exact h.val j y e2 hc
    · intro j k y z hne hy hz hcy hcz
      rw [em]
      rcases hcase j y hy hcy with ⟨e1, e2, e3, e4, e5⟩ | ⟨_, e2⟩
      · intro h1; exact absurd e5 h1
      · rcases hcase k z hz hcz with ⟨g1, g2, g3, g4, g5⟩ | ⟨_, g2⟩
        · rw [g5]; exact id
        · exact h.uniq j k y z hne e2 g2 hcy hcz
    · intro b hb
      rw [el] at hb
      obtain ⟨j, y, g1, g2, g3⟩ := h.held b hb
      exact ⟨j, y, (hold j y g1 (.inr g2)).2, g2, by rw [em]; exact g3⟩
    · intro c pc y hpc hy hne
      rcases hback c y hy with ⟨e1, _⟩ | ⟨e1, e2⟩
      · subst e1
        rcases hi.par pc hpc with h1 | ⟨w, h1, h2, h3⟩
        · exact .inl h1
        · exact .inr ⟨w, (hold _ w h1 (.inl h2)).2, h2, fun e => (h3 e).1⟩
      · rcases h.ready c pc y hpc e2 hne with h1 | ⟨w, h1, h2, h3⟩
        · exact .inl h1
        · exact .inr ⟨w, (hold _ w h1 (.inl h2)).2, h2, h3⟩
    · intro j y hy ht
      rcases hback j y hy with ⟨_, e2, e3, e4, e5, e6⟩ | ⟨_, e2⟩
      · rw [e4, e5, e6]
        rw [e3] at ht
        obtain ⟨g1, _, g2⟩ := hi.good
        rw [g1]
        rw [ht] at g2
        exact ⟨rfl, g2⟩
      · exact h.good j y e2 ht
    · intro j y hy ht hle
      rw [em]
      rcases hcase j y hy (.inl ht) with ⟨e1, e2, e3, e4, e5⟩ | ⟨_, e2⟩
      · exact e5
      · exact h.fresh j y e2 ht hle
    · intro j y hy hc hf
      rw [em]
      rcases hcase j y hy hc with ⟨e1, e2, e3, e4, e5⟩ | ⟨_, e2⟩
      · exact e5
      · exact h.flag j y e2 hc hf
    · intro j y hy h1
      rw [el]
      rcases hback j y hy with ⟨_, e2, _⟩ | ⟨_, e2⟩
      · rw [e2]
        exact covered_part (sits_home hi.sits) (Nat.le_refl _) (by omega)
      · exact h.place j y e2 h1
    · intro y hy
      rcases hback 0 y hy with ⟨e1, _⟩ | ⟨_, e2⟩
      · exact absurd e1.symm hi0
      · exact h.null y e2
    · intro j y hy hz
      rcases hback j y hy with ⟨_, e2, _⟩ | ⟨_, e2⟩
      · exact absurd (e2.symm.trans hz) ha
      · exact h.bare j y e2 hz
    · intro j y hy ht hle
      by_cases e : j = i
      · subst e
        rw [hi'] at hy; cases hy
        exact h.bare j x hx hx0
      · rw [hj j e] at hy
        exact h.early j y hy ht hle
    · intro j y hy hc
      by_cases e : j = i
      · subst e
        rw [hi'] at hy; cases hy
        have := (h.bare j x hx hx0).2
        rw [this] at hc
        cases hc
      · rw [hj j e] at hy
        exact h.back j y hy hc
  refine ⟨⟨hinv, by rw [el]; exact List.prefix_rfl, fun p _ _ => by rw [em], fun j y hy h1 => ?_, fun j y hy h1 => ?_, fun j y hy hc => ?_, fun b hb k y hy hc e => ?_⟩, ?_, em, el⟩
  · exact ⟨y, (hold j y hy (.inl h1)).2, rfl, rfl, rfl, fun _ => rfl⟩
  · rcases hback j y hy with ⟨e1, _⟩ | ⟨_, e2⟩
    · subst e1; exact .inr .self
    · exact .inl ⟨y, e2, h1⟩
  · rcases hcase j y hy hc with ⟨e1, e2, e3, e4, e5⟩ | ⟨_, e2⟩
    · refine .inr (.inl ⟨?_, by omega, by omega⟩)
      unfold isCell at hc
      rw [e3] at hc
      rcases hc with hc | hc <;> simp [bitty, hc]
    · exact .inl ⟨y, e2, cell_addr h e2 hc⟩
  · rw [em] at e
    rcases hcase k y hy hc with ⟨e1, e2, e3, e4, e5⟩ | ⟨_, e2⟩
    · exact absurd (e.symm.trans e5) (hpos b hb)
    · exact ⟨y, e2, hc, e, rfl⟩
  · exact ⟨_, hi', rfl, rfl, fun hc => by rw [em]; exact (hcellty hc).2⟩

end
end Verif.Lemmas.LoadStep
