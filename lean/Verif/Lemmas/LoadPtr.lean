import Verif.Lemmas.LoadTree
/-!
Loading a tree of nodes: what is stored is what the nodes say.  What pointers lead to.
-/
namespace Verif.Lemmas.LoadPtr
open Verif.Model Verif.Model.Ptrs Verif.Model.Save Verif.Model.Copy Verif.Model.Load Verif.Spec Verif.Spec.Save Verif.Spec.Load Verif.Spec.LoadSays
  Verif.Lemmas.XdrMem Verif.Lemmas.CopyMem Verif.Lemmas.LoadSafe Verif.Lemmas.LoadInv Verif.Lemmas.LoadStep Verif.Lemmas.LoadRow Verif.Lemmas.LoadOpen Verif.Lemmas.LoadEnd
  Verif.Lemmas.LoadSays Verif.Lemmas.LoadTold Verif.Lemmas.LoadTree
open Verif.Model.XdrGraph (put peek bytesAt bitBytes toBits ofBits bytesWord tdAt tdType wordBytes)
open Verif.Spec.Copy (Apart Layout span Allocator Grown)
open Verif.Spec.XdrGraph (bitAt)
open Verif.Lemmas.XdrSafe (home home_mono home_live not_home)

section
variable {E : Env} {dst ext : Nat} {live0 : Blocks} {m0 : Bytes} (S : Setup E dst ext live0)
include S

/-- a pointer that was followed -/
def PtrOk (E : Env) (live0 : Blocks) (s : LSt) (j : Nat) (x : Node) (d : Doc) : Prop :=
  (d.null = true ∧ word s.m x.addr = 0 ∧ Plain x) ∨
  (d.null = false ∧ (∃ v, d.val = .int v ∧ Flag x v) ∧ word s.m x.addr = 0) ∨
  (d.null = false ∧ (∀ v, d.val ≠ .int v) ∧ Plain x ∧ ∃ l, Load.kids E j = some l ∧
    ((l = [] ∧ word s.m x.addr = 0) ∨ (l ≠ [] ∧ (pointee E x).size ≠ 0 ∧ (word s.m x.addr, l.length * (pointee E x).size) ∈ s.live.drop live0.length ∧
      Placed s (elements (word s.m x.addr) (pointee E x) l.length 0 l))))

/-- byte `q` is in the object that is loaded, or in what a pointer leads to -/
def Part (dst ext : Nat) (live0 : Blocks) (s : LSt) (q : Nat) : Prop :=
  (dst ≤ q ∧ q < dst + ext) ∨ ∃ (j : Nat) (x : Node) (n : Nat), s.nodes[j]? = some x ∧ x.ty = .pointer ∧ (word s.m x.addr, n) ∈ s.live.drop live0.length ∧
    word s.m x.addr ≤ q ∧ q < word s.m x.addr + n

/-- everything that was loaded -/
structure All (E : Env) (dst ext : Nat) (live0 : Blocks) (c : Nat) (s : LSt) : Prop where
  ok : ∀ (j : Nat) (x : Node), s.nodes[j]? = some x → x.addr ≠ 0 → Ok E live0 s j x ∧ covered (home dst ext live0 s.live) x.addr (room E.tds x.fd) = true ∧ Good E.tds x.fd
  ptr : ∀ (j : Nat) (x : Node), s.nodes[j]? = some x → x.ty = .pointer → j < c → ∃ d, E.data[j]? = some d ∧ PtrOk E live0 s j x d
  rest : ∀ p, Part dst ext live0 s (p / 8) → InLeaf E s p ∨ bitAt s.m p = false

theorem news_unique {cur : Nat} {s : LSt} (h : Inv E dst ext live0 m0 cur s) {b c : Nat × Nat} (hb : b ∈ s.live.drop live0.length) (hc : c ∈ s.live.drop live0.length) (e : b.1 = c.1) : b = c := by
  have hp := grown_apart S.alloc h.grown
  have h1 := h.size b hb
  have h2 := h.size c hc
  obtain ⟨p, hp1, hp2⟩ := List.mem_iff_getElem.1 hb
  obtain ⟨q, hq1, hq2⟩ := List.mem_iff_getElem.1 hc
  rw [List.pairwise_iff_getElem] at hp
  rcases Nat.lt_trichotomy p q with hlt | rfl | hlt
  · have := hp p q hp1 hq1 hlt
    rw [hp2, hq2] at this
    unfold Apart at this
    omega
  · exact hp2.symm.trans hq2
  · have := hp q p hq1 hp1 hlt
    rw [hp2, hq2] at this
    unfold Apart at this
    omega

/-- what opening a pointer does -/
theorem pointer_told {i : Nat} {s s' : LSt} {x : Node} {items : List Item} (h : Inv E dst ext live0 m0 i s) (hx : s.nodes[i]? = some x) (ht : x.ty = .pointer)
    (e : openPointer E s i = some (true, s', items)) : ∃ d, E.data[i]? = some d ∧
    ((items = [] ∧ s' = s ∧ PtrOk E live0 s i x d) ∨
     (items = [] ∧ s'.m = s.m ∧ s'.live = s.live ∧ (∀ k, k ≠ i → s'.nodes[k]? = s.nodes[k]?) ∧ d.null = false ∧ ∃ v, d.val = .int v ∧ s'.nodes[i]? = some (flagged x v)) ∨
     (d.null = false ∧ (∀ v, d.val ≠ .int v) ∧ ∃ l, Load.kids E i = some l ∧ l ≠ [] ∧ (pointee E x).size ≠ 0 ∧ E.alloc s.live (l.length * (pointee E x).size) ≠ 0 ∧
       s' = { s with m := setWord (put s.m (E.alloc s.live (l.length * (pointee E x).size)) (List.replicate (l.length * (pointee E x).size) 0)) x.addr (E.alloc s.live (l.length * (pointee E x).size)),
                     live := s.live ++ [(E.alloc s.live (l.length * (pointee E x).size), l.length * (pointee E x).size)] } ∧
       items = elements (E.alloc s.live (l.length * (pointee E x).size)) (pointee E x) l.length 0 l)) := by
  have hc : isCell x := .inl ht
  have hw : word s.m x.addr = 0 := h.fresh i x hx ht (Nat.le_refl _)
  have hcov : covered s.live x.addr 8 = true := cell_live S h (h.cell i x hx hc)
  have hil : i < E.ra.length := by rw [← h.len]; exact (List.getElem?_eq_some_iff.1 hx).1
  have hid : i < E.data.length := by rw [S.data]; exact hil
  have hpl : Plain x := h.early i x hx ht (Nat.le_refl _)
  refine ⟨_, List.getElem?_eq_getElem hid, ?_⟩
  unfold openPointer at e
  rw [hx, List.getElem?_eq_getElem hid] at e
  simp only [Option.bind_eq_bind, Option.bind_some, if_neg (cell_addr h hx hc), store_zero hcov hw] at e
  generalize E.data[i] = d at e
  by_cases hn : d.null = true
  · rw [if_pos hn] at e
    simp only [finished, Option.some.injEq, Prod.mk.injEq, true_and] at e
    exact .inl ⟨e.2.symm, e.1.symm, .inl ⟨hn, hw, hpl⟩⟩
  rw [if_neg hn] at e
  simp only [Bool.not_eq_true] at hn
  have hval : (∃ v, d.val = .int v) ∨ ∀ v, d.val ≠ .int v := by
    cases d.val <;> simp
  rcases hval with ⟨v, hv⟩ | hv
  · right; left
    rw [hv] at e
    simp only [numbered] at e
    obtain ⟨s1, e1, e⟩ := Option.bind_eq_some_iff.1 e
    obtain ⟨k1, k2, k3, k4⟩ := reference_eq hx e1
    rw [k4] at e
    simp only [Option.bind_some] at e
    rw [if_pos flagged_set] at e
    simp only [finished, Option.some.injEq, Prod.mk.injEq, true_and] at e
    obtain ⟨rfl, rfl⟩ := e
    exact ⟨rfl, k1, k2, k3, hn, v, hv, k4⟩
  · have hmatch : numbered s i d.val = some s := by
      unfold numbered
      cases e : d.val with
      | int v => exact absurd e (hv v)
      | none => rfl
      | text => rfl
      | other => rfl
    rw [hmatch] at e
    simp only [Option.bind_some, hx] at e
    rw [hpl.1, hpl.2] at e
    simp only [Bool.or_self, Bool.false_eq_true, if_false] at e
    obtain ⟨l, k3, e⟩ := Option.bind_eq_some_iff.1 e
    by_cases hl : l = []
    · rw [if_pos hl] at e
      simp only [finished, Option.some.injEq, Prod.mk.injEq, true_and] at e
      exact .inl ⟨e.2.symm, e.1.symm, .inr (.inr ⟨hn, hv, hpl, l, k3, .inl ⟨hl, hw⟩⟩)⟩
    rw [if_neg hl] at e
    right; right
    refine ⟨hn, hv, l, k3, hl, ?_⟩
    generalize pointee E x = g at *
    by_cases hg0 : g.size = 0
    · rw [if_pos hg0] at e; simp [failed] at e
    rw [if_neg hg0] at e
    split at e
    · cases e
    generalize l.length * g.size = n at *
    unfold LSt.calloc at e
    by_cases h0 : E.alloc s.live n = 0
    · simp only [h0, if_true] at e
      obtain ⟨_, _, e⟩ := Option.bind_eq_some_iff.1 e
      simp [failed] at e
    · simp only [h0, if_false] at e
      obtain ⟨s1, e1, e⟩ := Option.bind_eq_some_iff.1 e
      have h1 := store_eq e1
      simp only [Option.some.injEq, Prod.mk.injEq, true_and] at e
      refine ⟨hg0, h0, ?_, e.2.symm⟩
      rw [← e.1, h1]

theorem part_pos {cur : Nat} {s : LSt} (h : Inv E dst ext live0 m0 cur s) {b : Nat × Nat} (hb : b ∈ s.live.drop live0.length) : b.1 ≠ 0 := grown_pos h.grown b hb

omit S in
theorem room_pointer {x : Node} (h : x.fd.ty = .pointer) : room E.tds x.fd = 8 := by unfold room; rw [h]

omit S in
theorem not_compound_pointer {x : Node} (h : x.fd.ty = .pointer) : ¬ compound x.fd.ty := by rw [h]; rintro (e | e) <;> cases e

omit S in
theorem room_cell {x : Node} (hc : isCell x) (h : x.ty = x.fd.ty) : room E.tds x.fd = 8 := by
  unfold isCell at hc
  rw [h] at hc
  unfold room
  rcases hc with hc | hc <;> rw [hc] <;> simp [elementSize, typeSize]

omit S in
/-- a pointer becomes a reference -/
theorem all_flag {i : Nat} {s s' : LSt} {x : Node} {d : Doc} {v : BitVec 128} (h : Inv E dst ext live0 m0 i s) (hA : All E dst ext live0 i s) (hx : s.nodes[i]? = some x) (ht : x.ty = .pointer)
    (em : s'.m = s.m) (el : s'.live = s.live) (ho : ∀ k, k ≠ i → s'.nodes[k]? = s.nodes[k]?) (hd : E.data[i]? = some d) (hn : d.null = false) (hv : d.val = .int v)
    (hx' : s'.nodes[i]? = some (flagged x v)) : All E dst ext live0 (i + 1) s' := by
  have hs := flagged_same x v
  have hw : word s.m x.addr = 0 := h.fresh i x hx ht (Nat.le_refl _)
  have hpl : Plain x := h.early i x hx ht (Nat.le_refl _)
  have hx0 : x.addr ≠ 0 := cell_addr h hx (.inl ht)
  have hback : ∀ (k : Nat) (y : Node), s'.nodes[k]? = some y → ∃ y0, s.nodes[k]? = some y0 ∧ y0.addr = y.addr ∧ y0.fd = y.fd ∧ y0.ty = y.ty ∧ (k ≠ i → y0 = y) := by
    intro k y hy
    by_cases hk : k = i
    · subst hk
      rw [hx'] at hy; cases hy
      exact ⟨x, hx, hs.1.symm, hs.2.1.symm, hs.2.2.1.symm, fun hk => absurd rfl hk⟩
    · exact ⟨y, by rw [← ho k hk]; exact hy, rfl, rfl, rfl, fun _ => rfl⟩
  have hforth : ∀ (k : Nat) (y : Node), s.nodes[k]? = some y → ∃ y', s'.nodes[k]? = some y' ∧ y'.addr = y.addr ∧ y'.fd = y.fd := by
    intro k y hy
    by_cases hk : k = i
    · subst hk
      rw [hx] at hy; cases hy
      exact ⟨_, hx', hs.1, hs.2.1⟩
    · exact ⟨y, by rw [ho k hk]; exact hy, rfl, rfl⟩
  have hplaced : ∀ {l : List Item}, Placed s l → Placed s' l := fun hp => placed_keep hp fun k y hy _ => hforth k y hy
  refine ⟨fun k y hy hy0 => ?_, fun k y hy hty hk => ?_, fun p hp => ?_⟩
  · obtain ⟨y0, g1, g2, g3, g4, g5⟩ := hback k y hy
    obtain ⟨o1, o2, o3⟩ := hA.ok k y0 g1 (by rw [g2]; exact hy0)
    refine ⟨?_, by rw [el, ← g2, ← g3]; exact o2, by rw [← g3]; exact o3⟩
    by_cases hk : k = i
    · subst hk
      rw [hx'] at hy; cases hy
      rw [hx] at g1; cases g1
      have hpt : x.fd.ty = .pointer := by rw [← o1.own.1]; exact ht
      refine ⟨⟨by rw [hs.2.2.1, hs.2.1]; exact o1.own.1, fun _ => ?_⟩, ⟨d, hd, ?_⟩, fun hnc q z hq hz hcz => ?_, by rw [hs.2.1]; exact o1.named⟩
      · rw [hs.2.1, hs.2.2.2.1, hs.2.2.2.2]
        exact o1.own.2 (not_compound_pointer hpt)
      · unfold Vals
        rw [hs.2.1, hpt]
        trivial
      · rw [ho q hq] at hz
        rw [hs.1, hs.2.1]
        exact o1.cells (not_compound_pointer hpt) q z hq hz hcz
    · have := g5 hk
      subst this
      refine ok_frame o1 (fun _ _ k _ => by rw [em]) (fun _ q _ => by rw [em]) (fun _ b _ _ p _ _ => by rw [em]) (fun b hb => by rw [el]; exact hb) (fun j z hz _ => hforth j z hz) (fun _ q z hq hz hcz => ?_)
      obtain ⟨z0, k1, k2, _, k4, _⟩ := hback q z hz
      exact .inl ⟨z0, k1, by unfold isCell at *; rw [k4]; exact hcz, k2⟩
  · by_cases hki : k = i
    · subst hki
      rw [hx'] at hy; cases hy
      refine ⟨d, hd, .inr (.inl ⟨hn, ⟨v, hv, flagged_flag hpl v⟩, by rw [em, hs.1]; exact hw⟩)⟩
    · rw [ho k hki] at hy
      obtain ⟨dk, g1, g2⟩ := hA.ptr k y hy hty (by omega)
      refine ⟨dk, g1, ?_⟩
      unfold PtrOk at *
      rw [em, el]
      rcases g2 with g2 | g2 | ⟨g2, g3, g4, l, g5, g6⟩
      · exact .inl g2
      · exact .inr (.inl g2)
      · refine .inr (.inr ⟨g2, g3, g4, l, g5, ?_⟩)
        rcases g6 with g6 | ⟨g6, g7, g8, g9⟩
        · exact .inl g6
        · exact .inr ⟨g6, g7, g8, hplaced g9⟩
  · have : Part dst ext live0 s (p / 8) := by
      rcases hp with hp | ⟨k, y, n, hy, hty, hb, hq⟩
      · exact .inl hp
      · obtain ⟨y0, g1, g2, g3, g4, _⟩ := hback k y hy
        rw [em, el, ← g2] at hb
        rw [em, ← g2] at hq
        exact .inr ⟨k, y0, n, g1, g4.trans hty, hb, hq⟩
    rcases hA.rest p this with ⟨q, y, g1, g2, g3, g4⟩ | g1
    · obtain ⟨y', k1, k2, k3⟩ := hforth q y g1
      exact .inl ⟨q, y', k1, by rw [k2]; exact g2, by rw [k3]; exact g3, by rw [k2, k3]; exact g4⟩
    · rw [em]; exact .inr g1

/-- a pointer gets a new block -/
theorem all_block {i : Nat} {s s' : LSt} {x : Node} {a n : Nat} (h : Inv E dst ext live0 m0 i s) (h' : Inv E dst ext live0 m0 (i + 1) s') (hA : All E dst ext live0 i s) (hx : s.nodes[i]? = some x)
    (ht : x.ty = .pointer) (en : s'.nodes = s.nodes) (el : s'.live = s.live ++ [(a, n)]) (hfr : ∀ b ∈ s.live, Apart a n b.1 b.2)
    (hw : word s'.m x.addr = a) (hz : ∀ p, a ≤ p → p < a + n → s'.m p = 0) (hm : ∀ p, ¬ (x.addr ≤ p ∧ p < x.addr + 8) → ¬ (a ≤ p ∧ p < a + n) → s'.m p = s.m p) :
    All E dst ext live0 i s' ∧ ∀ (j : Nat) (y : Node), s'.nodes[j]? = some y → y.addr ≠ 0 → Apart y.addr (room E.tds y.fd) a n := by
  have hx0 : x.addr ≠ 0 := cell_addr h hx (.inl ht)
  have hpre : s.live <+: s'.live := by rw [el]; exact List.prefix_append _ _
  have hnews : s'.live.drop live0.length = s.live.drop live0.length ++ [(a, n)] := by
    have hle : live0.length ≤ s.live.length := by obtain ⟨l, e⟩ := h.live; rw [← e]; simp
    rw [el, List.drop_append_of_le_length hle]
  have hhome : ∀ {b k : Nat}, covered (home dst ext live0 s.live) b k = true → Apart b k a n := by
    intro b k hc
    have hl := home_live S.space h.live hc
    rw [covered_mem] at hl
    obtain ⟨c, hc1, hc2⟩ := hl
    have := hfr c hc1
    unfold Apart at *
    omega
  have hapart : ∀ (j : Nat) (y : Node), s.nodes[j]? = some y → y.addr ≠ 0 → Apart y.addr (room E.tds y.fd) a n := fun j y hy hy0 => hhome (hA.ok j y hy hy0).2.1
  have hcx : isCell x := .inl ht
  have hxo := (hA.ok i x hx hx0).1
  have hwo : ∀ (j : Nat) (y : Node), j ≠ i → s.nodes[j]? = some y → isCell y → word s'.m y.addr = word s.m y.addr := by
    intro j y hj hy hcy
    have h1 := h.apart j i y x hj hy hx hcy hcx
    have h2 := hapart j y hy (cell_addr h hy hcy)
    rw [room_cell hcy (hA.ok j y hy (cell_addr h hy hcy)).1.own.1] at h2
    unfold Apart at *
    exact word_congr fun k hk => hm _ (by omega) (by omega)
  refine ⟨⟨fun j y hy hy0 => ?_, fun j y hy hty hj => ?_, fun p hp => ?_⟩, fun j y hy hy0 => hapart j y (by rw [← en]; exact hy) hy0⟩
  · rw [en] at hy
    obtain ⟨o1, o2, o3⟩ := hA.ok j y hy hy0
    refine ⟨?_, home_mono hpre o2, o3⟩
    by_cases hj : j = i
    · subst hj
      rw [hx] at hy; cases hy
      have hpt : x.fd.ty = .pointer := by rw [← hxo.own.1]; exact ht
      obtain ⟨d, hd, _⟩ := o1.vals
      refine ⟨o1.own, ⟨d, hd, ?_⟩, fun hnc q z hq hz hcz => o1.cells hnc q z hq (by rw [← en]; exact hz) hcz, o1.named⟩
      unfold Vals
      rw [hpt]
      trivial
    · have hap := hapart j y hy hy0
      have hmem : ¬ compound y.fd.ty → ∀ k, k < room E.tds y.fd → s'.m (y.addr + k) = s.m (y.addr + k) := by
        intro hnc k hk
        have := o1.cells hnc i x (Ne.symm hj) hx hcx
        unfold Apart at *
        exact hm _ (by omega) (by omega)
      refine ok_frame o1 (fun hnc _ => hmem hnc) (fun hb q hq => ?_) (fun hst b hb hbw p h1 h2 => ?_) (fun b hb => by rw [hnews]; simp [hb]) (fun k z hz _ => ⟨z, by rw [en]; exact hz, rfl, rfl⟩)
        (fun _ k z _ hz hcz => .inl ⟨z, by rw [← en]; exact hz, hcz, rfl⟩)
      · have := good_width (tds := E.tds) hb
        exact bit_of_byte (hmem (by rw [hb]; rintro (e | e) <;> cases e) _ (by omega))
      · have h3 := text_apart S h (h.cell i x hx hcx) hy (o1.own.1.trans hst) hb hbw
        have h4 := hhome (b := b.1) (k := b.2) (by rw [covered_mem]; exact ⟨b, by unfold home; simp [hb], Nat.le_refl _, Nat.le_refl _⟩)
        unfold Apart at *
        exact hm _ (by omega) (by omega)
  · rw [en] at hy
    obtain ⟨d, g1, g2⟩ := hA.ptr j y hy hty hj
    refine ⟨d, g1, ?_⟩
    have := hwo j y (by omega) hy (.inl hty)
    unfold PtrOk at *
    rw [this, hnews]
    rcases g2 with g2 | g2 | ⟨g2, g3, g4, l, g5, g6⟩
    · exact .inl g2
    · exact .inr (.inl g2)
    · refine .inr (.inr ⟨g2, g3, g4, l, g5, ?_⟩)
      rcases g6 with g6 | ⟨g6, g7, g8, g9⟩
      · exact .inl g6
      · exact .inr ⟨g6, g7, by simp [g8], placed_keep g9 fun k z hz _ => ⟨z, by rw [en]; exact hz, rfl, rfl⟩⟩
  · by_cases hin : x.addr ≤ p / 8 ∧ p / 8 < x.addr + 8
    · left
      have hpt : x.fd.ty = .pointer := by rw [← hxo.own.1]; exact ht
      refine ⟨i, x, by rw [en]; exact hx, hx0, not_compound_pointer hpt, ?_⟩
      unfold lowBit highBit
      rw [hpt, room_pointer hpt]
      simp
      omega
    · by_cases hb : a ≤ p / 8 ∧ p / 8 < a + n
      · right
        unfold bitAt
        rw [hz _ hb.1 hb.2]
        simp
      · have hsame : bitAt s'.m p = bitAt s.m p := by unfold bitAt; rw [hm _ hin hb]
        have hpart : Part dst ext live0 s (p / 8) := by
          rcases hp with hp | ⟨k, y, n', hy, hty, hb', hq⟩
          · exact .inl hp
          · rw [en] at hy
            by_cases hk : k = i
            · subst hk
              rw [hx] at hy; cases hy
              rw [hw] at hb' hq
              have := news_unique S h' (b := (a, n')) (c := (a, n)) hb' (by rw [hnews]; simp) rfl
              simp only [Prod.mk.injEq, true_and] at this
              omega
            · rw [hwo k y hk hy (.inl hty)] at hb' hq
              refine .inr ⟨k, y, n', hy, hty, ?_, hq⟩
              rw [hnews] at hb'
              rcases List.mem_append.1 hb' with g | g
              · exact g
              · simp only [List.mem_singleton, Prod.mk.injEq] at g
                omega
        rw [hsame]
        rcases hA.rest p hpart with ⟨q, y, g1, g2⟩ | g1
        · exact .inl ⟨q, y, by rw [en]; exact g1, g2⟩
        · exact .inr g1

/-- objects are loaded into a new block -/
theorem all_load (hB : BitsApart E.tds) {i c : Nat} {s s' : LSt} {a n : Nat} {items : List Item} (h : Inv E dst ext live0 m0 (i + 1) s) (hA : All E dst ext live0 c s) (hc : c ≤ i + 1)
    (hil : i < E.ra.length) (hlo : ∃ x, s.nodes[i]? = some x ∧ x.addr ≠ 0)
    (hrow : Row E dst ext live0 (i + 1) s i a n items) (hsit : Sits dst ext live0 s (i + 1) a n)
    (hap : ∀ (j : Nat) (y : Node), s.nodes[j]? = some y → y.addr ≠ 0 → Apart y.addr (room E.tds y.fd) a n)
    (e : loadAll (mrLoad E E.ra.length) s items = some (true, s')) :
    All E dst ext live0 c s' ∧ Placed s' items ∧ (∀ (q : Nat) (x : Node), s.nodes[q]? = some x → x.addr ≠ 0 → s'.nodes[q]? = some x) ∧
    (∀ (q : Nat) (x : Node), s.nodes[q]? = some x → isCell x → word s'.m x.addr = word s.m x.addr) ∧ s.live <+: s'.live := by
  have hwk := load_works (m0 := m0) S E.ra.length (i + 1) i hil (by omega)
  obtain ⟨i1, i2, i3, i5, _⟩ := loadAll_told S hB hwk (load_told S hB E.ra.length (i + 1) i hil (by omega)) items s s' h hrow e
  obtain ⟨ok, s2, e2, hs⟩ := loadAll_ok S hwk items s h hrow
  rw [e] at e2
  simp only [Option.some.injEq, Prod.mk.injEq] at e2
  obtain ⟨rfl, rfl⟩ := e2
  have hnews := news_split h hs.live
  have hword : ∀ (q : Nat) (x : Node), s.nodes[q]? = some x → isCell x → word s'.m x.addr = word s.m x.addr := by
    intro q x hx hcx
    obtain ⟨o1, o2, _⟩ := hA.ok q x hx (cell_addr h hx hcx)
    have h1 := hap q x hx (cell_addr h hx hcx)
    have h2 := apart_later S.alloc S.space h hs.inv hs.live o2
    rw [room_cell hcx o1.own.1] at h1 h2
    unfold Apart at h1
    exact word_congr fun k hk => hs.mem _ (by omega) (not_covered_of_apart h2 (by omega) (by omega))
  refine ⟨⟨fun j y hy hy0 => ?_, fun j y hy hty hj => ?_, fun p hp => ?_⟩, i1, i5, hword, hs.live⟩
  · rcases i2 j y hy hy0 with ⟨y0, g1, g2⟩ | ⟨g1, g2, g3, g4⟩
    · have g3 := i5 j y0 g1 g2
      rw [hy] at g3; cases g3
      obtain ⟨o1, o2, o3⟩ := hA.ok j y g1 hy0
      exact ⟨ok_step S h hs hsit g1 hy o1 o2 (.inl (hap j y g1 hy0)) good_width, home_mono hs.live o2, o3⟩
    · exact ⟨g1, covered_part (home_mono hs.live (sits_home hsit)) g2 g3, g4⟩
  · have hold : ∃ y0, s.nodes[j]? = some y0 ∧ y0.addr ≠ 0 := by
      rcases hs.loaded j y hy (cell_addr hs.inv hy (.inl hty)) with g | g
      · exact g
      · have := desc_le S.tree g
        have : j = i := by omega
        rw [this]; exact hlo
    obtain ⟨y0, g1, g2⟩ := hold
    have g3 := i5 j y0 g1 g2
    rw [hy] at g3; cases g3
    obtain ⟨d, k1, k2⟩ := hA.ptr j y g1 hty hj
    refine ⟨d, k1, ?_⟩
    unfold PtrOk at *
    rw [hword j y g1 (.inl hty), hnews]
    rcases k2 with k2 | k2 | ⟨k2, k3, k4, l, k5, k6⟩
    · exact .inl k2
    · exact .inr (.inl k2)
    · refine .inr (.inr ⟨k2, k3, k4, l, k5, ?_⟩)
      rcases k6 with k6 | ⟨k6, k7, k8, k9⟩
      · exact .inl k6
      · exact .inr ⟨k6, k7, by simp [k8], placed_keep k9 fun k z hz hz0 => ⟨z, i5 k z hz hz0, rfl, rfl⟩⟩
  · have hpart : Part dst ext live0 s (p / 8) ∧ covered (home dst ext live0 s.live) (p / 8) 1 = true := by
      rcases hp with hp | ⟨k, y, n', hy, hty, hb', hq⟩
      · exact ⟨.inl hp, by rw [covered_mem]; exact ⟨(dst, ext), by unfold home; simp, by simp only; omega, by simp only; omega⟩⟩
      · have hk : k < i + 1 := by
          refine Classical.byContradiction fun hk => ?_
          have := hs.inv.fresh k y hy hty (by omega)
          rw [this] at hb'
          exact part_pos S hs.inv hb' rfl
        have hold : ∃ y0, s.nodes[k]? = some y0 ∧ y0.addr ≠ 0 := by
          rcases hs.loaded k y hy (cell_addr hs.inv hy (.inl hty)) with g | g
          · exact g
          · have := desc_le S.tree g
            have : k = i := by omega
            rw [this]; exact hlo
        obtain ⟨y0, g1, g2⟩ := hold
        have g3 := i5 k y0 g1 g2
        rw [hy] at g3; cases g3
        rw [hword k y g1 (.inl hty)] at hb' hq
        have hin : (word s.m y.addr, n') ∈ s.live.drop live0.length := by
          rcases h.val k y g1 (.inl hty) with g | ⟨b, hb, g⟩
          · rw [g] at hb'
            exact absurd rfl (part_pos S hs.inv hb')
          · have := news_unique S hs.inv (b := (word s.m y.addr, n')) (c := b) hb' (by rw [hnews]; simp [hb]) g.symm
            rw [this]; exact hb
        exact ⟨.inr ⟨k, y, n', g1, hty, hin, hq⟩, by rw [covered_mem]; exact ⟨_, by unfold home; simp only [List.mem_cons]; exact .inr hin, by simp only; omega, by simp only; omega⟩⟩
    by_cases hch : bitAt s'.m p = bitAt s.m p
    · rw [hch]
      rcases hA.rest p hpart.1 with g | g
      · exact .inl (inLeaf_keep hs g)
      · exact .inr g
    · rcases i3 p hch with g | g
      · exact .inl g
      · exfalso
        have := not_covered_of_apart (apart_later S.alloc S.space h hs.inv hs.live hpart.2) (Nat.le_refl _) (Nat.lt_succ_self _)
        rw [this] at g
        cases g

theorem postponed_told (hB : BitsApart E.tds) : ∀ (n i : Nat) (s s' : LSt), i + n = E.ra.length → Inv E dst ext live0 m0 i s → All E dst ext live0 i s →
    postponed E (List.range' i n) s = some (true, s') → All E dst ext live0 E.ra.length s' ∧ ∀ (q : Nat) (x : Node), s.nodes[q]? = some x → x.addr ≠ 0 → ∃ x', s'.nodes[q]? = some x' ∧ x'.addr = x.addr ∧ x'.fd = x.fd := by
  intro n
  induction n with
  | zero =>
    intro i s s' hn h hA e
    simp only [List.range'_zero, postponed, Option.some.injEq, Prod.mk.injEq, true_and] at e
    subst e
    exact ⟨by rw [← hn]; exact hA, fun q x hx _ => ⟨x, hx, rfl, rfl⟩⟩
  | succ n ih =>
    intro i s s' hn h hA e
    have hil : i < s.nodes.length := by rw [h.len]; omega
    rw [List.range'_succ] at e
    unfold postponed at e
    have hx := List.getElem?_eq_getElem hil
    rw [hx] at e
    simp only [Option.bind_eq_bind, Option.bind_some] at e
    generalize s.nodes[i] = x at hx e
    by_cases ht : x.ty = .pointer
    · rw [if_pos ht] at e
      obtain ⟨ok, s1, items, a, k, e1, hinv, hrow, hblk⟩ := pointer_ok S h hx ht
      rw [e1] at e
      simp only [Option.bind_some] at e
      cases ok with
      | false => simp at e
      | true =>
        simp only [if_true] at e
        obtain ⟨⟨ok, s2⟩, e2, e⟩ := Option.bind_eq_some_iff.1 e
        cases ok with
        | false => simp at e
        | true =>
          simp only [if_true] at e
          have hx0 : x.addr ≠ 0 := cell_addr h hx (.inl ht)
          have hinv2 : Inv E dst ext live0 m0 (i + 1) s2 := by
            obtain ⟨ok, s3, e3, hs3⟩ := loadAll_ok S (load_works S E.ra.length (i + 1) i (by omega) (by omega)) items s1 hinv hrow
            rw [e2] at e3
            simp only [Option.some.injEq, Prod.mk.injEq] at e3
            rw [e3.2]; exact hs3.inv
          obtain ⟨d, hd, hcase⟩ := pointer_told S h hx ht e1
          have hkey : All E dst ext live0 (i + 1) s2 ∧ ∀ (q : Nat) (x : Node), s.nodes[q]? = some x → x.addr ≠ 0 → ∃ x', s2.nodes[q]? = some x' ∧ x'.addr = x.addr ∧ x'.fd = x.fd := by
            rcases hcase with ⟨k1, k2, k3⟩ | ⟨k1, k2, k3, k4, k5, v, k6, k7⟩ | ⟨k1, k2, l, k3, k4, k5, k6, k7, k8⟩
            · subst k1 k2
              simp only [loadAll, Option.some.injEq, Prod.mk.injEq, true_and] at e2
              subst e2
              refine ⟨⟨hA.ok, fun j y hy hty hj => ?_, hA.rest⟩, fun q x hx _ => ⟨x, hx, rfl, rfl⟩⟩
              by_cases hji : j = i
              · subst hji
                rw [hx] at hy; cases hy
                exact ⟨d, hd, k3⟩
              · exact hA.ptr j y hy hty (by omega)
            · subst k1
              simp only [loadAll, Option.some.injEq, Prod.mk.injEq, true_and] at e2
              subst e2
              refine ⟨all_flag h hA hx ht k2 k3 k4 hd k5 k6 k7, fun q y hy hy0 => ?_⟩
              by_cases hq : q = i
              · subst hq
                rw [hx] at hy; cases hy
                have hs := flagged_same x v
                exact ⟨_, k7, hs.1, hs.2.1⟩
              · exact ⟨y, by rw [k4 q hq]; exact hy, rfl, rfl⟩
            · have hpl : Plain x := h.early i x hx ht (Nat.le_refl _)
              have hnil : items ≠ [] := by
                rw [k8]
                cases l with
                | nil => exact absurd rfl k4
                | cons c l => simp [elements]
              rcases hblk with hblk | ⟨hblk, hsit⟩
              · exact absurd hblk hnil
              have hak : (a, k) = (E.alloc s.live (l.length * (pointee E x).size), l.length * (pointee E x).size) := by
                rw [k7] at hblk
                have := List.append_cancel_left hblk
                simp only [List.cons.injEq, and_true] at this
                exact this.symm
              simp only [Prod.mk.injEq] at hak
              obtain ⟨ha, hk⟩ := hak
              rw [← hk] at k6 k7 k8 ha
              rw [← ha] at k6 k7 k8
              have hcov : covered s.live x.addr 8 = true := cell_live S h (h.cell i x hx (.inl ht))
              have hap := alloc_apart S (n := k) (by rw [← ha]; exact k6) hcov
              have hsp := S.alloc.space s.live k (by rw [← ha]; exact k6)
              have hk0 : 0 < k := by
                rw [hk]
                exact Nat.mul_pos (by cases l; exact absurd rfl k4; simp) (by omega)
              rw [← ha] at hap hsp
              obtain ⟨m1, m2⟩ := mem_store (m := s.m) hsp hk0 hap (t := []) (by simp)
              have hput : ∀ (m : Bytes) (a : Nat), put m a [] = m := by intro m a; funext b; exact put_out (by simp)
              rw [hput] at m1 m2
              obtain ⟨hA1, hapart⟩ := all_block S h hinv hA hx ht (a := a) (n := k) (by rw [k7]) (by rw [k7]) (fun b hb => by rw [ha]; exact S.alloc.fresh s.live k (by rw [← ha]; exact k6) b hb)
                (by rw [k7]; exact m1) (fun p h1 h2 => by
                  rw [k7]
                  unfold Apart at hap
                  show setWord _ _ _ _ = 0
                  rw [setWord_other (by omega), show p = a + (p - a) from by omega, put_in (bs := List.replicate k 0) (k := p - a) (v := 0) (by rw [List.getElem?_replicate, if_pos (by omega)])]
                  rfl) (by rw [k7]; exact m2)
              have hxs1 : s1.nodes[i]? = some x := by rw [k7]; exact hx
              obtain ⟨hA2, hplc, hst, hwd, hpre⟩ := all_load S hB hinv hA1 (Nat.le_succ i) (by omega) ⟨x, hxs1, hx0⟩ hrow hsit hapart e2
              refine ⟨⟨hA2.ok, fun j y hy hty hj => ?_, hA2.rest⟩, fun q y hy hy0 => ⟨y, hst q y (by rw [k7]; exact hy) hy0, rfl, rfl⟩⟩
              by_cases hji : j = i
              · subst hji
                have hxs2 := hst j x hxs1 hx0
                rw [hxs2] at hy; cases hy
                have hw2 : word s2.m x.addr = a := by rw [hwd j x hxs1 (.inl ht), k7]; exact m1
                refine ⟨d, hd, .inr (.inr ⟨k1, k2, hpl, l, k3, .inr ⟨k4, k5, ?_, ?_⟩⟩)⟩
                · rw [hw2, ← hk]
                  rw [news_split hinv hpre, hblk]
                  have hle : live0.length ≤ s.live.length := by obtain ⟨l, e⟩ := h.live; rw [← e]; simp
                  rw [List.drop_append_of_le_length hle]
                  simp
                · rw [hw2, ← k8]; exact hplc
              · exact hA2.ptr j y hy hty (by omega)
          obtain ⟨j1, j2⟩ := ih (i + 1) s2 s' (by omega) hinv2 hkey.1 e
          refine ⟨j1, fun q y hy hy0 => ?_⟩
          obtain ⟨y1, g1, g2, g3⟩ := hkey.2 q y hy hy0
          obtain ⟨y2, g4, g5, g6⟩ := j2 q y1 g1 (by rw [g2]; exact hy0)
          exact ⟨y2, g4, g5.trans g2, g6.trans g3⟩
    · rw [if_neg ht] at e
      refine ih (i + 1) s s' (by omega) (inv_mono (by omega) h) ⟨hA.ok, fun j y hy hty hj => ?_, hA.rest⟩ e
      by_cases hji : j = i
      · subst hji
        rw [hx] at hy; cases hy
        exact absurd hty ht
      · exact hA.ptr j y hy hty (by omega)

end
end Verif.Lemmas.LoadPtr
