import Verif.Lemmas.LoadEnd
import Verif.Spec.LoadSays
/-!
Loading a tree of nodes: what is stored is what the nodes say.  One node, and what later steps leave alone.
-/
namespace Verif.Lemmas.LoadSays
open Verif.Model Verif.Model.Ptrs Verif.Model.Save Verif.Model.Copy Verif.Model.Load Verif.Spec Verif.Spec.Save Verif.Spec.Load Verif.Spec.LoadSays
  Verif.Lemmas.XdrMem Verif.Lemmas.CopyMem Verif.Lemmas.LoadSafe Verif.Lemmas.LoadInv Verif.Lemmas.LoadStep Verif.Lemmas.LoadRow Verif.Lemmas.LoadOpen Verif.Lemmas.LoadEnd
open Verif.Model.XdrGraph (put peek bytesAt bitBytes toBits ofBits bytesWord tdAt tdType wordBytes)
open Verif.Spec.Copy (Apart Layout span Allocator Grown)
open Verif.Spec.XdrGraph (bitAt)
open Verif.Lemmas.XdrSafe (home home_mono home_live not_home)

section
variable (E : Env) (live0 : Blocks)

/-- the nodes of these objects are loaded as these objects -/
def Placed (s : LSt) (items : List Item) : Prop :=
  ∀ it ∈ items, ∃ c b g y, it = some (c, b, g) ∧ s.nodes[c]? = some y ∧ y.addr = b ∧ y.fd = g ∧ b ≠ 0

/-- the flags of a reference -/
def Flag (x : Node) (v : BitVec 128) : Prop :=
  (0 ≤ v.toInt ∧ x.ref = true ∧ x.cref = false ∧ x.first = u32 v.toNat) ∨ (v.toInt < 0 ∧ x.ref = false ∧ x.cref = true ∧ x.first = u32 (-v).toNat)

def Plain (x : Node) : Prop := x.ref = false ∧ x.cref = false

/-- a string -/
def Str (s : LSt) (x : Node) (d : Doc) : Prop :=
  (d.null = true ∧ word s.m x.addr = 0 ∧ Plain x) ∨
  (d.null = false ∧ ∃ t, d.val = .text t ∧ Plain x ∧ (word s.m x.addr, t.length + 1) ∈ s.live.drop live0.length ∧
    ∀ k, k ≤ t.length → s.m (word s.m x.addr + k) = UInt8.ofNat (t.getD k 0)) ∨
  (d.null = false ∧ ∃ v, d.val = .int v ∧ Flag x v ∧ word s.m x.addr = 0)

/-- what was stored for a node -/
def Vals (s : LSt) (j : Nat) (x : Node) (d : Doc) : Prop :=
  match x.fd.ty with
  | .none | .void | .pointer => True
  | .string => Str live0 s x d
  | .struct => ∃ items, loadStruct E s j x.addr x.fd = some (true, s, items) ∧ Placed s items
  | .array => ∃ items, loadArray E s j x.addr x.fd = some (true, s, items) ∧ Placed s items
  | .bitfield => match E.conv x.fd j with
    | .fail => False
    | .keep => True
    | .store v => ∀ q, q < x.fd.width → bitAt s.m (8 * x.addr + (x.fd.shift + q)) = (bytesWord (convBytes 16 v)).getLsbD q
  | _ => ∃ b, valueBytes E x.fd j d = some b ∧ ∀ k, k < room E.tds x.fd → s.m (x.addr + k) = b k

def compound (t : MrType) : Prop := t = .struct ∨ t = .array

/-- a node was loaded -/
structure Ok (s : LSt) (j : Nat) (x : Node) : Prop where
  own : x.ty = x.fd.ty ∧ (¬ compound x.fd.ty → x.aux = x.fd.aux ∧ x.td = x.fd.td)
  vals : ∃ d, E.data[j]? = some d ∧ Vals E live0 s j x d
  cells : ¬ compound x.fd.ty → ∀ (k : Nat) (y : Node), k ≠ j → s.nodes[k]? = some y → isCell y → Apart y.addr 8 x.addr (room E.tds x.fd)
  named : ∀ d, E.data[j]? = some d → (∀ n, d.name = some n → x.fd.unnamed = false → x.fd.name ≠ [] → n = x.fd.name) ∧ ∀ t, d.typed = some t → t = x.fd.td

variable {E live0}

theorem placed_keep {s s' : LSt} {items : List Item} (h : Placed s items) (hk : ∀ (j : Nat) (x : Node), s.nodes[j]? = some x → x.addr ≠ 0 → ∃ x', s'.nodes[j]? = some x' ∧ x'.addr = x.addr ∧ x'.fd = x.fd) :
    Placed s' items := by
  intro it hit
  obtain ⟨c, b, g, y, h1, h2, h3, h4, h5⟩ := h it hit
  obtain ⟨y', g1, g2, g3⟩ := hk c y h2 (by rw [h3]; exact h5)
  exact ⟨c, b, g, y', h1, g1, g2.trans h3, g3.trans h4, h5⟩

theorem loadStruct_state {s s' : LSt} {j a : Nat} {f : Fd} {items : List Item} (h : loadStruct E s j a f = some (true, s, items)) : loadStruct E s' j a f = some (true, s', items) := by
  unfold loadStruct at *
  cases e : tdAt E.tds f.td with
  | none => rw [e] at h; cases h
  | some d =>
    rw [e] at h
    simp only [Option.bind_eq_bind] at h ⊢
    obtain ⟨l, h1, h⟩ := Option.bind_eq_some_iff.1 h
    obtain ⟨it, h2, h⟩ := Option.bind_eq_some_iff.1 h
    rw [h1]
    simp only [Option.bind_some]
    rw [h2]
    simp only [Option.some.injEq, Prod.mk.injEq, true_and] at h
    rw [← h]
    rfl

theorem loadArray_state {s s' : LSt} {j a : Nat} {f : Fd} {items : List Item} (h : loadArray E s j a f = some (true, s, items)) : loadArray E s' j a f = some (true, s', items) := by
  unfold loadArray at *
  simp only [Option.bind_eq_bind] at h ⊢
  obtain ⟨l, h1, h⟩ := Option.bind_eq_some_iff.1 h
  rw [h1]
  simp only [Option.bind_some] at h ⊢
  by_cases hc : f.dims.headD 0 = 0
  · rw [if_pos hc] at h ⊢
    by_cases hl : l = []
    · rw [if_pos hl] at h ⊢
      simp only [finished, Option.some.injEq, Prod.mk.injEq, true_and] at h ⊢
      exact h
    · rw [if_neg hl] at h; simp [failed] at h
  · rw [if_neg hc] at h ⊢
    by_cases hs : f.size = 0
    · rw [if_pos hs] at h; simp [failed] at h
    · rw [if_neg hs] at h ⊢
      simp only [Option.some.injEq, Prod.mk.injEq, true_and] at h ⊢
      exact h

theorem str_keep {s s' : LSt} {x : Node} {d : Doc} (h : Str live0 s x d) (hm : ∀ k, k < 8 → s'.m (x.addr + k) = s.m (x.addr + k))
    (ht : ∀ b ∈ s.live.drop live0.length, b.1 = word s.m x.addr → ∀ p, b.1 ≤ p → p < b.1 + b.2 → s'.m p = s.m p)
    (hn : ∀ b ∈ s.live.drop live0.length, b ∈ s'.live.drop live0.length) : Str live0 s' x d := by
  have hw : word s'.m x.addr = word s.m x.addr := word_congr hm
  unfold Str
  rw [hw]
  rcases h with h | ⟨h0, t, h1, h2, h3, h4⟩ | h
  · exact .inl h
  · refine .inr (.inl ⟨h0, t, h1, h2, hn _ h3, fun k hk => ?_⟩)
    rw [ht _ h3 rfl _ (by simp only; omega) (by simp only; omega)]
    exact h4 k hk
  · exact .inr (.inr h)

/-- what was stored stays -/
theorem vals_keep {s s' : LSt} {j : Nat} {x : Node} {d : Doc} (h : Vals E live0 s j x d)
    (hm : ¬ compound x.fd.ty → x.fd.ty ≠ .bitfield → ∀ k, k < room E.tds x.fd → s'.m (x.addr + k) = s.m (x.addr + k))
    (hb : x.fd.ty = .bitfield → ∀ q, q < x.fd.width → bitAt s'.m (8 * x.addr + (x.fd.shift + q)) = bitAt s.m (8 * x.addr + (x.fd.shift + q)))
    (ht : x.fd.ty = .string → ∀ b ∈ s.live.drop live0.length, b.1 = word s.m x.addr → ∀ p, b.1 ≤ p → p < b.1 + b.2 → s'.m p = s.m p)
    (hn : ∀ b ∈ s.live.drop live0.length, b ∈ s'.live.drop live0.length)
    (hk : ∀ (j : Nat) (x : Node), s.nodes[j]? = some x → x.addr ≠ 0 → ∃ x', s'.nodes[j]? = some x' ∧ x'.addr = x.addr ∧ x'.fd = x.fd) : Vals E live0 s' j x d := by
  unfold Vals at *
  have h8 : x.fd.ty = .string → room E.tds x.fd = 8 := by
    intro e
    unfold room
    rw [e]
    simp [elementSize, typeSize]
  cases e : x.fd.ty <;> rw [e] at h hm hb ht h8 <;> simp only [compound] at *
  case string => exact str_keep h (fun k hk => hm (by simp) (by simp) k (by rw [h8 trivial]; exact hk)) (ht trivial) hn
  case struct => obtain ⟨items, h1, h2⟩ := h; exact ⟨items, loadStruct_state h1, placed_keep h2 hk⟩
  case array => obtain ⟨items, h1, h2⟩ := h; exact ⟨items, loadArray_state h1, placed_keep h2 hk⟩
  case bitfield =>
    revert h
    cases E.conv x.fd j with
    | fail => exact id
    | keep => exact id
    | store v => intro h q hq; rw [hb trivial q hq]; exact h q hq
  all_goals (obtain ⟨b, h1, h2⟩ := h; exact ⟨b, h1, fun k hk => by rw [hm (by simp) (by simp) k hk]; exact h2 k hk⟩)

theorem ok_frame {s s' : LSt} {j : Nat} {x : Node} (h : Ok E live0 s j x)
    (hm : ¬ compound x.fd.ty → x.fd.ty ≠ .bitfield → ∀ k, k < room E.tds x.fd → s'.m (x.addr + k) = s.m (x.addr + k))
    (hb : x.fd.ty = .bitfield → ∀ q, q < x.fd.width → bitAt s'.m (8 * x.addr + (x.fd.shift + q)) = bitAt s.m (8 * x.addr + (x.fd.shift + q)))
    (ht : x.fd.ty = .string → ∀ b ∈ s.live.drop live0.length, b.1 = word s.m x.addr → ∀ p, b.1 ≤ p → p < b.1 + b.2 → s'.m p = s.m p)
    (hn : ∀ b ∈ s.live.drop live0.length, b ∈ s'.live.drop live0.length)
    (hk : ∀ (j : Nat) (x : Node), s.nodes[j]? = some x → x.addr ≠ 0 → ∃ x', s'.nodes[j]? = some x' ∧ x'.addr = x.addr ∧ x'.fd = x.fd)
    (hc : ¬ compound x.fd.ty → ∀ (k : Nat) (y : Node), k ≠ j → s'.nodes[k]? = some y → isCell y →
      (∃ y0, s.nodes[k]? = some y0 ∧ isCell y0 ∧ y0.addr = y.addr) ∨ Apart y.addr 8 x.addr (room E.tds x.fd)) : Ok E live0 s' j x := by
  obtain ⟨d, h1, h2⟩ := h.vals
  refine ⟨h.own, ⟨d, h1, vals_keep h2 hm hb ht hn hk⟩, fun hnc k y hkj hy hcy => ?_, h.named⟩
  rcases hc hnc k y hkj hy hcy with ⟨y0, g1, g2, g3⟩ | g
  · rw [← g3]; exact h.cells hnc k y0 hkj g1 g2
  · exact g

variable {dst ext : Nat} {m0 : Bytes} (S : Setup E dst ext live0)
include S

/-- the text of a string is apart from everything that is loaded -/
theorem text_apart {cur : Nat} {s : LSt} (h : Inv E dst ext live0 m0 cur s) {i a n : Nat} (hs : Sits dst ext live0 s i a n) {j : Nat} {x : Node} (hx : s.nodes[j]? = some x)
    (ht : x.ty = .string) {b : Nat × Nat} (hb : b ∈ s.live.drop live0.length) (hw : b.1 = word s.m x.addr) : Apart b.1 b.2 a n := by
  rcases hs with h1 | ⟨c, hc, h1, h2⟩
  · have hc0 := S.space
    rw [covered_mem] at hc0
    obtain ⟨c, hc, h3, h4⟩ := hc0
    have := grown_old S.alloc h.grown b hb c hc
    unfold Apart at *
    omega
  · by_cases e : b = c
    · subst e
      have := (h2 j x hx (.inr ht) hw.symm).2
      rw [ht] at this
      cases this
    · have hp := grown_apart S.alloc h.grown
      have : Apart b.1 b.2 c.1 c.2 := by
        obtain ⟨p, hp1, hp2⟩ := List.mem_iff_getElem.1 hb
        obtain ⟨q, hq1, hq2⟩ := List.mem_iff_getElem.1 hc
        rw [List.pairwise_iff_getElem] at hp
        rcases Nat.lt_trichotomy p q with hlt | rfl | hlt
        · have := hp p q hp1 hq1 hlt
          rw [hp2, hq2] at this
          exact this
        · exact absurd (hp2.symm.trans hq2) e
        · have := hp q p hq1 hp1 hlt
          rw [hp2, hq2] at this
          unfold Apart at *
          omega
      unfold Apart at *
      omega

omit S in
/-- below a node that was not loaded nothing was loaded -/
theorem blank_desc {cur : Nat} {s : LSt} (h : Inv E dst ext live0 m0 cur s) (hT : Tree E.ra) {i q : Nat} (hi0 : i ≠ 0) (hi : ∀ x : Node, s.nodes[i]? = some x → x.addr = 0)
    (hd : Desc E.ra i q) : ∀ x : Node, s.nodes[q]? = some x → x.addr = 0 := by
  induction hd with
  | self => exact hi
  | @down c pc h1 h2 ih =>
    intro x hx
    refine Classical.byContradiction fun hne => ?_
    rcases h.ready c pc x h1 hx hne with h3 | ⟨y, h3, h4, _⟩
    · have := desc_le hT h2
      omega
    · exact h4 (ih y h3)

/-- a later step leaves what was loaded before alone -/
theorem ok_step {cur i a n : Nat} {bit : Bool} {s s' : LSt} (h : Inv E dst ext live0 m0 cur s) (hs : Step E dst ext live0 m0 cur i a n bit s s') {i' : Nat} (hsit : Sits dst ext live0 s i' a n)
    {j : Nat} {x : Node} (hx : s.nodes[j]? = some x) (hx' : s'.nodes[j]? = some x) (hok : Ok E live0 s j x) (hcov : covered (home dst ext live0 s.live) x.addr (room E.tds x.fd) = true)
    (hap : Apart x.addr (room E.tds x.fd) a n ∨ (bit = true ∧ x.fd.ty = .bitfield ∧
      ∀ q, q < x.fd.width → bitAt s'.m (8 * x.addr + (x.fd.shift + q)) = bitAt s.m (8 * x.addr + (x.fd.shift + q)))) (hwid : x.fd.ty = .bitfield → x.fd.shift + x.fd.width ≤ 8 * room E.tds x.fd) :
    Ok E live0 s' j x := by
  have hlater := apart_later S.alloc S.space h hs.inv hs.live hcov
  have hmem : Apart x.addr (room E.tds x.fd) a n → ∀ k, k < room E.tds x.fd → s'.m (x.addr + k) = s.m (x.addr + k) := by
    intro hap k hk
    unfold Apart at hap
    exact hs.mem _ (by omega) (not_covered_of_apart hlater (by omega) (by omega))
  refine ok_frame hok (fun _ hnb k hk => ?_) (fun hbf q hq => ?_) (fun ht b hb hw p h1 h2 => ?_) (fun b hb => by rw [news_split h hs.live]; simp [hb])
    (fun k y hy hy0 => by obtain ⟨y', g1, g2, g3, g4, _⟩ := hs.keep k y hy hy0; exact ⟨y', g1, g2, g4⟩) (fun hnc k y hkj hy hcy => ?_)
  · rcases hap with hap | hap
    · exact hmem hap k hk
    · exact absurd hap.2.1 hnb
  · rcases hap with hap | hap
    · exact bit_of_byte (hmem hap _ (by have := hwid hbf; omega))
    · exact hap.2.2 q hq
  · have := text_apart S h hsit hx (hok.own.1.trans ht) hb hw
    have h3 : covered (home dst ext live0 s.live) b.1 b.2 = true := by
      rw [covered_mem]
      exact ⟨b, by unfold home; simp [hb], Nat.le_refl _, Nat.le_refl _⟩
    unfold Apart at this
    exact hs.mem p (by omega) (not_covered_of_apart (apart_later S.alloc S.space h hs.inv hs.live h3) (by omega) (by omega))
  · rcases hs.cells k y hy hcy with ⟨y0, h1, h2⟩ | ⟨h1, h2, h3⟩ | h1
    · obtain ⟨y', g1, g2, g3, _⟩ := hs.keep k y0 h1 h2
      rw [hy] at g1; cases g1
      exact .inl ⟨y0, h1, by unfold isCell at *; rw [← g3]; exact hcy, g2.symm⟩
    · rcases hap with hap | hap
      · unfold Apart at *; omega
      · rw [hap.1] at h1; cases h1
    · rw [covered_mem] at h1
      obtain ⟨c, hc, h2⟩ := h1
      have := hlater c hc
      unfold Apart at *
      omega

/-! ### one object after another -/

/-- the bits of an object -/
def lowBit (f : Fd) : Nat := if f.ty = .bitfield then f.shift else 0
def highBit (tds : List Td) (f : Fd) : Nat := if f.ty = .bitfield then f.shift + f.width else 8 * room tds f

/-- bit `p` belongs to something that was loaded -/
def InLeaf (E : Env) (s : LSt) (p : Nat) : Prop := ∃ (q : Nat) (x : Node), s.nodes[q]? = some x ∧ x.addr ≠ 0 ∧ ¬ compound x.fd.ty ∧
  8 * x.addr + lowBit x.fd ≤ p ∧ p < 8 * x.addr + highBit E.tds x.fd

/-- loaded in `s'` but not in `s`, and correctly -/
def Fresh (E : Env) (live0 : Blocks) (s s' : LSt) (a n : Nat) : Prop := ∀ (q : Nat) (x : Node), s'.nodes[q]? = some x → x.addr ≠ 0 →
  (∃ x0, s.nodes[q]? = some x0 ∧ x0.addr ≠ 0) ∨ (Ok E live0 s' q x ∧ a ≤ x.addr ∧ x.addr + room E.tds x.fd ≤ a + n ∧ Good E.tds x.fd)

def Rest (E : Env) (s s' : LSt) : Prop := ∀ p, bitAt s'.m p ≠ bitAt s.m p → InLeaf E s' p ∨ covered (s'.live.drop s.live.length) (p / 8) 1 = true

/-- the node `j` was loaded as an object of type `g` at `b` -/
structure Told (E : Env) (live0 : Blocks) (s s' : LSt) (j b : Nat) (g : Fd) : Prop where
  node : ∃ x, s'.nodes[j]? = some x ∧ x.addr = b ∧ b ≠ 0 ∧ x.fd = g
  fresh : Fresh E live0 s s' b (room E.tds g)
  only : g.ty = .bitfield → ∀ q (x : Node), s'.nodes[q]? = some x → x.addr ≠ 0 → (∃ x0, s.nodes[q]? = some x0 ∧ x0.addr ≠ 0) ∨ q = j
  bits : g.ty = .bitfield → ∀ p, ¬ (8 * b + g.shift ≤ p ∧ p < 8 * b + g.shift + g.width) → bitAt s'.m p = bitAt s.m p
  rest : Rest E s s'

omit S in
theorem good_width {tds : List Td} {f : Fd} (h : f.ty = .bitfield) : f.shift + f.width ≤ 8 * room tds f := by
  unfold room
  rw [h]
  simp only [bitBytes]
  have : (f.shift + f.width + 7) / 8 ≤ Nat.max 1 ((f.shift + f.width + 7) / 8) := Nat.le_max_right _ _
  omega

omit S in
theorem inLeaf_keep {cur i a n : Nat} {bit : Bool} {s s' : LSt} (hs : Step E dst ext live0 m0 cur i a n bit s s') {p : Nat} (h : InLeaf E s p) : InLeaf E s' p := by
  obtain ⟨q, x, h1, h2, h3, h4⟩ := h
  obtain ⟨x', g1, g2, g3, g4, _⟩ := hs.keep q x h1 h2
  exact ⟨q, x', g1, by rw [g2]; exact h2, by rw [g4]; exact h3, by rw [g2, g4]; exact h4⟩

omit S in
theorem rest_trans {cur i a n : Nat} {bit : Bool} {s s' s'' : LSt} (hl : s.live <+: s'.live) (hs : Step E dst ext live0 m0 cur i a n bit s' s'') (h : Rest E s s') (h' : Rest E s' s'') : Rest E s s'' := by
  intro p hp
  rw [drop_split hl hs.live]
  by_cases e : bitAt s''.m p = bitAt s'.m p
  · rcases h p (by rw [← e]; exact hp) with h1 | h1
    · exact .inl (inLeaf_keep hs h1)
    · exact .inr (covered_mono h1)
  · rcases h' p e with h1 | h1
    · exact .inl h1
    · exact .inr (covered_right h1)

theorem loadAll_told (hB : BitsApart E.tds) {cur i0 a0 n0 : Nat} {inner : LSt → Nat × Nat × Fd → Option (Bool × LSt)}
    (hw : Works E dst ext live0 m0 cur i0 inner)
    (ht : ∀ s j b g s', Inv E dst ext live0 m0 cur s → i0 < j → Slot (E := E) (dst := dst) (ext := ext) (live0 := live0) cur s j b g → inner s (j, b, g) = some (true, s') →
      Told E live0 s s' j b g) : ∀ (l : List Item) (s s' : LSt), Inv E dst ext live0 m0 cur s → Row E dst ext live0 cur s i0 a0 n0 l → loadAll inner s l = some (true, s') →
    Placed s' l ∧ Fresh E live0 s s' a0 n0 ∧ Rest E s s' ∧ (∀ (q : Nat) (x : Node), s.nodes[q]? = some x → x.addr ≠ 0 → s'.nodes[q]? = some x) ∧
    (∀ j b g, Clear E j b g l → ∀ (q : Nat) (x : Node), s.nodes[q]? = some x → x.addr ≠ 0 → Ok E live0 s q x → b ≤ x.addr → x.addr + room E.tds x.fd ≤ b + room E.tds g →
      (g.ty = .bitfield → x.fd = g ∧ x.addr = b) → covered (home dst ext live0 s.live) x.addr (room E.tds x.fd) = true → s'.nodes[q]? = some x ∧ Ok E live0 s' q x) := by
  intro l
  induction l with
  | nil =>
    intro s s' h _ e
    simp only [loadAll, Option.some.injEq, Prod.mk.injEq, true_and] at e
    subst e
    refine ⟨(fun it hit => by cases hit), fun q x hx h0 => .inl ⟨x, hx, h0⟩, fun p hp => absurd rfl hp, fun _ _ hx _ => hx, fun j b g _ q x hx _ hok _ _ _ _ => ⟨hx, hok⟩⟩
  | cons it l ih =>
    intro s s' h hr e
    cases it with
    | none => simp [loadAll] at e
    | some it =>
      obtain ⟨j, b, g⟩ := it
      rcases hr with hr | ⟨h1, h2, h3, h4, h5, h6⟩
      · simp [loadAll, hw.2 s j b g hr] at e
      obtain ⟨ok, s1, e1, hs1⟩ := hw.1 s j b g h h2 h1
      simp only [loadAll, e1, Option.bind_eq_bind, Option.bind_some] at e
      cases ok with
      | false => simp at e
      | true =>
        simp only [if_true] at e
        have htold := ht s j b g s1 h h2 h1 e1
        have hr1 := row_step S h hs1 h5 h6
        obtain ⟨i1, i2, i3, i5, i4⟩ := ih s1 s' hs1.inv hr1 e
        obtain ⟨ok', s2, e2, hs2⟩ := loadAll_ok S hw l s1 hs1.inv hr1
        rw [e] at e2
        simp only [Option.some.injEq, Prod.mk.injEq] at e2
        obtain ⟨rfl, rfl⟩ := e2
        have hsit := h1.sits
        have hmono : ∀ {a n}, covered (home dst ext live0 s.live) a n = true → covered (home dst ext live0 s1.live) a n = true := fun hc => home_mono hs1.live hc
        have hstay : ∀ (q : Nat) (x : Node), s.nodes[q]? = some x → x.addr ≠ 0 → s1.nodes[q]? = some x := by
          intro q x hx hx0
          have hnd : ¬ Desc E.ra j q := fun hd => hx0 (blank_desc h S.tree (by omega) h1.blank hd x hx)
          obtain ⟨x1, k1, _, _, _, k5⟩ := hs1.keep q x hx hx0
          rw [k1, k5 hnd]
        refine ⟨?_, ?_, rest_trans hs1.live hs2 htold.rest i3, fun q x hx hx0 => i5 q x (hstay q x hx hx0) hx0, ?_⟩
        · intro it hit
          rcases List.mem_cons.1 hit with rfl | hit
          · obtain ⟨x, g1, g2, g3, g4⟩ := htold.node
            obtain ⟨x', k1, k2, k3, k4, _⟩ := hs2.keep j x g1 (by rw [g2]; exact g3)
            exact ⟨j, b, g, x', rfl, k1, k2.trans g2, k4.trans g4, g3⟩
          · exact i1 it hit
        · intro q x hx hx0
          rcases i2 q x hx hx0 with ⟨x1, k1, k2⟩ | k1
          · rcases htold.fresh q x1 k1 k2 with k3 | ⟨k3, k4, k5, k6⟩
            · exact .inl k3
            · by_cases hold : ∃ x0, s.nodes[q]? = some x0 ∧ x0.addr ≠ 0
              · exact .inl hold
              right
              obtain ⟨k7, k8⟩ := i4 j b g h6 q x1 k1 k2 k3 k4 k5 (fun hbf => by
                rcases htold.only hbf q x1 k1 k2 with hq | hq
                · exact absurd hq hold
                · subst hq
                  obtain ⟨y, g1, g2, _, g4⟩ := htold.node
                  rw [k1] at g1; cases g1
                  exact ⟨g4, g2⟩) (covered_part (sits_home (hs1.sits h hsit)) k4 k5)
              rw [hx] at k7; cases k7
              exact ⟨k8, by omega, by omega, k6⟩
          · exact .inr k1
        · intro j' b' g' hc q x hx hx0 hok hlo hhi hbit hcov
          rcases hc with hc | ⟨c1, c2, c3⟩
          · rw [hw.2 s j b g hc] at e1
            simp at e1
          · have k1 := hstay q x hx hx0
            have hok1 : Ok E live0 s1 q x := by
              refine ok_step S h hs1 hsit hx k1 hok hcov ?_ good_width
              rcases c1 with ⟨d1, d2, d3⟩ | d1
              · right
                obtain ⟨e3, e4⟩ := hbit d1
                refine ⟨by simp [bitty, d2], by rw [e3]; exact d1, fun t htw => ?_⟩
                have hap := d3 hB
                rw [← e4] at hap
                rw [e3] at htw ⊢
                refine htold.bits d2 _ ?_
                unfold Apart at hap
                omega
              · left
                unfold Apart at *
                omega
            exact i4 j' b' g' c3 q x k1 hx0 hok1 hlo hhi hbit (hmono hcov)

end
end Verif.Lemmas.LoadSays
