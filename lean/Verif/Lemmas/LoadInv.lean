import Verif.Lemmas.LoadSafe
/-!
Loading an arbitrary tree of nodes: the invariant and the steps.
-/
namespace Verif.Lemmas.LoadInv
open Verif.Model Verif.Model.Ptrs Verif.Model.Save Verif.Model.Copy Verif.Model.Load Verif.Spec Verif.Spec.Save Verif.Spec.Copy Verif.Spec.Load
  Verif.Lemmas.XdrMem Verif.Lemmas.CopyMem Verif.Lemmas.LoadSafe
open Verif.Model.XdrGraph (put peek bytesAt bitBytes toBits ofBits bytesWord tdAt tdType wordBytes)
open Verif.Lemmas.XdrSafe (home home_mono home_live not_home)

/-- a node that is a pointer or a string -/
def isCell (x : Node) : Prop := x.ty = .pointer ∨ x.ty = .string

section
variable (E : Env) (dst ext : Nat) (live0 : Blocks) (m0 : Bytes)

/-- the blocks allocated so far -/
abbrev news (s : LSt) : Blocks := s.live.drop live0.length

/-- The `n` bytes at `a` are in the object that is loaded, or in a block that is held by a node before `i`. -/
def Sits (s : LSt) (i a n : Nat) : Prop :=
  (dst ≤ a ∧ a + n ≤ dst + ext) ∨ ∃ b ∈ s.live.drop live0.length, (b.1 ≤ a ∧ a + n ≤ b.1 + b.2) ∧
    ∀ (k : Nat) (x : Node), s.nodes[k]? = some x → isCell x → word s.m x.addr = b.1 → k < i ∧ x.ty = .pointer

/-- `cur`: pointers before it have been followed -/
structure Inv (cur : Nat) (s : LSt) : Prop where
  len : s.nodes.length = E.ra.length
  live : live0 <+: s.live
  grown : Grown E.alloc live0 (s.live.drop live0.length)
  size : ∀ b ∈ s.live.drop live0.length, 0 < b.2
  kept : ∀ p, covered (home dst ext live0 s.live) p 1 = false → s.m p = m0 p
  blank : ∀ (j : Nat) (x : Node), s.nodes[j]? = some x → x.addr = 0 → x.ty = .none
  cell : ∀ (j : Nat) (x : Node), s.nodes[j]? = some x → isCell x → Sits dst ext live0 s j x.addr 8
  apart : ∀ (j k : Nat) (x y : Node), j ≠ k → s.nodes[j]? = some x → s.nodes[k]? = some y → isCell x → isCell y → Apart x.addr 8 y.addr 8
  val : ∀ (j : Nat) (x : Node), s.nodes[j]? = some x → isCell x → word s.m x.addr = 0 ∨ ∃ b ∈ s.live.drop live0.length, b.1 = word s.m x.addr
  uniq : ∀ (j k : Nat) (x y : Node), j ≠ k → s.nodes[j]? = some x → s.nodes[k]? = some y → isCell x → isCell y →
    word s.m x.addr ≠ 0 → word s.m x.addr ≠ word s.m y.addr
  held : ∀ b ∈ s.live.drop live0.length, ∃ (j : Nat) (x : Node), s.nodes[j]? = some x ∧ isCell x ∧ word s.m x.addr = b.1
  ready : ∀ (c : Nat) (pc : Pd) (x : Node), E.ra[c]? = some pc → s.nodes[c]? = some x → x.addr ≠ 0 → pc.parent = 0 ∨
    ∃ y, s.nodes[pc.parent]? = some y ∧ y.addr ≠ 0 ∧ (y.ty = .pointer → pc.parent < cur)
  good : ∀ (j : Nat) (x : Node), s.nodes[j]? = some x → x.ty = .pointer → x.sized = false ∧ Points E.tds x.aux x.td
  fresh : ∀ (j : Nat) (x : Node), s.nodes[j]? = some x → x.ty = .pointer → cur ≤ j → word s.m x.addr = 0
  flag : ∀ (j : Nat) (x : Node), s.nodes[j]? = some x → isCell x → x.ref = true ∨ x.cref = true → word s.m x.addr = 0
  place : ∀ (j : Nat) (x : Node), s.nodes[j]? = some x → x.addr ≠ 0 → covered (home dst ext live0 s.live) x.addr 0 = true
  null : ∀ x : Node, s.nodes[0]? = some x → x.addr = 0
  bare : ∀ (j : Nat) (x : Node), s.nodes[j]? = some x → x.addr = 0 → x.ref = false ∧ x.cref = false
  early : ∀ (j : Nat) (x : Node), s.nodes[j]? = some x → x.ty = .pointer → cur ≤ j → x.ref = false ∧ x.cref = false
  back : ∀ (j : Nat) (x : Node), s.nodes[j]? = some x → x.cref = true → ∃ d ∈ E.data, ∃ v, d.val = .int v ∧ v.toInt < 0 ∧ x.first = u32 (-v).toNat

/-- What happened between `s` and `s'` while the object of `n` bytes at `a` was loaded from the node `i`. -/
structure Step (cur i a n : Nat) (bit : Bool) (s s' : LSt) : Prop where
  inv : Inv E dst ext live0 m0 cur s'
  live : s.live <+: s'.live
  mem : ∀ p, ¬ (a ≤ p ∧ p < a + n) → covered (s'.live.drop s.live.length) p 1 = false → s'.m p = s.m p
  keep : ∀ (j : Nat) (x : Node), s.nodes[j]? = some x → x.addr ≠ 0 → ∃ x', s'.nodes[j]? = some x' ∧ x'.addr = x.addr ∧ x'.ty = x.ty ∧ x'.fd = x.fd ∧ (¬ Desc E.ra i j → x' = x)
  loaded : ∀ (j : Nat) (x' : Node), s'.nodes[j]? = some x' → x'.addr ≠ 0 → (∃ x, s.nodes[j]? = some x ∧ x.addr ≠ 0) ∨ Desc E.ra i j
  cells : ∀ (j : Nat) (x' : Node), s'.nodes[j]? = some x' → isCell x' → (∃ x, s.nodes[j]? = some x ∧ x.addr ≠ 0) ∨
    (bit = false ∧ a ≤ x'.addr ∧ x'.addr + 8 ≤ a + n) ∨ covered (s'.live.drop s.live.length) x'.addr 8 = true
  holders : ∀ b ∈ s.live.drop live0.length, ∀ (k : Nat) (x' : Node), s'.nodes[k]? = some x' → isCell x' → word s'.m x'.addr = b.1 →
    ∃ x, s.nodes[k]? = some x ∧ isCell x ∧ word s.m x.addr = b.1 ∧ x.ty = x'.ty

variable {E dst ext live0 m0}

theorem sits_home {s : LSt} {i a n : Nat} (h : Sits dst ext live0 s i a n) : covered (home dst ext live0 s.live) a n = true := by
  rw [covered_mem]
  unfold home
  rcases h with h | ⟨b, hb, h, _⟩
  · exact ⟨(dst, ext), by simp, h⟩
  · exact ⟨b, by simp [hb], h⟩

theorem sits_part {s : LSt} {i j a n b k : Nat} (h : Sits dst ext live0 s i a n) (hij : i ≤ j) (h1 : a ≤ b) (h2 : b + k ≤ a + n) : Sits dst ext live0 s j b k := by
  rcases h with h | ⟨c, hc, h, h'⟩
  · exact .inl ⟨by omega, by omega⟩
  · exact .inr ⟨c, hc, by omega, fun q x e1 e2 e3 => by have := h' q x e1 e2 e3; exact ⟨by omega, this.2⟩⟩

theorem cell_addr {cur : Nat} {s : LSt} (h : Inv E dst ext live0 m0 cur s) {j : Nat} {x : Node} (hx : s.nodes[j]? = some x) (hc : isCell x) : x.addr ≠ 0 := by
  intro h0
  have := h.blank j x hx h0
  rcases hc with hc | hc <;> rw [this] at hc <;> cases hc


theorem news_split {cur : Nat} {s : LSt} (h : Inv E dst ext live0 m0 cur s) {live' : Blocks} (hl : s.live <+: live') :
    live'.drop live0.length = s.live.drop live0.length ++ live'.drop s.live.length := by
  obtain ⟨l1, h1⟩ := h.live
  obtain ⟨l2, h2⟩ := hl
  rw [← h2, List.drop_left, ← h1, List.append_assoc, List.drop_left, List.drop_left]

/-- what is in the home at `s` is apart from blocks allocated later -/
theorem apart_later (hA : Allocator E.alloc) (hc0 : covered live0 dst ext = true) {cur cur' : Nat} {s s' : LSt} (h : Inv E dst ext live0 m0 cur s)
    (h' : Inv E dst ext live0 m0 cur' s') (hl : s.live <+: s'.live) {a n : Nat} (hc : covered (home dst ext live0 s.live) a n = true) :
    ∀ b ∈ s'.live.drop s.live.length, Apart b.1 b.2 a n := by
  intro b hb
  have hsplit := news_split h hl
  have hbn : b ∈ s'.live.drop live0.length := by rw [hsplit]; simp [hb]
  rw [covered_mem] at hc
  obtain ⟨c, hc, h1, h2⟩ := hc
  unfold home at hc
  rcases List.mem_cons.1 hc with rfl | hc
  · rw [covered_mem] at hc0
    obtain ⟨c, hc, h3, h4⟩ := hc0
    have := grown_old hA h'.grown b hbn c hc
    unfold Apart at *
    simp only at *
    omega
  · have hp := grown_apart hA h'.grown
    rw [hsplit] at hp
    have := (List.pairwise_append.1 hp).2.2 c hc b hb
    unfold Apart at *
    omega

theorem not_covered_of_apart {l : Blocks} {a n : Nat} (h : ∀ b ∈ l, Apart b.1 b.2 a n) {p : Nat} (h1 : a ≤ p) (h2 : p < a + n) : covered l p 1 = false := by
  cases e : covered l p 1 with
  | false => rfl
  | true =>
    rw [covered_mem] at e
    obtain ⟨b, hb, h3⟩ := e
    have := h b hb
    unfold Apart at this
    omega

/-- memory changes that leave pointers and strings alone -/
theorem inv_mem {cur : Nat} {s : LSt} (h : Inv E dst ext live0 m0 cur s) {m' : Bytes}
    (hw : ∀ (j : Nat) (x : Node), s.nodes[j]? = some x → isCell x → word m' x.addr = word s.m x.addr)
    (hk : ∀ p, covered (home dst ext live0 s.live) p 1 = false → m' p = s.m p) : Inv E dst ext live0 m0 cur { s with m := m' } where
  len := h.len
  live := h.live
  grown := h.grown
  size := h.size
  kept := fun p hp => by rw [← h.kept p hp]; exact hk p hp
  blank := h.blank
  cell := fun j x hx hc => by
    rcases h.cell j x hx hc with h1 | ⟨b, hb, h1, h2⟩
    · exact .inl h1
    · refine .inr ⟨b, hb, h1, fun k y hy hcy e => h2 k y hy hcy ?_⟩
      rw [← hw k y hy hcy]
      exact e
  apart := h.apart
  val := fun j x hx hc => by
    show word m' x.addr = 0 ∨ _
    rw [hw j x hx hc]
    rcases h.val j x hx hc with h1 | ⟨b, hb, h1⟩
    · exact .inl h1
    · exact .inr ⟨b, hb, h1⟩
  uniq := fun j k x y hne hx hy hcx hcy => by
    show word m' x.addr ≠ 0 → word m' x.addr ≠ word m' y.addr
    rw [hw j x hx hcx, hw k y hy hcy]
    exact h.uniq j k x y hne hx hy hcx hcy
  held := fun b hb => by
    obtain ⟨j, x, hx, hc, e⟩ := h.held b hb
    exact ⟨j, x, hx, hc, by show word m' x.addr = _; rw [hw j x hx hc]; exact e⟩
  ready := h.ready
  good := h.good
  fresh := fun j x hx ht hj => by
    show word m' x.addr = 0
    rw [hw j x hx (.inl ht)]
    exact h.fresh j x hx ht hj
  flag := fun j x hx hc hf => by
    show word m' x.addr = 0
    rw [hw j x hx hc]
    exact h.flag j x hx hc hf
  place := h.place
  null := h.null
  bare := h.bare
  early := h.early
  back := h.back

theorem Inv.step {cur i a n : Nat} {bit : Bool} {s : LSt} (h : Inv E dst ext live0 m0 cur s) : Step E dst ext live0 m0 cur i a n bit s s where
  inv := h
  live := List.prefix_rfl
  mem := fun _ _ _ => rfl
  keep := fun j x hx _ => ⟨x, hx, rfl, rfl, rfl, fun _ => rfl⟩
  loaded := fun j x hx h0 => .inl ⟨x, hx, h0⟩
  cells := fun j x hx hc => .inl ⟨x, hx, cell_addr h hx hc⟩
  holders := fun b _ k x hx hc e => ⟨x, hx, hc, e, rfl⟩

theorem covered_right {l l' : Blocks} {a n : Nat} (h : covered l' a n = true) : covered (l ++ l') a n = true := by
  rw [covered_mem] at *
  obtain ⟨b, hb, h1⟩ := h
  exact ⟨b, by simp [hb], h1⟩

theorem drop_split {l1 l2 l3 : Blocks} (h : l1 <+: l2) (h' : l2 <+: l3) : l3.drop l1.length = l2.drop l1.length ++ l3.drop l2.length := by
  obtain ⟨a, rfl⟩ := h
  obtain ⟨b, rfl⟩ := h'
  rw [List.drop_left, List.drop_left, List.append_assoc, List.drop_left]

/-- steps inside of the object, or inside of a block allocated meanwhile -/
theorem Step.trans {cur i a n j b k : Nat} {bit bit' : Bool} {s s' s'' : LSt} (h : Step E dst ext live0 m0 cur i a n bit s s')
    (h' : Step E dst ext live0 m0 cur j b k bit' s' s'') (hd : Desc E.ra i j)
    (hin : (a ≤ b ∧ b + k ≤ a + n ∧ (bit = true → bit' = true)) ∨ covered (s'.live.drop s.live.length) b k = true) :
    Step E dst ext live0 m0 cur i a n bit s s'' := by
  have hs := drop_split h.live h'.live
  refine ⟨h'.inv, h.live.trans h'.live, fun p hp hc => ?_, fun q x hx h0 => ?_, fun q x hx h0 => ?_, fun q x hx hc => ?_, fun c hc q x hx hcx e => ?_⟩
  · rw [hs] at hc
    have hc1 : covered (s'.live.drop s.live.length) p 1 = false := by
      cases e : covered (s'.live.drop s.live.length) p 1 with
      | false => rfl
      | true => rw [covered_mono e] at hc; cases hc
    have hc2 : covered (s''.live.drop s'.live.length) p 1 = false := by
      cases e : covered (s''.live.drop s'.live.length) p 1 with
      | false => rfl
      | true => rw [covered_right e] at hc; cases hc
    rw [h'.mem p (fun hpb => ?_) hc2]
    · exact h.mem p hp hc1
    · rcases hin with hin | hin
      · exact hp ⟨by omega, by omega⟩
      · rw [covered_part hin hpb.1 (by omega)] at hc1; cases hc1
  · obtain ⟨x1, h1, h2, h3, h4, h5⟩ := h.keep q x hx h0
    obtain ⟨x2, g1, g2, g3, g4, g5⟩ := h'.keep q x1 h1 (by rw [h2]; exact h0)
    exact ⟨x2, g1, g2.trans h2, g3.trans h3, g4.trans h4, fun hn => (g5 fun e => hn (desc_trans hd e)).trans (h5 hn)⟩
  · rcases h'.loaded q x hx h0 with ⟨x1, h1, h2⟩ | h1
    · exact h.loaded q x1 h1 h2
    · exact .inr (desc_trans hd h1)
  · rcases h'.cells q x hx hc with ⟨x1, h1, h2⟩ | ⟨h1, h2⟩ | h1
    · obtain ⟨x2, g1, g2, g3, _⟩ := h'.keep q x1 h1 h2
      rw [hx] at g1; cases g1
      have hc1 : isCell x1 := by unfold isCell at *; rw [← g3]; exact hc
      rcases h.cells q x1 h1 hc1 with h3 | h3 | h3
      · exact .inl h3
      · exact .inr (.inl ⟨h3.1, by rw [g2]; exact h3.2⟩)
      · refine .inr (.inr ?_)
        rw [hs, g2]
        exact covered_mono h3
    · rcases hin with hin | hin
      · refine .inr (.inl ⟨?_, by omega, by omega⟩)
        cases bit with
        | false => rfl
        | true => rw [hin.2.2 rfl] at h1; cases h1
      · refine .inr (.inr ?_)
        rw [hs]
        exact covered_mono (covered_part hin h2.1 h2.2)
    · refine .inr (.inr ?_)
      rw [hs]
      exact covered_right h1
  · have hc' : c ∈ s'.live.drop live0.length := by
      rw [show s'.live.drop live0.length = s.live.drop live0.length ++ s'.live.drop s.live.length from ?_]
      · simp [hc]
      · obtain ⟨l2, e2⟩ := h.live
        have hle : live0.length ≤ s.live.length := by
          rcases Nat.lt_or_ge s.live.length live0.length with hlt | hge
          · rw [List.drop_eq_nil_of_le (by omega)] at hc; cases hc
          · exact hge
        rw [← e2, List.drop_append_of_le_length hle, List.drop_left]
    obtain ⟨x1, h1, h2, h3, h4⟩ := h'.holders c hc' q x hx hcx e
    obtain ⟨x2, g1, g2, g3, g4⟩ := h.holders c hc q x1 h1 h2 h3
    exact ⟨x2, g1, g2, g3, g4.trans h4⟩

/-- where something is does not change -/
theorem Step.sits {cur i a n : Nat} {bit : Bool} {s s' : LSt} (h0 : Inv E dst ext live0 m0 cur s) (h : Step E dst ext live0 m0 cur i a n bit s s') {j b k : Nat}
    (hs : Sits dst ext live0 s j b k) : Sits dst ext live0 s' j b k := by
  rcases hs with hs | ⟨c, hc, h1, h2⟩
  · exact .inl hs
  · refine .inr ⟨c, by rw [news_split h0 h.live]; simp [hc], h1, fun q x hx hcx e => ?_⟩
    obtain ⟨y, g1, g2, g3, g4⟩ := h.holders c hc q x hx hcx e
    have := h2 q y g1 g2 g3
    exact ⟨this.1, g4.symm.trans this.2⟩

end
end Verif.Lemmas.LoadInv
