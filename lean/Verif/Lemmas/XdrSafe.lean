import Verif.Lemmas.Xdr
import Verif.Lemmas.XdrMem
import Verif.Lemmas.Bitfield
import Verif.Spec.XdrGraph
/-!
Loading an arbitrary document: what every step keeps.
-/
namespace Verif.Lemmas.XdrSafe
open Verif.Model Verif.Model.Ptrs Verif.Model.Save Verif.Model.Copy Verif.Model.Xdr Verif.Model.XdrGraph Verif.Spec Verif.Spec.Save Verif.Spec.Copy
  Verif.Spec.XdrGraph Verif.Lemmas.Xdr Verif.Lemmas.XdrMem Verif.Lemmas.CopyMem

/-- the types without arrays -/
structure Known (tds : List Td) : Prop where
  types : Types tds
  layout : Layout tds
  storable : Storable tds
  flat : ∀ (t : Nat) (d : Td) (f : Fd), tds[t]? = some d → d.ty = .struct → f ∈ d.fields → f.ty ≠ .array ∧ f.ty ≠ .charArray

/-- the descriptors of objects that are loaded -/
def Good (tds : List Td) (f : Fd) : Prop :=
  f.sizeField = none ∧
  match f.ty with
  | .struct => HasTd tds f.td .struct
  | .enum => HasTd tds f.td .enum
  | .pointer => untyped f.aux = true ∨ ∃ b, HasTd tds f.td b ∧ Leads f.aux b
  | .bitfield => f.shift < 8 ∧ 1 ≤ f.width ∧ f.width ≤ 128 ∧
      (integer (valueType tds f) = true ∨ f.aux = .bool ∨ f.aux = .char ∨ f.aux = .int128 ∨ f.aux = .uint128)
  | .array | .charArray | .union | .anonUnion | .namedAnonUnion => False
  | _ => True

/-- the number of bytes accessed -/
def need (ld : Nat) (tds : List Td) (f : Fd) : Nat :=
  match f.ty with
  | .none | .void => 0
  | .struct => elementSize tds .struct f.td
  | .string | .pointer => 8
  | .bitfield => bitBytes f
  | t => ((scalar ld tds t f.td).map Sc.size).getD 0

theorem intSc_size {t : MrType} {k : Sc} (h : intSc t = some k) : k.size = typeSize t ∧ k.size ≤ 8 ∧ scOk k := by
  unfold intSc at h
  split at h <;> first | (injection h with h; subst h; exact ⟨rfl, by decide, trivial⟩) | cases h

theorem scalar_ok {ld : Nat} (hld : ld ≤ 16) {tds : List Td} {ty : MrType} {td : Option Nat} {k : Sc} (h : scalar ld tds ty td = some k) : scOk k := by
  unfold scalar at h
  split at h <;> first
    | (injection h with h; subst h; first | exact trivial | exact ⟨trivial, by show Sc.size _ ≤ _; simp [Sc.size]; try omega⟩)
    | (obtain ⟨d, _, h⟩ := Option.bind_eq_some_iff.1 h; exact (intSc_size h).2.2)
    | exact (intSc_size h).2.2

theorem hasTd_at {tds : List Td} {td : Option Nat} {ty : MrType} (h : HasTd tds td ty) : ∃ t d, td = some t ∧ tds[t]? = some d ∧ d.ty = ty ∧ tdAt tds td = some d := by
  obtain ⟨t, d, rfl, h2, h3⟩ := h
  exact ⟨t, d, rfl, h2, h3, h2⟩

theorem scalar_fits {ld : Nat} (hld : ld ≤ 16) {tds : List Td} (hT : Types tds) {ty : MrType} {td : Option Nat} {k : Sc}
    (he : ty = .enum → HasTd tds td .enum) (h : scalar ld tds ty td = some k) : k.size ≤ elementSize tds ty td := by
  unfold scalar at h
  split at h
  case h_13 =>
    obtain ⟨t, d, h1, h2, h3, h4⟩ := hasTd_at (he rfl)
    rw [h4] at h
    have := hT.enums t d h2 h3
    have := intSc_size (show intSc d.effective = some k from h)
    subst h1
    simp only [elementSize, typeSize, ne_eq, not_true_eq_false, if_false, h2, Option.map_some, Option.getD_some]
    omega
  case h_14 =>
    unfold intSc at h
    split at h <;> first | (injection h with h; subst h; simp [elementSize, typeSize, Sc.size]) | cases h
  all_goals (injection h with h; subst h; simp [elementSize, typeSize, Sc.size] <;> omega)

theorem need_element {ld : Nat} (hld : ld ≤ 16) {tds : List Td} (hT : Types tds) {f : Fd} (hg : Good tds f) (hb : f.ty ≠ .bitfield) :
    need ld tds f ≤ elementSize tds f.ty f.td := by
  unfold need
  have hs : ∀ {t}, t = f.ty → ((scalar ld tds t f.td).map Sc.size).getD 0 ≤ elementSize tds t f.td := by
    intro t ht
    cases e : scalar ld tds t f.td with
    | none => exact Nat.zero_le _
    | some k =>
      refine scalar_fits hld hT (fun h => ?_) e
      have := hg.2
      rw [← ht, h] at this
      exact this
  split
  · exact Nat.zero_le _
  · exact Nat.zero_le _
  · rename_i h; rw [h]; exact Nat.le_refl _
  · rename_i h; rw [h]; simp [elementSize, typeSize]
  · rename_i h; rw [h]; simp [elementSize, typeSize]
  · rename_i h; exact absurd h hb
  · exact hs rfl

theorem good_field {ld : Nat} (hld : ld ≤ 16) {tds : List Td} (K : Known tds) {t : Nat} {d : Td} {f : Fd} (ht : tds[t]? = some d) (hd : d.ty = .struct) (hf : f ∈ d.fields) :
    Good tds f ∧ f.offset + need ld tds f ≤ d.size := by
  have h1 := (K.types.fields t d ht hd f hf).1
  have h2 := K.layout.inside t d f ht hd hf
  have h3 := K.flat t d f ht hd hf
  have hg : Good tds f := by
    obtain ⟨a1, _, _, a4⟩ := h1
    refine ⟨a1, ?_⟩
    revert a4
    cases e : f.ty <;> intro a4 <;> first | exact trivial | exact a4 | exact a4.1 | exact (absurd e h3.1) | exact (absurd e h3.2) | skip
    · have hb := K.storable.bits t d f ht hd hf e
      refine ⟨hb.1, hb.2.1, ?_, hb.2.2.2⟩
      have h16 : typeSize (valueType tds f) ≤ 16 := by
        rcases hb.2.2.2 with h | h | h | h | h
        · revert h; generalize valueType tds f = v; cases v <;> simp [integer, typeSize]
        all_goals (unfold valueType; rw [h]; simp [typeSize])
      have := hb.2.2.1
      omega
    · rcases a4 with h | ⟨b, h1, h2, _⟩
      · exact .inl h
      · exact .inr ⟨b, h1, h2⟩
  refine ⟨hg, ?_⟩
  by_cases hb : f.ty = .bitfield
  · have : need ld tds f = span f := by
      have hw := K.storable.bits t d f ht hd hf hb
      unfold need span bitBytes
      rw [hb]
      simp only [if_true]
      exact Nat.max_eq_right (by omega)
    omega
  · have hn := need_element (ld := ld) hld K.types hg hb
    have hsp : span f = f.size := by unfold span; rw [if_neg hb]
    by_cases hp : f.ty = .pointer
    · have := K.layout.pointer t d f ht hd hf hp
      have : need ld tds f = 8 := by unfold need; rw [hp]
      omega
    · by_cases hpl : plain f.ty = true
      · have := h1.2.2.1 hpl
        omega
      · have : need ld tds f = 0 := by
          have hg2 := hg.2
          unfold need
          revert hg2 hpl hb hp
          cases e : f.ty <;> simp [plain, scalar, intSc]
        omega

/-- what a pointer leads to -/
theorem good_elem {tds : List Td} {f g : Fd} (hf : f.ty = .pointer) (hg : Good tds f) (h1 : g.ty = f.aux) (h2 : g.aux = tdType tds f.td) (h3 : g.td = f.td) (h4 : g.sizeField = none) :
    Good tds g ∧ g.ty ≠ .bitfield := by
  have h := hg.2
  rw [hf] at h
  rcases h with h | ⟨b, hb, hl⟩
  · unfold Good
    rw [h1]
    unfold untyped at h
    simp only [Bool.or_eq_true, decide_eq_true_eq] at h
    rcases h with h | h <;> rw [h] <;> exact ⟨⟨h4, trivial⟩, by simp⟩
  · obtain ⟨t, d, e1, e2, e3, e4⟩ := hasTd_at hb
    have hty : tdType tds f.td = b := by unfold tdType; rw [e4]; simpa using e3
    unfold Good
    rcases hl with ⟨hl, hp⟩ | ⟨hl, hp⟩
    · rw [h1, hl]
      refine ⟨⟨h4, ?_⟩, by intro e; rw [e] at hp; simp [plain] at hp⟩
      revert hp hb
      cases b <;> intro hb hp <;> first | exact trivial | (rw [h3]; exact hb) | (simp [plain] at hp)
    · rw [h1, hl]
      refine ⟨⟨h4, ?_⟩, by simp⟩
      show untyped g.aux = true ∨ _
      rw [h2, h3, hty]
      rcases hp with hp | hp
      · exact .inr ⟨b, hb, .inl ⟨rfl, hp⟩⟩
      · exact .inl hp

section
variable (E : Env) (dst ext : Nat) (live0 : Blocks) (m0 : Bytes)

/-- the memory that may be changed -/
def home (live : Blocks) : Blocks := (dst, ext) :: live.drop live0.length

structure Inv (s : LSt) : Prop where
  live : live0 <+: s.live
  grown : Grown E.alloc live0 (s.live.drop live0.length)
  pos : s.pos ≤ E.buf.length
  cells : ∀ x ∈ s.nodes, x.ty = .pointer ∨ x.ty = .string → covered (home dst ext live0 s.live) x.addr 8 = true
  kept : ∀ a, covered (home dst ext live0 s.live) a 1 = false → s.m a = m0 a

/-- one or more steps -/
structure Step (s s' : LSt) : Prop where
  inv : Inv E dst ext live0 m0 s'
  live : s.live <+: s'.live
  pos : s.pos ≤ s'.pos

def Post (s : LSt) (P : LSt → Nat × Fd → Prop) (r : Option (Bool × LSt × List (Nat × Fd))) : Prop :=
  ∃ ok s' items, r = some (ok, s', items) ∧ Step E dst ext live0 m0 s s' ∧ ∀ x ∈ items, P s' x

variable {E dst ext live0 m0}

theorem home_mono {live live' : Blocks} {a n : Nat} (h : live <+: live') (hc : covered (home dst ext live0 live) a n = true) :
    covered (home dst ext live0 live') a n = true := by
  obtain ⟨l, rfl⟩ := h
  rw [covered_mem] at *
  obtain ⟨b, hb, h1⟩ := hc
  refine ⟨b, ?_, h1⟩
  unfold home at *
  simp only [List.mem_cons] at *
  rcases hb with hb | hb
  · exact .inl hb
  · right
    rw [List.drop_append]
    exact List.mem_append.2 (.inl hb)

theorem home_live (hc0 : covered live0 dst ext = true) {live : Blocks} (hl : live0 <+: live) {a n : Nat} (h : covered (home dst ext live0 live) a n = true) :
    covered live a n = true := by
  obtain ⟨l, rfl⟩ := hl
  unfold home at h
  rw [List.drop_left] at h
  rw [covered_mem] at *
  obtain ⟨b, hb, h1⟩ := h
  simp only [List.mem_cons] at hb
  rcases hb with rfl | hb
  · obtain ⟨c, hc, h2⟩ := hc0
    refine ⟨c, by simp [hc], ?_⟩
    simp only at h1
    omega
  · exact ⟨b, by simp [hb], h1⟩

theorem not_home {live : Blocks} {a n b : Nat} (h : covered (home dst ext live0 live) a n = true) (hb : covered (home dst ext live0 live) b 1 = false) : ¬ (a ≤ b ∧ b < a + n) := by
  intro hh
  rw [covered_part h hh.1 (by omega)] at hb
  cases hb

theorem Inv.step {s : LSt} (h : Inv E dst ext live0 m0 s) : Step E dst ext live0 m0 s s := ⟨h, List.prefix_rfl, Nat.le_refl _⟩

theorem Step.trans {s s' s'' : LSt} (h : Step E dst ext live0 m0 s s') (h' : Step E dst ext live0 m0 s' s'') : Step E dst ext live0 m0 s s'' :=
  ⟨h'.inv, h.live.trans h'.live, Nat.le_trans h.pos h'.pos⟩

theorem Step.room {s s' : LSt} (h : Step E dst ext live0 m0 s s') {a n : Nat} (hc : covered (home dst ext live0 s.live) a n = true) :
    covered (home dst ext live0 s'.live) a n = true := home_mono h.live hc

theorem post_done {s s' : LSt} {P : LSt → Nat × Fd → Prop} (h : Step E dst ext live0 m0 s s') (ok : Bool) : Post E dst ext live0 m0 s P (some (ok, s', [])) :=
  ⟨ok, s', [], rfl, h, by simp⟩

theorem post_reading {α : Type} {s s' : LSt} {P : LSt → Nat × Fd → Prop} {d : Dec α} {f : α → LSt → Option (Bool × LSt × List (Nat × Fd))}
    (h : Step E dst ext live0 m0 s s') (hd : ∃ r, d = some r ∧ ∀ a p, r = some (a, p) → p ≤ E.buf.length ∧ s'.pos ≤ p)
    (hf : ∀ a p, d = some (some (a, p)) → Step E dst ext live0 m0 s { s' with pos := p } → Post E dst ext live0 m0 s P (f a { s' with pos := p })) :
    Post E dst ext live0 m0 s P (reading s' d f) := by
  obtain ⟨r, rfl, hr⟩ := hd
  unfold reading
  cases r with
  | none => exact post_done h false
  | some x =>
    obtain ⟨a, p⟩ := x
    have := hr a p rfl
    exact hf a p rfl ⟨⟨h.inv.live, h.inv.grown, this.1, h.inv.cells, h.inv.kept⟩, h.live, Nat.le_trans h.pos this.2⟩

theorem poke_step (hc0 : covered live0 dst ext = true) {s s' : LSt} (h : Step E dst ext live0 m0 s s') {a : Nat} {bs : List Nat}
    (hc : covered (home dst ext live0 s'.live) a bs.length = true) : ∃ s'', s'.poke a bs = some s'' ∧ Step E dst ext live0 m0 s s'' ∧ s''.live = s'.live := by
  unfold LSt.poke
  rw [if_pos (home_live hc0 h.inv.live hc)]
  refine ⟨_, rfl, ⟨⟨h.inv.live, h.inv.grown, h.inv.pos, h.inv.cells, fun b hb => ?_⟩, h.live, h.pos⟩, rfl⟩
  show put s'.m a bs b = _
  rw [put_out (not_home hc hb)]
  exact h.inv.kept b hb

theorem store_step (hc0 : covered live0 dst ext = true) {s s' : LSt} (h : Step E dst ext live0 m0 s s') {a v : Nat}
    (hc : covered (home dst ext live0 s'.live) a 8 = true) :
    ∃ s'', s'.store a v = some s'' ∧ Step E dst ext live0 m0 s s'' ∧ s''.live = s'.live ∧ s''.pos = s'.pos ∧ s''.nodes = s'.nodes := by
  unfold LSt.store
  rw [if_pos (home_live hc0 h.inv.live hc)]
  refine ⟨_, rfl, ⟨⟨h.inv.live, h.inv.grown, h.inv.pos, h.inv.cells, fun b hb => ?_⟩, h.live, h.pos⟩, rfl, rfl, rfl⟩
  show setWord s'.m a v b = _
  rw [setWord_other (not_home hc hb)]
  exact h.inv.kept b hb

theorem mark_step {s s' : LSt} (h : Step E dst ext live0 m0 s s') (hne : s'.nodes ≠ []) (flags first : Nat) : Step E dst ext live0 m0 s (s'.mark flags first) := by
  refine ⟨⟨h.inv.live, h.inv.grown, h.inv.pos, ?_, h.inv.kept⟩, h.live, h.pos⟩
  intro x hx hty
  unfold LSt.mark at hx
  simp only [List.mem_append, List.mem_singleton] at hx
  rcases hx with hx | rfl
  · exact h.inv.cells x (List.dropLast_subset _ hx) hty
  · have e : s'.nodes.getLast?.getD {} = s'.nodes.getLast hne := by rw [List.getLast?_eq_some_getLast hne]; rfl
    simp only [e] at hty ⊢
    exact h.inv.cells (s'.nodes.getLast hne) (List.getLast_mem hne) hty

theorem calloc_step {s s' : LSt} (h : Step E dst ext live0 m0 s s') (n : Nat) :
    Step E dst ext live0 m0 s (s'.calloc E n).2 ∧ (s'.calloc E n).2.pos = s'.pos ∧ (s'.calloc E n).2.nodes = s'.nodes ∧ s'.live <+: (s'.calloc E n).2.live ∧
      ((s'.calloc E n).1 ≠ 0 → covered (home dst ext live0 (s'.calloc E n).2.live) (s'.calloc E n).1 n = true) := by
  unfold LSt.calloc
  simp only
  split
  · exact ⟨h, rfl, rfl, List.prefix_rfl, fun h => absurd rfl h⟩
  · next hne =>
    have hp : s'.live <+: s'.live ++ [(E.alloc s'.live n, n)] := List.prefix_append _ _
    have hc : covered (home dst ext live0 (s'.live ++ [(E.alloc s'.live n, n)])) (E.alloc s'.live n) n = true := by
      rw [covered_mem]
      refine ⟨(E.alloc s'.live n, n), ?_, Nat.le_refl _, Nat.le_refl _⟩
      unfold home
      obtain ⟨l, hl⟩ := h.inv.live
      rw [← hl, List.append_assoc, List.drop_left]
      simp
    have hgr : Grown E.alloc live0 ((s'.live ++ [(E.alloc s'.live n, n)]).drop live0.length) := by
      have hg := h.inv.grown
      obtain ⟨l, hl⟩ := h.inv.live
      rw [← hl] at hg hne ⊢
      rw [List.append_assoc, List.drop_left]
      rw [List.drop_left] at hg
      exact .more hg hne
    refine ⟨⟨⟨h.inv.live.trans hp, hgr, h.inv.pos, fun x hx ht => home_mono hp (h.inv.cells x hx ht), fun b hb => ?_⟩, h.live.trans hp, h.pos⟩, rfl, rfl, hp, fun _ => hc⟩
    show put _ _ _ b = _
    rw [put_out (by rw [List.length_replicate]; exact not_home hc hb)]
    refine h.inv.kept b ?_
    cases e : covered (home dst ext live0 s'.live) b 1 with
    | false => rfl
    | true => rw [home_mono hp e] at hb; cases hb

theorem getLong_fwd {buf : List Nat} (h : buf.length < 2 ^ 32) {pos w p : Nat} (hp : pos ≤ buf.length) (he : getLong buf pos = some (some (w, p))) : p = pos + 4 := by
  unfold getLong at he
  split at he
  · cases he
  · unfold slice at he
    split at he
    · simp only [Option.bind_some, Option.some.injEq, Prod.mk.injEq] at he
      rw [← he.2]
      unfold u32
      omega
    · cases he

/-! ### the steps -/

variable (hlen : E.buf.length < 2 ^ 32 - 1) (hld : E.ld ≤ 16) (hc0 : covered live0 dst ext = true)
include hlen hc0

theorem post_scalar {s s' : LSt} {P : LSt → Nat × Fd → Prop} (h : Step E dst ext live0 m0 s s') {data : Nat} {k : Sc} (hk : scOk k)
    (hc : covered (home dst ext live0 s'.live) data k.size = true) : Post E dst ext live0 m0 s P (loadScalar E s' data (some k)) := by
  unfold loadScalar
  simp only [peek_ok (home_live hc0 h.inv.live hc), Option.bind_eq_bind, Option.bind_some]
  have hd := dec_safe (buf := E.buf) (by omega) k (bytesAt s'.m data k.size) (by rw [bytesAt_length]; omega) hk
  refine post_reading h (hd.1 s'.pos h.inv.pos) fun b p e h' => ?_
  have hl := hd.2 _ _ _ e
  rw [bytesAt_length] at hl
  obtain ⟨s2, e2, h2, _⟩ := poke_step hc0 h' (a := data) (bs := b) (by rw [hl]; exact hc)
  rw [e2]
  exact post_done h2 true

theorem post_str (hb : ∀ b ∈ E.buf, b < 256) {s s' : LSt} {P : LSt → Nat × Fd → Prop} (h : Step E dst ext live0 m0 s s') (hne : s'.nodes ≠ []) {data : Nat}
    (hc : covered (home dst ext live0 s'.live) data 8 = true) : Post E dst ext live0 m0 s P (loadStr E s' data) := by
  unfold loadStr
  refine post_reading h (getLong_safe (by omega) _ h.inv.pos) fun w p e h1 => ?_
  simp only
  split
  · exact post_reading h1 (getLong_safe (by omega) _ h1.inv.pos) fun idx p e h2 => post_done (mark_step h2 hne _ _) true
  · split
    · obtain ⟨s2, e2, h2, _, _, hn⟩ := store_step hc0 h1 (a := data) (v := 0) hc
      simp only [e2, Option.bind_eq_bind, Option.bind_some]
      exact post_done (mark_step h2 (by rw [hn]; exact hne) _ _) true
    · obtain ⟨s2, e2, h2, hl2, hp2, hn2⟩ := store_step hc0 (mark_step h1 hne (w % 256) 0) (a := data) (v := 0) hc
      simp only [e2, Option.bind_eq_bind, Option.bind_some]
      refine post_reading h2 (getLong_safe (by omega) _ h2.inv.pos) fun size p3 e3 h3 => ?_
      obtain ⟨h4, hp4, _, hl4, hc4⟩ := calloc_step h3 (u32 (size + 1))
      revert h4 hp4 hl4 hc4
      generalize LSt.calloc E { s2 with pos := p3 } (u32 (size + 1)) = r
      obtain ⟨a, s4⟩ := r
      intro h4 hp4 hl4 hc4
      simp only at h4 hp4 hl4 hc4 ⊢
      obtain ⟨s5, e5, h5, hl5, hp5, _⟩ := store_step hc0 h4 (a := data) (v := a) (home_mono (live := s2.live) hl4 (by rw [hl2]; exact hc))
      simp only [e5, Option.bind_some]
      split
      · exact post_done h5 false
      · next ha =>
        refine post_reading h5 (getOpaque_safe (by omega) size _ h5.inv.pos) fun b p6 e6 h6 => ?_
        have hlb := getOpaque_length e6
        have hfit := getOpaque_fits e6
        have hu : u32 (size + 1) = size + 1 := by unfold u32; omega
        obtain ⟨s7, e7, h7, _⟩ := poke_step hc0 h6 (a := a) (bs := b) (by
          have := hc4 ha
          rw [← hl5] at this
          exact covered_part this (Nat.le_refl _) (by rw [hlb, hu]; omega))
        rw [e7]
        exact post_done h7 true

include hld in
theorem post_bits {s s' : LSt} {P : LSt → Nat × Fd → Prop} (h : Step E dst ext live0 m0 s s') {data idx : Nat} {f : Fd} (hf : f.ty = .bitfield) (hg : Good E.tds f)
    (hc : covered (home dst ext live0 s'.live) data (bitBytes f) = true) : Post E dst ext live0 m0 s P (loadBits E s' data f idx) := by
  unfold loadBits
  have hg2 := hg.2
  rw [hf] at hg2
  obtain ⟨g1, g2, g3, g4⟩ := hg2
  cases e : scalar E.ld E.tds f.aux f.td with
  | none => exact post_done h false
  | some k =>
    have hk := scalar_ok hld e
    have h16 : k.size ≤ 16 := by
      unfold valueType at g4
      by_cases he : f.aux = .enum
      · rw [he] at e
        unfold scalar at e
        obtain ⟨d, _, e⟩ := Option.bind_eq_some_iff.1 e
        have := intSc_size e
        omega
      · rw [if_neg he] at g4
        revert g4 e he
        cases f.aux <;> simp [integer, scalar, intSc] <;> (rintro rfl; simp [Sc.size])
    simp only
    have hd := dec_safe (buf := E.buf) (by omega) k (bytesAt (E.junk idx) 0 16) (by rw [bytesAt_length]; omega) hk
    refine post_reading h (hd.1 s'.pos h.inv.pos) fun v p e h' => ?_
    have hbb : (f.shift + f.width + 7) / 8 ≤ bitBytes f := Nat.le_max_right _ _
    have hpk : peek s'.live s'.m data (bitBytes f) = some (bytesAt s'.m data (bitBytes f)) := peek_ok (home_live hc0 h.inv.live hc)
    have htl : (toBits (bytesAt s'.m data (bitBytes f))).length = bitBytes f := by unfold toBits; rw [List.length_map, bytesAt_length]
    obtain ⟨mem', e1, hl, _⟩ := Bitfield.load_ok (toBits (bytesAt s'.m data (bitBytes f))) f.shift f.width (bytesWord v) g1 g2 g3 (by rw [htl]; omega)
    simp only [hpk, e1, Option.bind_eq_bind, Option.bind_some]
    obtain ⟨s2, e2, h2, _⟩ := poke_step hc0 h' (a := data) (bs := ofBits mem') (by
      unfold ofBits; rw [List.length_map, hl, htl]; exact hc)
    rw [e2]
    exact post_done h2 true

end

/-! ### depth -/

section
variable {E : Env} {dst ext : Nat} {live0 : Blocks} {m0 : Bytes}

/-- how deep the objects below an object may be nested -/
def cost (rank : Nat → Nat) (R len pos : Nat) (f : Fd) : Nat :=
  (len - pos) * (R + 2) + if f.ty = .struct then (f.td.map rank).getD 0 + 1 else 0

theorem cost_down {rank : Nat → Nat} {R len pos pos' : Nat} {f : Fd} (h : pos ≤ pos') : cost rank R len pos' f ≤ cost rank R len pos f := by
  unfold cost
  have : (len - pos') * (R + 2) ≤ (len - pos) * (R + 2) := Nat.mul_le_mul_right _ (by omega)
  omega

theorem cost_read {rank : Nat → Nat} {R len pos pos' : Nat} {f g : Fd} (hr : g.ty = .struct → (g.td.map rank).getD 0 ≤ R) (h : pos < pos') (hp : pos' ≤ len) :
    cost rank R len pos' g < cost rank R len pos f := by
  unfold cost
  have : (len - pos' + 1) * (R + 2) ≤ (len - pos) * (R + 2) := Nat.mul_le_mul_right _ (by omega)
  rw [Nat.add_mul] at this
  split
  · next hs => have := hr hs; omega
  · omega

theorem rank_bound (rank : Nat → Nat) (n : Nat) : ∃ R, ∀ t, t < n → rank t ≤ R := by
  induction n with
  | zero => exact ⟨0, fun t h => by omega⟩
  | succ n ih =>
    obtain ⟨R, hR⟩ := ih
    refine ⟨Nat.max R (rank n), fun t ht => ?_⟩
    by_cases e : t = n
    · subst e; exact Nat.le_max_right _ _
    · exact Nat.le_trans (hR t (by omega)) (Nat.le_max_left _ _)

/-- what is known of the objects that are loaded next -/
def Item (E : Env) (dst ext : Nat) (live0 : Blocks) (rank : Nat → Nat) (R bound : Nat) (s : LSt) (x : Nat × Fd) : Prop :=
  Good E.tds x.2 ∧ covered (home dst ext live0 s.live) x.1 (need E.ld E.tds x.2) = true ∧ cost rank R E.buf.length s.pos x.2 < bound

variable (hlen : E.buf.length < 2 ^ 32 - 1) (hld : E.ld ≤ 16) (hc0 : covered live0 dst ext = true) (hb : ∀ b ∈ E.buf, b < 256) (K : Known E.tds)
  {rank : Nat → Nat} {R : Nat} (hR : ∀ t, t < E.tds.length → rank t ≤ R)
  (hrank : ∀ (t : Nat) (d : Td) (f : Fd) (t' : Nat), E.tds[t]? = some d → d.ty = .struct → f ∈ d.fields →
    (f.ty = .struct ∨ f.ty = .array ∧ f.aux = .struct) → f.td = some t' → rank t' < rank t)

include hR in
theorem good_rank {f : Fd} (hg : Good E.tds f) (hs : f.ty = .struct) : (f.td.map rank).getD 0 ≤ R := by
  have h := hg.2
  rw [hs] at h
  obtain ⟨t, d, h1, h2, _⟩ := h
  rw [h1]
  exact hR t (List.getElem?_eq_some_iff.1 h2).1

include hld K hrank in
theorem post_struct {s s' : LSt} (h : Step E dst ext live0 m0 s s') (hpos : s'.pos = s.pos) {data : Nat} {f : Fd} (hf : f.ty = .struct) (hg : Good E.tds f)
    (hc : covered (home dst ext live0 s'.live) data (need E.ld E.tds f) = true) :
    Post E dst ext live0 m0 s (Item E dst ext live0 rank R (cost rank R E.buf.length s.pos f)) (loadStruct E s' data f) := by
  have h2 := hg.2
  rw [hf] at h2
  obtain ⟨t, d, e1, e2, e3, e4⟩ := hasTd_at h2
  unfold loadStruct
  rw [e4]
  refine ⟨true, s', _, rfl, h, fun x hx => ?_⟩
  obtain ⟨g, hg1, rfl⟩ := List.mem_map.1 hx
  obtain ⟨g1, g2⟩ := good_field hld K e2 e3 hg1
  refine ⟨g1, covered_part hc (by omega) ?_, ?_⟩
  · have : need E.ld E.tds f = d.size := by
      unfold need
      rw [hf, e1]
      simp [elementSize, typeSize, e2]
    show data + g.offset + need E.ld E.tds g ≤ _
    omega
  · show cost _ _ _ _ g < _
    unfold cost
    rw [if_pos hf, hpos, e1]
    simp only [Option.map_some, Option.getD_some]
    split
    · next hs =>
      have h3 := g1.2
      rw [hs] at h3
      obtain ⟨t', d', e1', _⟩ := h3
      have := hrank t d g t' e2 e3 hg1 (.inl hs) e1'
      rw [e1']
      simp only [Option.map_some, Option.getD_some]
      omega
    · omega

include hlen hld hc0 K hR in
theorem post_pointer {s s' : LSt} (h : Step E dst ext live0 m0 s s') (hne : s'.nodes ≠ []) {data : Nat} {f : Fd} (hf : f.ty = .pointer) (hg : Good E.tds f)
    (hc : covered (home dst ext live0 s'.live) data 8 = true) :
    Post E dst ext live0 m0 s (Item E dst ext live0 rank R (cost rank R E.buf.length s.pos f)) (loadPointer E s' data f) := by
  unfold loadPointer
  simp only
  obtain ⟨s1, e1, h1, hl1, hp1, hn1⟩ := store_step hc0 h (a := data) (v := 0) hc
  simp only [e1, Option.bind_eq_bind, Option.bind_some]
  refine post_reading h1 (getLong_safe (by omega) _ h1.inv.pos) fun w p2 e2 h2 => ?_
  have hp2 := getLong_fwd (by omega) h1.inv.pos e2
  simp only
  have hne2 : s1.nodes ≠ [] := by rw [hn1]; exact hne
  by_cases hr : isRef (w % 256) = true
  · rw [if_pos hr]
    exact post_reading h2 (getLong_safe (by omega) _ h2.inv.pos) fun idx p3 e3 h3 => post_done (mark_step h3 hne2 _ _) true
  rw [if_neg hr]
  by_cases hn : isNull (w % 256) = true
  · rw [if_pos hn]
    exact post_done (mark_step h2 hne2 _ _) true
  rw [if_neg hn]
  have h2' := mark_step h2 hne2 (w % 256) 0
  refine post_reading h2' (getLong_safe (by omega) _ h2'.inv.pos) fun size p3 e3 h3 => ?_
  have hp3 := getLong_fwd (by omega) h2'.inv.pos e3
  change p3 = p2 + 4 at hp3
  generalize hcn : (if (w % 256).testBit 4 = true then 0 else if elementSize E.tds f.aux f.td > 0 then size / elementSize E.tds f.aux f.td else 1) = count
  generalize hsz : (if (w % 256).testBit 4 = true then size else if elementSize E.tds f.aux f.td > 0 then count * elementSize E.tds f.aux f.td else 1) = sz
  by_cases hz : sz = 0
  · rw [if_pos hz]
    exact post_done h3 false
  rw [if_neg hz, if_neg (by rw [hg.1]; simp)]
  obtain ⟨h4, hp4, hn4, hl4, hc4⟩ := calloc_step h3 sz
  revert h4 hp4 hn4 hl4 hc4
  generalize LSt.calloc E { LSt.mark { s1 with pos := p2 } (w % 256) 0 with pos := p3 } sz = r
  obtain ⟨a, s4⟩ := r
  intro h4 hp4 hn4 hl4 hc4
  simp only at h4 hp4 hl4 hc4 ⊢
  obtain ⟨s5, e5, h5, hl5, hp5, _⟩ := store_step hc0 h4 (a := data) (v := a) (home_mono (live := s1.live) hl4 (by rw [hl1]; exact hc))
  simp only [e5, Option.bind_some]
  split
  · exact post_done h5 false
  next ha =>
  have hroom := hc4 ha
  rw [← hl5] at hroom
  split
  · next hopq =>
    rw [if_pos hopq] at hsz
    refine post_reading h5 (getOpaque_safe (by omega) sz _ h5.inv.pos) fun b p6 e6 h6 => ?_
    obtain ⟨s7, e7, h7, _⟩ := poke_step hc0 h6 (a := a) (bs := b) (by rw [getOpaque_length e6]; exact hroom)
    rw [e7]
    exact post_done h7 true
  · next hopq =>
    rw [if_neg hopq] at hsz hcn
    refine ⟨true, s5, _, rfl, h5, fun x hx => ?_⟩
    unfold elements at hx
    obtain ⟨i, hi, rfl⟩ := List.mem_map.1 hx
    rw [List.mem_range] at hi
    obtain ⟨g1, g2⟩ := good_elem hf hg (g := { nonPersistent := true, unnamed := true, ty := f.aux, aux := tdType E.tds f.td, td := f.td, size := elementSize E.tds f.aux f.td }) rfl rfl rfl rfl
    have gn := need_element hld K.types g1 g2
    refine ⟨g1, ?_, ?_⟩
    · simp only at gn ⊢
      refine covered_part hroom (by omega) ?_
      rw [← hsz]
      split
      · next hpos =>
        have : (i + 1) * elementSize E.tds f.aux f.td ≤ count * elementSize E.tds f.aux f.td := Nat.mul_le_mul_right _ hi
        rw [Nat.add_mul] at this
        omega
      · next hpos =>
        rw [if_neg hpos] at hcn
        have hi0 : i = 0 := by omega
        subst hi0
        omega
    · refine cost_read (fun hs => good_rank hR g1 hs) ?_ h5.inv.pos
      have : s5.pos = p3 := by rw [hp5, hp4]
      have := h.pos
      omega

include hlen hld hc0 hb K hR hrank in
theorem post_open {s : LSt} (hI : Inv E dst ext live0 m0 s) {parent data : Nat} {f : Fd} (hg : Good E.tds f)
    (hc : covered (home dst ext live0 s.live) data (need E.ld E.tds f) = true) :
    Post E dst ext live0 m0 s (Item E dst ext live0 rank R (cost rank R E.buf.length s.pos f)) (openNode E parent s data f) := by
  unfold openNode
  have h : Step E dst ext live0 m0 s { s with nodes := s.nodes ++ [{ addr := data, ty := f.ty, parent := parent }] } := by
    refine ⟨⟨hI.live, hI.grown, hI.pos, fun x hx hty => ?_, hI.kept⟩, List.prefix_rfl, Nat.le_refl _⟩
    rcases List.mem_append.1 hx with hx | hx
    · exact hI.cells x hx hty
    · simp only [List.mem_singleton] at hx
      subst hx
      simp only at hty ⊢
      unfold need at hc
      rcases hty with e | e <;> rw [e] at hc <;> exact hc
  have hne : s.nodes ++ [{ addr := data, ty := f.ty, parent := parent }] ≠ [] := by simp
  have hg2 := hg.2
  simp only
  unfold need at hc
  split
  · exact post_done h true
  · exact post_done h true
  · rename_i e; rw [e] at hc; exact post_str hlen hc0 hb (data := data) h hne hc
  · rename_i e; rw [e] at hg2; exact hg2.elim
  · rename_i e; rw [e] at hc; exact post_bits hlen hld hc0 h e hg hc
  · rename_i e; rw [e] at hc; exact post_struct hld K hrank h rfl e hg (by unfold need; rw [e]; exact hc)
  · rename_i e; rw [e] at hg2; exact hg2.elim
  · rename_i e; rw [e] at hc; exact post_pointer hlen hld hc0 K hR h hne e hg hc
  · rename_i e; rw [e] at hg2; exact hg2.elim
  · rename_i e; rw [e] at hg2; exact hg2.elim
  · rename_i e; rw [e] at hg2; exact hg2.elim
  · have hc' : covered (home dst ext live0 s.live) data (((scalar E.ld E.tds f.ty f.td).map Sc.size).getD 0) = true := by
      revert hc
      split <;> first | contradiction | exact id
    cases e : scalar E.ld E.tds f.ty f.td with
    | none => exact post_done h false
    | some k =>
      rw [e] at hc'
      exact post_scalar hlen hc0 h (scalar_ok hld e) hc'

include hlen hld hc0 hb K hR hrank in
theorem load_safe : ∀ (fuel : Nat) (parent : Nat) (s : LSt) (x : Nat × Fd), Inv E dst ext live0 m0 s → Item E dst ext live0 rank R fuel s x →
    ∃ ok s', loadInner E fuel parent s x = some (ok, s') ∧ Step E dst ext live0 m0 s s' := by
  intro fuel
  induction fuel with
  | zero => intro _ s x _ h; exact absurd h.2.2 (by omega)
  | succ fuel ih =>
    intro parent s x hI hx
    unfold loadInner
    obtain ⟨ok, s', items, e, hs, hi⟩ := post_open hlen hld hc0 hb K hR hrank hI (parent := parent) hx.1 hx.2.1
    simp only [e, Option.bind_eq_bind, Option.bind_some]
    cases ok with
    | false => exact ⟨false, s', rfl, hs⟩
    | true =>
      have all : ∀ (items : List (Nat × Fd)) (s1 : LSt), Step E dst ext live0 m0 s s1 → (∀ y ∈ items, Item E dst ext live0 rank R fuel s1 y) →
          ∃ ok s2, loadAll (loadInner E fuel s.nodes.length) s1 items = some (ok, s2) ∧ Step E dst ext live0 m0 s s2 := by
        intro items
        induction items with
        | nil => intro s1 h1 _; exact ⟨true, s1, rfl, h1⟩
        | cons y l ihl =>
          intro s1 h1 hy
          obtain ⟨ok, s2, e2, h2⟩ := ih s.nodes.length s1 y h1.inv (hy y (by simp))
          unfold loadAll
          simp only [e2, Option.bind_eq_bind, Option.bind_some]
          cases ok with
          | false => exact ⟨false, s2, rfl, h1.trans h2⟩
          | true =>
            refine ihl s2 (h1.trans h2) fun z hz => ?_
            have hz1 := hy z (by simp [hz])
            exact ⟨hz1.1, h2.room hz1.2.1, Nat.lt_of_le_of_lt (cost_down h2.pos) hz1.2.2⟩
      refine all items s' hs fun y hy => ?_
      have := hi y hy
      exact ⟨this.1, this.2.1, by have := this.2.2; have := hx.2.2; omega⟩

include hc0 in
theorem crossrefs_safe {nodes : List LNode} {live : Blocks} (hl : live0 <+: live)
    (href : ∀ x ∈ nodes, ∀ t, x.flags.testBit 3 = true → nodes[x.first]? = some t → t.addr ≠ 0 → covered live t.addr 8 = true) :
    ∀ (l : List LNode) (m : Bytes), (∀ x ∈ l, x ∈ nodes) → (∀ x ∈ l, x.ty = .pointer ∨ x.ty = .string → covered (home dst ext live0 live) x.addr 8 = true) →
      (∀ a, covered (home dst ext live0 live) a 1 = false → m a = m0 a) →
      ∃ ok m', crossrefs nodes live l m = some (ok, m') ∧ ∀ a, covered (home dst ext live0 live) a 1 = false → m' a = m0 a := by
  intro l
  induction l with
  | nil => intro m _ _ hm; exact ⟨true, m, rfl, hm⟩
  | cons x l ih =>
    intro m hn hcell hm
    have one : ∃ ok m', crossref nodes live m x = some (ok, m') ∧ ∀ a, covered (home dst ext live0 live) a 1 = false → m' a = m0 a := by
      unfold crossref
      split
      · exact ⟨_, _, rfl, hm⟩
      split
      · exact ⟨_, _, rfl, hm⟩
      split
      · exact ⟨_, _, rfl, hm⟩
      next h1 h2 h3 =>
      have hcx : covered (home dst ext live0 live) x.addr 8 = true := hcell x (by simp) (by
        rcases Classical.em (x.ty = .pointer) with h | h
        · exact .inl h
        · right; exact Classical.byContradiction fun h' => h3 ⟨h, h'⟩)
      have hlt : x.first < nodes.length := by omega
      have hv : ∃ ok v, (if x.flags.testBit 3 = true then
          if nodes[x.first].addr = 0 then some (false, 0)
          else if covered live nodes[x.first].addr 8 then some (true, word m nodes[x.first].addr) else none
        else some (true, nodes[x.first].addr)) = some (ok, v) := by
        split
        · next hb =>
          split
          · exact ⟨_, _, rfl⟩
          · next ha =>
            rw [if_pos (href x (hn x (by simp)) _ hb (List.getElem?_eq_getElem hlt) ha)]
            exact ⟨_, _, rfl⟩
        · exact ⟨_, _, rfl⟩
      obtain ⟨ok, v, hv⟩ := hv
      simp only [List.getElem?_eq_getElem hlt, Option.bind_eq_bind, Option.bind_some, hv]
      split
      · exact ⟨_, _, rfl, hm⟩
      · rw [if_pos (home_live hc0 hl hcx)]
        exact ⟨_, _, rfl, fun a ha => by rw [setWord_other (not_home hcx ha)]; exact hm a ha⟩
    obtain ⟨ok, m1, e1, hm1⟩ := one
    obtain ⟨ok2, m2, e2, hm2⟩ := ih m1 (fun y hy => hn y (by simp [hy])) (fun y hy => hcell y (by simp [hy])) hm1
    unfold crossrefs
    simp only [e1, e2, Option.bind_eq_bind, Option.bind_some]
    exact ⟨_, _, rfl, hm2⟩

end
end Verif.Lemmas.XdrSafe
