import Verif.Lemmas.XdrSafe
import Verif.Spec.Load
/-!
Loading an arbitrary tree of nodes: what every step keeps.
-/
namespace Verif.Lemmas.LoadSafe
open Verif.Model Verif.Model.Ptrs Verif.Model.Save Verif.Model.Copy Verif.Model.Load Verif.Spec Verif.Spec.Save Verif.Spec.Copy Verif.Spec.Load
  Verif.Lemmas.XdrMem Verif.Lemmas.CopyMem
open Verif.Model.XdrGraph (put peek bytesAt bitBytes toBits ofBits bytesWord tdAt tdType wordBytes)

/-! ### types -/

/-- the types that are loaded -/
structure Known (tds : List Td) : Prop where
  types : Types tds
  layout : Layout tds
  fields : Fields tds

/-- what a pointer leads to -/
def Points (tds : List Td) (aux : MrType) (td : Option Nat) : Prop := untyped aux = true ∨ ∃ b, HasTd tds td b ∧ Leads aux b

/-- the descriptors of objects that are loaded -/
def Good (tds : List Td) (f : Fd) : Prop :=
  f.sizeField = none ∧ (plain f.ty = true → f.size = elementSize tds f.ty f.td) ∧
  match f.ty with
  | .struct => HasTd tds f.td .struct
  | .pointer => Points tds f.aux f.td
  | .array => ∃ b c, HasTd tds f.td b ∧ Leads f.aux b ∧ f.dims = [c] ∧ f.size = c * elementSize tds f.aux f.td
  | .bitfield => f.shift < 8 ∧ 1 ≤ f.width ∧ f.width ≤ 128
  | .union | .anonUnion | .namedAnonUnion => False
  | _ => True

/-- the number of bytes of an object -/
def room (tds : List Td) (f : Fd) : Nat :=
  match f.ty with
  | .bitfield => bitBytes f
  | .pointer => 8
  | .array | .charArray => f.size
  | .none | .void | .endAnonUnion | .last | .union | .anonUnion | .namedAnonUnion => 0
  | t => elementSize tds t f.td

theorem room_plain {tds : List Td} {f : Fd} (h : plain f.ty = true) : room tds f = elementSize tds f.ty f.td := by
  unfold room
  revert h
  cases f.ty <;> simp [plain]

theorem good_field {tds : List Td} (K : Known tds) {t : Nat} {d : Td} {f : Fd} (ht : tds[t]? = some d) (hd : d.ty = .struct) (hf : f ∈ d.fields) :
    Good tds f ∧ room tds f ≤ span f ∧ f.offset + room tds f ≤ d.size := by
  have h1 := (K.types.fields t d ht hd f hf).1
  have h2 := K.layout.inside t d f ht hd hf
  have hg : Good tds f := by
    obtain ⟨a1, _, a3, a4⟩ := h1
    refine ⟨a1, a3, ?_⟩
    revert a4
    cases e : f.ty <;> intro a4 <;> first | exact trivial | exact a4 | exact K.fields.bits t d f ht hd hf e | skip
    · obtain ⟨b, c, q1, q2, _, q4, q5⟩ := a4
      exact ⟨b, c, q1, q2, q4, q5⟩
    · rcases a4 with h | ⟨b, q1, q2, _⟩
      · exact .inl h
      · exact .inr ⟨b, q1, q2⟩
  have hr : room tds f ≤ span f := by
    by_cases hb : f.ty = .bitfield
    · have hw := K.fields.bits t d f ht hd hf hb
      unfold room span bitBytes
      rw [hb]
      simp only [if_true]
      exact Nat.max_le.2 ⟨by omega, Nat.le_refl _⟩
    · have hsp : span f = f.size := by unfold span; rw [if_neg hb]
      rw [hsp]
      by_cases hpl : plain f.ty = true
      · rw [room_plain hpl, h1.2.2.1 hpl]
        exact Nat.le_refl _
      · by_cases hp : f.ty = .pointer
        · have := K.layout.pointer t d f ht hd hf hp
          unfold room
          rw [hp]
          simp only
          omega
        · unfold room
          revert hpl hb hp
          cases e : f.ty <;> simp [plain]
  exact ⟨hg, hr, by omega⟩

/-- elements: what a pointer leads to and the elements of arrays -/
theorem good_elem {tds : List Td} {g : Fd} {aux : MrType} {td : Option Nat} (hp : Points tds aux td) (h1 : g.ty = aux) (h2 : g.aux = tdType tds td) (h3 : g.td = td)
    (h4 : g.sizeField = none) (h5 : g.size = elementSize tds aux td) : Good tds g ∧ g.ty ≠ .bitfield ∧ g.ty ≠ .charArray ∧ room tds g ≤ g.size := by
  rcases hp with h | ⟨b, hb, hl⟩
  · unfold untyped at h
    simp only [Bool.or_eq_true, decide_eq_true_eq] at h
    unfold Good room
    rw [h1]
    rcases h with h | h <;> rw [h] <;> exact ⟨⟨h4, (fun h => by simp [plain] at h), trivial⟩, by simp, by simp, Nat.zero_le _⟩
  · obtain ⟨t, d, e1, e2, e3, e4⟩ := XdrSafe.hasTd_at hb
    have hty : tdType tds td = b := by unfold tdType; rw [e4]; simpa using e3
    rcases hl with ⟨hl, hp⟩ | ⟨hl, hp⟩
    · have hpl : plain g.ty = true := by rw [h1, hl]; exact hp
      refine ⟨⟨h4, (fun _ => by rw [h5, h1, h3]), ?_⟩, ?_, ?_, by rw [room_plain hpl, h5, h1, h3]; exact Nat.le_refl _⟩
      · rw [h1, hl]
        revert hp hb
        cases b <;> intro hb hp <;> first | exact trivial | (rw [h3]; exact hb) | (simp [plain] at hp)
      · rw [h1, hl]; intro e; rw [e] at hp; simp [plain] at hp
      · rw [h1, hl]; intro e; rw [e] at hp; simp [plain] at hp
    · unfold Good room
      rw [h1, hl]
      refine ⟨⟨h4, (fun h => by simp [plain] at h), ?_⟩, by simp, by simp, ?_⟩
      · show Points tds g.aux g.td
        rw [h2, h3, hty]
        rcases hp with hp | hp
        · exact .inr ⟨b, hb, .inl ⟨rfl, hp⟩⟩
        · exact .inl hp
      · simp only [h5, hl, elementSize, typeSize]
        simp

/-! ### trees -/

theorem siblings_unique {ra : List Pd} {i : Nat} {l : List Nat} (h : Siblings ra i l) : ∀ {l'}, Siblings ra i l' → l = l' := by
  induction h with
  | nil => intro l' h'; cases h' with
    | nil => rfl
    | cons h0 => exact absurd rfl h0
  | cons h0 h1 _ ih =>
    intro l' h'
    cases h' with
    | nil => exact absurd rfl h0
    | cons _ h1' h2' =>
      rw [h1] at h1'; cases h1'
      rw [ih h2']

theorem siblings_at {ra : List Pd} {i : Nat} {l : List Nat} (h : Siblings ra i l) {c : Nat} (hc : c ∈ l) : ∃ l' , Siblings ra c (c :: l') ∧ l'.length < l.length ∧ c ≠ 0 ∧ c < ra.length := by
  induction h with
  | nil => cases hc
  | @cons i pd l h0 h1 h2 ih =>
    rcases List.mem_cons.1 hc with rfl | hc
    · exact ⟨l, .cons h0 h1 h2, by simp, h0, (List.getElem?_eq_some_iff.1 h1).1⟩
    · obtain ⟨l', a, b, c, d⟩ := ih hc
      exact ⟨l', a, by simp only [List.length_cons]; omega, c, d⟩

theorem siblings_nodup {ra : List Pd} {i : Nat} {l : List Nat} (h : Siblings ra i l) : l.Nodup := by
  induction h with
  | nil => exact List.nodup_nil
  | @cons i pd l h0 h1 h2 ih =>
    refine List.nodup_cons.2 ⟨fun hm => ?_, ih⟩
    obtain ⟨l', h3, h4, _⟩ := siblings_at h2 hm
    have := siblings_unique h3 (.cons h0 h1 h2)
    rw [List.cons.injEq] at this
    rw [this.2] at h4
    omega

theorem siblings_length {ra : List Pd} {i : Nat} {l : List Nat} (h : Siblings ra i l) : l.length ≤ ra.length := by
  have hsub : l ⊆ List.range ra.length := fun c hc => by
    obtain ⟨_, _, _, _, hlt⟩ := siblings_at h hc
    exact List.mem_range.2 hlt
  have := (siblings_nodup h).length_le_of_subset hsub
  simpa using this

theorem chain_of {ra : List Pd} {i : Nat} {l : List Nat} (h : Siblings ra i l) : ∀ fuel, l.length < fuel → chain ra fuel i = some l := by
  induction h with
  | nil => intro fuel hf; cases fuel with
    | zero => simp at hf
    | succ fuel => simp [chain]
  | @cons i pd l h0 h1 h2 ih =>
    intro fuel hf
    cases fuel with
    | zero => simp at hf
    | succ fuel =>
      simp only [chain, if_neg h0, h1, Option.bind_eq_bind, Option.bind_some]
      rw [ih fuel (by simpa using hf)]
      rfl

theorem kids_ok {E : Env} (hT : Tree E.ra) {i : Nat} (h : i < E.ra.length) : ∃ pd l, E.ra[i]? = some pd ∧ Siblings E.ra pd.firstChild l ∧ Load.kids E i = some l ∧ l.Nodup ∧
    ∀ c ∈ l, i < c ∧ ∃ pc : Pd, E.ra[c]? = some pc ∧ pc.parent = i := by
  obtain ⟨l, h1, h2⟩ := hT.kids i _ (List.getElem?_eq_getElem h)
  refine ⟨_, l, List.getElem?_eq_getElem h, h1, ?_, siblings_nodup h1, h2⟩
  unfold Load.kids
  simp only [List.getElem?_eq_getElem h, Option.bind_eq_bind, Option.bind_some]
  exact chain_of h1 _ (by have := siblings_length h1; omega)

/-- `j` is `i` or below it -/
inductive Desc (ra : List Pd) (i : Nat) : Nat → Prop
  | self : Desc ra i i
  | down {c : Nat} {pc : Pd} : ra[c]? = some pc → Desc ra i pc.parent → Desc ra i c

theorem desc_le {ra : List Pd} (hT : Tree ra) {i j : Nat} (h : Desc ra i j) : i ≤ j := by
  induction h with
  | self => exact Nat.le_refl _
  | down h1 _ ih =>
    rcases hT.up _ _ h1 with h | ⟨h, h'⟩ <;> omega

theorem desc_trans {ra : List Pd} {i j k : Nat} (h : Desc ra i j) (h' : Desc ra j k) : Desc ra i k := by
  induction h' with
  | self => exact h
  | down h1 _ ih => exact .down h1 ih

theorem desc_sibling {ra : List Pd} (hT : Tree ra) {p x y : Nat} {px py : Pd} (hx : ra[x]? = some px) (hxp : px.parent = p) (hlt : p < x)
    (hy : ra[y]? = some py) (hyp : py.parent = p) (hne : x ≠ y) : ¬ Desc ra x y := by
  intro h
  cases h with
  | self => exact hne rfl
  | down h1 h2 =>
    rw [hy] at h1; cases h1
    rw [hyp] at h2
    have := desc_le hT h2
    omega

/-! ### memory -/

theorem zero_word {m : Bytes} {a : Nat} (h : ∀ k, k < 8 → m (a + k) = 0) : word m a = 0 := by
  have := number_digits (m := m) 8 a 0 (fun k hk => by rw [h k hk]; simp)
  unfold word
  rw [this]

theorem number_zero {m : Bytes} : ∀ (n a : Nat), number m a n = 0 → ∀ k, k < n → m (a + k) = 0 := by
  intro n
  induction n with
  | zero => intro a _ k hk; omega
  | succ n ih =>
    intro a h k hk
    unfold number at h
    cases k with
    | zero =>
      apply UInt8.toNat.inj
      show (m (a + 0)).toNat = 0
      rw [Nat.add_zero]
      omega
    | succ k =>
      have := ih (a + 1) (by omega) k (by omega)
      rw [show a + (k + 1) = a + 1 + k from by omega]
      exact this

theorem setWord_zero {m : Bytes} {a : Nat} (h : word m a = 0) : setWord m a 0 = m := by
  funext b
  unfold setWord
  split
  · next hb =>
    have := number_zero 8 a h (b - a) (by omega)
    rw [show a + (b - a) = b from by omega] at this
    rw [this]
    simp
  · rfl

theorem grown_pos {alloc : Blocks → Nat → Nat} {live new : Blocks} (h : Grown alloc live new) : ∀ b ∈ new, b.1 ≠ 0 := by
  induction h with
  | none => intro b hb; cases hb
  | more _ h2 ih =>
    intro b hb
    rcases List.mem_append.1 hb with hb | hb
    · exact ih b hb
    · simp only [List.mem_singleton] at hb; subst hb; exact h2

theorem grown_old {alloc : Blocks → Nat → Nat} (hA : Allocator alloc) {live new : Blocks} (h : Grown alloc live new) : ∀ b ∈ new, ∀ c ∈ live, Apart b.1 b.2 c.1 c.2 := by
  induction h with
  | none => intro b hb; cases hb
  | more _ h2 ih =>
    intro b hb c hc
    rcases List.mem_append.1 hb with hb | hb
    · exact ih b hb c hc
    · simp only [List.mem_singleton] at hb; subst hb
      exact hA.fresh _ _ h2 c (by simp [hc])

theorem grown_apart {alloc : Blocks → Nat → Nat} (hA : Allocator alloc) {live new : Blocks} (h : Grown alloc live new) : new.Pairwise fun b c => Apart b.1 b.2 c.1 c.2 := by
  induction h with
  | none => exact List.Pairwise.nil
  | more _ h2 ih =>
    refine List.pairwise_append.2 ⟨ih, by simp, fun b hb c hc => ?_⟩
    simp only [List.mem_singleton] at hc; subst hc
    have := hA.fresh _ _ h2 b (by simp [hb])
    unfold Apart at *
    simp only at *
    omega

theorem grown_space {alloc : Blocks → Nat → Nat} (hA : Allocator alloc) {live new : Blocks} (h : Grown alloc live new) : ∀ b ∈ new, b.1 + b.2 ≤ 2 ^ 64 := by
  induction h with
  | none => intro b hb; cases hb
  | more _ h2 ih =>
    intro b hb
    rcases List.mem_append.1 hb with hb | hb
    · exact ih b hb
    · simp only [List.mem_singleton] at hb; subst hb; exact hA.space _ _ h2

end Verif.Lemmas.LoadSafe
