import Verif.Model.Validate
import Verif.Spec.Validate
import Verif.Props.Detect
/-!
# C77: fields that make no sense become opaque
-/
namespace Verif.Props.Validate
open Verif.Model.Ptrs Verif.Model.Detect Verif.Model.Validate Verif.Spec.Validate

theorem pointer_sound {st : Stype} (h : checkPointer st = true) :
    (st.aux = .pointer ∧ st.tdp ≠ none) ∨ (st.aux ≠ .none ∧ st.aux ≠ .pointer ∧ Fits st.tdp st.aux) := by
  unfold checkPointer at h
  by_cases hp : st.aux = .pointer
  · rw [if_pos hp] at h
    exact Or.inl ⟨hp, by intro e; rw [e] at h; cases h⟩
  · rw [if_neg hp] at h
    right
    simp only [Bool.and_eq_true, Bool.not_eq_true'] at h
    refine ⟨by intro e; rw [e] at h; simp [validAux] at h, hp, ?_, ?_⟩
    · intro td htd
      have := h.1.2
      simp only [differs, htd, bne_eq_false_iff_eq] at this
      exact this.symm
    · intro hn e
      have := h.2
      rw [e] at this
      rcases hn with hn | hn | hn | hn | hn <;> rw [hn] at this <;> simp [typedTypes] at this

theorem differs_false {tdp : Option Td} {t : MrType} (h : differs tdp t = false) : ∀ td, tdp = some td → td.ty = t := by
  intro td htd
  simp only [differs, htd, bne_eq_false_iff_eq] at h
  exact h.symm

theorem bit_sound {tp : Option Td} {aux : MrType}
    (h : (intTypes aux && !(typedTypes aux && tp.isNone) && !(typedTypes aux && differs tp aux)) = true) :
    isInteger aux ∧ (aux = .enum → Fits tp .enum) := by
  simp only [Bool.and_eq_true, Bool.not_eq_true'] at h
  refine ⟨?_, ?_⟩
  · have := h.1.1
    cases aux <;> simp [intTypes] at this <;> simp [isInteger, Spec.Detect.integers]
  · rintro rfl
    have h1 := h.1.2
    have h2 := h.2
    simp only [typedTypes, Bool.true_and] at h1 h2
    exact ⟨differs_false h2, fun _ e => by rw [e] at h1; cases h1⟩

theorem char_sound {tp : Option Td} {t : MrType}
    (h : (match tp with
      | some td => if td.ty = .char then (true, MrType.charArray) else (!differs tp .charArray, .charArray)
      | none => (!differs tp .charArray, .charArray)) = (true, t)) : t = .charArray ∧ (Fits tp .charArray ∨ Fits tp .char) := by
  cases tp with
  | none =>
    cases h
    exact ⟨rfl, Or.inl ⟨by simp, by simp [needsType]⟩⟩
  | some td =>
    simp only at h
    split at h
    · rename_i e
      cases h
      exact ⟨rfl, Or.inr ⟨fun x hx => by cases hx; exact e, by simp [needsType]⟩⟩
    · simp only [Prod.mk.injEq] at h
      exact ⟨h.2.symm, Or.inl ⟨differs_false (by simpa using h.1), by simp [needsType]⟩⟩

/-- **C77.** Whatever was detected, the description of a field makes sense after the check. -/
theorem C77_sound (st : Stype) : Sound (validate st).2 := by
  obtain ⟨ty, t0, aux, pc, ia, ib, sz, ds, tp⟩ := st
  unfold validate
  cases hc : check ⟨ty, t0, aux, pc, ia, ib, sz, ds, tp⟩ with
  | mk ok t =>
    cases ok with
    | false =>
      simp only [Bool.false_eq_true, if_false]
      by_cases hp : t = .pointer
      · simp [Sound, hp]
      · simp [Sound, hp]
    | true =>
      simp only [if_true]
      by_cases hca : t0 = .charArray
      · subst hca
        obtain ⟨rfl, h⟩ := char_sound hc
        exact h
      cases t0 <;> simp only [check, Prod.mk.injEq] at hc <;> (try (obtain ⟨h1, rfl⟩ := hc)) <;> simp only [Sound]
      all_goals first
        | trivial
        | exact ⟨differs_false (by simpa using h1), fun h => absurd h (by simp [needsType])⟩
        | (cases tp with
            | none => cases h1
            | some td =>
              simp only [beq_iff_eq] at h1
              exact ⟨fun x hx => by cases hx; exact h1.symm, fun _ h => by cases h⟩)
        | exact Or.inr (pointer_sound h1)
        | (simp only [Bool.and_eq_true, bne_iff_ne] at h1
           exact ⟨h1.1, pointer_sound h1.2⟩)
        | exact bit_sound h1
        | exact absurd rfl hca

/-- what pointers and arrays cannot be of: parts of structures that have no type of their own -/
def partOnly (t : MrType) : Prop :=
  t = .func ∨ t = .bitfield ∨ t = .array ∨ t = .anonUnion ∨ t = .namedAnonUnion ∨ t = .endAnonUnion ∨ t = .last

theorem checkPointer_of {st : Stype} (h : (st.aux = .pointer ∧ st.tdp ≠ none) ∨ (st.aux ≠ .none ∧ st.aux ≠ .pointer ∧ Fits st.tdp st.aux))
    (hp : ¬ partOnly st.aux) : checkPointer st = true := by
  unfold checkPointer
  rcases h with ⟨h1, h2⟩ | ⟨h1, h2, h3, h4⟩
  · rw [if_pos h1]
    cases ht : st.tdp with
    | none => exact absurd ht h2
    | some td => rfl
  · rw [if_neg h2]
    have hv : validAux st.aux = true := by
      revert hp h1
      cases st.aux <;> simp [partOnly, validAux]
    have hd : differs st.tdp st.aux = false := by
      unfold differs
      cases ht : st.tdp with
      | none => rfl
      | some td => simp [h3 td ht]
    have hn : (typedTypes st.aux && st.tdp.isNone) = false := by
      cases ht : st.tdp with
      | some td => simp
      | none =>
        have : ¬ needsType st.aux := fun h => h4 h ht
        revert this
        cases st.aux <;> simp [needsType, typedTypes]
    simp [hv, hd, hn]

theorem not_differs {tdp : Option Td} {t : MrType} (h : Fits tdp t) : differs tdp t = false := by
  unfold differs
  cases ht : tdp with
  | none => rfl
  | some td => simp [h.1 td ht]

/-- **C77.** A field that makes sense is left as it is. -/
theorem C77_keeps (st : Stype) (h : Sound st) (hp : st.ty = .pointer ∨ st.ty = .array → ¬ partOnly st.aux) : (validate st).2 = st := by
  have key : (check st).2 = st.ty ∧ ((check st).1 = true ∨ (st.ty = .pointer ∧ st.aux = .void)) := by
    by_cases h1 : st.ty = .pointer
    · simp only [Sound, h1] at h
      refine ⟨by simp [check, h1], ?_⟩
      rcases h with h | h
      · exact Or.inr ⟨h1, h⟩
      · left
        simp only [check, h1]
        exact checkPointer_of h (hp (Or.inl h1))
    · by_cases h2 : st.ty = .array
      · simp only [Sound, h2] at h
        refine ⟨by simp [check, h2], Or.inl ?_⟩
        simp only [check, h2, Bool.and_eq_true, bne_iff_ne]
        exact ⟨h.1, checkPointer_of h.2 (hp (Or.inr h2))⟩
      · by_cases h3 : st.ty = .bitfield
        · simp only [Sound, h3] at h
          refine ⟨by simp [check, h3], Or.inl ?_⟩
          simp only [check, h3]
          by_cases he : st.aux = .enum
          · have hf := h.2 he
            have hd := not_differs hf
            have hn : st.tdp ≠ none := hf.2 (by simp [needsType])
            cases ht : st.tdp with
            | none => exact absurd ht hn
            | some td =>
              rw [ht] at hd
              simp [he, intTypes, typedTypes, hd]
          · have hi : intTypes st.aux = true ∧ typedTypes st.aux = false := by
              have h4 := h.1
              revert h4 he
              cases st.aux <;> simp [isInteger, Spec.Detect.integers, intTypes, typedTypes]
            simp [hi.1, hi.2]
        · by_cases h4 : st.ty = .charArray
          · simp only [Sound, h4] at h
            simp only [check, h4]
            cases ht : st.tdp with
            | none => simp [differs]
            | some td =>
              simp only
              split
              · simp
              · rename_i hc
                rcases h with h | h
                · rw [ht] at h
                  simp [not_differs h]
                · exact absurd (h.1 td ht) hc
          · cases hc : st.ty <;> simp only [Sound, hc] at h <;> first
              | exact absurd hc h1
              | exact absurd hc h2
              | exact absurd hc h3
              | exact absurd hc h4
              | exact h.elim
              | (simp [check, hc]; done)
              | (simp [check, hc, not_differs h]; done)
              | (have hn : st.tdp ≠ none := h.2 (by simp [needsType])
                 cases ht : st.tdp with
                 | none => exact absurd ht hn
                 | some td => simp [check, hc, ht, h.1 td ht])
  obtain ⟨ty, t0, aux, pc, ia, ib, sz, ds, tp⟩ := st
  unfold validate
  cases hc : check ⟨ty, t0, aux, pc, ia, ib, sz, ds, tp⟩ with
  | mk ok t =>
    rw [hc] at key
    simp only at key
    obtain ⟨rfl, k⟩ := key
    cases ok with
    | true => rfl
    | false =>
      rcases k with k | ⟨k1, k2⟩
      · cases k
      · simp [k1, k2]

/-- **C77.** A field that is changed becomes opaque, or a pointer to opaque data if it is a pointer; nothing else of it changes. -/
theorem C77_opaque (st : Stype) : (validate st).2 = st ∨ (validate st).2 = { st with ty := .void } ∨
    (validate st).2 = { st with ty := .void, aux := .void } ∨ (st.ty = .pointer ∧ (validate st).2 = { st with aux := .void }) := by
  obtain ⟨ty, t0, aux, pc, ia, ib, sz, ds, tp⟩ := st
  have hk : (check ⟨ty, t0, aux, pc, ia, ib, sz, ds, tp⟩).2 = t0 ∨ (check ⟨ty, t0, aux, pc, ia, ib, sz, ds, tp⟩).2 = .void := by
    by_cases hca : t0 = .charArray
    · subst hca
      left
      simp only [check]
      cases tp with
      | none => rfl
      | some td => simp only; split <;> rfl
    · revert hca
      cases t0 <;> simp [check]
  unfold validate
  cases hc : check ⟨ty, t0, aux, pc, ia, ib, sz, ds, tp⟩ with
  | mk ok t =>
    rw [hc] at hk
    simp only at hk
    cases ok with
    | true => rcases hk with rfl | rfl <;> simp
    | false =>
      rcases hk with rfl | rfl
      · by_cases hp : t = .pointer <;> simp [hp]
      · simp

/-- **C77.** Checking again changes nothing. -/
theorem C77_again (st : Stype) : (validate (validate st).2).2 = (validate st).2 := by
  refine C77_keeps _ (C77_sound st) ?_
  obtain ⟨ty, t0, aux, pc, ia, ib, sz, ds, tp⟩ := st
  unfold validate
  cases hc : check ⟨ty, t0, aux, pc, ia, ib, sz, ds, tp⟩ with
  | mk ok t =>
    cases ok with
    | false =>
      simp only [Bool.false_eq_true, if_false]
      intro _
      simp [partOnly]
    | true =>
      simp only [if_true]
      intro ht
      have hcp : checkPointer ⟨ty, t0, aux, pc, ia, ib, sz, ds, tp⟩ = true := by
        cases t0 <;> simp only [check] at hc <;> first
          | (simp only [Prod.mk.injEq] at hc
             obtain ⟨h1, rfl⟩ := hc
             first
               | exact h1
               | (simp only [Bool.and_eq_true] at h1; exact h1.2)
               | (simp at ht))
          | (obtain ⟨rfl, _⟩ := char_sound hc; simp at ht)
      unfold checkPointer at hcp
      simp only at hcp
      split at hcp
      · rename_i e
        rw [e]; simp [partOnly]
      · simp only [Bool.and_eq_true] at hcp
        have := hcp.1.1
        revert this
        cases aux <;> simp [validAux, partOnly]

/-- **C77.** Fields of user-defined types with up to two stars and bounds, as detected (C76), pass the check unchanged. -/
theorem C77_detected (st : Stype) (td : Td) (hk : td.ty = .struct ∨ td.ty = .union ∨ td.ty = .enum ∨ td.ty = .funcType) (k : Nat) (ht : st.tdp = some td)
    (h : (st.ty = Spec.Detect.kind k td.ty ∧ st.aux = Spec.Detect.target k td.ty) ∨ (st.ty = .array ∧ st.aux = Spec.Detect.kind k td.ty)) :
    (validate st).2 = st := by
  have hf : Fits (some td) td.ty := ⟨fun x hx => by cases hx; rfl, fun _ h => by cases h⟩
  apply C77_keeps
  · rcases h with ⟨h1, h2⟩ | ⟨h1, h2⟩
    · by_cases hk0 : k = 0
      · simp only [Spec.Detect.kind, hk0, if_true] at h1
        rcases hk with e | e | e | e <;> rw [e] at h1 hf <;> simpa [Sound, h1, ht] using hf
      · simp only [Spec.Detect.kind, hk0, if_false] at h1
        simp only [Spec.Detect.target, hk0, if_false] at h2
        simp only [Sound, h1]
        right
        split at h2
        · right
          rw [h2, ht]
          refine ⟨?_, ?_, hf⟩ <;> rcases hk with e | e | e | e <;> rw [e] <;> simp
        · left
          exact ⟨h2, by simp [ht]⟩
    · simp only [Sound, h1, h2, Spec.Detect.kind]
      split
      · refine ⟨by rcases hk with e | e | e | e <;> rw [e] <;> simp, Or.inr ?_⟩
        rw [ht]
        refine ⟨?_, ?_, hf⟩ <;> rcases hk with e | e | e | e <;> rw [e] <;> simp
      · exact ⟨by simp, Or.inl ⟨rfl, by simp [ht]⟩⟩
  · intro _
    rcases h with ⟨_, h2⟩ | ⟨_, h2⟩
    · rw [h2, Spec.Detect.target]
      split
      · simp [partOnly]
      · split
        · rcases hk with e | e | e | e <;> rw [e] <;> simp [partOnly]
        · simp [partOnly]
    · rw [h2, Spec.Detect.kind]
      split
      · rcases hk with e | e | e | e <;> rw [e] <;> simp [partOnly]
      · simp [partOnly]

/-! A pointer to a pointer without type (three stars) and an enumeration without descriptor become opaque; a pointer to a structure stays. -/
example : validate { type := none, ty := .pointer, aux := .pointer } = (false, { type := none, ty := .pointer, aux := .void }) := by decide +kernel
example : (validate { type := none, ty := .enum }).2.ty = .void := by decide +kernel
example : Sound { type := none, ty := .pointer, aux := .struct, tdp := some ⟨[], .struct, 8⟩ } ∧ ¬ partOnly .struct := by
  refine ⟨Or.inr (Or.inr ⟨by simp, by simp, fun x hx => by cases hx; rfl, fun _ h => by cases h⟩), by simp [partOnly]⟩
example : ¬ Sound { type := none, ty := .array, aux := .void } := by simp [Sound]

end Verif.Props.Validate
