import Verif.Lemmas.Cmp
import Verif.Lemmas.CmpFloat
/-!
# `mr_hash_struct`: nodes that agree have the same hash value
-/
namespace Verif.Lemmas.CmpHash
open Verif.Model Verif.Model.Ptrs Verif.Model.Save Verif.Model.Copy Verif.Model.BasicCmp Verif.Model.Cmp Verif.Spec.Cmp
open Verif.Lemmas.Cmp Verif.Lemmas.CmpFloat

theorem signed_inj {n v w : Nat} (hv : v < 2 ^ (8 * n)) (hw : w < 2 ^ (8 * n)) (h : signed n v = signed n w) : v = w := by
  unfold signed at h
  split at h <;> split at h <;> omega

theorem signed_number {m : Bytes} {a b n : Nat} (h : signed n (number m a n) = signed n (number m b n)) : number m a n = number m b n := by
  have l := number_lt m n
  have e : (256 : Nat) ^ n = 2 ^ (8 * n) := by rw [Nat.pow_mul]
  rw [e] at l
  exact signed_inj (l _) (l _) h

theorem int_number {m : Bytes} {a b n : Nat} (h : Val.int (number m a n) = Val.int (number m b n)) : number m a n = number m b n :=
  Int.ofNat.inj (Val.int.inj h)

theorem intVal_inj {m : Bytes} {a b : Nat} {t : MrType} (ht : intType t = true) (h : intVal m a t = intVal m b t) :
    number m a (typeSize t) = number m b (typeSize t) := by
  cases t <;> simp [intType] at ht
  case int8 => exact signed_number (Val.int.inj h)
  case uint8 => exact int_number h
  case int16 => exact signed_number (Val.int.inj h)
  case uint16 => exact int_number h
  case int32 => exact signed_number (Val.int.inj h)
  case uint32 => exact int_number h
  case int64 => exact signed_number (Val.int.inj h)
  case uint64 => exact int_number h
  case int128 => exact signed_number (Val.int.inj h)
  case uint128 => exact int_number h

theorem alike_noncpx {v w : Val} (h : Alike v w) (hv : kind v ≠ 4) : v = w := by
  rcases h with h | ⟨a, b, c, d, h, _⟩
  · exact h
  · subst h; exact absurd rfl hv

theorem block_congr {m : Bytes} {a b n : Nat} (h : number m a n = number m b n) : block m a n = block m b n := by
  rw [block_eq, block_eq, h]

theorem float_number {m : Bytes} {a b e f n : Nat} {v w : Option Int} (hn : 256 ^ n = 2 ^ (e + f + 1)) (hv : float e f (number m a n) = v) (hw : float e f (number m b n) = w)
    (h : v = w) (hv0 : v ≠ none) (pa : plainFloat e f (number m a n)) (pb : plainFloat e f (number m b n)) : block m a n = block m b n := by
  have l := number_lt m n
  rw [hn] at l
  cases v with
  | none => exact absurd rfl hv0
  | some k => subst h; exact block_congr (float_inj (l _) (l _) pa pb hv hw)

theorem extended_number {m : Bytes} {a b e f n : Nat} {v w : Option Int} (hn : 256 ^ n = 2 ^ (e + f + 1 + 1)) (hv : extended e f (number m a n) = v)
    (hw : extended e f (number m b n) = w) (h : v = w) (hv0 : v ≠ none) (pa : plainExtended e f (number m a n)) (pb : plainExtended e f (number m b n)) :
    block m a n = block m b n := by
  have l := number_lt m n
  rw [hn] at l
  cases v with
  | none => exact absurd rfl hv0
  | some k => subst h; exact block_congr (extended_inj (l _) (l _) pa pb hv hw)

theorem hashFloat_congr {m : Bytes} {a b e f n : Nat} (hn : 256 ^ n = 2 ^ (e + f + 1)) (h : float e f (number m a n) = float e f (number m b n))
    (pa : plainFloat e f (number m a n)) (pb : plainFloat e f (number m b n)) :
    hashFloat (float e f (number m a n)).isNone (block m a n) = hashFloat (float e f (number m b n)).isNone (block m b n) := by
  cases hv : float e f (number m a n) with
  | none => rw [← h, hv]; rfl
  | some k =>
    rw [float_number hn hv (h.symm.trans hv) rfl (by simp) pa pb, ← h, hv]

theorem isNone_false {a b : Option Int} (h : ¬ hasNan a b) : (a.isNone || b.isNone) = false := by
  cases a <;> cases b <;> simp_all [hasNan]

theorem hashComplex_congr {m : Bytes} {a b e f n : Nat} (hn : 256 ^ n = 2 ^ (e + f + 1))
    (h : Alike (.cpx (float e f (number m a n)) (float e f (number m (a + n) n))) (.cpx (float e f (number m b n)) (float e f (number m (b + n) n))))
    (pa : plainFloat e f (number m a n) ∧ plainFloat e f (number m (a + n) n)) (pb : plainFloat e f (number m b n) ∧ plainFloat e f (number m (b + n) n)) :
    hashFloat ((float e f (number m a n)).isNone || (float e f (number m (a + n) n)).isNone) (block m a (n + n)) =
    hashFloat ((float e f (number m b n)).isNone || (float e f (number m (b + n) n)).isNone) (block m b (n + n)) := by
  by_cases hh : hasNan (float e f (number m a n)) (float e f (number m (a + n) n)) ∧ hasNan (float e f (number m b n)) (float e f (number m (b + n) n))
  · rw [isNone_iff.2 hh.1, isNone_iff.2 hh.2]; rfl
  · rcases h with h | ⟨_, _, _, _, h1, h2, h3, h4⟩
    · simp only [Val.cpx.injEq] at h
      rw [← h.1, ← h.2] at hh ⊢
      have hh : ¬ hasNan (float e f (number m a n)) (float e f (number m (a + n) n)) := fun e => hh ⟨e, e⟩
      rw [isNone_false hh]
      rw [block_add, block_add, float_number hn rfl rfl h.1 (fun e => hh (.inl e)) pa.1 pb.1,
        float_number hn rfl rfl h.2 (fun e => hh (.inr e)) pa.2 pb.2]
    · simp only [Val.cpx.injEq] at h1 h2
      rw [← h1.1, ← h1.2] at h3
      rw [← h2.1, ← h2.2] at h4
      exact absurd ⟨h3, h4⟩ hh

theorem hashExtended_congr {m : Bytes} {a b e f n : Nat} (hn : 256 ^ n = 2 ^ (e + f + 1 + 1)) (h : extended e f (number m a n) = extended e f (number m b n))
    (pa : plainExtended e f (number m a n)) (pb : plainExtended e f (number m b n)) :
    hashFloat (extended e f (number m a n)).isNone (block m a n) = hashFloat (extended e f (number m b n)).isNone (block m b n) := by
  cases hv : extended e f (number m a n) with
  | none => rw [← h, hv]; rfl
  | some k =>
    rw [extended_number hn hv (h.symm.trans hv) rfl (by simp) pa pb, ← h, hv]

theorem hashLong_congr {m : Bytes} {a b e f n d : Nat} (hn : 256 ^ n = 2 ^ (e + f + 1 + 1))
    (h : Alike (.cpx (extended e f (number m a n)) (extended e f (number m (a + d) n))) (.cpx (extended e f (number m b n)) (extended e f (number m (b + d) n))))
    (pa : plainExtended e f (number m a n) ∧ plainExtended e f (number m (a + d) n)) (pb : plainExtended e f (number m b n) ∧ plainExtended e f (number m (b + d) n)) :
    (if (extended e f (number m a n)).isNone || (extended e f (number m (a + d) n)).isNone then some (-1)
      else do some ((← hashBlock (block m a n)) + (← hashBlock (block m (a + d) n)))) =
    (if (extended e f (number m b n)).isNone || (extended e f (number m (b + d) n)).isNone then some (-1)
      else do some ((← hashBlock (block m b n)) + (← hashBlock (block m (b + d) n)))) := by
  by_cases hh : hasNan (extended e f (number m a n)) (extended e f (number m (a + d) n)) ∧ hasNan (extended e f (number m b n)) (extended e f (number m (b + d) n))
  · rw [isNone_iff.2 hh.1, isNone_iff.2 hh.2]; rfl
  · rcases h with h | ⟨_, _, _, _, h1, h2, h3, h4⟩
    · simp only [Val.cpx.injEq] at h
      rw [← h.1, ← h.2] at hh ⊢
      have hh : ¬ hasNan (extended e f (number m a n)) (extended e f (number m (a + d) n)) := fun e => hh ⟨e, e⟩
      rw [isNone_false hh, extended_number hn rfl rfl h.1 (fun e => hh (.inl e)) pa.1 pb.1,
        extended_number hn rfl rfl h.2 (fun e => hh (.inr e)) pa.2 pb.2]
    · simp only [Val.cpx.injEq] at h1 h2
      rw [← h1.1, ← h1.2] at h3
      rw [← h2.1, ← h2.2] at h4
      exact absurd ⟨h3, h4⟩ hh

theorem hashLeaf_congr {tds : List Td} {m : Bytes} {fuel : Nat} {p q : Pd} {x y : Info} {v w : Val} (ht : p.ty = q.ty) (ha : x.aux = y.aux) (hf : x.fd = y.fd)
    (hv : value tds m fuel p x = some v) (hw : value tds m fuel q y = some w) (hvw : Alike v w)
    (px : Plain m p x) (py : Plain m q y) (ex : EnumSize tds p x) : hashLeaf tds m fuel p x = hashLeaf tds m fuel q y := by
  have hk := value_kindOf hv
  unfold hashLeaf
  unfold value at hv hw
  unfold Plain at px py
  rw [← ht] at hw py ⊢
  cases hp : p.ty <;> simp only [hp] at hv hw px py hk ⊢
  case string =>
    have hvw := alike_noncpx hvw (by rw [hk]; simp [kindOf, intType])
    subst hvw
    by_cases h1 : word m x.addr = 0 <;> by_cases h2 : word m y.addr = 0
    · simp [h1, h2]
    · simp only [h1, h2, if_true, if_false] at hv hw
      obtain ⟨t, _, e⟩ := Option.bind_eq_some_iff.1 hw
      rw [← hv] at e; simp at e
    · simp only [h1, h2, if_true, if_false] at hv hw
      obtain ⟨t, _, e⟩ := Option.bind_eq_some_iff.1 hv
      rw [← hw] at e; simp at e
    · simp only [h1, h2, if_false] at hv hw ⊢
      obtain ⟨t, h3, e⟩ := Option.bind_eq_some_iff.1 hv
      obtain ⟨u, h4, e'⟩ := Option.bind_eq_some_iff.1 hw
      rw [← e] at e'
      simp at e'
      rw [h3, h4, e']
  case charArray =>
    have hvw := alike_noncpx hvw (by rw [hk]; simp [kindOf, intType])
    subst hvw
    obtain ⟨t, h3, e⟩ := Option.bind_eq_some_iff.1 hv
    obtain ⟨u, h4, e'⟩ := Option.bind_eq_some_iff.1 hw
    rw [← e] at e'
    simp at e'
    rw [h3, h4, e']
  case bitfield =>
    have hvw := alike_noncpx hvw (by rw [hk]; simp [kindOf, intType])
    subst hvw
    obtain ⟨t, h3, e⟩ := Option.bind_eq_some_iff.1 hv
    obtain ⟨u, h4, e'⟩ := Option.bind_eq_some_iff.1 hw
    rw [← e] at e'
    simp only [Option.some.injEq, Val.int.injEq] at e'
    have e' : u.toNat = t.toNat := by exact_mod_cast e'
    rw [h3, h4]
    simp [e']
  case char =>
    have hvw := alike_noncpx hvw (by rw [hk]; simp [kindOf, intType])
    subst hvw
    rw [← hv] at hw
    simp only [Option.some.injEq, Val.int.injEq] at hw
    rw [block_congr (signed_number hw)]
  case bool =>
    have hvw := alike_noncpx hvw (by rw [hk]; simp [kindOf, intType])
    subst hvw
    rw [← hv] at hw
    simp only [Option.some.injEq, Val.int.injEq] at hw
    have hw : number m y.addr 1 = number m x.addr 1 := by exact_mod_cast hw
    rw [hw]
  case func =>
    have hvw := alike_noncpx hvw (by rw [hk]; simp [kindOf, intType])
    subst hvw
    rw [← hv] at hw
    simp only [Option.some.injEq, Val.int.injEq] at hw
    have hw : number m y.addr 8 = number m x.addr 8 := by exact_mod_cast hw
    rw [block_congr hw]
  case funcType =>
    have hvw := alike_noncpx hvw (by rw [hk]; simp [kindOf, intType])
    subst hvw
    rw [← hv] at hw
    simp only [Option.some.injEq, Val.int.injEq] at hw
    have hw : number m y.addr 8 = number m x.addr 8 := by exact_mod_cast hw
    rw [block_congr hw]
  case enum =>
    rw [← hf]
    obtain ⟨e1, e2⟩ := ex hp
    have hvw := alike_noncpx hvw (by rw [hk]; simp [kindOf, e1])
    subst hvw
    rw [← hv, ← ha] at hw
    simp only [Option.some.injEq] at hw
    have hn := block_congr (intVal_inj e1 hw)
    unfold effectiveType at e2
    cases hd : (tdOf x.fd).bind (tds[·]?) with
    | none => rfl
    | some d =>
      rw [hd] at e2
      simp only at e2 ⊢
      rw [← e2, hn]
  case float =>
    have hvw := alike_noncpx hvw (by rw [hk]; simp [kindOf, intType])
    subst hvw
    rw [← hv] at hw
    simp only [Option.some.injEq, Val.flt.injEq] at hw
    exact hashFloat_congr (by decide) hw.symm px py
  case double =>
    have hvw := alike_noncpx hvw (by rw [hk]; simp [kindOf, intType])
    subst hvw
    rw [← hv] at hw
    simp only [Option.some.injEq, Val.flt.injEq] at hw
    exact hashFloat_congr (by decide) hw.symm px py
  case longDouble =>
    have hvw := alike_noncpx hvw (by rw [hk]; simp [kindOf, intType])
    subst hvw
    rw [← hv] at hw
    simp only [Option.some.injEq, Val.flt.injEq] at hw
    exact hashExtended_congr (by decide) hw.symm px py
  case complexFloat =>
    cases hv; cases hw
    exact hashComplex_congr (n := 4) (by decide) hvw px py
  case complexDouble =>
    cases hv; cases hw
    exact hashComplex_congr (n := 8) (by decide) hvw px py
  case complexLongDouble =>
    cases hv; cases hw
    exact hashLong_congr (n := 10) (d := 16) (by decide) hvw px py
  all_goals
    first
    | (have hvw := alike_noncpx hvw (by rw [hk]; simp [kindOf, intType])
       subst hvw
       rw [← hv] at hw
       simp only [Option.some.injEq] at hw
       have := block_congr (intVal_inj (by decide) hw)
       simp only [typeSize] at this
       rw [this])

end Verif.Lemmas.CmpHash
