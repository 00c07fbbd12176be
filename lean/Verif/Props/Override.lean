import Verif.Spec.Override
import Verif.Props.Collection
/-!
# C68: overrides of union members

* `C68_first_override`: for every value the member of the first override that names one is used; unknown members and
  contradictions are reported, each one once.
* `C68_any_memory`: when memory runs out, this is reported, and what was registered until then is used.
-/
namespace Verif.Props.Override
open Verif.Model Verif.Model.Ic Verif.Model.Override Verif.Spec Verif.Spec.Override

theorem cmp_zero {M : Mem} {x y : Key} : cmp M x y = 0 ↔ M.value x = M.value y := by
  unfold cmp
  split <;> split <;> omega

theorem cmp_comparator (M : Mem) : Comparator (cmp M) := by
  constructor
  · intro x y; unfold cmp; split <;> split <;> omega
  · intro x y z; unfold cmp; split <;> split <;> split <;> split <;> split <;> split <;> omega

/-- the reference collection after the overrides `ks` -/
def stored (M : Mem) (ks : List Key) (s : List Key) : Prop :=
  ∀ k, lookup (cmp M) s k = first M ks (M.value k)

theorem first_append {M : Mem} {a b : List Key} {v : Nat} : first M (a ++ b) v = (first M a v).or (first M b v) := by
  unfold first; rw [List.find?_append]

theorem lookup_append {M : Mem} {s : List Key} {x k : Key} : lookup (cmp M) (s ++ [x]) k = (lookup (cmp M) s k).or (if M.value k = M.value x then some x else none) := by
  unfold lookup
  rw [List.find?_append]
  congr 1
  by_cases h : M.value k = M.value x
  · simp [h, cmp_zero]
  · simp [h, cmp_zero]

/-- the warnings for `ks` when `pre` were registered before -/
def warnsFrom (M : Mem) (pre : List Key) : List Key → List Warn
  | [] => []
  | k :: ks =>
    (match M.field k, first M (pre ++ [k]) (M.value k) with
     | none, _ => [Warn.invalid k]
     | some _, none => []
     | some _, some old => if M.name old ≠ M.name k then [.conflict old k] else []) ++ warnsFrom M (pre ++ [k]) ks

theorem register_ok (M : Mem) (hash : Nat → Nat) (m : Key → Bool × Bool) : ∀ (ks pre s : List Key) (n : Nat) (ic : Ic) (w : List Warn),
    Distinct (cmp M) s → 3 ≤ n → n + ks.length + 1 < 2 ^ 29 → Lemmas.Ic.Good (cmp M) (hashOf M hash) s ic → Lemmas.Ic.Small n ic → stored M pre s →
    ∃ ic' w' ok c s', register M hash m ks ic w = some (ic', w', ok) ∧ c ≤ ks.length ∧ Distinct (cmp M) s' ∧
      Lemmas.Ic.Good (cmp M) (hashOf M hash) s' ic' ∧ Lemmas.Ic.Small (n + ks.length) ic' ∧ stored M (pre ++ ks.take c) s' ∧
      w' = w ++ warnsFrom M pre (ks.take c) ∧ (ok = true → c = ks.length) ∧ (ok = false → ∃ k ∈ ks, m k ≠ (true, true))
  | [], pre, s, n, ic, w, hd, _, _, hg, hs, hst => by
    exact ⟨ic, w, true, 0, s, rfl, Nat.le_refl _, hd, hg, hs, by simpa using hst, by simp [warnsFrom], fun _ => rfl, fun h => by cases h⟩
  | k :: ks, pre, s, n, ic, w, hd, h3, hn, hg, hs, hst => by
    simp only [List.length_cons] at hn
    rw [register]
    cases hf : M.field k with
    | none =>
      have hst' : stored M (pre ++ [k]) s := by
        intro q
        rw [hst q, first_append]
        simp [first, hf]
      obtain ⟨ic', w', ok, c, s', g1, g2, g3, g4, g5, g6, g7, g8, g9⟩ := register_ok M hash m ks (pre ++ [k]) s (n + 1) ic (w ++ [.invalid k]) hd (by omega) (by omega) hg
        (by cases ic <;> simp only [Lemmas.Ic.Small] at hs ⊢ <;> omega) hst'
      refine ⟨ic', w', ok, c + 1, s', g1, by simp; omega, g3, g4, ?_, by simpa using g6, ?_, fun h => by simp [g8 h], fun h => ?_⟩
      · have : n + (k :: ks).length = n + 1 + ks.length := by simp; omega
        rw [this]; exact g5
      · rw [g7]; simp [warnsFrom, hf]
      · obtain ⟨q, hq, hm⟩ := g9 h; exact ⟨q, by simp [hq], hm⟩
    | some f =>
      obtain ⟨ic1, r, h1, h2, hcase⟩ := Lemmas.Ic.step_ok (cmp := cmp M) (hash := hashOf M hash) (cmp_comparator M) (fun x y h => congrArg hash (cmp_zero.1 h)) hd h3 (by omega) hg hs (m k) (.add k)
      simp only [icStep, Option.bind_eq_bind, Option.bind_eq_some_iff, Option.some.injEq, Prod.mk.injEq] at h1
      obtain ⟨⟨ic2, add⟩, h1, rfl, rfl⟩ := h1
      simp only [h1, Option.bind_eq_bind, Option.bind_some]
      rcases hcase with ⟨hr, hg', _⟩ | ⟨hm, hg', hop⟩
      · have hfk : first M [k] (M.value k) = some k := by simp [first, hf]
        have hall : ∃ old, add = some old ∧ first M (pre ++ [k]) (M.value k) = some old ∧ stored M (pre ++ [k]) (refStep (cmp M) s (.add k)).1 := by
          cases hl : lookup (cmp M) s k with
          | some old =>
            have hpre := hst k
            rw [hl] at hpre
            simp only [refStep, hl, Res.key.injEq] at hr ⊢
            refine ⟨old, hr, by rw [first_append, ← hpre]; rfl, fun q => ?_⟩
            rw [hst q, first_append]
            by_cases hq : M.value q = M.value k
            · rw [hq, ← hpre]; rfl
            · have : first M [k] (M.value q) = none := by
                have hq' : ¬ M.value k = M.value q := fun e => hq e.symm
                simp [first, hq']
              rw [this, Option.or_none]
          | none =>
            have hpre := hst k
            rw [hl] at hpre
            simp only [refStep, hl, Res.key.injEq] at hr ⊢
            refine ⟨k, hr, by rw [first_append, ← hpre, hfk]; rfl, fun q => ?_⟩
            rw [lookup_append, hst q, first_append]
            congr 1
            by_cases hq : M.value q = M.value k
            · rw [if_pos hq, hq, hfk]
            · have hq' : ¬ M.value k = M.value q := fun e => hq e.symm
              rw [if_neg hq]; simp [first, hq']
        obtain ⟨old, rfl, hold, hst'⟩ := hall
        obtain ⟨ic', w', ok, c, s', g1, g2, g3, g4, g5, g6, g7, g8, g9⟩ := register_ok M hash m ks (pre ++ [k]) _ (n + 1) ic2
          (if M.name old ≠ M.name k then w ++ [.conflict old k] else w) (Lemmas.Collection.refStep_distinct (cmp_comparator M) hd (.add k)) (by omega) (by omega) hg' h2 hst'
        refine ⟨ic', w', ok, c + 1, s', g1, by simp; omega, g3, g4, ?_, by simpa using g6, ?_, fun h => by simp [g8 h], fun h => ?_⟩
        · have : n + (k :: ks).length = n + 1 + ks.length := by simp; omega
          rw [this]; exact g5
        · rw [g7]
          simp only [List.take_succ_cons, warnsFrom, hf, hold]
          by_cases hne : M.name old ≠ M.name k
          · rw [if_pos hne, if_pos hne]; simp
          · rw [if_neg hne, if_neg hne]; simp
        · obtain ⟨q, hq, hm⟩ := g9 h; exact ⟨q, by simp [hq], hm⟩
      · rcases hop with ⟨k', _, _, hr⟩ | ⟨k', hop, _⟩
        · simp only [Res.key.injEq] at hr
          subst hr
          refine ⟨ic2, w, false, 0, s, rfl, by simp, hd, hg', ?_, by simpa using hst, by simp [warnsFrom], (fun h => by cases h), fun _ => ⟨k, by simp, hm⟩⟩
          cases ic2 <;> simp only [Lemmas.Ic.Small, List.length_cons] at h2 ⊢ <;> omega
        · cases hop

/-- each override is compared with the first one of all -/
theorem warnsFrom_eq (M : Mem) (all : List Key) : ∀ (ks pre : List Key), all = pre ++ ks →
    warnsFrom M pre ks = ks.filterMap fun k =>
      match M.field k, first M all (M.value k) with
      | none, _ => some (.invalid k)
      | some _, none => none
      | some _, some old => if M.name old ≠ M.name k then some (.conflict old k) else none
  | [], pre, _ => rfl
  | k :: ks, pre, h => by
    have ih := warnsFrom_eq M all ks (pre ++ [k]) (by rw [h]; simp)
    rw [warnsFrom, ih, List.filterMap_cons]
    cases hf : M.field k with
    | none => rfl
    | some f =>
      have hfk : first M [k] (M.value k) = some k := by simp [first, hf]
      have e : first M all (M.value k) = first M (pre ++ [k]) (M.value k) := by
        have : all = (pre ++ [k]) ++ ks := by rw [h]; simp
        rw [this, first_append (a := pre ++ [k]), first_append (a := pre), hfk]
        cases first M pre (M.value k) <;> rfl
      have hne : first M (pre ++ [k]) (M.value k) ≠ none := by
        rw [first_append, hfk]
        cases first M pre (M.value k) <;> simp
      rw [e]
      cases hx : first M (pre ++ [k]) (M.value k) with
      | none => exact absurd hx hne
      | some old =>
        simp only
        by_cases hn : M.name old ≠ M.name k
        · rw [if_pos hn, if_pos hn]; rfl
        · rw [if_neg hn, if_neg hn]; rfl

/-- When the allocator may refuse any request: the status says whether all overrides were registered, and a value selects the
member of the first override among those that were. -/
theorem C68_any_memory (M : Mem) (hash : Nat → Nat) (m : Key → Bool × Bool) (keys : List Key) (hlen : keys.length + 6 < 2 ^ 29) :
    ∃ ic w ok c, init M hash m keys = some (ic, w, ok) ∧ c ≤ keys.length ∧
      (∀ q, overrideValue M hash ic q = some ((first M (keys.take c) (M.value q)).bind M.field)) ∧
      w = warnings M (keys.take c) ∧ (ok = true → c = keys.length) ∧ (ok = false → ∃ k ∈ keys, m k ≠ (true, true)) := by
  obtain ⟨a1, a2, _⟩ := Lemmas.Ic.new_ok (cmp := cmp M) (hash := hashOf M hash) .hash 3
  obtain ⟨ic, w, ok, c, s, g1, g2, g3, g4, g5, g6, g7, g8, g9⟩ := register_ok M hash m keys [] [] 3 _ [] List.Pairwise.nil (by omega) (by omega) a1 a2
    (fun k => rfl)
  refine ⟨ic, w, ok, c, g1, g2, fun q => ?_, ?_, g8, g9⟩
  · obtain ⟨ic', r, h1, _, h3⟩ := Lemmas.Ic.step_ok (cmp := cmp M) (hash := hashOf M hash) (cmp_comparator M) (fun x y h => congrArg hash (cmp_zero.1 h)) g3 (n := 3 + keys.length) (by omega) (by omega) g4 g5 (true, true) (.find q)
    simp only [icStep, Option.bind_eq_bind, Option.bind_eq_some_iff] at h1
    obtain ⟨v, h1, h2⟩ := h1
    simp only [Option.some.injEq, Prod.mk.injEq] at h2
    rcases h3 with ⟨h3, _⟩ | ⟨h3, _⟩
    · have : v = lookup (cmp M) s q := by
        rw [h3] at h2
        exact Res.key.inj h2.2
      have hst := g6 q
      rw [List.nil_append] at hst
      unfold overrideValue
      rw [show icFind (cmp M) (hashOf M hash) ic q = some v from h1, this, hst]
      rfl
    · exact absurd rfl h3
  · rw [g7, List.nil_append]
    exact warnsFrom_eq M (keys.take c) (keys.take c) [] rfl

/-- A value of the discriminator selects the member of the first override of this value that names a member, and none if there is
no such override.  Overrides that name no member and overrides that contradict the first one are reported. -/
theorem C68_first_override (M : Mem) (hash : Nat → Nat) (keys : List Key) (hlen : keys.length + 6 < 2 ^ 29) :
    ∃ ic, init M hash (fun _ => (true, true)) keys = some (ic, warnings M keys, true) ∧
      ∀ q, overrideValue M hash ic q = some ((first M keys (M.value q)).bind M.field) := by
  obtain ⟨ic, w, ok, c, h1, _, h3, h4, h5, h6⟩ := C68_any_memory M hash (fun _ => (true, true)) keys hlen
  have hok : ok = true := by
    cases ok with
    | true => rfl
    | false => obtain ⟨k, _, hk⟩ := h6 rfl; exact absurd rfl hk
  subst hok
  have hc := h5 rfl
  subst hc
  rw [List.take_length] at h3 h4
  exact ⟨ic, by rw [h1, h4], h3⟩

/-! ## the hypotheses can be met -/

/-- overrides at 16, 32, 48, 64: `7 → x`, `7 → y`, `9 → unknown`, `9 → y`; 80 is a place with the value 9 -/
def M : Mem where
  value k := if k ≤ 32 then 7 else 9
  name k := if k = 16 then [120] else if k = 48 then [63] else [121]
  field k := if k = 16 then some 0 else if k = 48 then none else some 1

example : warnings M [16, 32, 48, 64] = [.conflict 16 32, .invalid 48] := by decide +kernel
example : first M [16, 32, 48, 64] 9 = some 64 := by decide +kernel
example : (init M id (fun _ => (true, true)) [16, 32, 48, 64]).map (fun r => r.2) = some ([.conflict 16 32, .invalid 48], true) := by
  obtain ⟨ic, h, _⟩ := C68_first_override M id [16, 32, 48, 64] (by decide)
  rw [h, Option.map_some, show warnings M [16, 32, 48, 64] = [.conflict 16 32, .invalid 48] by decide +kernel]
example : (init M id (fun _ => (true, true)) [16, 32, 48, 64]).bind (fun r => overrideValue M id r.1 80) = some (some 1) := by decide +kernel
example : (init M id (fun _ => (false, false)) [16, 32, 48, 64]).map (fun r => r.2) = some ([], false) := by decide +kernel

end Verif.Props.Override
