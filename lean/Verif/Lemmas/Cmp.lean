import Verif.Spec.Cmp
/-!
# `mr_cmp_structs`: order laws
-/
namespace Verif.Lemmas.Cmp
open Verif.Model Verif.Model.Ptrs Verif.Model.Save Verif.Model.Copy Verif.Model.BasicCmp Verif.Model.Cmp Verif.Spec.Cmp

/-- the laws used below, for three given elements -/
structure Laws {α : Type} (f : α → α → Int) (x y z : α) : Prop where
  anti : ∀ a b, f a b = - f b a
  trans : f x y ≤ 0 → f y z ≤ 0 → f x z ≤ 0

theorem intCmp_anti (a b : Int) : intCmp a b = - intCmp b a := by unfold intCmp; split <;> split <;> omega
theorem intCmp_zero {a b : Int} : intCmp a b = 0 ↔ a = b := by unfold intCmp; split <;> split <;> omega
theorem intCmp_neg {a b : Int} : intCmp a b < 0 ↔ a < b := by unfold intCmp; split <;> split <;> omega
theorem intCmp_trans {a b c : Int} : intCmp a b ≤ 0 → intCmp b c ≤ 0 → intCmp a c ≤ 0 := by
  unfold intCmp; repeat' split <;> omega

theorem lexCmp_anti : ∀ a b : List Nat, lexCmp a b = - lexCmp b a
  | [], [] => rfl
  | [], _ :: _ => rfl
  | _ :: _, [] => rfl
  | x :: xs, y :: ys => by
    simp only [lexCmp]
    by_cases h : x = y
    · subst h; simp [lexCmp_anti xs ys]
    · rw [if_neg h, if_neg (Ne.symm h)]; exact intCmp_anti _ _

theorem lexCmp_zero : ∀ {a b : List Nat}, lexCmp a b = 0 ↔ a = b
  | [], [] => by simp [lexCmp]
  | [], _ :: _ => by simp [lexCmp]
  | _ :: _, [] => by simp [lexCmp]
  | x :: xs, y :: ys => by
    simp only [lexCmp]
    by_cases h : x = y
    · subst h; simp [lexCmp_zero]
    · rw [if_neg h, intCmp_zero]; constructor
      · intro h'; omega
      · intro h'; cases h'; exact absurd rfl h

theorem lexCmp_trans : ∀ {a b c : List Nat}, lexCmp a b ≤ 0 → lexCmp b c ≤ 0 → lexCmp a c ≤ 0
  | [], _, [], _, _ => by simp [lexCmp]
  | [], _, _ :: _, _, _ => by simp [lexCmp]
  | _ :: _, [], _, h, _ => by simp [lexCmp] at h
  | _ :: _, _ :: _, [], _, h => by simp [lexCmp] at h
  | x :: xs, y :: ys, z :: zs, h1, h2 => by
    simp only [lexCmp] at *
    by_cases hxy : x = y
    · subst hxy
      by_cases hxz : x = z
      · subst hxz; simp only [if_true] at *; exact lexCmp_trans h1 h2
      · rw [if_neg hxz] at *; exact h2
    · rw [if_neg hxy] at h1
      by_cases hyz : y = z
      · subst hyz; rw [if_neg hxy]; exact h1
      · rw [if_neg hyz] at h2
        have := @intCmp_neg x y; have := @intCmp_neg y z
        have := @intCmp_zero x y; have := @intCmp_zero y z
        have hxz : x ≠ z := by omega
        rw [if_neg hxz]
        exact intCmp_trans h1 h2

theorem cmpFloat_anti (x y : Option Int) : cmpFloat x y = - cmpFloat y x := by
  cases x <;> cases y <;> simp only [cmpFloat, isNum]
  · decide
  · simp
  · simp
  · exact intCmp_anti _ _

theorem cmpFloat_zero {x y : Option Int} : cmpFloat x y = 0 ↔ x = y := by
  cases x <;> cases y <;> simp [cmpFloat, isNum, intCmp_zero]

theorem cmpFloat_trans {x y z : Option Int} : cmpFloat x y ≤ 0 → cmpFloat y z ≤ 0 → cmpFloat x z ≤ 0 := by
  cases x <;> cases y <;> cases z <;> simp [cmpFloat, isNum]
  exact intCmp_trans

theorem cmpComplex_anti (ar ai br bi : Option Int) : cmpComplex ar ai br bi = - cmpComplex br bi ar ai := by
  unfold cmpComplex
  rw [Bool.and_comm]
  have h1 := cmpFloat_anti ar br
  have h2 := cmpFloat_anti ai bi
  split
  · rfl
  · grind

theorem cmpVal_anti (a b : Val) : cmpVal a b = - cmpVal b a := by
  cases a with
  | none => cases b <;> first | rfl | (rename_i s; cases s <;> rfl)
  | str s =>
    cases b with
    | str t => cases s <;> cases t <;> first | rfl | exact lexCmp_anti _ _
    | _ => cases s <;> rfl
  | int a => cases b <;> first | rfl | exact intCmp_anti _ _ | (rename_i s; cases s <;> rfl)
  | flt a => cases b <;> first | rfl | exact cmpFloat_anti _ _ | (rename_i s; cases s <;> rfl)
  | cpx a b => rename_i v; cases v <;> first | rfl | exact cmpComplex_anti _ _ _ _ | (rename_i s; cases s <;> rfl)

/-- which values are compared with each other -/
def kind : Val → Nat
  | .none => 0
  | .str _ => 1
  | .int _ => 2
  | .flt _ => 3
  | .cpx .. => 4

theorem cmpVal_trans {a b c : Val} (h1 : kind a = kind b) (h2 : kind b = kind c)
    (ha : ∀ r i, a = .cpx r i → ¬ hasNan r i) (hb : ∀ r i, b = .cpx r i → ¬ hasNan r i) (hc : ∀ r i, c = .cpx r i → ¬ hasNan r i) :
    cmpVal a b ≤ 0 → cmpVal b c ≤ 0 → cmpVal a c ≤ 0 := by
  cases a <;> cases b <;> simp [kind] at h1 <;> cases c <;> simp [kind] at h2
  · simp [cmpVal]
  · rename_i a b c
    cases a <;> cases b <;> cases c <;> simp [cmpVal]
    exact lexCmp_trans
  · exact intCmp_trans
  · exact cmpFloat_trans
  · rename_i ar ai br bi cr ci
    have ha := ha _ _ rfl
    have hb := hb _ _ rfl
    have hc := hc _ _ rfl
    unfold hasNan at ha hb hc
    have hne : ∀ {x y : Option Int}, ¬ (x = none ∨ y = none) → (x.isNone || y.isNone) = false := by
      intro x y h; cases x <;> cases y <;> simp_all
    simp only [cmpVal, cmpComplex, hne ha, hne hb, hne hc, Bool.and_self, Bool.false_eq_true, if_false]
    have t1 := @cmpFloat_trans ar br cr
    have t2 := @cmpFloat_trans ai bi ci
    have z1 := @cmpFloat_zero ar br
    have z2 := @cmpFloat_zero br cr
    have z3 := @cmpFloat_zero ar cr
    by_cases e1 : ar = br
    · subst e1
      by_cases e2 : ar = cr
      · subst e2; simpa [z3] using t2
      · grind
    · by_cases e2 : br = cr
      · subst e2; grind
      · by_cases e3 : ar = cr
        · subst e3
          have a1 := cmpFloat_anti ar br
          grind
        · grind

theorem toBytes_length : ∀ n v : Nat, (toBytes n v).length = n
  | 0, _ => rfl
  | n + 1, v => by simp [toBytes, toBytes_length n]

theorem toBytes_inj : ∀ {n v w : Nat}, v < 256 ^ n → w < 256 ^ n → toBytes n v = toBytes n w → v = w
  | 0, v, w, h1, h2, _ => by simp at h1 h2; omega
  | n + 1, v, w, h1, h2, h => by
    simp only [toBytes, List.cons.injEq] at h
    have := toBytes_inj (n := n) (v := v / 256) (w := w / 256) (by rw [Nat.pow_succ] at h1; omega) (by rw [Nat.pow_succ] at h2; omega) h.2
    omega

theorem header_inj {fdAt : Option Fd → Nat} {p q : Pd} {x y : Info} (h : header fdAt p x = header fdAt q y) :
    toBytes 8 (fdAt x.fd) = toBytes 8 (fdAt y.fd) ∧ p.ty = q.ty ∧ x.aux = y.aux ∧ flags p x = flags q y ∧
    toBytes 4 p.parent = toBytes 4 q.parent ∧ toBytes 4 p.next = toBytes 4 q.next ∧ toBytes 4 p.firstChild = toBytes 4 q.firstChild := by
  unfold header at h
  have hi : ∀ {a b : MrType}, a.ctorIdx = b.ctorIdx → a = b := by intro a b; cases a <;> cases b <;> decide
  have l := toBytes_length
  obtain ⟨h, h7⟩ := List.append_inj' h (by simp [l])
  obtain ⟨h, h6⟩ := List.append_inj' h (by simp [l])
  obtain ⟨h, h5⟩ := List.append_inj' h (by simp [l])
  obtain ⟨h, h4⟩ := List.append_inj' h (by simp [l])
  obtain ⟨h, h3⟩ := List.append_inj' h (by simp [l])
  obtain ⟨h1, h2⟩ := List.append_inj' h (by simp)
  simp only [List.cons.injEq] at h2
  exact ⟨h1, hi h2.1, hi h2.2.1, h2.2.2.1, h5, h6, h7⟩

/-- the kind of the values of a type -/
def kindOf (ty aux : MrType) : Nat :=
  match ty with
  | .string | .charArray => 1
  | .float | .double | .longDouble => 3
  | .complexFloat | .complexDouble | .complexLongDouble => 4
  | .char | .bool | .bitfield | .func | .funcType => 2
  | .enum => if intType aux then 2 else 0
  | t => if intType t then 2 else 0

theorem intVal_kind (m : Bytes) (a : Nat) (t : MrType) : kind (intVal m a t) = if intType t then 2 else 0 := by
  cases t <;> rfl

theorem value_kindOf {tds : List Td} {m : Bytes} {fuel : Nat} {p : Pd} {x : Info} {v : Val}
    (hv : value tds m fuel p x = some v) : kind v = kindOf p.ty x.aux := by
  unfold value at hv
  split at hv <;> rename_i hp
  · rw [hp]
    split at hv
    · cases hv; rfl
    · obtain ⟨a, _, h⟩ := Option.bind_eq_some_iff.1 hv
      cases h; rfl
  · rw [hp]
    obtain ⟨a, _, h⟩ := Option.bind_eq_some_iff.1 hv
    cases h; rfl
  all_goals first | (rw [hp]; cases hv; rfl) | skip
  · rw [hp]; cases hv; exact intVal_kind _ _ _
  · rw [hp]
    obtain ⟨a, _, h⟩ := Option.bind_eq_some_iff.1 hv
    cases h; rfl
  · rename_i h1 h2
    cases hv
    rw [intVal_kind]
    unfold kindOf
    split <;> simp_all
  
theorem value_kind {tds : List Td} {m : Bytes} {fuel : Nat} {p q : Pd} {x y : Info} {v w : Val} (h1 : p.ty = q.ty) (h2 : x.aux = y.aux)
    (hv : value tds m fuel p x = some v) (hw : value tds m fuel q y = some w) : kind v = kind w := by
  rw [value_kindOf hv, value_kindOf hw, h1, h2]

theorem lexCmp_neg : ∀ {a b : List Nat}, lexCmp a b < 0 ↔ a < b
  | [], [] => by simp [lexCmp]
  | [], _ :: _ => by simp [lexCmp]
  | _ :: _, [] => by simp [lexCmp]
  | x :: xs, y :: ys => by
    rw [List.cons_lt_cons_iff]
    simp only [lexCmp]
    by_cases h : x = y
    · subst h; simp [lexCmp_neg]
    · rw [if_neg h, intCmp_neg]; simp [h]

theorem cmpFloat_neg {a b : Option Int} : cmpFloat a b < 0 ↔ Less (.flt a) (.flt b) := by
  cases a <;> cases b <;> simp only [cmpFloat, isNum]
  · simp; intro h; cases h
  · simp; exact Less.nan _
  · simp; intro h; cases h
  · rw [intCmp_neg]; exact ⟨.flt, fun h => by cases h; assumption⟩

theorem isNone_iff {a b : Option Int} : (a.isNone || b.isNone) = true ↔ hasNan a b := by
  unfold hasNan; simp

theorem cmpVal_zero {v w : Val} (hk : kind v = kind w) : cmpVal v w = 0 ↔ Alike v w := by
  cases v <;> cases w <;> simp [kind] at hk <;> unfold Alike
  · simp [cmpVal]
  · rename_i a b
    cases a <;> cases b <;> simp [cmpVal, lexCmp_zero]
  · simp [cmpVal, intCmp_zero]
  · simp [cmpVal, cmpFloat_zero]
  · rename_i a b c d
    simp only [cmpVal, cmpComplex]
    split
    · rename_i h
      rw [Bool.and_eq_true, isNone_iff, isNone_iff] at h
      exact ⟨fun _ => .inr ⟨a, b, c, d, rfl, rfl, h.1, h.2⟩, fun _ => rfl⟩
    · rename_i h
      rw [Bool.and_eq_true, isNone_iff, isNone_iff] at h
      constructor
      · intro h'
        split at h'
        · exact absurd h' (by assumption)
        · rename_i h2
          have h2 : cmpFloat a c = 0 := Classical.byContradiction h2
          left
          rw [cmpFloat_zero.1 h2, cmpFloat_zero.1 h']
      · intro h'
        rcases h' with h' | ⟨a', b', c', d', e1, e2, h1, h2⟩
        · cases h'
          rw [if_neg (by simp [cmpFloat_zero])]
          exact cmpFloat_zero.2 rfl
        · cases e1; cases e2; exact absurd ⟨h1, h2⟩ h

theorem cmpVal_neg {v w : Val} (hk : kind v = kind w) : cmpVal v w < 0 ↔ Less v w := by
  cases v <;> cases w <;> simp [kind] at hk
  · simp [cmpVal]; intro h; cases h
  · rename_i a b
    cases a <;> cases b <;> simp [cmpVal, lexCmp_neg]
    · intro h; cases h
    · exact .null _
    · intro h; cases h
    · exact ⟨.text, fun h => by cases h; assumption⟩
  · simp only [cmpVal, intCmp_neg]; exact ⟨.int, fun h => by cases h; assumption⟩
  · exact cmpFloat_neg
  · rename_i a b c d
    simp only [cmpVal, cmpComplex]
    split
    · rename_i h
      rw [Bool.and_eq_true, isNone_iff, isNone_iff] at h
      refine ⟨fun h => by omega, fun h' => ?_⟩
      cases h' with
      | re n _ => exact absurd h n
      | im n _ => exact absurd h n
    · rename_i h
      rw [Bool.and_eq_true, isNone_iff, isNone_iff] at h
      split
      · rename_i h2
        rw [cmpFloat_neg]
        refine ⟨.re h, fun h' => ?_⟩
        cases h' with
        | re _ n => exact n
        | im _ n => exact absurd (cmpFloat_zero.2 rfl) h2
      · rename_i h2
        have h2 : cmpFloat a c = 0 := Classical.byContradiction h2
        have e := cmpFloat_zero.1 h2
        subst e
        rw [cmpFloat_neg]
        refine ⟨.im h, fun h' => ?_⟩
        cases h' with
        | re _ n => rw [← cmpFloat_neg] at n; omega
        | im _ n => exact n

section Node
variable {fdAt : Option Fd → Nat} {tds : List Td} {m : Bytes} {fuel : Nat}

/-- the three ways in which two nodes are compared -/
theorem cmpNode_cases {p q : Pd} {x y : Info} {d : Int} (h : cmpNode fdAt tds m fuel p x q y = some d) :
    (p.idx ≠ q.idx ∧ d = intCmp p.idx q.idx) ∨ (p.idx = q.idx ∧ p.idx = 0 ∧ d = 0) ∨
    (p.idx = q.idx ∧ p.idx ≠ 0 ∧ header fdAt p x ≠ header fdAt q y ∧ d = lexCmp (header fdAt p x) (header fdAt q y)) ∨
    (p.idx = q.idx ∧ p.idx ≠ 0 ∧ header fdAt p x = header fdAt q y ∧ ∃ v w, value tds m fuel p x = some v ∧
      value tds m fuel q y = some w ∧ kind v = kind w ∧ d = cmpVal v w) := by
  unfold cmpNode at h
  split at h
  · rename_i h1
    left
    have : ¬ (p.idx : Int) = q.idx := fun e => h1 (intCmp_zero.2 e)
    exact ⟨fun e => this (by rw [e]), (Option.some.inj h).symm⟩
  · rename_i h1
    have h1 : intCmp p.idx q.idx = 0 := Classical.byContradiction h1
    have ei : (p.idx : Int) = q.idx := intCmp_zero.1 h1
    have ei : p.idx = q.idx := by omega
    split at h
    · rename_i h2
      exact .inr (.inl ⟨ei, h2, (Option.some.inj h).symm⟩)
    · rename_i h2
      split at h
      · rename_i h3
        exact .inr (.inr (.inl ⟨ei, h2, fun e => h3 (lexCmp_zero.2 e), (Option.some.inj h).symm⟩))
      · rename_i h3
        have h3 := lexCmp_zero.1 (Classical.byContradiction h3)
        obtain ⟨v, hv, h⟩ := Option.bind_eq_some_iff.1 h
        obtain ⟨w, hw, h⟩ := Option.bind_eq_some_iff.1 h
        have hi := header_inj h3
        exact .inr (.inr (.inr ⟨ei, h2, h3, v, w, hv, hw, value_kind hi.2.1 hi.2.2.1 hv hw, (Option.some.inj h).symm⟩))

theorem cmpNode_idx {p q : Pd} {x y : Info} (h : p.idx ≠ q.idx) : cmpNode fdAt tds m fuel p x q y = some (intCmp p.idx q.idx) := by
  unfold cmpNode
  rw [if_pos]
  intro e
  have := intCmp_zero.1 e
  omega

theorem cmpNode_off {p q : Pd} {x y : Info} (h : p.idx = q.idx) (h0 : p.idx = 0) : cmpNode fdAt tds m fuel p x q y = some 0 := by
  unfold cmpNode
  rw [← h, if_neg (by simp [intCmp_zero]), if_pos h0]

theorem cmpNode_header {p q : Pd} {x y : Info} (h : p.idx = q.idx) (h0 : p.idx ≠ 0) (hh : header fdAt p x ≠ header fdAt q y) :
    cmpNode fdAt tds m fuel p x q y = some (lexCmp (header fdAt p x) (header fdAt q y)) := by
  unfold cmpNode
  rw [← h, if_neg (by simp [intCmp_zero]), if_neg h0, if_pos (fun e => hh (lexCmp_zero.1 e))]

theorem cmpNode_value {p q : Pd} {x y : Info} {v w : Val} (h : p.idx = q.idx) (h0 : p.idx ≠ 0) (hh : header fdAt p x = header fdAt q y)
    (hv : value tds m fuel p x = some v) (hw : value tds m fuel q y = some w) : cmpNode fdAt tds m fuel p x q y = some (cmpVal v w) := by
  unfold cmpNode
  rw [← h, if_neg (by simp [intCmp_zero]), if_neg h0, if_neg (fun e => e (lexCmp_zero.2 hh)), hv, hw]
  rfl

theorem cmpNode_same {p q : Pd} {x y : Info} (h : p.idx = q.idx) (h0 : p.idx ≠ 0) (hh : header fdAt p x = header fdAt q y) :
    cmpNode fdAt tds m fuel p x q y = (value tds m fuel p x).bind fun v => (value tds m fuel q y).bind fun w => some (cmpVal v w) := by
  unfold cmpNode
  rw [← h, if_neg (by simp [intCmp_zero]), if_neg h0, if_neg (fun e => e (lexCmp_zero.2 hh))]
  rfl

theorem cmpNode_anti (p q : Pd) (x y : Info) :
    cmpNode fdAt tds m fuel q y p x = (cmpNode fdAt tds m fuel p x q y).map (fun d => -d) := by
  by_cases e1 : p.idx = q.idx
  · by_cases e0 : p.idx = 0
    · rw [cmpNode_off e1 e0, cmpNode_off e1.symm (by omega)]; rfl
    · by_cases e2 : header fdAt p x = header fdAt q y
      · rw [cmpNode_same e1 e0 e2, cmpNode_same e1.symm (by omega) e2.symm]
        cases value tds m fuel p x <;> cases value tds m fuel q y <;> simp
        exact cmpVal_anti _ _
      · rw [cmpNode_header e1 e0 e2, cmpNode_header e1.symm (by omega) (Ne.symm e2), lexCmp_anti]; rfl
  · rw [cmpNode_idx e1, cmpNode_idx (Ne.symm e1), intCmp_anti]; rfl

theorem cmpNode_zero {p q : Pd} {x y : Info} : cmpNode fdAt tds m fuel p x q y = some 0 ↔ Agree fdAt tds m fuel (p, x) (q, y) := by
  unfold Agree
  constructor
  · intro h
    rcases cmpNode_cases h with ⟨h1, h2⟩ | ⟨h1, h2, _⟩ | ⟨_, _, h3, h4⟩ | ⟨h1, h2, h3, v, w, hv, hw, hk, h4⟩
    · have := intCmp_zero.1 h2.symm; omega
    · exact ⟨h1, fun h => absurd h2 h⟩
    · exact absurd (lexCmp_zero.1 h4.symm) h3
    · exact ⟨h1, fun _ => ⟨h3, v, w, hv, hw, (cmpVal_zero hk).1 h4.symm⟩⟩
  · rintro ⟨h1, h2⟩
    by_cases h0 : p.idx = 0
    · exact cmpNode_off h1 h0
    · obtain ⟨h3, v, w, hv, hw, ha⟩ := h2 h0
      rw [cmpNode_value h1 h0 h3 hv hw]
      have hi := header_inj h3
      rw [(cmpVal_zero (value_kind hi.2.1 hi.2.2.1 hv hw)).2 ha]

theorem cmpNode_neg {p q : Pd} {x y : Info} : (∃ d, d < 0 ∧ cmpNode fdAt tds m fuel p x q y = some d) ↔ Before fdAt tds m fuel (p, x) (q, y) := by
  unfold Before
  constructor
  · rintro ⟨d, hd, h⟩
    rcases cmpNode_cases h with ⟨h1, h2⟩ | ⟨h1, h2, _⟩ | ⟨h1, h2, h3, h4⟩ | ⟨h1, h2, h3, v, w, hv, hw, hk, h4⟩
    · left; rw [h2] at hd; have := intCmp_neg.1 hd; show p.idx < q.idx; omega
    · omega
    · rw [h4] at hd; exact .inr ⟨h1, h2, .inl (lexCmp_neg.1 hd)⟩
    · rw [h4] at hd; exact .inr ⟨h1, h2, .inr ⟨h3, v, w, hv, hw, (cmpVal_neg hk).1 hd⟩⟩
  · rintro (h | ⟨h1, h0, h | ⟨h3, v, w, hv, hw, hl⟩⟩)
    · have h : p.idx < q.idx := h
      exact ⟨_, intCmp_neg.2 (by omega), cmpNode_idx (by omega)⟩
    · exact ⟨_, lexCmp_neg.2 h, cmpNode_header h1 h0 (fun e => by rw [← lexCmp_neg, lexCmp_zero.2 e] at h; omega)⟩
    · have hi := header_inj h3
      exact ⟨_, (cmpVal_neg (value_kind hi.2.1 hi.2.2.1 hv hw)).2 hl, cmpNode_value h1 h0 h3 hv hw⟩

/-- the values in a node are not complex numbers that are not numbers -/
def Good (tds : List Td) (m : Bytes) (fuel : Nat) (p : Pd) (x : Info) : Prop :=
  ∀ a b, value tds m fuel p x = some (.cpx a b) → ¬ hasNan a b

theorem cmpNode_trans {p q r : Pd} {x y z : Info} {a b : Int} (gp : Good tds m fuel p x) (gq : Good tds m fuel q y) (gr : Good tds m fuel r z)
    (h1 : cmpNode fdAt tds m fuel p x q y = some a) (h2 : cmpNode fdAt tds m fuel q y r z = some b) (ha : a ≤ 0) (hb : b ≤ 0) :
    ∃ c, c ≤ 0 ∧ cmpNode fdAt tds m fuel p x r z = some c := by
  rcases cmpNode_cases h1 with ⟨i1, e1⟩ | ⟨i1, j1, _⟩ | ⟨i1, j1, k1, e1⟩ | ⟨i1, j1, k1, v, w, hv, hw, hk, e1⟩
  · subst e1
    by_cases hqr : q.idx = r.idx
    · exact ⟨_, by rw [← hqr]; exact ha, cmpNode_idx (by omega)⟩
    · rcases cmpNode_cases h2 with ⟨_, e2⟩ | ⟨i2, _⟩ | ⟨i2, _⟩ | ⟨i2, _⟩
      · subst e2
        have t := intCmp_trans ha hb
        have n1 := @intCmp_zero p.idx q.idx
        have n2 := @intCmp_zero q.idx r.idx
        have l1 := @intCmp_neg p.idx q.idx
        have l2 := @intCmp_neg q.idx r.idx
        exact ⟨_, t, cmpNode_idx (by omega)⟩
      · exact absurd i2 hqr
      · exact absurd i2 hqr
      · exact absurd i2 hqr
  · rcases cmpNode_cases h2 with ⟨i2, e2⟩ | ⟨i2, j2, _⟩ | ⟨i2, j2, _⟩ | ⟨i2, j2, _⟩
    · exact ⟨_, by rw [i1, ← e2]; exact hb, cmpNode_idx (by omega)⟩
    · exact ⟨0, by omega, cmpNode_off (by omega) j1⟩
    · omega
    · omega
  · rcases cmpNode_cases h2 with ⟨i2, e2⟩ | ⟨i2, j2, _⟩ | ⟨i2, j2, k2, e2⟩ | ⟨i2, j2, k2, _⟩
    · exact ⟨_, by rw [i1, ← e2]; exact hb, cmpNode_idx (by omega)⟩
    · omega
    · rw [e1] at ha
      rw [e2] at hb
      refine ⟨_, lexCmp_trans ha hb, cmpNode_header (by omega) j1 (fun e => ?_)⟩
      rw [e] at ha k1
      have := lexCmp_anti (header fdAt r z) (header fdAt q y)
      exact k1 (lexCmp_zero.1 (by omega))
    · exact ⟨_, by rw [← k2, ← e1]; exact ha, cmpNode_header (by omega) j1 (by rw [← k2]; exact k1)⟩
  · rcases cmpNode_cases h2 with ⟨i2, e2⟩ | ⟨i2, j2, _⟩ | ⟨i2, j2, k2, e2⟩ | ⟨i2, j2, k2, v', w', hv', hw', hk', e2⟩
    · exact ⟨_, by rw [i1, ← e2]; exact hb, cmpNode_idx (by omega)⟩
    · omega
    · exact ⟨_, by rw [k1, ← e2]; exact hb, cmpNode_header (by omega) j1 (by rw [k1]; exact k2)⟩
    · rw [hw] at hv'
      cases hv'
      refine ⟨_, cmpVal_trans hk hk' (fun r i e => gp r i (by rw [hv, e])) (fun r i e => gq r i (by rw [hw, e]))
        (fun r i e => gr r i (by rw [hw', e])) (by rw [← e1]; exact ha) (by rw [← e2]; exact hb), cmpNode_value (by omega) j1 (k1.trans k2) hv hw'⟩

theorem cmpNode_strict {p q r : Pd} {x y z : Info} {a b c : Int} (gp : Good tds m fuel p x) (gq : Good tds m fuel q y) (gr : Good tds m fuel r z)
    (h1 : cmpNode fdAt tds m fuel p x q y = some a) (h2 : cmpNode fdAt tds m fuel q y r z = some b) (ha : a ≤ 0) (hb : b ≤ 0)
    (h3 : cmpNode fdAt tds m fuel p x r z = some c) : c ≤ 0 ∧ (c = 0 → a = 0 ∧ b = 0) := by
  obtain ⟨c', hc, h⟩ := cmpNode_trans gp gq gr h1 h2 ha hb
  rw [h3] at h
  cases h
  refine ⟨hc, fun h0 => ?_⟩
  subst h0
  have r3 := cmpNode_anti (fdAt := fdAt) (tds := tds) (m := m) (fuel := fuel) p r x z
  rw [h3] at r3
  have r3 : cmpNode fdAt tds m fuel r z p x = some 0 := by rw [r3]; rfl
  have r1 := cmpNode_anti (fdAt := fdAt) (tds := tds) (m := m) (fuel := fuel) p q x y
  rw [h1] at r1
  have r2 := cmpNode_anti (fdAt := fdAt) (tds := tds) (m := m) (fuel := fuel) q r y z
  rw [h2] at r2
  obtain ⟨d, hd, h4⟩ := cmpNode_trans gq gr gp h2 r3 hb (by omega)
  rw [r1] at h4
  obtain ⟨d', hd', h5⟩ := cmpNode_trans gr gp gq r3 h1 (by omega) ha
  rw [r2] at h5
  simp at h4 h5
  omega

theorem cmpNodes_anti : ∀ xs ys : List (Pd × Info), cmpNodes fdAt tds m fuel ys xs = (cmpNodes fdAt tds m fuel xs ys).map (fun d => -d)
  | [], [] => rfl
  | [], _ :: _ => rfl
  | _ :: _, [] => rfl
  | (p, x) :: xs, (q, y) :: ys => by
    simp only [cmpNodes]
    rw [cmpNode_anti p q x y, cmpNodes_anti xs ys]
    cases cmpNode fdAt tds m fuel p x q y with
    | none => rfl
    | some d =>
      simp only [Option.map_some, Option.bind_eq_bind, Option.bind_some]
      by_cases h : d = 0
      · subst h; simp
      · rw [if_pos (by omega), if_pos h]; rfl

theorem cmpNodes_trans : ∀ {xs ys zs : List (Pd × Info)} {a b : Int},
    (∀ n ∈ xs, Good tds m fuel n.1 n.2) → (∀ n ∈ ys, Good tds m fuel n.1 n.2) → (∀ n ∈ zs, Good tds m fuel n.1 n.2) →
    cmpNodes fdAt tds m fuel xs ys = some a → cmpNodes fdAt tds m fuel ys zs = some b → a ≤ 0 → b ≤ 0 →
    ∃ c, c ≤ 0 ∧ cmpNodes fdAt tds m fuel xs zs = some c
  | [], [], [], a, b, _, _, _, _, _, _, _ => ⟨0, by omega, rfl⟩
  | [], [], _ :: _, a, b, _, _, _, _, h, _, _ => by simp [cmpNodes] at h
  | [], _ :: _, _, a, b, _, _, _, h, _, _, _ => by simp [cmpNodes] at h
  | _ :: _, [], _, a, b, _, _, _, h, _, _, _ => by simp [cmpNodes] at h
  | _ :: _, _ :: _, [], a, b, _, _, _, _, h, _, _ => by simp [cmpNodes] at h
  | (p, x) :: xs, (q, y) :: ys, (r, z) :: zs, a, b, gx, gy, gz, h1, h2, ha, hb => by
    simp only [cmpNodes, Option.bind_eq_bind] at h1 h2
    obtain ⟨d1, e1, h1⟩ := Option.bind_eq_some_iff.1 h1
    obtain ⟨d2, e2, h2⟩ := Option.bind_eq_some_iff.1 h2
    have l1 : d1 ≤ 0 := by
      split at h1
      · cases h1; assumption
      · omega
    have l2 : d2 ≤ 0 := by
      split at h2
      · cases h2; assumption
      · omega
    obtain ⟨c, hc, h3⟩ := cmpNode_trans (gx (p, x) (by simp)) (gy (q, y) (by simp)) (gz (r, z) (by simp)) e1 e2 l1 l2
    have hs := cmpNode_strict (gx (p, x) (by simp)) (gy (q, y) (by simp)) (gz (r, z) (by simp)) e1 e2 l1 l2 h3
    simp only [cmpNodes, h3, Option.bind_eq_bind, Option.bind_some]
    by_cases h0 : c = 0
    · obtain ⟨z1, z2⟩ := hs.2 h0
      rw [if_neg (by omega)] at h1 h2 ⊢
      exact cmpNodes_trans (fun n hn => gx n (by simp [hn])) (fun n hn => gy n (by simp [hn])) (fun n hn => gz n (by simp [hn])) h1 h2 ha hb
    · rw [if_pos h0]; exact ⟨c, hc, rfl⟩

theorem cmpNodes_zero : ∀ {xs ys : List (Pd × Info)}, cmpNodes fdAt tds m fuel xs ys = some 0 ↔
    xs.length = ys.length ∧ ∀ (i : Nat) (a b : Pd × Info), xs[i]? = some a → ys[i]? = some b → Agree fdAt tds m fuel a b
  | [], [] => by simp [cmpNodes]
  | [], _ :: _ => by simp [cmpNodes]
  | _ :: _, [] => by simp [cmpNodes]
  | (p, x) :: xs, (q, y) :: ys => by
    simp only [cmpNodes, Option.bind_eq_bind, Option.bind_eq_some_iff]
    constructor
    · rintro ⟨d, h1, h2⟩
      split at h2
      · rename_i hd; exact absurd (Option.some.inj h2) hd
      · rename_i hd
        have hd : d = 0 := Classical.byContradiction hd
        subst hd
        obtain ⟨hl, ih⟩ := cmpNodes_zero.1 h2
        refine ⟨by simp [hl], fun i a b ha hb => ?_⟩
        cases i with
        | zero => simp at ha hb; subst ha; subst hb; exact cmpNode_zero.1 h1
        | succ i => simp at ha hb; exact ih i a b ha hb
    · rintro ⟨hl, h⟩
      refine ⟨0, cmpNode_zero.2 (h 0 _ _ rfl rfl), ?_⟩
      rw [if_neg (by simp)]
      exact cmpNodes_zero.2 ⟨by simpa using hl, fun i a b ha hb => h (i + 1) a b (by simpa using ha) (by simpa using hb)⟩

theorem cmpNodes_neg : ∀ {xs ys : List (Pd × Info)}, xs.length = ys.length →
    ((∃ d, d < 0 ∧ cmpNodes fdAt tds m fuel xs ys = some d) ↔
    ∃ (i : Nat) (a b : Pd × Info), xs[i]? = some a ∧ ys[i]? = some b ∧ Before fdAt tds m fuel a b ∧
      ∀ (j : Nat) (c d : Pd × Info), j < i → xs[j]? = some c → ys[j]? = some d → Agree fdAt tds m fuel c d)
  | [], [], _ => by simp [cmpNodes]
  | [], _ :: _, h => by simp at h
  | _ :: _, [], h => by simp at h
  | (p, x) :: xs, (q, y) :: ys, hl => by
    have ih := cmpNodes_neg (xs := xs) (ys := ys) (by simpa using hl)
    constructor
    · rintro ⟨d, hd, h⟩
      simp only [cmpNodes, Option.bind_eq_bind, Option.bind_eq_some_iff] at h
      obtain ⟨e, h1, h2⟩ := h
      split at h2
      · cases h2
        exact ⟨0, _, _, rfl, rfl, cmpNode_neg.1 ⟨_, hd, h1⟩, fun j _ _ hj => by omega⟩
      · rename_i he
        have he : e = 0 := Classical.byContradiction he
        subst he
        obtain ⟨i, a, b, ha, hb, hB, hA⟩ := ih.1 ⟨d, hd, h2⟩
        refine ⟨i + 1, a, b, by simpa using ha, by simpa using hb, hB, fun j c d' hj hc hd' => ?_⟩
        cases j with
        | zero => simp at hc hd'; subst hc; subst hd'; exact cmpNode_zero.1 h1
        | succ j => exact hA j c d' (by omega) (by simpa using hc) (by simpa using hd')
    · rintro ⟨i, a, b, ha, hb, hB, hA⟩
      simp only [cmpNodes, Option.bind_eq_bind, Option.bind_eq_some_iff]
      cases i with
      | zero =>
        simp at ha hb
        subst ha; subst hb
        obtain ⟨d, hd, h⟩ := cmpNode_neg.2 hB
        exact ⟨d, hd, d, h, by rw [if_pos (by omega)]⟩
      | succ i =>
        obtain ⟨d, hd, h⟩ := ih.2 ⟨i, a, b, by simpa using ha, by simpa using hb, hB, fun j c d hj hc hd =>
          hA (j + 1) c d (by omega) (by simpa using hc) (by simpa using hd)⟩
        exact ⟨d, hd, 0, cmpNode_zero.2 (hA 0 _ _ (by omega) rfl rfl), by rw [if_neg (by simp)]; exact h⟩

end Node

end Verif.Lemmas.Cmp
