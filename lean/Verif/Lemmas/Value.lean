import Verif.Spec.Expr
import Verif.Lemmas.Enum
/-!
# The expression parser evaluates the expression tree
-/
namespace Verif.Lemmas.Value
open Verif.Model Verif.Model.Enum Verif.Model.Value Verif.Spec Verif.Spec.Expr

variable {K : Floats}

/-- expression tree with values at the leaves -/
inductive Ast (K : Floats) where
  | leaf (v : Value K)
  | neg (a : Ast K)
  | pos (a : Ast K)
  | bin (o : Bop) (l r : Ast K)

def ev (env : Env) : Ast K → Option (Value K)
  | .leaf v => some v
  | .neg a => (ev env a).bind (negAction K env)
  | .pos a => ev env a
  | .bin o l r => (ev env l).bind fun a => (ev env r).bind fun b => binAction K env o a b

inductive Rel : Expr → Ast K → Prop where
  | num (z : Int) : Rel (.num z) (.leaf (.int (BitVec.ofInt 128 z)))
  | name (n rest : List Nat) (h : Identifier n) (hr : ∀ c, rest.head? = some c → isalnum c = false ∧ c ≠ '_'.toNat) :
      Rel (.name n) (.leaf (.id (some (n ++ rest)) n.length))
  | neg {e : Expr} {a : Ast K} (h : Rel e a) : Rel (.neg e) (.neg a)
  | pos {e : Expr} {a : Ast K} (h : Rel e a) : Rel (.pos e) (.pos a)
  | bin {l r : Expr} {a b : Ast K} (o : Bop) (hl : Rel l a) (hr : Rel r b) : Rel (.bin o l r) (.bin o a b)

/-- the stack lets an expression of level `k` be completed -/
def Open (k : Nat) : List (Sym K) → Prop
  | [] => True
  | .lpar :: _ => True
  | .neg :: _ => 4 ≤ k
  | .pos :: _ => 4 ≤ k
  | .bin o :: _ => o.prec < k
  | .val _ :: _ => False

def Follow (k : Nat) : List (Tok K) → Prop
  | [] => True
  | .rpar :: _ => True
  | .op o :: _ => o.prec ≤ k
  | _ => False

theorem Open.mono {k : Nat} {st : List (Sym K)} (h : Open k st) : Open (k + 1) st := by
  cases st with
  | nil => trivial
  | cons s st => cases s <;> simp only [Open] at h ⊢ <;> omega

theorem Follow.mono {k : Nat} {ts : List (Tok K)} (h : Follow k ts) : Follow (k + 1) ts := by
  cases ts with
  | nil => trivial
  | cons s st => cases s <;> simp only [Follow] at h ⊢ <;> omega

theorem level_eq (o : Bop) : level o = o.prec := by cases o <;> rfl

theorem prec_le (o : Bop) : o.prec ≤ 3 := by cases o <;> decide

theorem prec_pos (o : Bop) : 1 ≤ o.prec := by cases o <;> decide

theorem reduce_open (env : Env) {p : Nat} (hp : p ≤ 3) {st : List (Sym K)} (h : Open p st) (v : Value K) :
    reduce K env p v st = some (v, st) := by
  cases st with
  | nil => rfl
  | cons s st =>
    cases s with
    | val => exact absurd h id
    | lpar => rfl
    | neg => simp only [Open] at h; omega
    | pos => simp only [Open] at h; omega
    | bin o =>
      simp only [Open] at h
      cases st with
      | nil => rfl
      | cons s st =>
        cases s with
        | val l => rw [reduce, if_neg (by omega)]
        | _ => rfl

theorem step_op (env : Env) {o : Bop} {st : List (Sym K)} (h : Open o.prec st) (v : Value K) (ts : List (Tok K)) :
    parse K env (.op o :: ts) (some v) st = parse K env ts none (.bin o :: .val v :: st) := by
  have := prec_le o
  simp [parse, reduce_open env (by omega) h]

theorem step_rpar (env : Env) (v : Value K) (st : List (Sym K)) (ts : List (Tok K)) :
    parse K env (.rpar :: ts) (some v) (.lpar :: st) = parse K env ts (some v) st := by
  simp [parse, reduce]

theorem step_neg (env : Env) {k : Nat} {ts : List (Tok K)} (h : Follow k ts) (v : Value K) (st : List (Sym K)) :
    parse K env ts (some v) (.neg :: st) = (negAction K env v).bind fun v => parse K env ts (some v) st := by
  match ts, h with
  | [], _ => simp [parse, reduce]; cases negAction K env v <;> rfl
  | .rpar :: ts, _ => simp [parse, reduce]; cases negAction K env v <;> rfl
  | .op o :: ts, _ => simp [parse, reduce]; cases negAction K env v <;> rfl

theorem step_pos (env : Env) {k : Nat} {ts : List (Tok K)} (h : Follow k ts) (v : Value K) (st : List (Sym K)) :
    parse K env ts (some v) (.pos :: st) = parse K env ts (some v) st := by
  match ts, h with
  | [], _ => simp [parse, reduce]
  | .rpar :: ts, _ => simp [parse, reduce]
  | .op o :: ts, _ => simp [parse, reduce]

theorem step_bin (env : Env) {o : Bop} {ts : List (Tok K)} (h : Follow o.prec ts) (l v : Value K) (st : List (Sym K)) :
    parse K env ts (some v) (.bin o :: .val l :: st) =
      (binAction K env o l v).bind fun v => parse K env ts (some v) st := by
  match ts, h with
  | [], _ => simp [parse, reduce]; cases binAction K env o l v <;> rfl
  | .rpar :: ts, _ => simp [parse, reduce]; cases binAction K env o l v <;> rfl
  | .op o' :: ts, h =>
    simp only [Follow] at h
    rw [parse, reduce, if_pos h]
    cases binAction K env o l v <;> simp [parse]

theorem parse_spells (env : Env) {k : Nat} {e : Expr} {t : List (Tok K)} (h : Spells k e t) : ∃ a : Ast K, Rel e a ∧
    ∀ (st : List (Sym K)) (rest : List (Tok K)), Open k st → Follow k rest →
      parse K env (t ++ rest) none st = (ev env a).bind fun v => parse K env rest (some v) st := by
  induction h with
  | num z => exact ⟨_, .num z, fun st rest _ _ => by simp [parse, ev]⟩
  | name n rest h hr => exact ⟨_, .name n rest h hr, fun st rest _ _ => by simp [parse, ev]⟩
  | @paren e t h ih =>
    obtain ⟨a, ha, hp⟩ := ih
    refine ⟨a, ha, fun st rest _ _ => ?_⟩
    have : (Tok.lpar :: t ++ [Tok.rpar]) ++ rest = .lpar :: (t ++ (.rpar :: rest)) := by simp
    rw [this, parse, hp (.lpar :: st) (.rpar :: rest) trivial trivial]
    congr 1
  | neg h ih =>
    obtain ⟨a, ha, hp⟩ := ih
    refine ⟨.neg a, .neg ha, fun st rest _ hf => ?_⟩
    rw [List.cons_append, parse, hp (.neg :: st) rest (Nat.le_refl 4) hf, ev, Option.bind_assoc]
    congr 1; funext v; rw [step_neg env hf]
  | pos h ih =>
    obtain ⟨a, ha, hp⟩ := ih
    refine ⟨.pos a, .pos ha, fun st rest _ hf => ?_⟩
    rw [List.cons_append, parse, hp (.pos :: st) rest (Nat.le_refl 4) hf, ev]
    congr 1; funext v; rw [step_pos env hf]
  | @bin l r tl tr o hl hr ihl ihr =>
    obtain ⟨a, ha, hpa⟩ := ihl
    obtain ⟨b, hb, hpb⟩ := ihr
    rw [level_eq] at *
    refine ⟨.bin o a b, .bin o ha hb, fun st rest ho hf => ?_⟩
    rw [List.append_assoc, hpa st _ ho (by simp [Follow]), ev, Option.bind_assoc]
    congr 1; funext va
    rw [List.cons_append, step_op env ho, hpb _ rest (by simp [Open]) hf.mono, Option.bind_assoc]
    congr 1; funext vb
    rw [step_bin env hf]
  | up h ih =>
    obtain ⟨a, ha, hp⟩ := ih
    exact ⟨a, ha, fun st rest ho hf => hp st rest ho.mono hf.mono⟩

theorem parse_whole (env : Env) {e : Expr} {t : List (Tok K)} (h : Spells 1 e t) : ∃ a : Ast K, Rel e a ∧
    parse K env t none [] = (ev env a).bind fun v => some (some v) := by
  obtain ⟨a, ha, hp⟩ := parse_spells env h
  refine ⟨a, ha, ?_⟩
  have := hp [] [] trivial trivial
  rw [List.append_nil] at this
  rw [this]
  congr 1

/-! ### values -/

/-- the value denotes the integer `z` -/
def Den (env : Env) (v : Value K) (z : Int) : Prop :=
  (v = .int (BitVec.ofInt 128 z) ∨ ∃ s len, v = .id s len ∧ valueId env s len = some (BitVec.ofInt 128 z)) ∧
    -(2 ^ 127) ≤ z ∧ z ≤ 2 ^ 127 - 1

theorem toInt_ofInt {z : Int} (h : -(2 ^ 127) ≤ z ∧ z ≤ 2 ^ 127 - 1) : (BitVec.ofInt 128 z).toInt = z := by
  rw [BitVec.toInt_ofInt]
  apply Int.bmod_eq_of_le <;> omega

theorem signed_ok {z : Int} (h : -(2 ^ 127) ≤ z ∧ z ≤ 2 ^ 127 - 1) : signed z = some (BitVec.ofInt 128 z) := by
  unfold signed; rw [if_pos (by omega)]

theorem fits_some {z w : Int} (h : fits z = some w) : w = z ∧ -(2 ^ 127) ≤ z ∧ z ≤ 2 ^ 127 - 1 := by
  unfold fits at h
  split at h
  · rename_i hz; cases h; exact ⟨rfl, hz⟩
  · cases h

theorem cast_den {env : Env} {v : Value K} {z : Int} (h : Den env v z) :
    cast K env .int v = some (some (.int (BitVec.ofInt 128 z))) := by
  obtain ⟨h | ⟨s, len, h, hv⟩, _⟩ := h
  · rw [h]; rfl
  · rw [h, Value.cast, hv]; rfl

theorem resolve_den {env : Env} {v : Value K} {z : Int} (h : Den env v z) :
    resolveId env v = some (.int (BitVec.ofInt 128 z)) := by
  obtain ⟨h | ⟨s, len, h, hv⟩, _⟩ := h
  · rw [h]; rfl
  · rw [h, resolveId, hv]

theorem rank_den {env : Env} {v : Value K} {z : Int} (h : Den env v z) : v.rank ≤ 5 := by
  obtain ⟨h | ⟨s, len, h, hv⟩, _⟩ := h <;> rw [h] <;> simp [Value.rank]

theorem resultType_den {env : Env} {v w : Value K} {z y : Int} (h : Den env v z) (h' : Den env w y) : resultType v w = .int := by
  have := rank_den h; have := rank_den h'
  unfold resultType; rw [if_pos (by omega)]

theorem arith_den {env : Env} {op : Arith} {v w : Value K} {z y : Int} (h : Den env v z) (h' : Den env w y) :
    arith K env op v w = if op = .div ∧ y = 0 then some (false, .int 0#128) else
      (intArith op (BitVec.ofInt 128 z) (BitVec.ofInt 128 y)).bind fun r => some (true, .int r) := by
  unfold arith
  simp only [resultType_den h h', cast_den h, cast_den h', Option.bind_eq_bind, Option.bind_some, isZero, toInt_ofInt h'.2, beq_iff_eq, zeroOf]

theorem intOp_den {env : Env} {op : IntOp} {v w : Value K} {z y : Int} (h : Den env v z) (h' : Den env w y) :
    intOp K env op v w = if op = .mod ∧ y = 0 then some (false, .int 0#128) else
      (intBits op (BitVec.ofInt 128 z) (BitVec.ofInt 128 y)).bind fun r => some (true, .int r) := by
  unfold intOp
  rw [resolve_den h, resolve_den h']
  simp only [isZero, toInt_ofInt h'.2, beq_iff_eq, Option.bind_eq_bind]

theorem den_int {env : Env} {z : Int} (h : -(2 ^ 127) ≤ z ∧ z ≤ 2 ^ 127 - 1) : Den (K := K) env (.int (BitVec.ofInt 128 z)) z :=
  ⟨.inl rfl, h⟩

theorem den_bits {env : Env} (b : BitVec 128) : Den (K := K) env (.int b) b.toInt := by
  refine ⟨.inl (by rw [BitVec.ofInt_toInt]), ?_⟩
  have h1 := BitVec.le_toInt b
  have h2 := BitVec.toInt_lt (x := b)
  exact ⟨h1, by omega⟩

theorem bin_den {env : Env} {o : Bop} {v w : Value K} {z y r q : Int} (h : Den env v z) (h' : Den env w y)
    (hq : o = .mod → fits (z.tdiv y) = some q) (he : exactBin o z y = some r) (hr : -(2 ^ 127) ≤ r ∧ r ≤ 2 ^ 127 - 1) :
    ∃ u, binAction K env o v w = some u ∧ Den env u r := by
  have t1 := toInt_ofInt h.2
  have t2 := toInt_ofInt h'.2
  cases o with
  | add =>
    cases he
    exact ⟨_, by simp [binAction, arith_den h h', intArith, t1, t2, signed_ok hr], den_int hr⟩
  | sub =>
    cases he
    exact ⟨_, by simp [binAction, arith_den h h', intArith, t1, t2, signed_ok hr], den_int hr⟩
  | mul =>
    cases he
    exact ⟨_, by simp [binAction, arith_den h h', intArith, t1, t2, signed_ok hr], den_int hr⟩
  | div =>
    unfold exactBin at he
    by_cases hy : y = 0
    · simp [hy] at he
    · simp only [hy, if_false] at he; cases he
      exact ⟨_, by simp [binAction, arith_den h h', intArith, t1, t2, signed_ok hr, hy], den_int hr⟩
  | mod =>
    unfold exactBin at he
    by_cases hy : y = 0
    · simp [hy] at he
    · simp only [hy, if_false] at he; cases he
      have e : z.tmod y = z - y * z.tdiv y := Int.tmod_def z y
      have hq := (fits_some (hq rfl)).2
      refine ⟨.int (BitVec.ofInt 128 (z - y * z.tdiv y)), ?_, den_int hr⟩
      simp [binAction, intOp_den h h', intBits, t1, t2, signed_ok hq, hy, e, signed_ok hr]
  | or => cases he; exact ⟨_, by simp [binAction, intOp_den h h', intBits], den_bits _⟩
  | and => cases he; exact ⟨_, by simp [binAction, intOp_den h h', intBits], den_bits _⟩
  | xor => cases he; exact ⟨_, by simp [binAction, intOp_den h h', intBits], den_bits _⟩

theorem neg_den {env : Env} {v : Value K} {z : Int} (h : Den env v z) (hr : -(2 ^ 127) ≤ -z ∧ -z ≤ 2 ^ 127 - 1) :
    ∃ u, negAction K env v = some u ∧ Den env u (-z) := by
  have t1 := toInt_ofInt h.2
  refine ⟨.int (BitVec.ofInt 128 (-z)), ?_, den_int hr⟩
  obtain ⟨h | ⟨s, len, h, hv⟩, _⟩ := h
  · rw [h]; simp [negAction, neg, t1, signed_ok hr]
  · rw [h]; simp [negAction, neg, hv, t1, signed_ok hr]

/-! ### names -/

theorem take_name {n rest : List Nat} (h : Identifier n)
    (hr : ∀ c, rest.head? = some c → isalnum c = false ∧ c ≠ '_'.toNat) :
    (n ++ rest).takeWhile idChar = n ∧ (n ++ rest).dropWhile idChar = rest := by
  have h1 : ∀ c ∈ n, idChar c = true := by
    intro c hc
    unfold idChar
    rcases h.2.1 c hc with h | h
    · simp [h]
    · simp [h, ch]
  rw [List.takeWhile_append_of_pos h1, List.dropWhile_append_of_pos h1]
  cases rest with
  | nil => simp
  | cons c rest =>
    obtain ⟨a, b⟩ := hr c rfl
    have : idChar c = false := by
      unfold idChar
      simp only [a, Bool.false_or, beq_eq_false_iff_ne]
      exact b
    simp [this]

theorem valueId_name {env : Env} {n rest : List Nat} (h : Identifier n)
    (hr : ∀ c, rest.head? = some c → isalnum c = false ∧ c ≠ '_'.toNat) (hm : env.maxLen = maxLength 0 env.names) :
    valueId env (some (n ++ rest)) n.length = (constant env.names n).map (BitVec.ofInt 128) := by
  obtain ⟨t1, t2⟩ := take_name h hr
  unfold valueId getEnum
  simp only [t1, t2]
  have n1 : n ≠ [ch 'f', ch 'a', ch 'l', ch 's', ch 'e'] := h.2.2.2
  have n2 : n ≠ [ch 't', ch 'r', ch 'u', ch 'e'] := h.2.2.1
  simp only [n1, n2, if_false]
  unfold constant
  cases hf : env.names.find? (fun e => decide (e.name = n)) with
  | none =>
    simp only [byName, hf]
    by_cases hl : n.length > env.maxLen <;> simp [hl]
  | some e =>
    have he : e.name = n := by simpa using List.find?_some hf
    have hlen : ¬ n.length > env.maxLen := by
      rw [hm, ← he]
      have := Lemmas.Enum.maxLength_ge (List.mem_of_find?_eq_some hf)
      omega
    have hs : ∀ b : BitVec 64, b.signExtend 128 = BitVec.ofInt 128 b.toInt := fun b => rfl
    have hz : ∀ b : BitVec 64, b.setWidth 128 = BitVec.ofInt 128 (b.toNat : Int) := fun b => by
      apply BitVec.eq_of_toNat_eq; simp
    simp only [byName, hf, hlen, if_false]
    have hd : n.length + rest.length - rest.length = n.length := by omega
    cases hty : e.ty <;> simp only [Ty.size, Ty.signed, hd, hs, hz, List.length_append, ne_eq, not_true_eq_false,
      if_true, if_false, Option.map_some, Option.map_none, reduceCtorEq, or_self, Nat.reduceEqDiff, or_true, true_or]

theorem constant_range {names : List Ed} {n : List Nat} {z : Int} (h : constant names n = some z) :
    -(2 ^ 127) ≤ z ∧ z ≤ 2 ^ 127 - 1 := by
  unfold constant at h
  cases hf : names.find? (fun e => decide (e.name = n)) with
  | none => rw [hf] at h; simp at h
  | some e =>
    rw [hf] at h
    simp only at h
    split at h
    · cases h
    · have h1 := BitVec.le_toInt e.value
      have h2 := BitVec.toInt_lt (x := e.value)
      have h3 := e.value.isLt
      cases h
      split <;> constructor <;> omega

theorem ev_exact {env : Env} (hm : env.maxLen = maxLength 0 env.names) {e : Expr} {a : Ast K} (h : Rel e a) :
    ∀ {z : Int}, exact (constant env.names) e = some z → ∃ v, ev env a = some v ∧ Den env v z := by
  induction h with
  | num z =>
    intro w hw
    obtain ⟨rfl, h⟩ := fits_some hw
    exact ⟨_, rfl, den_int h⟩
  | name n rest hi hr =>
    intro z hz
    exact ⟨_, rfl, .inr ⟨_, _, rfl, by rw [valueId_name hi hr hm, show constant env.names n = some z from hz]; rfl⟩, constant_range hz⟩
  | neg h ih =>
    intro z hz
    rename_i e a
    simp only [exact, Option.bind_eq_bind] at hz
    cases hx : exact (constant env.names) e with
    | none => rw [hx] at hz; simp at hz
    | some x =>
      rw [hx] at hz
      obtain ⟨rfl, hr⟩ := fits_some hz
      obtain ⟨v, h1, h2⟩ := ih hx
      obtain ⟨u, h3, h4⟩ := neg_den h2 hr
      exact ⟨u, by simp [ev, h1, h3], h4⟩
  | pos h ih => intro z hz; exact ih hz
  | @bin l r a b o hl hr ihl ihr =>
    intro z hz
    simp only [exact, Option.bind_eq_bind] at hz
    cases hx : exact (constant env.names) l with
    | none => rw [hx] at hz; simp at hz
    | some x =>
      cases hy : exact (constant env.names) r with
      | none => rw [hx, hy] at hz; simp at hz
      | some y =>
        rw [hx, hy] at hz
        simp only [Option.bind_some] at hz
        have hq : ∃ q, (o = .mod → fits (x.tdiv y) = some q) ∧ (exactBin o x y).bind fits = some z := by
          by_cases ho : o = .mod
          · subst ho
            simp only [if_true] at hz
            cases hq : fits (x.tdiv y) with
            | none => rw [hq] at hz; simp at hz
            | some q => rw [hq] at hz; exact ⟨q, fun _ => rfl, by simpa using hz⟩
          · simp only [ho, if_false] at hz
            exact ⟨0, fun h => absurd h ho, by simpa using hz⟩
        obtain ⟨q, hq, hz⟩ := hq
        cases hb : exactBin o x y with
        | none => rw [hb] at hz; simp at hz
        | some w =>
          rw [hb] at hz
          obtain ⟨rfl, hr⟩ := fits_some (show fits w = some z from hz)
          obtain ⟨v, h1, h2⟩ := ihl hx
          obtain ⟨v', h3, h4⟩ := ihr hy
          obtain ⟨u, h5, h6⟩ := bin_den h2 h4 hq hb hr
          exact ⟨u, by simp [ev, h1, h3, h5], h6⟩

theorem load_den {env : Env} {t : List (Tok K)} {v : Value K} {z : Int}
    (hp : parse K env t none [] = some (some v)) (h : Den env v z) : loadInt K env t = some (some (BitVec.ofInt 128 z)) := by
  have hk : keep v = some v := by
    obtain ⟨h | ⟨s, len, h, hv⟩, _⟩ := h <;> rw [h] <;> rfl
  unfold loadInt
  simp only [hp, Option.bind_eq_bind, Option.bind_some, hk, cast_den h]

/-! ### unknown names -/

/-- values that fail in every operation -/
def Bad (env : Env) (v : Value K) : Prop := v = .void ∨ ∃ s len, v = .id s len ∧ valueId env s len = none

theorem cast_bad {env : Env} {v : Value K} (h : Bad env v) (to : Num) : cast K env to v = some none := by
  rcases h with h | ⟨s, len, h, hv⟩
  · rw [h]; rfl
  · rw [h, Value.cast, hv]

theorem resolve_bad {env : Env} {v : Value K} (h : Bad env v) :
    resolveId env v = none ∨ resolveId env v = some .void := by
  rcases h with h | ⟨s, len, h, hv⟩
  · rw [h]; exact .inr rfl
  · rw [h, resolveId, hv]; exact .inl rfl

theorem neg_bad {env : Env} {v u : Value K} (h : Bad env v) (hu : negAction K env v = some u) : Bad env u := by
  rcases h with h | ⟨s, len, h, hv⟩
  · rw [h] at hu; simp [negAction, neg] at hu; exact .inl hu.symm
  · rw [h] at hu; simp [negAction, neg, hv] at hu; exact .inr ⟨s, len, hu.symm, hv⟩

theorem arith_bad {env : Env} {op : Arith} {v w u : Value K} (h : Bad env v ∨ Bad env w)
    (hu : (arith K env op v w).bind (fun x => some x.2) = some u) : Bad env u := by
  unfold arith at hu
  rcases h with h | h
  · simp [cast_bad h] at hu; exact .inl hu.symm
  · simp only [cast_bad h] at hu
    cases hc : cast K env (resultType v w) v with
    | none => rw [hc] at hu; simp at hu
    | some r => rw [hc] at hu; cases r <;> simp at hu <;> exact .inl hu.symm

theorem intOp_bad {env : Env} {op : IntOp} {v w u : Value K} (h : Bad env v ∨ Bad env w)
    (hu : (intOp K env op v w).bind (fun x => some x.2) = some u) : Bad env u := by
  unfold intOp at hu
  rcases h with h | h
  · rcases resolve_bad h with h | h
    · simp [h] at hu; exact .inl hu.symm
    · rw [h] at hu
      simp only at hu
      split at hu <;> simp at hu <;> exact .inl hu.symm
  · rcases resolve_bad h with h | h
    · rw [h] at hu
      simp only at hu
      split at hu <;> simp at hu <;> exact .inl hu.symm
    · rw [h] at hu
      simp only at hu
      split at hu
      · simp at hu; exact .inl hu.symm
      · simp at hu; exact .inl hu.symm

theorem bin_bad {env : Env} {o : Bop} {v w u : Value K} (h : Bad env v ∨ Bad env w)
    (hu : binAction K env o v w = some u) : Bad env u := by
  cases o <;> first | exact arith_bad h hu | exact intOp_bad h hu

theorem ev_bad {env : Env} (hm : env.maxLen = maxLength 0 env.names) {e : Expr} {a : Ast K} (h : Rel e a) :
    unknown (constant env.names) e = true → ∀ {v}, ev env a = some v → Bad env v := by
  induction h with
  | num z => intro h; simp [unknown] at h
  | name n rest hi hr =>
    intro h v hv
    simp only [unknown, Option.isNone_iff_eq_none] at h
    cases hv
    exact .inr ⟨_, _, rfl, by rw [valueId_name hi hr hm, h]; rfl⟩
  | @neg e a h ih =>
    intro hu v hv
    rw [ev] at hv
    cases hx : ev env a with
    | none => rw [hx] at hv; simp at hv
    | some x => rw [hx] at hv; exact neg_bad (ih hu hx) hv
  | pos h ih => intro hu v hv; exact ih hu hv
  | @bin l r a b o hl hr ihl ihr =>
    intro hu v hv
    simp only [unknown, Bool.or_eq_true] at hu
    rw [ev] at hv
    cases hx : ev env a with
    | none => rw [hx] at hv; simp at hv
    | some x =>
      cases hy : ev env b with
      | none => rw [hx, hy] at hv; simp at hv
      | some y =>
        rw [hx, hy] at hv
        exact bin_bad (hu.imp (ihl · hx) (ihr · hy)) hv

/-! ### numbers as text -/

open Verif.Model.Decimal Verif.Lemmas.Decimal in
theorem getInt_printed {names : List Ed} {maxLen : Nat} {buffer text : List Nat} (hb : buffer.length = bufSize) {v : BitVec 128}
    (ht : printInt128 buffer v = some text) {rest : List Nat} (hE : EndsNumber rest) :
    getInt names maxLen (text ++ rest) = some (v, rest) := by
  rw [printInt128_eq buffer hb] at ht
  cases ht
  have hlt : v.toInt.natAbs < 2 ^ 128 := by
    have h2 := v.isLt
    rw [BitVec.toInt_eq_toNat_cond]
    split <;> omega
  have hcore := strto_core v.toInt.natAbs hlt rest hE (decide (v.toInt < 0))
  simp only [decide_eq_true_eq] at hcore
  obtain ⟨c, t, hct, hc⟩ : ∃ c t, ((if v.toInt < 0 then [45] else []) ++ (natDigits v.toInt.natAbs).map (· + 48)) ++ rest = c :: t ∧
      (c = 45 ∨ (48 ≤ c ∧ c < 58)) := by
    by_cases h : v.toInt < 0
    · exact ⟨45, (natDigits v.toInt.natAbs).map (· + 48) ++ rest, by simp [h], .inl rfl⟩
    · have hs := natDigits_spec v.toInt.natAbs
      cases hd : natDigits v.toInt.natAbs with
      | nil => exact absurd hd hs.2.2.1
      | cons d ds =>
        have := hs.1 d (by rw [hd]; simp)
        exact ⟨d + 48, ds.map (· + 48) ++ rest, by simp [h], .inr (by omega)⟩
  have hsp : isspace c = false := by
    unfold isspace
    simp only [Bool.or_eq_false_iff, beq_eq_false_iff_ne, Bool.and_eq_false_iff, decide_eq_false_iff_not]; omega
  have hal : ¬ ((isalpha c || c == ch '_') = true) := by
    simp only [isalpha, isupper, islower, Bool.or_eq_true, Bool.and_eq_true, decide_eq_true_eq, beq_iff_eq]
    have : ch '_' = 95 := rfl
    omega
  unfold getInt
  rw [hct] at hcore ⊢
  simp only [List.dropWhile_cons, hsp, Bool.false_eq_true, if_false]
  rw [if_neg hal, hcore]
  simp only [Option.some.injEq, Prod.mk.injEq, and_true]
  apply BitVec.eq_of_toNat_eq
  rw [BitVec.toNat_ofNat]
  have h2 := v.isLt
  rw [BitVec.toInt_eq_toNat_cond]
  split <;> split <;> omega

open Verif.Model.Decimal Verif.Lemmas.Decimal in
theorem loadVar_printed {env : Env} {buffer text : List Nat} (hb : buffer.length = bufSize) {v : BitVec 128}
    (ht : printInt128 buffer v = some text) {rest : List Nat} (hE : EndsNumber rest)
    (hbar : (rest.dropWhile isspace).head? ≠ some (ch '|')) :
    loadVar K env .int (text ++ rest) = some (.int v, rest.dropWhile isspace) := by
  have hl : loadBitmask env.names env.maxLen ((text ++ rest).length + 1) (text ++ rest) 0#128 = some (v, rest.dropWhile isspace) := by
    rw [loadBitmask, getInt_printed hb ht hE]
    simp only [Option.bind_eq_bind, Option.bind_some]
    cases hd : rest.dropWhile isspace with
    | nil => simp
    | cons c t =>
      rw [hd] at hbar
      simp only [List.head?_cons, ne_eq, Option.some.injEq] at hbar
      simp [hbar]
  unfold loadVar
  simp only [hl, Option.bind_eq_bind, Option.bind_some, Option.some.injEq, Prod.mk.injEq, true_and]
  generalize rest = r
  induction r with
  | nil => rfl
  | cons c t ih =>
    by_cases h : isspace c = true
    · simp [h, ih]
    · simp [h]

end Verif.Lemmas.Value
