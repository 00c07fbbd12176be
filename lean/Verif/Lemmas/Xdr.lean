import Verif.Spec.Xdr
import Verif.Lemmas.Mem
namespace Verif.Lemmas.Xdr
open Verif.Model Verif.Model.Xdr Verif.Spec Verif.Lemmas.Mem

theorem decodes_andThen {α β : Type} {d : List Nat → Nat → Dec α} {f : α → List Nat → Nat → Dec β} {o1 o2 : List Nat}
    {a : α} {b : β} (h1 : Decodes d o1 a) (h2 : Decodes (f a) o2 b) :
    Decodes (fun buf pos => (d buf pos).andThen fun a pos => f a buf pos) (o1 ++ o2) b := by
  constructor
  · intro pre rest hl
    rw [List.length_append] at hl
    have e1 : pre ++ (o1 ++ o2) ++ rest = pre ++ o1 ++ (o2 ++ rest) := by simp
    have e2 : pre ++ (o1 ++ o2) ++ rest = (pre ++ o1) ++ o2 ++ rest := by simp
    have r1 := h1.reads pre (o2 ++ rest) (by rw [List.length_append]; omega)
    have r2 := h2.reads (pre ++ o1) rest (by rw [List.length_append]; omega)
    rw [← e1] at r1
    rw [← e2, List.length_append] at r2
    simp only [r1, Dec.andThen, r2, List.length_append, Nat.add_assoc]
  · intro pre t ht hl
    rw [List.length_append] at ht
    by_cases h : t < o1.length
    · rw [List.take_append_of_le_length (by omega)]
      simp only [h1.refuses pre t h hl, Dec.andThen]
    · have e1 : (o1 ++ o2).take t = o1 ++ o2.take (t - o1.length) := by
        rw [List.take_append, List.take_of_length_le (by omega)]
      rw [e1, ← List.append_assoc]
      have r1 := h1.reads pre (o2.take (t - o1.length)) (by rw [List.length_take]; omega)
      have r2 := h2.refuses (pre ++ o1) (t - o1.length) (by omega) (by rw [List.length_append]; omega)
      rw [List.length_append] at r2
      simp only [r1, Dec.andThen, r2]

theorem decodes_pure {α : Type} (a : α) : Decodes (fun _ pos => some (some (a, pos))) [] a :=
  ⟨by intro pre rest _; simp, by intro pre t ht; simp at ht⟩

theorem decodes_map {α β : Type} {d : List Nat → Nat → Dec α} {o : List Nat} {a : α} {b : β}
    {g : α → Nat → Dec β} (h : Decodes d o a) (hg : ∀ pos, g a pos = some (some (b, pos))) :
    Decodes (fun buf pos => (d buf pos).andThen g) o b := by
  constructor
  · intro pre rest hl
    simp only [h.reads pre rest hl, Dec.andThen, hg]
  · intro pre t ht hl
    simp only [h.refuses pre t ht hl, Dec.andThen]

theorem decodes_congr {α : Type} {d d' : List Nat → Nat → Dec α} {o : List Nat} {a : α} (h : Decodes d o a)
    (he : ∀ buf pos, d' buf pos = d buf pos) : Decodes d' o a :=
  ⟨fun pre rest hl => by rw [he]; exact h.reads pre rest hl, fun pre t ht hl => by rw [he]; exact h.refuses pre t ht hl⟩

theorem safe_andThen {α β : Type} {d : List Nat → Nat → Dec α} {f : α → List Nat → Nat → Dec β} {buf : List Nat}
    (h1 : Safe d buf) (h2 : ∀ a pos pos', d buf pos = some (some (a, pos')) → Safe (f a) buf) :
    Safe (fun buf pos => (d buf pos).andThen fun a pos => f a buf pos) buf := by
  intro pos hpos
  obtain ⟨r, e, hr⟩ := h1 pos hpos
  simp only [e]
  cases r with
  | none => exact ⟨none, rfl, by simp⟩
  | some x =>
    obtain ⟨a, pos'⟩ := x
    obtain ⟨hp1, hp2⟩ := hr a pos' rfl
    obtain ⟨r2, e2, hr2⟩ := h2 a pos pos' e pos' hp1
    refine ⟨r2, e2, ?_⟩
    intro b pos'' hb
    have := hr2 b pos'' hb
    omega

theorem be32_length (w : Nat) : (be32 w).length = 4 := rfl
theorem be32_bytes (w : Nat) : ∀ b ∈ be32 w, b < 256 := by
  intro b hb; simp only [be32, List.mem_cons, List.not_mem_nil, or_false] at hb; omega
theorem ofBe32_be32 {w : Nat} (h : w < 2 ^ 32) : ofBe32 (be32 w) = w := by unfold ofBe32 be32; simp only; omega

theorem slice_mid (pre out rest : List Nat) : slice (pre ++ out ++ rest) pre.length out.length = some out := by
  unfold slice
  rw [if_pos (by simp)]
  simp

theorem getLong_dec {w : Nat} (h : w < 2 ^ 32) : Decodes getLong (be32 w) w := by
  constructor
  · intro pre rest hl
    rw [be32_length] at hl ⊢
    unfold getLong
    have hlen : (pre ++ be32 w ++ rest).length = pre.length + 4 + rest.length := by simp [be32_length, Nat.add_assoc]
    rw [if_neg (by rw [hlen]; omega)]
    have := slice_mid pre (be32 w) rest
    rw [be32_length] at this
    rw [this]
    simp only [Option.bind_some, ofBe32_be32 h]
    congr 3
    unfold u32; omega
  · intro pre t ht hl
    rw [be32_length] at ht
    unfold getLong
    have hlen : (pre ++ (be32 w).take t).length = pre.length + t := by simp [be32_length]; omega
    rw [if_pos (by rw [hlen]; omega)]

theorem getBytes_dec (b : List Nat) : Decodes (fun buf pos => getBytes buf pos b.length) b b := by
  constructor
  · intro pre rest hl
    unfold getBytes
    have hlen : (pre ++ b ++ rest).length = pre.length + b.length + rest.length := by simp [Nat.add_assoc]
    rw [if_neg (by rw [hlen]; omega), slice_mid]
    simp only [Option.bind_some]
    congr 3
    unfold u32; omega
  · intro pre t ht hl
    unfold getBytes
    have hlen : (pre ++ b.take t).length = pre.length + t := by simp; omega
    rw [if_pos (by rw [hlen]; omega)]

theorem putOpaque_length (b : List Nat) : (putOpaque b).length = (b.length + 3) / 4 * 4 := by
  unfold putOpaque
  rw [List.length_append, List.length_replicate]; omega

theorem getOpaque_dec (b : List Nat) : Decodes (fun buf pos => getOpaque buf pos b.length) (putOpaque b) b := by
  unfold getOpaque
  by_cases h0 : b.length = 0
  · have : b = [] := List.length_eq_zero_iff.mp h0
    subst this
    exact decodes_congr (decodes_pure []) (by intro buf pos; simp)
  · simp only [if_neg h0]
    unfold putOpaque
    by_cases h4 : b.length % 4 = 0
    · simp only [h4, if_pos]
      exact decodes_congr (decodes_map (getBytes_dec b) (g := fun b pos => some (some (b, pos))) (by intro _; rfl))
        (by intro _ _; rfl) |> fun h => by simpa using h
    · have hr : (4 - b.length % 4) % 4 = 4 - b.length % 4 := by omega
      simp only [h4, if_false, hr]
      have hz := getBytes_dec (List.replicate (4 - b.length % 4) 0)
      rw [List.length_replicate] at hz
      exact decodes_andThen (f := fun x buf pos => (getBytes buf pos (4 - b.length % 4)).andThen fun _ pos => some (some (x, pos)))
        (getBytes_dec b) (decodes_map (b := b) hz (by intro _; rfl))

/-! ### scalars -/

theorem readLE_lt {n : Nat} {mem : List Nat} {v : Nat} (hb : ∀ b ∈ mem, b < 256) (h : readLE n mem = some v) :
    v < 256 ^ n := by
  by_cases hl : n ≤ mem.length
  · obtain ⟨r, h1, h2⟩ := readLE_ok n mem hl hb
    rw [h] at h1; injection h1 with h1; omega
  · exfalso
    have : ∀ (n : Nat) (mem : List Nat), ¬ n ≤ mem.length → readLE n mem = none := by
      intro n
      induction n with
      | zero => intro mem h; omega
      | succ n ih =>
        intro mem h
        cases mem with
        | nil => rfl
        | cons a mem => rw [readLE, ih mem (by simpa using h)]; rfl
    rw [this n mem hl] at h; cases h

/-- memory is determined by its little-endian value -/
theorem readLE_inj : ∀ (n : Nat) (m m' : List Nat) (v : Nat), (∀ b ∈ m, b < 256) → (∀ b ∈ m', b < 256) →
    readLE n m = some v → readLE n m' = some v → m.take n = m'.take n := by
  intro n
  induction n with
  | zero => intros; simp
  | succ n ih =>
    intro m m' v hb hb' h h'
    cases m with
    | nil => simp [readLE] at h
    | cons a m =>
      cases m' with
      | nil => simp [readLE] at h'
      | cons a' m' =>
        rw [readLE] at h h'
        cases hr : readLE n m with
        | none => simp [hr] at h
        | some r =>
          cases hr' : readLE n m' with
          | none => simp [hr'] at h'
          | some r' =>
            simp [hr] at h
            simp [hr'] at h'
            have h1 := hb a (by simp)
            have h2 := hb' a' (by simp)
            have : a = a' ∧ r = r' := by omega
            obtain ⟨e1, e2⟩ := this
            subst e1 e2
            simp only [List.take_succ_cons]
            rw [ih m m' r (fun b h => hb b (by simp [h])) (fun b h => hb' b (by simp [h])) hr hr']

/-- writing a number congruent to the value of `mem` restores the bytes of `mem` -/
theorem write_restores {n v w : Nat} {mem mem0 : List Nat} (hb : ∀ b ∈ mem, b < 256) (hb0 : ∀ b ∈ mem0, b < 256)
    (hl0 : n ≤ mem0.length) (h : readLE n mem = some v) (hw : w % 256 ^ n = v) :
    ∃ mem', writeLE n w mem0 = some mem' ∧ mem'.length = mem0.length ∧ mem'.take n = mem.take n ∧
      mem'.drop n = mem0.drop n := by
  obtain ⟨mem', h1, h2, h3, h4, h5⟩ := writeLE_ok n w mem0 hl0
  refine ⟨mem', h1, h2, ?_, h3⟩
  have := h5 n (Nat.le_refl _)
  rw [hw] at this
  exact readLE_inj n mem' mem v (h4 hb0) hb this h

theorem bytes_append {a b : List Nat} (ha : ∀ x ∈ a, x < 256) (hb : ∀ x ∈ b, x < 256) : ∀ x ∈ a ++ b, x < 256 := by
  intro x hx
  rcases List.mem_append.mp hx with h | h
  · exact ha x h
  · exact hb x h

theorem sext32_lt {n x : Nat} (hn : n = 8 ∨ n = 16) (hx : x < 2 ^ n) :
    sext32 n x < 2 ^ 32 ∧ sext32 n x % 2 ^ n = x := by
  unfold sext32
  rcases hn with rfl | rfl <;> split <;> omega

theorem covered_lt : ∀ (k : Sc) (i : Nat), covered k i = true → i < k.size := by
  intro k
  induction k with
  | complex p n ih =>
    intro i h
    simp only [covered, Bool.or_eq_true, Bool.and_eq_true, decide_eq_true_eq] at h
    simp only [Sc.size]
    rcases h with h | ⟨h1, h2⟩
    · have := ih i h; omega
    · have := ih (i - n) h2; omega
  | _ => intro i h; exact of_decide_eq_true h

/-- encoding of `mem`, and what decoding stores to `mem0` -/
structure Enc (k : Sc) (mem : List Nat) (out : List Nat) : Prop where
  enc : enc k mem = some out
  len : out.length % 4 = 0
  bytes : ∀ b ∈ out, b < 256
  dec : ∀ mem0, (∀ b ∈ mem0, b < 256) → k.size ≤ mem0.length → ∃ mem', mem'.length = mem0.length ∧
    (∀ b ∈ mem', b < 256) ∧ Decodes (fun buf pos => dec k buf pos mem0) out mem' ∧
    ∀ i, mem'[i]? = if covered k i then mem[i]? else mem0[i]?

theorem get_of_take_drop {n : Nat} {m' m m0 : List Nat} (h1 : m'.take n = m.take n) (h2 : m'.drop n = m0.drop n)
    (i : Nat) : m'[i]? = if decide (i < n) then m[i]? else m0[i]? := by
  by_cases h : i < n
  · simp only [h, decide_true, if_true]
    have := congrArg (fun l => l[i]?) h1
    simpa [List.getElem?_take, h] using this
  · simp only [h, decide_false, Bool.false_eq_true, if_false]
    have := congrArg (fun l => l[i - n]?) h2
    simpa [List.getElem?_drop, show n + (i - n) = i by omega] using this

theorem word_ok {k : Sc} {n : Nat} {f : Nat → Nat} (hk : k.size = n) (hc : ∀ i, covered k i = decide (i < n))
    (he : ∀ mem, enc k mem = (readLE n mem).bind fun v => some (be32 (f v)))
    (hd : ∀ buf pos mem, dec k buf pos mem = (getLong buf pos).andThen fun w pos => (writeLE n w mem).map fun mem => some (mem, pos))
    (hf : ∀ v, v < 256 ^ n → f v < 2 ^ 32 ∧ f v % 256 ^ n = v)
    {mem : List Nat} (hb : ∀ b ∈ mem, b < 256) (hl : n ≤ mem.length) : ∃ out, Enc k mem out := by
  obtain ⟨v, h1, h2⟩ := readLE_ok n mem hl hb
  obtain ⟨f1, f2⟩ := hf v h2
  refine ⟨be32 (f v), by rw [he, h1]; rfl, by rw [be32_length], be32_bytes _, ?_⟩
  intro mem0 hb0 hl0
  rw [hk] at hl0
  obtain ⟨mem', g1, g2, g3, g4⟩ := write_restores hb hb0 hl0 h1 f2
  have hbm : ∀ b ∈ mem', b < 256 := by
    intro b hbm
    rw [← List.take_append_drop n mem', g3, g4] at hbm
    rcases List.mem_append.mp hbm with h | h
    · exact hb b (List.mem_of_mem_take h)
    · exact hb0 b (List.mem_of_mem_drop h)
  refine ⟨mem', g2, hbm, ?_, ?_⟩
  · exact decodes_congr (decodes_map (getLong_dec f1) (g := fun w pos => (writeLE n w mem0).map fun mem => some (mem, pos))
      (by intro pos; simp only [g1]; rfl)) (by intro buf pos; exact hd buf pos mem0)
  · intro i
    rw [hc]
    exact get_of_take_drop g3 g4 i

theorem enc64_ok {mem : List Nat} (hb : ∀ b ∈ mem, b < 256) (hl : 8 ≤ mem.length) : ∃ out, Enc .w64 mem out := by
  obtain ⟨v, h1, h2⟩ := readLE_ok 8 mem hl hb
  refine ⟨be32 (v / 2 ^ 32) ++ be32 (v % 2 ^ 32), by simp [enc, enc64, h1], by rw [List.length_append, be32_length, be32_length],
    bytes_append (be32_bytes _) (be32_bytes _), ?_⟩
  intro mem0 hb0 hl0
  obtain ⟨mem', g1, g2, g3, g4⟩ := write_restores (n := 8) (w := v / 2 ^ 32 * 2 ^ 32 + v % 2 ^ 32) hb hb0 hl0 h1 (by omega)
  have hbm : ∀ b ∈ mem', b < 256 := by
    intro b hbm
    rw [← List.take_append_drop 8 mem', g3, g4] at hbm
    rcases List.mem_append.mp hbm with h | h
    · exact hb b (List.mem_of_mem_take h)
    · exact hb0 b (List.mem_of_mem_drop h)
  refine ⟨mem', g2, hbm, ?_, fun i => get_of_take_drop g3 g4 i⟩
  refine decodes_andThen (f := fun hi buf pos => (getLong buf pos).andThen fun low pos =>
    (writeLE 8 (hi * 2 ^ 32 + low) mem0).map fun mem => some (mem, pos)) (getLong_dec (by omega)) ?_
  exact decodes_map (getLong_dec (by omega)) (by intro pos; simp only [g1]; rfl)

/-- two numbers, one after the other -/
theorem pair_ok {k p : Sc} {n : Nat} (hk : k.size = n + p.size) (hpn : p.size ≤ n)
    (hc : ∀ i, covered k i = (covered p i || (decide (n ≤ i) && covered p (i - n))))
    (he : ∀ mem, enc k mem = (enc p mem).bind fun a => (enc p (mem.drop n)).bind fun b => some (a ++ b))
    (hd : ∀ buf pos mem, dec k buf pos mem = (dec p buf pos mem).andThen fun mem pos =>
      (dec p buf pos (mem.drop n)).andThen fun tail pos => some (some (mem.take n ++ tail, pos)))
    {mem o1 o2 : List Nat} (h1 : Enc p mem o1) (h2 : Enc p (mem.drop n) o2) : ∃ out, Enc k mem out := by
  have hl1 := h1.len
  have hl2 := h2.len
  refine ⟨o1 ++ o2, by rw [he, h1.enc, Option.bind_some, h2.enc]; rfl, by rw [List.length_append]; omega,
    bytes_append h1.bytes h2.bytes, ?_⟩
  intro mem0 hb0 hl0
  rw [hk] at hl0
  obtain ⟨m1, a1, a2, a3, a4⟩ := h1.dec mem0 hb0 (by omega)
  obtain ⟨m2, b1, b2, b3, b4⟩ := h2.dec (m1.drop n) (fun b hb => a2 b (List.mem_of_mem_drop hb))
    (by rw [List.length_drop]; omega)
  rw [List.length_drop] at b1
  refine ⟨m1.take n ++ m2, by rw [List.length_append, List.length_take]; omega,
    bytes_append (fun b hb => a2 b (List.mem_of_mem_take hb)) b2, ?_, ?_⟩
  · refine decodes_congr (decodes_andThen (f := fun mem buf pos => (dec p buf pos (mem.drop n)).andThen fun tail pos =>
      some (some (mem.take n ++ tail, pos))) a3 ?_) (by intro buf pos; exact hd buf pos mem0)
    exact decodes_map b3 (by intro _; rfl)
  · intro i
    rw [hc, List.getElem?_append]
    have hlt : (m1.take n).length = n := by rw [List.length_take]; omega
    rw [hlt]
    by_cases hi : i < n
    · rw [if_pos hi, List.getElem?_take, if_pos hi, a4]
      simp [show ¬ n ≤ i by omega]
    · rw [if_neg hi, b4]
      have hni : covered p i = false := by
        cases h : covered p i with
        | false => rfl
        | true => have := covered_lt p i h; omega
      rw [List.getElem?_drop, List.getElem?_drop, show n + (i - n) = i by omega, a4, hni]
      simp [show n ≤ i by omega]

theorem enc_ok : ∀ (k : Sc), scOk k → ∀ {mem : List Nat}, (∀ b ∈ mem, b < 256) → k.size ≤ mem.length →
    ∃ out, Enc k mem out := by
  intro k
  induction k with
  | w8 =>
    intro _ mem hb hl
    exact word_ok (n := 1) (f := sext32 8) rfl (fun _ => rfl) (fun _ => rfl) (fun _ _ _ => rfl)
      (fun v hv => sext32_lt (.inl rfl) hv) hb hl
  | i16 =>
    intro _ mem hb hl
    exact word_ok (n := 2) (f := sext32 16) rfl (fun _ => rfl) (fun _ => rfl) (fun _ _ _ => rfl)
      (fun v hv => sext32_lt (.inr rfl) hv) hb hl
  | u16 =>
    intro _ mem hb hl
    exact word_ok (n := 2) (f := id) rfl (fun _ => rfl) (fun _ => rfl) (fun _ _ _ => rfl)
      (fun v hv => by simp only [id]; omega) hb hl
  | w32 =>
    intro _ mem hb hl
    exact word_ok (n := 4) (f := id) rfl (fun _ => rfl) (fun _ => rfl) (fun _ _ _ => rfl)
      (fun v hv => by simp only [id]; omega) hb hl
  | w64 => intro _ mem hb hl; exact enc64_ok hb hl
  | w128 =>
    intro _ mem hb hl
    have hl' : 16 ≤ mem.length := hl
    obtain ⟨o1, h1⟩ := enc64_ok hb (by omega)
    obtain ⟨o2, h2⟩ := enc64_ok (mem := mem.drop 8) (fun b h => hb b (List.mem_of_mem_drop h))
      (by rw [List.length_drop]; omega)
    refine pair_ok (k := .w128) (p := .w64) (n := 8) rfl (Nat.le_refl _) ?_ (fun _ => rfl) (fun _ _ _ => rfl) h1 h2
    intro i
    show decide (i < 16) = (decide (i < 8) || (decide (8 ≤ i) && decide (i - 8 < 8)))
    rw [Bool.eq_iff_iff]
    simp only [Bool.or_eq_true, Bool.and_eq_true, decide_eq_true_eq]
    omega
  | raw n =>
    intro _ mem hb hl
    have hl' : n ≤ mem.length := hl
    have hlt : (mem.take n).length = n := by rw [List.length_take]; omega
    refine ⟨putOpaque (mem.take n), ?_, ?_, ?_, ?_⟩
    · simp [enc, slice, hl']
    · rw [putOpaque_length]; omega
    · unfold putOpaque
      refine bytes_append (fun b h => hb b (List.mem_of_mem_take h)) ?_
      intro b h
      have := List.eq_of_mem_replicate h
      omega
    · intro mem0 hb0 hl0
      have hl0' : n ≤ mem0.length := hl0
      refine ⟨mem.take n ++ mem0.drop n, by rw [List.length_append, hlt, List.length_drop]; omega,
        bytes_append (fun b h => hb b (List.mem_of_mem_take h)) (fun b h => hb0 b (List.mem_of_mem_drop h)), ?_, ?_⟩
      · have := getOpaque_dec (mem.take n)
        rw [hlt] at this
        exact decodes_map this (by intro pos; rw [if_pos hl0'])
      · intro i
        exact get_of_take_drop (n := n) (m := mem) (m0 := mem0) (by rw [List.take_append_of_le_length (by omega), List.take_of_length_le (by omega)])
          (by rw [List.drop_append, hlt]; simp [hlt]) i
  | complex p n ih =>
    intro hok mem hb hl
    simp only [Sc.size] at hl
    obtain ⟨o1, h1⟩ := ih hok.1 hb (by omega)
    obtain ⟨o2, h2⟩ := ih hok.1 (mem := mem.drop n) (fun b h => hb b (List.mem_of_mem_drop h))
      (by rw [List.length_drop]; omega)
    exact pair_ok rfl hok.2 (fun _ => rfl) (fun _ => rfl) (fun _ _ _ => rfl) h1 h2

/-! ### safety on arbitrary documents -/

theorem getLong_safe {buf : List Nat} (h : buf.length < 2 ^ 32) : Safe getLong buf := by
  intro pos hp
  unfold getLong
  split
  · exact ⟨none, rfl, by simp⟩
  · next hc =>
    unfold slice
    rw [if_pos (by omega)]
    refine ⟨_, rfl, ?_⟩
    intro a pos' he
    simp only [Option.some.injEq, Prod.mk.injEq] at he
    rw [← he.2]
    unfold u32; omega

theorem ofBe32_lt {b : List Nat} (hb : ∀ x ∈ b, x < 256) : ofBe32 b < 2 ^ 32 := by
  unfold ofBe32
  split
  · next a b c d =>
    have h1 := hb a (by simp)
    have h2 := hb b (by simp)
    have h3 := hb c (by simp)
    have h4 := hb d (by simp)
    omega
  · omega

theorem getBytes_safe {buf : List Nat} (h : buf.length < 2 ^ 32) (len : Nat) : Safe (fun b p => getBytes b p len) buf := by
  intro pos hp
  simp only
  unfold getBytes
  split
  · exact ⟨none, rfl, by simp⟩
  · next hc =>
    unfold slice
    rw [if_pos (by omega)]
    refine ⟨_, rfl, ?_⟩
    intro a pos' he
    simp only [Option.some.injEq, Prod.mk.injEq] at he
    rw [← he.2]
    unfold u32; omega

theorem safe_some {α : Type} {buf : List Nat} (a : α) : Safe (fun _ pos => some (some (a, pos))) buf := by
  intro pos hp
  refine ⟨_, rfl, ?_⟩
  intro b pos' h
  simp only [Option.some.injEq, Prod.mk.injEq] at h
  omega

theorem getOpaque_safe {buf : List Nat} (h : buf.length < 2 ^ 32) (len : Nat) : Safe (fun b p => getOpaque b p len) buf := by
  unfold getOpaque
  by_cases h0 : len = 0
  · simp only [h0, if_true]; exact safe_some []
  · simp only [h0, if_false]
    refine safe_andThen (f := fun b buf pos => if len % 4 = 0 then some (some (b, pos))
      else (getBytes buf pos (4 - len % 4)).andThen fun _ pos => some (some (b, pos))) (getBytes_safe h len) ?_
    intro b pos pos' _
    by_cases h4 : len % 4 = 0
    · simp only [h4, if_true]; exact safe_some b
    · simp only [h4, if_false]
      exact safe_andThen (f := fun _ _ pos => some (some (b, pos))) (getBytes_safe h _) (fun _ _ _ _ => safe_some b)

theorem getOpaque_length {buf : List Nat} {pos len : Nat} {b : List Nat} {pos' : Nat}
    (h : getOpaque buf pos len = some (some (b, pos'))) : b.length = len := by
  unfold getOpaque at h
  have hg : ∀ {pos p'} {b : List Nat}, getBytes buf pos len = some (some (b, p')) → b.length = len := by
    intro pos p' b hg
    unfold getBytes at hg
    split at hg
    · cases hg
    · unfold slice at hg
      split at hg
      · simp only [Option.bind_some, Option.some.injEq, Prod.mk.injEq] at hg
        rw [← hg.1, List.length_take, List.length_drop]; omega
      · cases hg
  split at h
  · simp only [Option.some.injEq, Prod.mk.injEq] at h
    rw [← h.1]; simp; omega
  · cases e : getBytes buf pos len with
    | none => simp [e, Dec.andThen] at h
    | some r =>
      cases r with
      | none => simp [e, Dec.andThen] at h
      | some x =>
        obtain ⟨x, p⟩ := x
        have := hg e
        simp only [e, Dec.andThen] at h
        split at h
        · simp only [Option.some.injEq, Prod.mk.injEq] at h
          rw [← h.1, this]
        · split at h
          · cases h
          · cases h
          · simp only [Option.some.injEq, Prod.mk.injEq] at h
            rw [← h.1, this]

theorem writeLE_map_safe {n w : Nat} {mem buf : List Nat} (h : n ≤ mem.length) :
    Safe (fun _ pos => (writeLE n w mem).map fun mem => some (mem, pos)) buf := by
  obtain ⟨mem', h1, _⟩ := writeLE_ok n w mem h
  simp only [h1, Option.map_some]
  exact safe_some mem'

theorem writeLE_length {n w : Nat} {mem mem' : List Nat} (hl : n ≤ mem.length) (h : writeLE n w mem = some mem') :
    mem'.length = mem.length := by
  obtain ⟨m, h1, h2, _⟩ := writeLE_ok n w mem hl
  rw [h] at h1; injection h1 with h1; rw [h1, h2]

/-- decoding on any document is safe and keeps the length of the destination -/
theorem dec_safe {buf : List Nat} (h : buf.length < 2 ^ 32) : ∀ (k : Sc) (mem : List Nat), k.size ≤ mem.length →
    scOk k → Safe (fun b p => dec k b p mem) buf ∧
    ∀ pos mem' pos', dec k buf pos mem = some (some (mem', pos')) → mem'.length = mem.length := by
  have word : ∀ {k : Sc} {n : Nat} {mem : List Nat},
      (∀ buf pos mem, dec k buf pos mem = (getLong buf pos).andThen fun w pos => (writeLE n w mem).map fun mem => some (mem, pos)) →
      n ≤ mem.length → Safe (fun b p => dec k b p mem) buf ∧
      ∀ pos mem' pos', dec k buf pos mem = some (some (mem', pos')) → mem'.length = mem.length := by
    intro k n mem hd hl
    simp only [hd]
    refine ⟨safe_andThen (f := fun w _ pos => (writeLE n w mem).map fun mem => some (mem, pos)) (getLong_safe h)
      (fun w _ _ _ => writeLE_map_safe hl), ?_⟩
    intro pos mem' pos' he
    cases hg : getLong buf pos with
    | none => simp [hg, Dec.andThen] at he
    | some r =>
      cases r with
      | none => simp [hg, Dec.andThen] at he
      | some x =>
        obtain ⟨w, p⟩ := x
        simp only [hg, Dec.andThen] at he
        cases hw : writeLE n w mem with
        | none => simp [hw] at he
        | some m =>
          simp only [hw, Option.map_some, Option.some.injEq, Prod.mk.injEq] at he
          rw [← he.1]; exact writeLE_length hl hw
  have d64 : ∀ {mem : List Nat}, 8 ≤ mem.length → Safe (fun b p => dec64 b p mem) buf ∧
      ∀ pos mem' pos', dec64 buf pos mem = some (some (mem', pos')) → mem'.length = mem.length := by
    intro mem hl
    unfold dec64
    refine ⟨safe_andThen (f := fun hi buf pos => (getLong buf pos).andThen fun low pos =>
      (writeLE 8 (hi * 2 ^ 32 + low) mem).map fun mem => some (mem, pos)) (getLong_safe h) (fun hi _ _ _ =>
        safe_andThen (f := fun low _ pos => (writeLE 8 (hi * 2 ^ 32 + low) mem).map fun mem => some (mem, pos))
          (getLong_safe h) (fun w _ _ _ => writeLE_map_safe hl)), ?_⟩
    intro pos mem' pos' he
    cases hg : getLong buf pos with
    | none => simp [hg, Dec.andThen] at he
    | some r =>
      cases r with
      | none => simp [hg, Dec.andThen] at he
      | some x =>
        obtain ⟨hi, p⟩ := x
        simp only [hg, Dec.andThen] at he
        cases hg2 : getLong buf p with
        | none => simp [hg2] at he
        | some r2 =>
          cases r2 with
          | none => simp [hg2] at he
          | some x2 =>
            obtain ⟨lo, p2⟩ := x2
            simp only [hg2] at he
            cases hw : writeLE 8 (hi * 2 ^ 32 + lo) mem with
            | none => simp [hw] at he
            | some m =>
              simp only [hw, Option.map_some, Option.some.injEq, Prod.mk.injEq] at he
              rw [← he.1]; exact writeLE_length hl hw
  have pair : ∀ {d : List Nat → Nat → List Nat → Dec (List Nat)} {n m : Nat} {mem : List Nat}, m ≤ n → n + m ≤ mem.length →
      (∀ mem, m ≤ mem.length → Safe (fun b p => d b p mem) buf ∧
        ∀ pos mem' pos', d buf pos mem = some (some (mem', pos')) → mem'.length = mem.length) →
      Safe (fun buf pos => (d buf pos mem).andThen fun mem pos =>
        (d buf pos (mem.drop n)).andThen fun tail pos => some (some (mem.take n ++ tail, pos))) buf ∧
      ∀ pos mem' pos', ((d buf pos mem).andThen fun mem pos =>
        (d buf pos (mem.drop n)).andThen fun tail pos => some (some (mem.take n ++ tail, pos))) = some (some (mem', pos')) →
        mem'.length = mem.length := by
    intro d n m mem hmn hl hd
    obtain ⟨s1, l1⟩ := hd mem (by omega)
    constructor
    · refine safe_andThen (f := fun mem buf pos => (d buf pos (mem.drop n)).andThen fun tail pos =>
        some (some (mem.take n ++ tail, pos))) s1 ?_
      intro m1 pos pos' he
      have hm1 := l1 _ _ _ he
      exact safe_andThen (f := fun tail _ pos => some (some (m1.take n ++ tail, pos)))
        (hd (m1.drop n) (by rw [List.length_drop]; omega)).1 (fun t _ _ _ => safe_some _)
    · intro pos mem' pos' he
      cases hg : d buf pos mem with
      | none => simp [hg, Dec.andThen] at he
      | some r =>
        cases r with
        | none => simp [hg, Dec.andThen] at he
        | some x =>
          obtain ⟨m1, p1⟩ := x
          have hm1 := l1 _ _ _ hg
          simp only [hg, Dec.andThen] at he
          cases hg2 : d buf p1 (m1.drop n) with
          | none => simp [hg2] at he
          | some r2 =>
            cases r2 with
            | none => simp [hg2] at he
            | some x2 =>
              obtain ⟨m2, p2⟩ := x2
              have hm2 := (hd (m1.drop n) (by rw [List.length_drop]; omega)).2 _ _ _ hg2
              simp only [hg2, Option.some.injEq, Prod.mk.injEq] at he
              rw [← he.1, List.length_append, List.length_take, hm2, List.length_drop]; omega
  intro k
  induction k with
  | w8 => intro mem hl _; exact word (n := 1) (fun _ _ _ => rfl) hl
  | i16 => intro mem hl _; exact word (n := 2) (fun _ _ _ => rfl) hl
  | u16 => intro mem hl _; exact word (n := 2) (fun _ _ _ => rfl) hl
  | w32 => intro mem hl _; exact word (n := 4) (fun _ _ _ => rfl) hl
  | w64 => intro mem hl _; exact d64 hl
  | w128 =>
    intro mem hl _
    exact pair (d := dec64) (n := 8) (m := 8) (Nat.le_refl _) hl (fun mem hm => d64 hm)
  | raw n =>
    intro mem hl _
    have hl' : n ≤ mem.length := hl
    simp only [dec, if_pos hl']
    refine ⟨safe_andThen (f := fun b _ pos => some (some (b ++ mem.drop n, pos))) (getOpaque_safe h n) (fun b _ _ _ => safe_some _), ?_⟩
    intro pos mem' pos' he
    cases hg : getOpaque buf pos n with
    | none => simp [hg, Dec.andThen] at he
    | some r =>
      cases r with
      | none => simp [hg, Dec.andThen] at he
      | some x =>
        obtain ⟨b, p⟩ := x
        have := getOpaque_length hg
        simp only [hg, Dec.andThen, Option.some.injEq, Prod.mk.injEq] at he
        rw [← he.1, List.length_append, List.length_drop]; omega
  | complex p n ih =>
    intro mem hl hok
    simp only [Sc.size] at hl
    exact pair (d := fun b q m => dec p b q m) hok.2 hl (fun mem hm => ih mem hm hok.1)

/-! ### strings -/

theorem loadString_text {flags refIdx : Nat} {str : List Nat} (hf : flags < 256) (hr : isRef flags = false)
    (hn : isNull flags = false) (hl : str.length < 2 ^ 32 - 1) :
    Decodes loadString (saveString flags refIdx str) (flags, .block (str ++ [0])) := by
  unfold saveString
  rw [hr, hn]
  simp only [Bool.false_eq_true, if_false, Bool.not_false, if_true]
  have hu : u32 str.length = str.length := by unfold u32; omega
  rw [hu, List.take_of_length_le (by omega)]
  obtain ⟨f1, f2⟩ := sext32_lt (n := 8) (.inl rfl) hf
  have f2' : sext32 8 flags % 256 = flags := f2
  refine decodes_andThen (getLong_dec f1) ?_
  simp only [f2', hr, hn, Bool.false_eq_true, if_false]
  refine decodes_andThen (f := fun size buf pos => (getOpaque buf pos size).andThen fun b pos =>
    if b.length ≤ (List.replicate (u32 (size + 1)) 0).length then
      some (some ((flags, Str.block (b ++ (List.replicate (u32 (size + 1)) 0).drop b.length)), pos)) else none)
    (getLong_dec (by omega)) ?_
  have hu1 : u32 (str.length + 1) = str.length + 1 := by unfold u32; omega
  refine decodes_map (getOpaque_dec str) ?_
  intro pos
  rw [hu1, if_pos (by rw [List.length_replicate]; omega), List.drop_replicate]
  simp

theorem loadString_null {flags refIdx : Nat} {str : List Nat} (hf : flags < 256) (hr : isRef flags = false)
    (hn : isNull flags = true) : Decodes loadString (saveString flags refIdx str) (flags, .null) := by
  unfold saveString
  rw [hr, hn]
  simp only [Bool.false_eq_true, if_false, Bool.not_true, List.append_nil]
  obtain ⟨f1, f2⟩ := sext32_lt (n := 8) (.inl rfl) hf
  have f2' : sext32 8 flags % 256 = flags := f2
  have := decodes_andThen (o2 := []) (f := fun w buf pos =>
      let flags := w % 256
      if isRef flags then (getLong buf pos).andThen fun idx pos => some (some ((flags, Str.ref idx), pos))
      else if isNull flags then some (some ((flags, Str.null), pos))
      else
        (getLong buf pos).andThen fun size pos =>
          let block := List.replicate (u32 (size + 1)) 0
          (getOpaque buf pos size).andThen fun b pos =>
            if b.length ≤ block.length then some (some ((flags, .block (b ++ block.drop b.length)), pos))
            else none) (b := (flags, Str.null)) (getLong_dec f1) (by
    simp only [f2', hr, hn, Bool.false_eq_true, if_false, if_true]
    exact decodes_pure _)
  rw [List.append_nil] at this
  exact this

theorem loadString_ref {flags refIdx : Nat} {str : List Nat} (hf : flags < 256) (hr : isRef flags = true)
    (hi : refIdx < 2 ^ 32) : Decodes loadString (saveString flags refIdx str) (flags, .ref refIdx) := by
  unfold saveString
  rw [hr]
  simp only [if_true]
  obtain ⟨f1, f2⟩ := sext32_lt (n := 8) (.inl rfl) hf
  have f2' : sext32 8 flags % 256 = flags := f2
  have hu : u32 refIdx = refIdx := by unfold u32; omega
  rw [hu]
  refine decodes_andThen (getLong_dec f1) ?_
  simp only [f2', hr, if_true]
  exact decodes_map (getLong_dec hi) (by intro _; rfl)

theorem getLong_lt {buf : List Nat} (hb : ∀ b ∈ buf, b < 256) {pos w pos' : Nat}
    (h : getLong buf pos = some (some (w, pos'))) : w < 2 ^ 32 := by
  unfold getLong at h
  split at h
  · cases h
  · unfold slice at h
    split at h
    · simp only [Option.bind_some, Option.some.injEq, Prod.mk.injEq] at h
      rw [← h.1]
      exact ofBe32_lt fun x hx => hb x (List.mem_of_mem_drop (List.mem_of_mem_take hx))
    · cases h

theorem getOpaque_fits {buf : List Nat} {pos len : Nat} {b : List Nat} {pos' : Nat}
    (h : getOpaque buf pos len = some (some (b, pos'))) : len ≤ buf.length := by
  unfold getOpaque at h
  split at h
  · omega
  · cases e : getBytes buf pos len with
    | none => simp [e, Dec.andThen] at h
    | some r =>
      cases r with
      | none => simp [e, Dec.andThen] at h
      | some x =>
        unfold getBytes at e
        split at e
        · cases e
        · omega

theorem loadString_safe {buf : List Nat} (hb : ∀ b ∈ buf, b < 256) (h : buf.length < 2 ^ 32 - 1) :
    Safe loadString buf := by
  refine safe_andThen (d := getLong) (buf := buf) (getLong_safe (by omega)) ?_
  intro w _ _ hw
  simp only
  by_cases hr : isRef (w % 256) = true
  · simp only [hr, if_true]
    exact safe_andThen (f := fun idx _ pos => some (some ((w % 256, Str.ref idx), pos))) (getLong_safe (by omega)) (fun _ _ _ _ => safe_some _)
  · simp only [hr, Bool.false_eq_true, if_false]
    by_cases hn : isNull (w % 256) = true
    · simp only [hn, if_true]
      exact safe_some _
    · simp only [hn, Bool.false_eq_true, if_false]
      refine safe_andThen (f := fun size buf pos => (getOpaque buf pos size).andThen fun b pos =>
        if b.length ≤ (List.replicate (u32 (size + 1)) 0).length then
          some (some ((w % 256, Str.block (b ++ (List.replicate (u32 (size + 1)) 0).drop b.length)), pos)) else none)
        (getLong_safe (buf := buf) (by omega)) ?_
      intro size _ _ _
      refine safe_andThen (f := fun b _ pos => if b.length ≤ (List.replicate (u32 (size + 1)) 0).length then
          some (some ((w % 256, Str.block (b ++ (List.replicate (u32 (size + 1)) 0).drop b.length)), pos)) else none)
        (getOpaque_safe (buf := buf) (by omega) size) ?_
      intro b _ _ ho
      have h1 := getOpaque_length ho
      have h2 := getOpaque_fits ho
      have hu1 : u32 (size + 1) = size + 1 := by unfold u32; omega
      have hroom : b.length ≤ (List.replicate (u32 (size + 1)) 0).length := by rw [List.length_replicate, hu1]; omega
      simp only [if_pos hroom]
      exact safe_some _

theorem take_takeWhile : ∀ (l : List Nat), l.take (l.takeWhile (· ≠ 0)).length = l.takeWhile (· ≠ 0) := by
  intro l
  induction l with
  | nil => rfl
  | cons a l ih =>
    rw [List.takeWhile_cons]
    split
    · simp only [List.length_cons, List.take_succ_cons, ih]
    · rfl

theorem charArray_ok {mem mem0 : List Nat} {size : Nat} (hl : size ≤ mem.length) (hl0 : size ≤ mem0.length)
    (hs : size < 2 ^ 32) : ∃ len out, charArrayLen mem size = some len ∧ saveCharArray mem size = some out ∧
      len ≤ size ∧ (len < size → ∃ k, len = k + 1 ∧ mem[k]? = some 0) ∧
      (∀ i, i + 1 < len → ∃ c, mem[i]? = some c ∧ c ≠ 0) ∧
      Decodes (fun b p => loadCharArray b p mem0) out (mem.take len ++ mem0.drop len) := by
  have hsl : slice mem 0 size = some (mem.take size) := by simp [slice, hl]
  let n := ((mem.take size).takeWhile (· ≠ 0)).length
  have hn : n ≤ size := by
    have : n ≤ (mem.take size).length := by
      show ((mem.take size).takeWhile (· ≠ 0)).length ≤ (mem.take size).length
      have := congrArg List.length (List.takeWhile_append_dropWhile (p := (· ≠ 0)) (l := mem.take size))
      rw [List.length_append] at this
      omega
    rw [List.length_take] at this; omega
  have hlen : charArrayLen mem size = some (if n < size then n + 1 else n) := by
    simp only [charArrayLen, hsl, Option.bind_eq_bind, Option.bind_some]; rfl
  generalize hL : (if n < size then n + 1 else n) = len at hlen
  have hle : len ≤ size := by subst hL; split <;> omega
  have hsl2 : slice mem 0 len = some (mem.take len) := by simp [slice]; omega
  refine ⟨len, be32 len ++ putOpaque (mem.take len), hlen, by simp [saveCharArray, hlen, hsl2], hle, ?_, ?_, ?_⟩
  · intro hlt
    have hns : n < size := by
      apply Classical.byContradiction
      intro h; rw [if_neg h] at hL; omega
    rw [if_pos hns] at hL
    refine ⟨n, hL.symm, ?_⟩
    have hd : (mem.take size).drop n = (mem.take size).dropWhile (· ≠ 0) := by
      have := List.takeWhile_append_dropWhile (p := fun x => decide (x ≠ 0)) (l := mem.take size)
      conv => lhs; rw [← this]
      rw [List.drop_left']
      rfl
    have hne : (mem.take size).drop n ≠ [] := by
      intro h
      have := congrArg List.length h
      rw [List.length_drop, List.length_take] at this
      simp at this; omega
    rw [hd] at hne
    have hh := List.head_dropWhile_not (fun x => decide (x ≠ 0)) hne
    have h0 : ((mem.take size).drop n)[0]? = some 0 := by
      rw [hd, ← List.head?_eq_getElem?, List.head?_eq_some_head hne]
      simpa using hh
    rw [List.getElem?_drop, List.getElem?_take] at h0
    rw [if_pos (by omega)] at h0
    simpa using h0
  · intro i hi
    have hin : i < n := by
      by_cases h : n < size
      · rw [if_pos h] at hL; omega
      · rw [if_neg h] at hL; omega
    have hm : ((mem.take size).takeWhile (· ≠ 0))[i]? = some (((mem.take size).takeWhile (· ≠ 0))[i]'hin) := List.getElem?_eq_getElem hin
    have hmem := List.getElem_mem hin
    have hne : ((mem.take size).takeWhile (· ≠ 0))[i]'hin ≠ 0 := by
      have : ∀ (l : List Nat), ∀ x ∈ l.takeWhile (· ≠ 0), x ≠ 0 := by
        intro l
        induction l with
        | nil => intro x hx; simp at hx
        | cons a l ih =>
          intro x hx
          rw [List.takeWhile_cons] at hx
          split at hx
          · next ha =>
            rcases List.mem_cons.mp hx with h | h
            · subst h; simpa using ha
            · exact ih x h
          · simp at hx
      exact this _ _ hmem
    refine ⟨_, ?_, hne⟩
    rw [← hm]
    have := congrArg (fun l => l[i]?) (take_takeWhile (mem.take size))
    simp only at this
    rw [← this, List.getElem?_take, if_pos (by exact hin), List.getElem?_take, if_pos (by omega)]
  · refine decodes_andThen (f := fun len buf pos => (getOpaque buf pos len).andThen fun b pos =>
      if b.length ≤ mem0.length then some (some (b ++ mem0.drop b.length, pos)) else none) (getLong_dec (by omega)) ?_
    have ho := getOpaque_dec (mem.take len)
    have htl : (mem.take len).length = len := by rw [List.length_take]; omega
    rw [htl] at ho
    refine decodes_map ho ?_
    intro pos
    rw [htl, if_pos (by omega)]

theorem dynArray_ok {str : List Nat} (hl : str.length < 2 ^ 32 - 1) :
    Decodes loadDynArray (saveDynArray str) (str ++ [0]) := by
  unfold saveDynArray
  have hu : u32 (str.length + 1) = str.length + 1 := by unfold u32; omega
  rw [hu, List.take_of_length_le (by simp)]
  refine decodes_andThen (f := fun len buf pos =>
    let room := if len > 1 then len else 1
    (getOpaque buf pos len).andThen fun b pos =>
      if b.length ≤ room then some (some (b ++ List.replicate (1 - b.length) 0, pos)) else none) (getLong_dec (by omega)) ?_
  have ho := getOpaque_dec (str ++ [0])
  rw [List.length_append, List.length_singleton] at ho
  refine decodes_map ho ?_
  intro pos
  have hroom : (str ++ [0]).length ≤ if str.length + 1 > 1 then str.length + 1 else 1 := by
    rw [List.length_append, List.length_singleton]; split <;> omega
  rw [if_pos hroom]
  simp

theorem dynArray_safe {buf : List Nat} (h : buf.length < 2 ^ 32) : Safe loadDynArray buf := by
  refine safe_andThen (f := fun len buf pos =>
    let room := if len > 1 then len else 1
    (getOpaque buf pos len).andThen fun b pos =>
      if b.length ≤ room then some (some (b ++ List.replicate (1 - b.length) 0, pos)) else none) (getLong_safe h) ?_
  intro len _ _ _
  refine safe_andThen (f := fun b _ pos => if b.length ≤ (if len > 1 then len else 1) then
    some (some (b ++ List.replicate (1 - b.length) 0, pos)) else none) (getOpaque_safe h len) ?_
  intro b _ _ ho
  have h1 := getOpaque_length ho
  have hroom : b.length ≤ if len > 1 then len else 1 := by split <;> omega
  simp only [if_pos hroom]
  exact safe_some _

end Verif.Lemmas.Xdr
