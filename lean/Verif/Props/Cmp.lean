import Verif.Lemmas.CmpTwin
import Verif.Props.Copy
/-!
# C32: comparing and hashing saved graphs

`fdAt` gives the address of a field descriptor: nodes are ordered by it before they are ordered by value.
-/
namespace Verif.Props.Cmp
open Verif.Model Verif.Model.Ptrs Verif.Model.Save Verif.Model.Copy Verif.Model.BasicCmp Verif.Model.Cmp Verif.Spec.Cmp Verif.Spec.Ptrs Verif.Spec.Save
open Verif.Lemmas.Cmp Verif.Lemmas.CmpHash Verif.Lemmas.DfsTwin Verif.Lemmas.CmpTwin

variable {fdAt : Option Fd → Nat} {tds : List Td} {m : Bytes} {fuel : Nat}

/-- **C32.** A graph is equal to itself, whatever it contains (NaN too), if its strings end. -/
theorem C32_reflexive (s : St) (h : ∀ n ∈ nodes s, n.1.idx ≠ 0 → value tds m fuel n.1 n.2 ≠ none) :
    cmpStructs fdAt tds m fuel s s = some 0 := by
  unfold cmpStructs
  split
  · rfl
  · rw [if_neg (by simp [intCmp_zero])]
    refine cmpNodes_zero.2 ⟨rfl, fun i a b ha hb => ?_⟩
    rw [ha] at hb
    cases hb
    refine ⟨rfl, fun h0 => ⟨rfl, ?_⟩⟩
    have hm : a ∈ nodes s := List.mem_of_mem_tail (List.mem_of_getElem? ha)
    cases hv : value tds m fuel a.1 a.2 with
    | none => exact absurd hv (h a hm h0)
    | some v => exact ⟨v, v, rfl, rfl, .inl rfl⟩

/-- **C32.** Swapping the arguments reverses the result. -/
theorem C32_antisymmetric (s t : St) : cmpStructs fdAt tds m fuel t s = (cmpStructs fdAt tds m fuel s t).map fun d => -d := by
  unfold cmpStructs
  by_cases h0 : (nodes s).length = 0 ∨ (nodes t).length = 0
  · rw [if_pos h0, if_pos h0.symm]; rfl
  · rw [if_neg h0, if_neg (fun h => h0 h.symm)]
    have := intCmp_anti (nodes s).length (nodes t).length
    by_cases h1 : intCmp (nodes s).length (nodes t).length = 0
    · rw [if_neg (by simp only [ne_eq, Classical.not_not]; omega), if_neg (by simp [h1])]
      exact cmpNodes_anti _ _
    · rw [if_pos (by omega), if_pos h1, intCmp_anti]; rfl

/-- **C32.** The order is transitive for graphs without complex numbers that are not numbers; other NaNs do no
harm.  (An empty array of nodes, the result of a failure of `mr_save`, is "equal" to everything.) -/
theorem C32_transitive (s t u : St) (hs : NoComplexNan tds m fuel s) (ht : NoComplexNan tds m fuel t) (hu : NoComplexNan tds m fuel u)
    (hne : nodes t ≠ []) (a b : Int)
    (h1 : cmpStructs fdAt tds m fuel s t = some a) (h2 : cmpStructs fdAt tds m fuel t u = some b) (ha : a ≤ 0) (hb : b ≤ 0) :
    ∃ c, c ≤ 0 ∧ cmpStructs fdAt tds m fuel s u = some c := by
  have hne : (nodes t).length ≠ 0 := fun h => hne (List.length_eq_zero_iff.1 h)
  unfold cmpStructs at *
  by_cases hs0 : (nodes s).length = 0 ∨ (nodes u).length = 0
  · rw [if_pos hs0]; exact ⟨0, by omega, rfl⟩
  · rw [if_neg hs0]
    rw [if_neg (by omega)] at h1 h2
    have n1 := @intCmp_zero (nodes s).length (nodes t).length
    have n2 := @intCmp_zero (nodes t).length (nodes u).length
    have n3 := @intCmp_zero (nodes s).length (nodes u).length
    have l1 := @intCmp_neg (nodes s).length (nodes t).length
    have l2 := @intCmp_neg (nodes t).length (nodes u).length
    have l3 := @intCmp_neg (nodes s).length (nodes u).length
    have good : ∀ {w : St}, NoComplexNan tds m fuel w → ∀ n ∈ (nodes w).tail, Good tds m fuel n.1 n.2 :=
      fun h n hn a b hv => h n.1 n.2 a b (List.mem_of_mem_tail hn) hv
    by_cases e1 : (nodes s).length = (nodes t).length
    · rw [if_neg (by simp only [ne_eq, Classical.not_not]; omega)] at h1
      by_cases e2 : (nodes t).length = (nodes u).length
      · rw [if_neg (by simp only [ne_eq, Classical.not_not]; omega)] at h2
        rw [if_neg (by simp only [ne_eq, Classical.not_not]; omega)]
        exact cmpNodes_trans (good hs) (good ht) (good hu) h1 h2 ha hb
      · rw [if_pos (by omega)] at h2
        rw [if_pos (by omega)]
        cases h2
        exact ⟨_, by omega, rfl⟩
    · rw [if_pos (by omega)] at h1
      cases h1
      have : (nodes t).length ≤ (nodes u).length := by
        by_cases e2 : (nodes t).length = (nodes u).length
        · omega
        · rw [if_pos (by omega)] at h2
          cases h2
          omega
      rw [if_pos (by omega)]
      exact ⟨_, by omega, rfl⟩

/-- **C32.** The result is 0 if and only if the graphs agree: they have as many nodes, and nodes with the same
index agree. -/
theorem C32_equal (s t : St) (hs : nodes s ≠ []) (ht : nodes t ≠ []) : cmpStructs fdAt tds m fuel s t = some 0 ↔
    (nodes s).length = (nodes t).length ∧
    ∀ (i : Nat) (a b : Pd × Info), 1 ≤ i → (nodes s)[i]? = some a → (nodes t)[i]? = some b → Agree fdAt tds m fuel a b := by
  have hs : (nodes s).length ≠ 0 := fun h => hs (List.length_eq_zero_iff.1 h)
  have ht : (nodes t).length ≠ 0 := fun h => ht (List.length_eq_zero_iff.1 h)
  unfold cmpStructs
  rw [if_neg (by omega)]
  by_cases e : (nodes s).length = (nodes t).length
  · rw [if_neg (by simp [e, intCmp_zero]), cmpNodes_zero]
    constructor
    · rintro ⟨_, h⟩
      refine ⟨e, fun i a b hi ha hb => h (i - 1) a b ?_ ?_⟩
      · rw [List.getElem?_tail, Nat.sub_add_cancel hi]; exact ha
      · rw [List.getElem?_tail, Nat.sub_add_cancel hi]; exact hb
    · rintro ⟨_, h⟩
      refine ⟨by simp [e], fun i a b ha hb => h (i + 1) a b (by omega) ?_ ?_⟩
      · rw [List.getElem?_tail] at ha; exact ha
      · rw [List.getElem?_tail] at hb; exact hb
  · have := @intCmp_zero (nodes s).length (nodes t).length
    rw [if_pos (by omega)]
    constructor
    · intro h
      have := Option.some.inj h
      omega
    · intro h; exact absurd h.1 e

/-- all flags -/
theorem flags_inj' : ∀ a b c d e f a' b' c' d' e' f' : Bool,
    (if a then 1 else 0) + (if b then 2 else 0) + (if c then 4 else 0) + (if d then 8 else 0) + (if e then 16 else 0) + (if f then 32 else 0) =
    (if a' then 1 else 0) + (if b' then 2 else 0) + (if c' then 4 else 0) + (if d' then 8 else 0) + (if e' then 16 else 0) + (if f' then 32 else 0) →
    a = a' ∧ b = b' ∧ c = c' ∧ d = d' ∧ e = e' ∧ f = f' := by decide +kernel

theorem header_size {p q : Pd} {x y : Info} (h : header fdAt p x = header fdAt q y) : toBytes 4 x.size = toBytes 4 y.size := by
  unfold header at h
  have l := toBytes_length
  obtain ⟨h, h7⟩ := List.append_inj' h (by simp [l])
  obtain ⟨h, h6⟩ := List.append_inj' h (by simp [l])
  obtain ⟨h, h5⟩ := List.append_inj' h (by simp [l])
  obtain ⟨h, h4⟩ := List.append_inj' h (by simp [l])
  exact (List.append_inj' h (by simp [l])).2

/-- **C32.** The result is 0 if and only if the graphs have as many nodes, and nodes with the same index have the
same number in the document and, if they are part of it, the same descriptor, type, flags, size, links and value. -/
theorem C32_equal_members (s t : St) (hs : nodes s ≠ []) (ht : nodes t ≠ [])
    (hb : ∀ a, a ∈ nodes s ∨ a ∈ nodes t → fdAt a.2.fd < 2 ^ 64 ∧ a.2.size < 2 ^ 32 ∧ a.1.parent < 2 ^ 32 ∧ a.1.next < 2 ^ 32 ∧ a.1.firstChild < 2 ^ 32)
    (hfd : ∀ a ∈ nodes s, ∀ b ∈ nodes t, fdAt a.2.fd = fdAt b.2.fd → a.2.fd = b.2.fd) :
    cmpStructs fdAt tds m fuel s t = some 0 ↔
    (nodes s).length = (nodes t).length ∧
    ∀ (i : Nat) (a b : Pd × Info), 1 ≤ i → (nodes s)[i]? = some a → (nodes t)[i]? = some b →
      a.1.idx = b.1.idx ∧ (a.1.idx ≠ 0 → SameMembers a b ∧
        ∃ v w, value tds m fuel a.1 a.2 = some v ∧ value tds m fuel b.1 b.2 = some w ∧ Alike v w) := by
  rw [C32_equal s t hs ht]
  have key : ∀ (a b : Pd × Info), a ∈ nodes s → b ∈ nodes t → a.1.idx = b.1.idx → (header fdAt a.1 a.2 = header fdAt b.1 b.2 ↔ SameMembers a b) := by
    intro a b ha hb' hidx
    obtain ⟨b1, b2, b3, b4, b5⟩ := hb a (.inl ha)
    obtain ⟨c1, c2, c3, c4, c5⟩ := hb b (.inr hb')
    have p4 : (256 : Nat) ^ 4 = 2 ^ 32 := by decide
    have p8 : (256 : Nat) ^ 8 = 2 ^ 64 := by decide
    constructor
    · intro h
      obtain ⟨e1, e2, e3, e4, e5, e6, e7⟩ := header_inj h
      obtain ⟨f1, f2, f3, f4, f5, f6⟩ := flags_inj' _ _ _ _ _ _ _ _ _ _ _ _ e4
      exact ⟨hfd a ha b hb' (toBytes_inj (by rw [p8]; exact b1) (by rw [p8]; exact c1) e1), e2, e3, f1, f2, f3, f4, f5, f6,
        toBytes_inj (by rw [p4]; exact b2) (by rw [p4]; exact c2) (header_size h), toBytes_inj (by rw [p4]; exact b3) (by rw [p4]; exact c3) e5,
        toBytes_inj (by rw [p4]; exact b4) (by rw [p4]; exact c4) e6, toBytes_inj (by rw [p4]; exact b5) (by rw [p4]; exact c5) e7⟩
    · rintro ⟨h1, h2, h3, h4, h5, h6, h7, h8, h9, h10, h11, h12, h13⟩
      unfold header flags
      rw [h1, h2, h3, h4, h5, h6, h7, h8, h9, h10, h11, h12, h13, hidx]
  constructor
  · rintro ⟨hl, h⟩
    refine ⟨hl, fun i a b hi ha hb => ⟨(h i a b hi ha hb).1, fun h0 => ?_⟩⟩
    obtain ⟨h1, h2⟩ := (h i a b hi ha hb).2 h0
    exact ⟨(key a b (List.mem_of_getElem? ha) (List.mem_of_getElem? hb) (h i a b hi ha hb).1).1 h1, h2⟩
  · rintro ⟨hl, h⟩
    refine ⟨hl, fun i a b hi ha hb => ⟨(h i a b hi ha hb).1, fun h0 => ?_⟩⟩
    obtain ⟨h1, h2⟩ := (h i a b hi ha hb).2 h0
    exact ⟨(key a b (List.mem_of_getElem? ha) (List.mem_of_getElem? hb) (h i a b hi ha hb).1).2 h1, h2⟩

/-- **C32.** The result is negative if and only if the first graph has fewer nodes, or as many and its node is the
smaller one at the first difference. -/
theorem C32_smaller (s t : St) (hs : nodes s ≠ []) (ht : nodes t ≠ []) : (∃ d, d < 0 ∧ cmpStructs fdAt tds m fuel s t = some d) ↔
    (nodes s).length < (nodes t).length ∨
    ((nodes s).length = (nodes t).length ∧
      ∃ (i : Nat) (a b : Pd × Info), 1 ≤ i ∧ (nodes s)[i]? = some a ∧ (nodes t)[i]? = some b ∧ Before fdAt tds m fuel a b ∧
        ∀ (j : Nat) (c d : Pd × Info), 1 ≤ j → j < i → (nodes s)[j]? = some c → (nodes t)[j]? = some d → Agree fdAt tds m fuel c d) := by
  have hs : (nodes s).length ≠ 0 := fun h => hs (List.length_eq_zero_iff.1 h)
  have ht : (nodes t).length ≠ 0 := fun h => ht (List.length_eq_zero_iff.1 h)
  unfold cmpStructs
  rw [if_neg (by omega)]
  have hn := @intCmp_neg (nodes s).length (nodes t).length
  have hz := @intCmp_zero (nodes s).length (nodes t).length
  by_cases e : (nodes s).length = (nodes t).length
  · rw [if_neg (by simp [e, intCmp_zero]), cmpNodes_neg (by simp [e])]
    constructor
    · rintro ⟨i, a, b, ha, hb, hB, hA⟩
      rw [List.getElem?_tail] at ha hb
      refine .inr ⟨e, i + 1, a, b, by omega, ha, hb, hB, fun j c d hj hji hc hd => hA (j - 1) c d (by omega) ?_ ?_⟩
      · rw [List.getElem?_tail, Nat.sub_add_cancel hj]; exact hc
      · rw [List.getElem?_tail, Nat.sub_add_cancel hj]; exact hd
    · rintro (h | ⟨_, i, a, b, hi, ha, hb, hB, hA⟩)
      · omega
      · refine ⟨i - 1, a, b, ?_, ?_, hB, fun j c d hj hc hd => hA (j + 1) c d (by omega) (by omega) ?_ ?_⟩
        · rw [List.getElem?_tail, Nat.sub_add_cancel hi]; exact ha
        · rw [List.getElem?_tail, Nat.sub_add_cancel hi]; exact hb
        · rw [List.getElem?_tail] at hc; exact hc
        · rw [List.getElem?_tail] at hd; exact hd
  · rw [if_pos (by omega)]
    constructor
    · rintro ⟨d, hd, h⟩
      cases h
      left
      omega
    · rintro (h | h)
      · exact ⟨_, by omega, rfl⟩
      · exact absurd h.1 e

theorem flags_inj : ∀ a b c d e f a' b' c' d' e' f' : Bool,
    (if a then 1 else 0) + (if b then 2 else 0) + (if c then 4 else 0) + (if d then 8 else 0) + (if e then 16 else 0) + (if f then 32 else 0) =
    (if a' then 1 else 0) + (if b' then 2 else 0) + (if c' then 4 else 0) + (if d' then 8 else 0) + (if e' then 16 else 0) + (if f' then 32 else 0) →
    b = b' ∧ d = d' := by decide +kernel

/-- **C32.** Graphs that compare as equal have the same hash value, if their floating point numbers are not
negative zeros (and not encoded in an unusual way).  `s` and `t` are results of `mr_save`, see C42; the descriptors
have different addresses. -/
theorem C32_equal_hash {mem mem' : Mem} {root root' : Obj} {k k' : Forest} {obj obj' : Nat → Obj} (s t : St)
    (hs : Final mem tds root s k obj) (ht : Final mem' tds root' t k' obj')
    (hlen : s.ptrs.ra.length < 2 ^ 32) (hlent : t.ptrs.ra.length < 2 ^ 32)
    (hfd : ∀ a ∈ nodes s, ∀ b ∈ nodes t, fdAt a.2.fd < 2 ^ 64 ∧ fdAt b.2.fd < 2 ^ 64 ∧ (fdAt a.2.fd = fdAt b.2.fd → a.2.fd = b.2.fd))
    (hps : ∀ a ∈ nodes s, Plain m a.1 a.2) (hpt : ∀ a ∈ nodes t, Plain m a.1 a.2) (hes : ∀ a ∈ nodes s, EnumSize tds a.1 a.2)
    (hcmp : cmpStructs fdAt tds m fuel s t = some 0) : hashStruct tds m fuel t = hashStruct tds m fuel s := by
  have ln : ∀ {w : St}, w.info.length = w.ptrs.ra.length → (nodes w).length = w.ptrs.ra.length := by
    intro w h; unfold nodes; rw [List.length_zip, h, Nat.min_self]
  have m1 : 1 ∈ 1 :: k.nodes := by simp
  have m1' : 1 ∈ 1 :: k'.nodes := by simp
  have r1 := final_range hs m1
  have r1' := final_range ht m1'
  have lns := ln hs.len
  have lnt := ln ht.len
  have hns : nodes s ≠ [] := fun h => by rw [h] at lns; simp at lns; omega
  have hnt : nodes t ≠ [] := fun h => by rw [h] at lnt; simp at lnt; omega
  obtain ⟨hl, hag⟩ := (C32_equal s t hns hnt).1 hcmp
  have hlen' : t.ptrs.ra.length = s.ptrs.ra.length := by rw [← lns, ← lnt, hl]
  have key : ∀ (i : Nat), i ∈ 1 :: k.nodes → ∃ (p q : Pd) (x y : Info), s.ptrs.ra[i]? = some p ∧ t.ptrs.ra[i]? = some q ∧ s.info[i]? = some x ∧ t.info[i]? = some y ∧
      q.parent = p.parent ∧ q.next = p.next ∧ q.firstChild = p.firstChild ∧ (q.ref || q.cref) = (p.ref || p.cref) ∧ q.ty = p.ty ∧
      hashLeaf tds m fuel q y = hashLeaf tds m fuel p x := by
    intro i hi
    obtain ⟨ri, ri1⟩ := final_range hs hi
    have ri' : i < t.ptrs.ra.length := by omega
    have g1 : s.ptrs.ra[i]? = some s.ptrs.ra[i] := List.getElem?_eq_getElem ri
    have g2 : t.ptrs.ra[i]? = some t.ptrs.ra[i] := List.getElem?_eq_getElem ri'
    have g3 : s.info[i]? = some (s.info[i]'(by rw [hs.len]; exact ri)) := List.getElem?_eq_getElem _
    have g4 : t.info[i]? = some (t.info[i]'(by rw [ht.len]; exact ri')) := List.getElem?_eq_getElem _
    revert g1 g2 g3 g4
    generalize s.ptrs.ra[i] = p
    generalize t.ptrs.ra[i] = q
    generalize (s.info[i]'(by rw [hs.len]; exact ri)) = x
    generalize (t.info[i]'(by rw [ht.len]; exact ri')) = y
    intro g1 g2 g3 g4
    refine ⟨p, q, x, y, g1, g2, g3, g4, ?_⟩
    have n1 : (nodes s)[i]? = some (p, x) := List.getElem?_zip_eq_some.2 ⟨g1, g3⟩
    have n2 : (nodes t)[i]? = some (q, y) := List.getElem?_zip_eq_some.2 ⟨g2, g4⟩
    have mn1 := List.mem_of_getElem? n1
    have mn2 := List.mem_of_getElem? n2
    obtain ⟨hidx, hrest⟩ := hag i _ _ ri1 n1 n2
    have hp0 : p.idx ≠ 0 := final_idx hs hi g1
    obtain ⟨hh, v, w, hv, hw, hvw⟩ := hrest hp0
    obtain ⟨e1, e2, e3, e4, e5, e6, e7⟩ := header_inj hh
    have hi' : i ∈ 1 :: k'.nodes := Classical.byContradiction fun h => by
      have := (ht.off i q ri1 g2 h).1
      exact hp0 (hidx.trans this)
    have c1 := final_closed hs i p hi g1
    have c2 := final_closed ht i q hi' g2
    have bs : ∀ {x : Nat}, (x = 0 ∨ x ∈ 1 :: k.nodes) → x < 256 ^ 4 := by
      intro x h
      rcases h with h | h
      · omega
      · have := (final_range hs h).1; omega
    have bt : ∀ {x : Nat}, (x = 0 ∨ x ∈ 1 :: k'.nodes) → x < 256 ^ 4 := by
      intro x h
      rcases h with h | h
      · omega
      · have := (final_range ht h).1; omega
    have hf := hfd _ mn1 _ mn2
    have hfe : x.fd = y.fd := hf.2.2 (toBytes_inj (by rw [show (256 : Nat) ^ 8 = 2 ^ 64 by decide]; exact hf.1) (by rw [show (256 : Nat) ^ 8 = 2 ^ 64 by decide]; exact hf.2.1) e1)
    have hfl := flags_inj _ _ _ _ _ _ _ _ _ _ _ _ e4
    refine ⟨(toBytes_inj (bs c1.1) (bt c2.1) e5).symm, (toBytes_inj (bs c1.2.1) (bt c2.2.1) e6).symm,
      (toBytes_inj (bs c1.2.2) (bt c2.2.2) e7).symm, by rw [hfl.1, hfl.2], e2.symm, ?_⟩
    exact (hashLeaf_congr e2 e3 hfe hv hw hvw (hps _ mn1) (hpt _ mn2) (hes _ mn1)).symm
  refine hashStruct_twin (T := fun i => i ∈ 1 :: k.nodes) ⟨hlen', fun i hi => (final_range hs hi).1, ?_, fun i p hi hp => final_closed hs i p hi hp⟩ m1 ?_
  · intro i p q hi hp hq
    obtain ⟨p', q', x, y, g1, g2, _, _, h1, h2, h3, h4, h5, _⟩ := key i hi
    rw [hp] at g1
    rw [hq] at g2
    cases g1
    cases g2
    exact ⟨h1, h2, h3, h4, h5⟩
  · intro i hi
    obtain ⟨p, q, x, y, g1, g2, g3, g4, _, _, _, _, _, h6⟩ := key i hi
    exact ⟨p, q, x, y, g1, g2, g3, g4, h6⟩

/-! ## the hash value is defined -/

theorem hashLoop_some : ∀ (fuel : Nat) (l : List Nat) (h : UInt32), l.length < fuel → ∃ v, hashLoop fuel l h = some v
  | 0, _, _, h => by omega
  | fuel + 1, l, h, hl => by
    unfold hashLoop
    split
    · exact hashLoop_some fuel _ _ (by rw [List.length_drop]; omega)
    · split
      · exact ⟨_, rfl⟩
      · exact ⟨_, rfl⟩

theorem hashBlock_some (l : List Nat) : ∃ v, hashBlock l = some v := hashLoop_some _ _ _ (by omega)

theorem hashFloat_some (b : Bool) (l : List Nat) : ∃ v, hashFloat b l = some v := by
  unfold hashFloat
  split
  · exact ⟨_, rfl⟩
  · exact hashBlock_some l

theorem hashLong_some (b : Bool) (l r : List Nat) : ∃ v, (if b = true then some (-1) else do some ((← hashBlock l) + (← hashBlock r))) = some v := by
  split
  · exact ⟨_, rfl⟩
  · obtain ⟨x, hx⟩ := hashBlock_some l
    obtain ⟨y, hy⟩ := hashBlock_some r
    rw [hx, hy]
    exact ⟨_, rfl⟩

theorem hashBind_some {α : Type} {o : Option α} (f : α → List Nat) (h : o ≠ none) : ∃ v, (do hashBlock (f (← o))) = some v := by
  cases o with
  | none => exact absurd rfl h
  | some t => exact hashBlock_some _

theorem hashLeaf_some {p : Pd} {x : Info} (h : value tds m fuel p x ≠ none) : ∃ v, hashLeaf tds m fuel p x = some v := by
  unfold value at h
  unfold hashLeaf
  revert h
  generalize p.ty = ty
  intro h
  cases ty
  case string =>
    simp only at h ⊢
    split
    · exact ⟨_, rfl⟩
    · rename_i h0
      rw [if_neg h0] at h
      exact hashBind_some id fun hn => h (by rw [hn]; rfl)
  case charArray =>
    simp only at h ⊢
    exact hashBind_some id fun hn => h (by rw [hn]; rfl)
  case enum =>
    simp only
    split
    · exact ⟨_, rfl⟩
    · split
      · exact hashBlock_some _
      · exact ⟨_, rfl⟩
  case bitfield =>
    simp only at h ⊢
    revert h
    generalize bitVal tds m x = o
    intro h
    cases o with
    | none => exact absurd rfl h
    | some t =>
      simp only [Option.bind_eq_bind, Option.bind_some]
      exact hashBlock_some _
  case complexLongDouble => exact hashLong_some _ _ _
  case float | double | complexFloat | complexDouble | longDouble => exact hashFloat_some _ _
  case bool => exact ⟨_, rfl⟩
  all_goals
    clear h
    simp only
    first
    | exact hashBlock_some _
    | exact ⟨0, rfl⟩

/-- following `next` from a node of the tree -/
theorem rep_chain {ra : List Pd} {f : Forest} : ∀ {par head : Nat}, Rep ra par head f →
    (∃ l, Chain ra head l ∧ l.Sublist f.nodes) ∧ ∀ i ∈ f.nodes, ∃ l, Chain ra i l ∧ l.Sublist f.nodes := by
  induction f with
  | nil => intro par head h; exact ⟨⟨[], h, List.Sublist.refl _⟩, fun i hi => by simp [Forest.nodes] at hi⟩
  | cons j k s ih1 ih2 =>
    intro par head h
    obtain ⟨h1, h0, pd, hp, _, hk, hs⟩ := h
    obtain ⟨⟨ls, c1, c2⟩, h2⟩ := ih2 hs
    have hj : ∃ l, Chain ra j l ∧ l.Sublist (Forest.cons j k s).nodes :=
      ⟨j :: ls, ⟨rfl, h0, pd, hp, c1⟩, List.Sublist.cons₂ _ (c2.trans (List.sublist_append_right _ _))⟩
    refine ⟨by rw [h1]; exact hj, fun i hi => ?_⟩
    simp only [Forest.nodes, List.mem_cons, List.mem_append] at hi
    rcases hi with hi | hi | hi
    · rw [hi]; exact hj
    · obtain ⟨l, a, b⟩ := (ih1 hk).2 i hi
      exact ⟨l, a, (b.trans (List.sublist_append_left _ _)).trans (List.sublist_cons_self _ _)⟩
    · obtain ⟨l, a, b⟩ := h2 i hi
      exact ⟨l, a, (b.trans (List.sublist_append_right _ _)).trans (List.sublist_cons_self _ _)⟩

theorem hashChildren_some {ra : List Pd} (res : Nat → UInt32) : ∀ (l : List Nat) (fuel c : Nat) (h : UInt32), Chain ra c l → l.length < fuel →
    ∃ v, hashChildren ra res fuel c h = some v
  | _, 0, _, _, _, hl => by omega
  | [], fuel + 1, c, h, hc, _ => by
    have hc : c = 0 := hc
    exact ⟨h, by simp [hashChildren, hc]⟩
  | d :: l, fuel + 1, c, h, hc, hl => by
    obtain ⟨h1, h0, pd, hp, hr⟩ := hc
    subst h1
    simp only [hashChildren, h0, if_false, hp, Option.bind_eq_bind, Option.bind_some]
    exact hashChildren_some res l fuel pd.next _ hr (by simp at hl; omega)

/-- **C32.** The hash value of a saved graph is defined. -/
theorem C32_hash_defined {mem : Mem} {root : Obj} {k : Forest} {obj : Nat → Obj} (s : St) (hs : Final mem tds root s k obj)
    (hv : ∀ (i : Nat) (n : Pd × Info), 1 ≤ i → (nodes s)[i]? = some n → n.1.idx ≠ 0 → value tds m fuel n.1 n.2 ≠ none) : ∃ v, hashStruct tds m fuel s = some v := by
  have hn : (Forest.cons 1 k .nil).nodes = 1 :: k.nodes := by simp [Forest.nodes]
  have key : ∀ (es : List (Nat × Int × Order)), (∀ e ∈ es, e.1 ∈ 1 :: k.nodes) → ∀ c : Nat → UInt32,
      ∃ c', callAll (nodeHash tds m fuel s.info) es (s.ptrs.ra, c) = some (true, (s.ptrs.ra, c')) := by
    intro es
    induction es with
    | nil => intro _ c; exact ⟨c, rfl⟩
    | cons e es ih =>
      obtain ⟨i, l, o⟩ := e
      intro he c
      have hi : i ∈ 1 :: k.nodes := he (i, l, o) (by simp)
      have ih := ih (fun e h => he e (by simp [h]))
      cases o with
      | pre =>
        obtain ⟨c', h⟩ := ih c
        refine ⟨c', ?_⟩
        simp only [callAll, nodeHash, Option.bind_eq_bind, Option.bind_some, Bool.true_eq_false, if_false]
        exact h
      | post =>
        obtain ⟨r, r1⟩ := final_range hs hi
        have g1 : s.ptrs.ra[i]? = some s.ptrs.ra[i] := List.getElem?_eq_getElem r
        have g2 : s.info[i]? = some (s.info[i]'(by rw [hs.len]; exact r)) := List.getElem?_eq_getElem _
        revert g1 g2
        generalize s.ptrs.ra[i] = p
        generalize (s.info[i]'(by rw [hs.len]; exact r)) = x
        intro g1 g2
        have hx : ∃ v, (if inner p.ty = true then hashChildren s.ptrs.ra c (s.ptrs.ra.length + 1) p.firstChild 0 else hashLeaf tds m fuel p x) = some v := by
          split
          · rcases (final_closed hs i p hi g1).2.2 with h | h
            · rw [h]; exact ⟨0, by simp [hashChildren]⟩
            · obtain ⟨l, a, b⟩ := (rep_chain hs.tree).2 p.firstChild (by rw [hn]; exact h)
              refine hashChildren_some c l _ _ _ a ?_
              rw [hn] at b
              have h1 := b.length_le
              have h2 := Verif.Lemmas.Dfs.nodup_len hs.nodup (fun x hx => (final_range hs hx).1)
              omega
          · exact hashLeaf_some (hv i (p, x) r1 (List.getElem?_zip_eq_some.2 ⟨g1, g2⟩) (final_idx hs hi g1))
        obtain ⟨v, hx⟩ := hx
        obtain ⟨c', h⟩ := ih fun j => if j = i then v else c j
        refine ⟨c', ?_⟩
        simp only [callAll, nodeHash, Option.bind_eq_bind, g1, g2, Option.bind_some, hx, Bool.true_eq_false, if_false]
        exact h
  have hm : ∀ (f : Forest) (l : Int), ∀ e ∈ f.events l, e.1 ∈ f.nodes := by
    intro f
    induction f with
    | nil => intro l e he; simp [Forest.events] at he
    | cons j a b ih1 ih2 =>
      intro l e he
      simp only [Forest.events, List.mem_cons, List.mem_append] at he
      simp only [Forest.nodes, List.mem_cons, List.mem_append]
      rcases he with he | he | he | he
      · left; rw [he]
      · right; left; exact ih1 _ e he
      · left; rw [he]
      · right; right; exact ih2 _ e he
  have hkeep : KeepsLinks (nodeHash tds m fuel s.info) := by
    intro st i l o ok st' h
    cases o with
    | pre => simp only [nodeHash, Option.some.injEq, Prod.mk.injEq] at h; rw [← h.2]
    | post =>
      simp only [nodeHash, Option.bind_eq_bind] at h
      obtain ⟨_, _, h⟩ := Option.bind_eq_some_iff.1 h
      obtain ⟨_, _, h⟩ := Option.bind_eq_some_iff.1 h
      obtain ⟨_, _, h⟩ := Option.bind_eq_some_iff.1 h
      cases h; rfl
  obtain ⟨c', h⟩ := key ((Forest.cons 1 k .nil).events 0) (fun e he => by rw [← hn]; exact hm _ _ e he) (fun _ => 0)
  refine ⟨c' 1, ?_⟩
  unfold hashStruct
  have := (final_range hs (i := 1) (by simp)).1
  rw [if_neg (by omega), Verif.Props.Dfs.C28_from_root _ hkeep _ _ _ _ hs.tree hs.nodup, h]
  rfl

/-! ## examples -/

namespace Example
open Verif.Props.Save.Example Verif.Props.Copy.Example Verif.Props.Copy

/-- addresses of descriptors: NULL, and by name, type and offset -/
def addrOf : Option Fd → Nat
  | none => 0
  | some f => 4096 + 64 * f.ty.ctorIdx + f.offset

/-- the graph of Props/Copy.lean at 1000 and its copy at 500, both in the memory after copying: the result of the
comparison and the hash values -/
def both (change : Bytes → Bytes) : Option (Option Int × Option UInt32 × Option UInt32) := do
  let (s, _) ← mrSave heap' sample 40 1000 (rootFd 3 32)
  let (_, m, _) ← copyRecursively bump 10 bytes blocks s 500
  let m := change m
  let (t, _) ← mrSave { ptr := word m, int := fun _ => 0 } sample 40 500 (rootFd 3 32)
  some (cmpStructs addrOf sample m 10 s t, hashStruct sample m 10 s, hashStruct sample m 10 t)

/-- the copy is equal and has the same hash value -/
example : (both id).map (fun r => (r.1, decide (r.2.1 = r.2.2), r.2.1.isSome)) = some (some 0, true, true) := by decide +kernel

/-- a character of the text of the copy is greater: the original comes first -/
example : (both fun m a => if a = 4129 then 0x6a else m a).map (fun r => r.1) = some (some (-1)) := by decide +kernel

/-- a number in the copy is smaller: the original comes last -/
example : (both fun m a => if a = 516 then 6 else m a).map (fun r => r.1) = some (some 1) := by decide +kernel

end Example

/-! ## where the claim fails -/

namespace Deviation

/-- three complex numbers at 1000, 2000 and 3000 -/
def complexes (x y z : Nat) : Bytes := setWord (setWord (setWord (fun _ => 0) 1000 x) 2000 y) 3000 z

def fdOf (ty : MrType) : Fd := { ty := ty, base := ty, size := 8 }

def saved (ty : MrType) (a : Nat) : Option St := (mrSave { ptr := fun _ => 0, int := fun _ => 0 } [] 10 a (fdOf ty)).map Prod.fst

/-- the results of comparing the objects at `a` and `b` -/
def result (m : Bytes) (ty : MrType) (a b : Nat) : Option Int := do
  cmpStructs (fun _ => 4096) [] m 10 (← saved ty a) (← saved ty b)

def hash (m : Bytes) (ty : MrType) (a : Nat) : Option UInt32 := do hashStruct [] m 10 (← saved ty a)

/-- NaN + i, 1 + i NaN, 0 + 5 i -/
def nans : Bytes := complexes (0x7fc00000 + 2 ^ 32 * 0x3f800000) (0x3f800000 + 2 ^ 32 * 0x7fc00000) (2 ^ 32 * 0x40a00000)

/-- 0.0 and -0.0 -/
def zeros : Bytes := complexes 0 (2 ^ 63) 0

end Deviation

open Deviation in
/-- Complex numbers that are not numbers are not ordered: the first is equal to the second, but it is smaller and the
second greater than the third. -/
theorem C32_deviation_complex_nan : result nans .complexFloat 1000 2000 = some 0 ∧ result nans .complexFloat 1000 3000 = some (-1) ∧
    result nans .complexFloat 3000 2000 = some (-1) := by decide +kernel

open Deviation in
/-- 0.0 and -0.0 are equal but their hash values are different. -/
theorem C32_deviation_zero : result zeros .double 1000 2000 = some 0 ∧ hash zeros .double 1000 = some 0 ∧ hash zeros .double 2000 = some 0x80000000 := by decide +kernel

end Verif.Props.Cmp
