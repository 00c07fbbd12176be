import Verif.Lemmas.IcHash
import Verif.Lemmas.TreeIc
import Verif.Model.Ic
namespace Verif.Lemmas.Ic
open Verif.Model Verif.Model.Ic Verif.Spec Verif.Lemmas.Collection Verif.Lemmas.IcArray
  Verif.Lemmas.IcHash
open Verif.Lemmas.Tree (TreeOK RbInv AvlInv rb_scheme avl_scheme rb_add_contract avl_add_contract
  rb_del_contract avl_del_contract Scheme)

variable {cmp : Cmp} {hash : Key → Nat}

/-- The collection is well formed and stands for the reference set `s`. -/
def Good (cmp : Cmp) (hash : Key → Nat) (s : List Key) : Ic → Prop
  | .unsorted a => a.itemsCount = a.ra.length ∧ ∀ k, lookup cmp a.ra k = lookup cmp s k
  | .sorted a => ArrOK cmp a ∧ a.ra.Perm s
  | .static st => st.arr.length = 3 ∧ st.itemsCount ≤ 3 ∧ (st.arr.take st.itemsCount).Perm s
  | .hash h => HashOK cmp hash h ∧ (hashForeach h).Perm s
  | .rb t => TreeOK RbInv cmp t s
  | .avl t => TreeOK AvlInv cmp t s

/-- a bound on the number of elements and on `items_count` -/
def Small (n : Nat) : Ic → Prop
  | .unsorted a => a.ra.length ≤ n
  | .sorted a => a.ra.length ≤ n
  | .static _ => True
  | .hash h => h.itemsCount ≤ n
  | .rb t => t.pool.length ≤ n + 1
  | .avl t => t.pool.length ≤ n + 1

/-- a tree that was never filled, with `items_count` wrapped around -/
def Wrapped : Ic → Prop
  | .rb t => t.pool = [] ∧ t.itemsCount ≠ 0
  | .avl t => t.pool = [] ∧ t.itemsCount ≠ 0
  | _ => False

/-- `foreach` and `items_count` agree with the reference set -/
def Exact (s : List Key) (ic : Ic) : Prop :=
  (icForeach ic).Perm s ∧ (¬ Wrapped ic → icCount ic = s.length)

theorem deref_bind {l : List Key} {r : Option Nat} {v : Option Key} (h : r.bind (l[·]?) = v)
    (hn : r = none ↔ v = none) : deref l r = some v := by
  cases r with
  | none => rw [← h]; rfl
  | some i =>
    simp only [Option.bind_some] at h
    cases v with
    | none => simp at hn
    | some v => simp [deref, h]

theorem deref_some {l : List Key} {r : Option Nat} {v : Key} (h : r.bind (l[·]?) = some v) :
    deref l r = some (some v) :=
  deref_bind h (by cases r <;> simp at *)

/-- What one call does: either what the reference does, or, when the allocator refused, nothing. -/
def StepOK (cmp : Cmp) (hash : Key → Nat) (n : Nat) (s : List Key) (ic : Ic) (m : Bool × Bool)
    (op : Op Key) : Prop :=
  ∃ ic' r, icStep cmp hash ic m op = some (ic', r) ∧ Small (n + 1) ic' ∧
    ((r = (refStep cmp s op).2 ∧ Good cmp hash (refStep cmp s op).1 ic' ∧
        (Exact s ic → Exact (refStep cmp s op).1 ic')) ∨
     (m ≠ (true, true) ∧ Good cmp hash s ic' ∧
        ((∃ k, op = .add k ∧ lookup cmp s k = none ∧ r = .key none) ∨
         (∃ k, op = .del k ∧ r = .status false))))

theorem exact_sorted {a : Arr} {s : List Key} (h : Good cmp hash s (.sorted a)) :
    Exact s (.sorted a) := ⟨h.2, fun _ => by rw [← h.2.length_eq]; exact h.1.count⟩

theorem perm_filter_len {s t : List Key} (h : s.Perm t) (p : Key → Bool) :
    (s.filter p).Perm (t.filter p) := h.filter p

/-! ### sorted -/

theorem sorted_step (hc : Comparator cmp) {s : List Key} (hd : Distinct cmp s) {a : Arr} {n : Nat}
    (hn : n < 2 ^ 29) (hg : Good cmp hash s (.sorted a)) (hs : Small n (.sorted a))
    (m : Bool × Bool) (op : Op Key) : StepOK cmp hash n s (.sorted a) m op := by
  obtain ⟨ha, hp⟩ := hg
  have hlen : a.ra.length < 2 ^ 31 := by simp only [Small] at hs; omega
  simp only [Small] at hs
  have hl : ∀ k, lookup cmp a.ra k = lookup cmp s k := lookup_perm hc hp (strict_distinct ha.strict)
  cases op with
  | find k =>
    obtain ⟨r, h1, h2, h3⟩ := sortedFind_ok hc ha hlen k
    refine ⟨.sorted a, .key (lookup cmp s k), ?_, by simp only [Small]; omega, .inl ⟨rfl, ⟨ha, hp⟩, id⟩⟩
    simp only [icStep, icFind, h1, Option.bind_eq_bind, Option.bind_some,
      deref_bind h2 h3, hl]
  | add k =>
    obtain ⟨a', r, h1, h2, h3⟩ := sortedAdd_ok hc ha hlen k m.1 0
    simp only [StepOK, icStep, icAdd, h1, Option.bind_eq_bind, Option.bind_some]
    rcases h3 with ⟨v, h3, rfl, h4⟩ | ⟨h3, h4, h5, h6⟩ | ⟨h3, h4, rfl, rfl⟩
    · rw [hl] at h3
      simp only [deref_some h4, Option.bind_some, refStep_add_some h3]
      exact ⟨_, _, rfl, by simp only [Small]; omega, .inl ⟨rfl, ⟨ha, hp⟩, id⟩⟩
    · rw [hl] at h3
      simp only [deref_some h6, Option.bind_some, refStep_add_none h3]
      have hg' : Good cmp hash (s ++ [k]) (.sorted a') := ⟨h2, h5.trans (hp.append_right _)⟩
      refine ⟨_, _, rfl, ?_, .inl ⟨rfl, hg', fun _ => exact_sorted hg'⟩⟩
      simp only [Small]; rw [h5.length_eq]; simp; omega
    · rw [hl] at h3
      simp only [deref, Option.bind_some]
      refine ⟨_, _, rfl, by simp only [Small]; omega, .inr ⟨?_, ⟨ha, hp⟩, .inl ⟨k, rfl, h3, rfl⟩⟩⟩
      rintro rfl; cases h4
  | del k =>
    obtain ⟨a', st, h1, h2, h3⟩ := sortedDel_ok hc ha hlen k
    simp only [StepOK, icStep, icDel, h1, Option.bind_eq_bind, Option.bind_some]
    rcases h3 with ⟨v, h3, rfl, h4⟩ | ⟨h3, rfl, rfl⟩
    · rw [hl] at h3
      simp only [refStep_del_some h3]
      have hg' : Good cmp hash (s.filter fun r => decide (cmp k r ≠ 0)) (.sorted a') :=
        ⟨h2, by rw [h4]; exact hp.filter _⟩
      refine ⟨_, _, rfl, ?_, .inl ⟨rfl, hg', fun _ => exact_sorted hg'⟩⟩
      simp only [Small]
      rw [h4]
      have := List.length_filter_le (fun r => decide (cmp k r ≠ 0)) a.ra
      omega
    · rw [hl] at h3
      simp only [refStep_del_none h3]
      exact ⟨_, _, rfl, by simp only [Small]; omega, .inl ⟨rfl, ⟨ha, hp⟩, id⟩⟩

/-! ### conversion to a sorted array followed by an operation -/

theorem convert_ok (hc : Comparator cmp) {s : List Key} (hd : Distinct cmp s) {ra : List Key}
    {n : Nat} (hn : n < 2 ^ 29) (hlen : ra.length ≤ n) (hl : ∀ k, lookup cmp ra k = lookup cmp s k)
    (ok : Bool) :
    ∃ a st, sortedIndex cmp ra ok = some (a, st) ∧
      ((st = true ∧ Good cmp hash s (.sorted a) ∧ Small n (.sorted a)) ∨ (st = false ∧ ok = false)) := by
  obtain ⟨a, st, h1, h2, h3⟩ := sortedIndex_ok hc ra (by omega) ok
  refine ⟨a, st, h1, ?_⟩
  rcases h3 with ⟨h3, h4, h5⟩ | h3
  · left
    refine ⟨h3, ⟨h2, ?_⟩, by simp only [Small]; omega⟩
    exact perm_of_lookup hc (strict_distinct h2.strict) hd fun k => (h5 k).trans (hl k)
  · right; exact h3

theorem unsorted_step (hc : Comparator cmp) {s : List Key} (hd : Distinct cmp s) {a : Arr} {n : Nat}
    (hn : n < 2 ^ 29) (hg : Good cmp hash s (.unsorted a)) (hs : Small n (.unsorted a))
    (m : Bool × Bool) (op : Op Key) : StepOK cmp hash n s (.unsorted a) m op := by
  obtain ⟨hcnt, hl⟩ := hg
  simp only [Small] at hs
  have hsm : Small (n + 1) (.unsorted a) := by simp only [Small]; omega
  cases op with
  | find k =>
    obtain ⟨h1, h2⟩ := arrayFind_lookup (cmp := cmp) k a.ra
    refine ⟨.unsorted a, .key (lookup cmp s k), ?_, hsm, .inl ⟨rfl, ⟨hcnt, hl⟩, id⟩⟩
    simp only [icStep, icFind, deref_bind h1 h2, hl, Option.bind_eq_bind, Option.bind_some]
  | add k =>
    obtain ⟨h1, h2⟩ := arrayFind_lookup (cmp := cmp) k a.ra
    simp only [StepOK, icStep, icAdd, unsortedAdd]
    cases hf : arrayFind cmp k a.ra 0 with
    | some i =>
      rw [hf, hl] at h1
      rw [hf, hl] at h2
      cases hv : lookup cmp s k with
      | none => rw [hv] at h2; simp at h2
      | some v =>
        rw [hv] at h1
        simp only [deref_some h1, Option.bind_eq_bind, Option.bind_some, refStep_add_some hv]
        exact ⟨_, _, rfl, hsm, .inl ⟨rfl, ⟨hcnt, hl⟩, id⟩⟩
    | none =>
      rw [hf, hl] at h2
      have hv := h2.mp rfl
      obtain ⟨d, st, g1, g2⟩ := convert_ok (hash := hash) hc hd hn hs hl m.1
      simp only [g1, Option.bind_eq_bind, Option.bind_some]
      rcases g2 with ⟨rfl, g2, g3⟩ | ⟨rfl, g2⟩
      · have hstep := sorted_step hc hd hn g2 g3 (m.2, m.2) (.add k)
        simp only [StepOK, icStep, icAdd] at hstep
        obtain ⟨ic', r, e1, e2, e3⟩ := hstep
        simp only [Option.bind_eq_bind] at e1
        refine ⟨ic', r, ?_, e2, ?_⟩
        · exact e1
        · rcases e3 with ⟨e3, e4, e5⟩ | ⟨e3, e4, e5⟩
          · left; exact ⟨e3, e4, fun _ => e5 (exact_sorted g2)⟩
          · right
            refine ⟨?_, e4, e5⟩
            rintro rfl; exact e3 rfl
      · refine ⟨_, _, rfl, hsm, .inr ⟨?_, ⟨hcnt, hl⟩, .inl ⟨k, rfl, hv, rfl⟩⟩⟩
        rintro rfl; cases g2
  | del k =>
    obtain ⟨h1, h2⟩ := arrayFind_lookup (cmp := cmp) k a.ra
    simp only [StepOK, icStep, icDel, unsortedDel]
    cases hf : arrayFind cmp k a.ra 0 with
    | none =>
      rw [hf, hl] at h2
      simp only [Option.bind_eq_bind, Option.bind_some, refStep_del_none (h2.mp rfl)]
      exact ⟨_, _, rfl, hsm, .inl ⟨rfl, ⟨hcnt, hl⟩, id⟩⟩
    | some i =>
      obtain ⟨d, st, g1, g2⟩ := convert_ok (hash := hash) hc hd hn hs hl m.1
      simp only [g1, Option.bind_eq_bind, Option.bind_some]
      rcases g2 with ⟨rfl, g2, g3⟩ | ⟨rfl, g2⟩
      · have hstep := sorted_step hc hd hn g2 g3 (true, true) (.del k)
        simp only [StepOK, icStep, icDel] at hstep
        obtain ⟨ic', r, e1, e2, e3⟩ := hstep
        simp only [Option.bind_eq_bind] at e1
        refine ⟨ic', r, e1, e2, ?_⟩
        rcases e3 with ⟨e3, e4, e5⟩ | ⟨e3, e4, e5⟩
        · left; exact ⟨e3, e4, fun _ => e5 (exact_sorted g2)⟩
        · exact absurd rfl e3
      · refine ⟨_, _, rfl, hsm, .inr ⟨?_, ⟨hcnt, hl⟩, .inr ⟨k, rfl, rfl⟩⟩⟩
        rintro rfl; cases g2

/-! ### static -/

theorem static_find (st : Static) (hlen : st.arr.length = 3) (hcnt : st.itemsCount ≤ 3) (k : Key) :
    (staticFind cmp st k).bind (st.arr[·]?) = lookup cmp (st.arr.take st.itemsCount) k ∧
    (staticFind cmp st k = none ↔ lookup cmp (st.arr.take st.itemsCount) k = none) ∧
    (∀ i, staticFind cmp st k = some i → i < st.itemsCount) := by
  obtain ⟨h1, h2⟩ := arrayFind_lookup (cmp := cmp) k (st.arr.take st.itemsCount)
  have hlt : ∀ i, staticFind cmp st k = some i → i < st.itemsCount := by
    intro i hi
    unfold staticFind at hi
    rw [hi] at h1
    simp only [Option.bind_some] at h1
    rcases Nat.lt_or_ge i st.itemsCount with h | h
    · exact h
    · rw [List.getElem?_take, if_neg (by omega)] at h1
      rw [h2.mpr h1.symm] at hi; cases hi
  refine ⟨?_, h2, hlt⟩
  rw [← h1]
  show _ = (staticFind cmp st k).bind _
  cases h : staticFind cmp st k with
  | none => rfl
  | some i =>
    have := hlt i h
    simp [List.getElem?_take, this]

theorem static_step (hc : Comparator cmp) {s : List Key} (hd : Distinct cmp s) {st : Static} {n : Nat}
    (hn : n < 2 ^ 29) (h3n : 3 ≤ n) (hg : Good cmp hash s (.static st))
    (m : Bool × Bool) (op : Op Key) : StepOK cmp hash n s (.static st) m op := by
  obtain ⟨hlen, hcnt, hp⟩ := hg
  have hl : ∀ k, lookup cmp (st.arr.take st.itemsCount) k = lookup cmp s k :=
    lookup_perm hc hp (distinct_perm hc hp.symm hd)
  cases op with
  | find k =>
    obtain ⟨h1, h2, _⟩ := static_find (cmp := cmp) st hlen hcnt k
    refine ⟨.static st, .key (lookup cmp s k), ?_, trivial, .inl ⟨rfl, ⟨hlen, hcnt, hp⟩, id⟩⟩
    simp only [icStep, icFind, deref_bind h1 h2, hl, Option.bind_eq_bind, Option.bind_some]
  | add k =>
    obtain ⟨h1, h2, hlt⟩ := static_find (cmp := cmp) st hlen hcnt k
    simp only [StepOK, icStep, icAdd, staticAdd]
    cases hf : staticFind cmp st k with
    | some i =>
      rw [hf, hl] at h1
      rw [hf, hl] at h2
      cases hv : lookup cmp s k with
      | none => rw [hv] at h2; simp at h2
      | some v =>
        rw [hv] at h1
        simp only [deref_some h1, Option.bind_eq_bind, Option.bind_some, refStep_add_some hv]
        exact ⟨_, _, rfl, trivial, .inl ⟨rfl, ⟨hlen, hcnt, hp⟩, id⟩⟩
    | none =>
      rw [hf, hl] at h2
      have hv := h2.mp rfl
      have hnn : (if st.itemsCount > staticSize then 0 else st.itemsCount) = st.itemsCount :=
        if_neg (by unfold staticSize; omega)
      simp only [hnn]
      by_cases h3 : st.itemsCount = staticSize
      · rw [if_pos h3]
        have htk : st.arr.take st.itemsCount = st.arr := by
          rw [List.take_of_length_le (by unfold staticSize at h3; omega)]
        rw [htk] at hl hp
        obtain ⟨d, sb, g1, g2⟩ := convert_ok (hash := hash) hc hd hn (ra := st.arr) (by omega) hl m.1
        simp only [g1, Option.bind_eq_bind, Option.bind_some]
        rcases g2 with ⟨rfl, g2, g3⟩ | ⟨rfl, g2⟩
        · have hstep := sorted_step hc hd hn g2 g3 (m.2, m.2) (.add k)
          simp only [StepOK, icStep, icAdd] at hstep
          obtain ⟨ic', r, e1, e2, e3⟩ := hstep
          simp only [Option.bind_eq_bind] at e1
          refine ⟨ic', r, e1, e2, ?_⟩
          rcases e3 with ⟨e3, e4, e5⟩ | ⟨e3, e4, e5⟩
          · left; exact ⟨e3, e4, fun _ => e5 (exact_sorted g2)⟩
          · right
            refine ⟨?_, e4, e5⟩
            rintro rfl; exact e3 rfl
        · refine ⟨_, _, rfl, trivial, .inr ⟨?_, ⟨hlen, hcnt, by rw [htk]; exact hp⟩, .inl ⟨k, rfl, hv, rfl⟩⟩⟩
          rintro rfl; cases g2
      · rw [if_neg h3]
        have hlt3 : st.itemsCount < 3 := by unfold staticSize at h3; omega
        have hget : (st.arr.set st.itemsCount k)[st.itemsCount]? = some k := by
          rw [List.getElem?_set, if_pos rfl, if_pos (by omega)]
        have htk : (st.arr.set st.itemsCount k).take (st.itemsCount + 1) =
            st.arr.take st.itemsCount ++ [k] := by
          rw [List.take_add_one, hget, List.take_set_of_le (Nat.le_refl _)]; rfl
        simp only [wr]
        rw [if_pos (by omega)]
        simp only [Option.bind_eq_bind, Option.bind_some, deref, hget, Option.map_some,
          refStep_add_none hv]
        refine ⟨_, _, rfl, trivial, .inl ⟨rfl, ⟨by simpa, by show st.itemsCount + 1 ≤ 3; omega, ?_⟩, ?_⟩⟩
        · show ((st.arr.set st.itemsCount k).take (st.itemsCount + 1)).Perm _
          rw [htk]; exact hp.append_right _
        · intro hex
          refine ⟨?_, ?_⟩
          · show ((st.arr.set st.itemsCount k).take (st.itemsCount + 1)).Perm _
            rw [htk]; exact hp.append_right _
          · have := hex.2 id
            intro _
            simp only [icCount] at this ⊢
            simp [this]
  | del k =>
    obtain ⟨h1, h2, hlt⟩ := static_find (cmp := cmp) st hlen hcnt k
    simp only [StepOK, icStep, icDel, staticDel]
    cases hf : staticFind cmp st k with
    | none =>
      rw [hf, hl] at h2
      simp only [Option.bind_eq_bind, Option.bind_some, refStep_del_none (h2.mp rfl)]
      exact ⟨_, _, rfl, trivial, .inl ⟨rfl, ⟨hlen, hcnt, hp⟩, id⟩⟩
    | some i =>
      have hi := hlt i hf
      rw [hf, hl] at h1
      rw [hf, hl] at h2
      cases hv : lookup cmp s k with
      | none => rw [hv] at h2; simp at h2
      | some v =>
        rw [hv] at h1
        simp only [Option.bind_some] at h1
        have hmv : memmove st.arr i (i + 1) (st.itemsCount - 1 - i) =
            some (st.arr.take i ++ (st.arr.drop (i + 1)).take (st.itemsCount - 1 - i) ++
              st.arr.drop (st.itemsCount - 1)) := by
          unfold memmove
          rw [if_pos (by omega)]
          congr 2
          congr 1; omega
        have hl3 : (st.arr.take i ++ (st.arr.drop (i + 1)).take (st.itemsCount - 1 - i) ++
              st.arr.drop (st.itemsCount - 1)).length = 3 := by
          simp [hlen]; omega
        have htk : ((st.arr.take i ++ (st.arr.drop (i + 1)).take (st.itemsCount - 1 - i) ++
              st.arr.drop (st.itemsCount - 1)).set (st.itemsCount - 1) 0).take (st.itemsCount - 1) =
            (st.arr.take st.itemsCount).take i ++ (st.arr.take st.itemsCount).drop (i + 1) := by
          rw [List.take_set_of_le (Nat.le_refl _),
            List.take_append_of_le_length (by simp [hlen]; omega),
            List.take_of_length_le (by simp [hlen]; omega), List.take_take, List.drop_take]
          congr 2
          · omega
          · omega
        have hgi : (st.arr.take st.itemsCount)[i]? = some v := by
          rw [List.getElem?_take, if_pos hi]; exact h1
        obtain ⟨hil, hgi'⟩ := List.getElem?_eq_some_iff.mp hgi
        have hsplit : st.arr.take st.itemsCount = (st.arr.take st.itemsCount).take i ++
            v :: (st.arr.take st.itemsCount).drop (i + 1) := by
          conv => lhs; rw [← List.take_append_drop i (st.arr.take st.itemsCount)]
          rw [List.drop_eq_getElem_cons hil, hgi']
        obtain ⟨hvs, hkv⟩ := lookup_some_mem hv
        have hper : ((st.arr.take st.itemsCount).take i ++
            (st.arr.take st.itemsCount).drop (i + 1)).Perm
            (s.filter fun r => decide (cmp k r ≠ 0)) := by
          rw [filter_eq_erase hc hd hvs hkv]
          refine (List.perm_cons v).mp ?_
          refine (List.Perm.trans ?_ hp).trans (List.perm_cons_erase hvs)
          conv => rhs; rw [hsplit]
          exact List.perm_middle.symm
        simp only [hmv, Option.bind_eq_bind, Option.bind_some, wr]
        rw [if_pos (by rw [hl3]; omega)]
        simp only [Option.bind_some, refStep_del_some hv]
        refine ⟨_, _, rfl, trivial, .inl ⟨rfl, ⟨by rw [List.length_set]; exact hl3,
          by show st.itemsCount - 1 ≤ 3; omega, ?_⟩, ?_⟩⟩
        · simp only []
          rw [htk]; exact hper
        · intro hex
          refine ⟨?_, ?_⟩
          · simp only [icForeach]
            rw [htk]; exact hper
          · rw [← hper.length_eq]
            have hlen2 := congrArg List.length hsplit
            simp only [List.length_append, List.length_cons] at hlen2
            simp only [icCount, List.length_append]
            simp only [List.length_take, List.length_drop] at hlen2 ⊢
            omega

/-! ### hash -/

theorem hash_step (hc : Comparator cmp) (hh : ∀ x y, cmp x y = 0 → hash x = hash y) {s : List Key}
    (hd : Distinct cmp s) {h : Hash} {n : Nat}
    (hn : n + 1 < 2 ^ 29) (hg : Good cmp hash s (.hash h)) (hs : Small n (.hash h))
    (m : Bool × Bool) (op : Op Key) : StepOK cmp hash n s (.hash h) m op := by
  obtain ⟨hok, hp⟩ := hg
  simp only [Small] at hs
  have hl : ∀ k, lookup cmp (hashForeach h) k = lookup cmp s k := lookup_perm hc hp hok.dist
  cases op with
  | find k =>
    obtain ⟨r, h1, h2, h3, _⟩ := hashFind_ok hc hh hok k
    refine ⟨.hash h, .key (lookup cmp s k), ?_, by simp only [Small]; omega, .inl ⟨rfl, ⟨hok, hp⟩, id⟩⟩
    simp only [icStep, icFind, h1, Option.bind_eq_bind, Option.bind_some, deref_bind h2 h3, hl]
  | add k =>
    obtain ⟨h', r, h1, h2, hic, h3⟩ := hashAdd_ok hc hh hok (by omega) k m.1
    simp only [StepOK, icStep, icAdd, h1, Option.bind_eq_bind, Option.bind_some]
    rcases h3 with ⟨v, h3, rfl, h4⟩ | ⟨h3, h4, h5, h6⟩ | ⟨h3, h4, h5, rfl⟩
    · rw [hl] at h3
      simp only [deref_some h4, Option.bind_some, refStep_add_some h3]
      exact ⟨_, _, rfl, by simp only [Small]; omega, .inl ⟨rfl, ⟨hok, hp⟩, id⟩⟩
    · rw [hl] at h3
      simp only [deref_some h5, Option.bind_some, refStep_add_none h3]
      have hp' := h4.trans (hp.append_right [k])
      refine ⟨_, _, rfl, by simp only [Small]; omega, .inl ⟨rfl, ⟨h2, hp'⟩, ?_⟩⟩
      intro hex
      refine ⟨hp', ?_⟩
      intro _
      show h'.itemsCount = _
      rw [h6 (by rw [hp.length_eq]; exact hex.2 id), hp'.length_eq]
    · rw [hl] at h3
      simp only [deref, Option.bind_some]
      refine ⟨_, _, rfl, by simp only [Small]; omega, .inr ⟨?_, ⟨h2, by rw [h5]; exact hp⟩, .inl ⟨k, rfl, h3, rfl⟩⟩⟩
      rintro rfl; cases h4
  | del k =>
    obtain ⟨h', st, h1, h2, hic, h3⟩ := hashDel_ok hc hh hok (by omega) k
    simp only [StepOK, icStep, icDel, h1, Option.bind_eq_bind, Option.bind_some]
    rcases h3 with ⟨v, h3, rfl, h4, h5⟩ | ⟨h3, rfl, rfl⟩
    · rw [hl] at h3
      simp only [refStep_del_some h3]
      have hp' := h4.trans (hp.filter fun r => decide (cmp k r ≠ 0))
      refine ⟨_, _, rfl, by simp only [Small]; omega, .inl ⟨rfl, ⟨h2, hp'⟩, ?_⟩⟩
      intro hex
      refine ⟨hp', ?_⟩
      have hex2 := hex.2 id
      intro _
      simp only [icCount] at hex2 ⊢
      obtain ⟨hvs, hkv⟩ := lookup_some_mem h3
      have := List.length_erase_of_mem hvs
      rw [← filter_eq_erase hc hd hvs hkv] at this
      have hpos := List.length_pos_of_mem hvs
      omega
    · rw [hl] at h3
      simp only [refStep_del_none h3]
      exact ⟨_, _, rfl, by simp only [Small]; omega, .inl ⟨rfl, ⟨hok, hp⟩, id⟩⟩

/-! ### all kinds -/

/-! ### trees -/

theorem tree_exact {Inv : Tree.Pool → Tree.T → Prop} {t : TreeIc} {s : List Key}
    (h : TreeOK Inv cmp t s) : (treeIcForeach t).Perm s ∧
      (¬ (t.pool = [] ∧ t.itemsCount ≠ 0) → t.itemsCount = s.length) := by
  refine ⟨Tree.foreach_perm h.1, fun hw => ?_⟩
  rcases h.1 with ⟨h1, h2⟩ | ⟨u, h1, _, _, h4⟩
  · rw [h2]
    exact Classical.byContradiction fun hne => hw ⟨h1, hne⟩
  · rw [h.2 (Tree.wf_ne h1), ← h4.length_eq, h1.count]
    simp [Tree.keys]

/-- one call on a tree, for either way of wrapping it -/
theorem tree_step (hc : Comparator cmp) {Inv : Tree.Pool → Tree.T → Prop} (hS : Scheme Inv)
    {radd rdel : Tree.Pool → Tree.Path → Nat → Option Tree.Pool} (hA : Tree.AddContract Inv radd)
    (hD : Tree.DelContract Inv rdel) (wrap : TreeIc → Ic)
    (hfind : ∀ t k, icFind cmp hash (wrap t) k = treeIcFind cmp t k)
    (hadd : ∀ t k m, icAdd cmp hash (wrap t) k m =
      (treeIcAdd (Tree.treeAdd radd) cmp t k m).map fun x => (wrap x.1, x.2))
    (hdel : ∀ t k m, icDel cmp hash (wrap t) k m =
      (treeIcDel (Tree.treeDel rdel) cmp t k).map fun x => (wrap x.1, x.2))
    {s : List Key} (hd : Distinct cmp s) {t : TreeIc} {n : Nat} (hn : n + 3 < 2 ^ 31)
    (hg : TreeOK Inv cmp t s) (hs : t.pool.length ≤ n + 1) (m : Bool × Bool) (op : Op Key) :
    ∃ t' r, icStep cmp hash (wrap t) m op = some (wrap t', r) ∧ t'.pool.length ≤ n + 2 ∧
      (t.pool ≠ [] → t'.pool ≠ []) ∧
      ((∃ k, op = .find k) → t' = t) ∧
      ((r = (refStep cmp s op).2 ∧ TreeOK Inv cmp t' (refStep cmp s op).1 ∧
          ((∃ k, op = .add k) → t'.pool ≠ [])) ∨
       (m ≠ (true, true) ∧ TreeOK Inv cmp t' s ∧
        ((∃ k, op = .add k ∧ lookup cmp s k = none ∧ r = .key none) ∨
         (∃ k, op = .del k ∧ r = .status false)))) := by
  cases op with
  | find k =>
    refine ⟨t, .key (lookup cmp s k), ?_, by omega, id, fun _ => rfl, .inl ⟨rfl, hg, ?_⟩⟩
    · simp only [icStep, hfind, Tree.treeFind_ok hc hS hg.1, Option.bind_eq_bind, Option.bind_some]
    · rintro ⟨k', h⟩; cases h
  | add k =>
    obtain ⟨t', r, h1, h2, h3⟩ := Tree.tree_add hc hS hA hd hg (by omega) k m
    refine ⟨t', .key r, ?_, by omega, ?_, ?_, ?_⟩
    · simp only [icStep, hadd, h1, Option.map_some, Option.bind_eq_bind, Option.bind_some]
    · intro h0
      rcases h3 with ⟨_, _, h3⟩ | ⟨_, _, _, _, h3⟩
      · exact h3
      · exact h3 h0
    · rintro ⟨k', h⟩; cases h
    · rcases h3 with ⟨h3, h4, h5⟩ | ⟨h3, h4, h5, h6, _⟩
      · refine .inl ⟨?_, ?_, fun _ => h5⟩
        · rw [h3]; simp only [refStep]; cases lookup cmp s k <;> rfl
        · revert h4; simp only [refStep]; cases lookup cmp s k <;> exact id
      · exact .inr ⟨h3, h4, .inl ⟨k, rfl, h5, by rw [h6]⟩⟩
  | del k =>
    obtain ⟨t', r, h1, h2, h3, h4⟩ := Tree.tree_del hc hS hD hd hg k
    refine ⟨t', .status r, ?_, by omega, h3, ?_, .inl ?_⟩
    · simp only [icStep, hdel, h1, Option.map_some, Option.bind_eq_bind, Option.bind_some]
    · rintro ⟨k', h⟩; cases h
    · simp only [refStep]
      cases hl : lookup cmp s k with
      | none => rw [hl] at h4; exact ⟨by rw [h4.1], h4.2, fun ⟨k', h⟩ => by cases h⟩
      | some x => rw [hl] at h4; exact ⟨by rw [h4.1], h4.2, fun ⟨k', h⟩ => by cases h⟩

/-- One call on a tree, for either way of wrapping it. -/
def TreeStep (cmp : Cmp) (hash : Key → Nat) (Inv : Tree.Pool → Tree.T → Prop) (wrap : TreeIc → Ic) : Prop :=
  ∀ {s : List Key}, Distinct cmp s → ∀ {t : TreeIc} {n : Nat}, n + 3 < 2 ^ 31 →
    TreeOK Inv cmp t s → t.pool.length ≤ n + 1 → ∀ (m : Bool × Bool) (op : Op Key),
    ∃ t' r, icStep cmp hash (wrap t) m op = some (wrap t', r) ∧ t'.pool.length ≤ n + 2 ∧
      (t.pool ≠ [] → t'.pool ≠ []) ∧
      ((∃ k, op = .find k) → t' = t) ∧
      ((r = (refStep cmp s op).2 ∧ TreeOK Inv cmp t' (refStep cmp s op).1 ∧
          ((∃ k, op = .add k) → t'.pool ≠ [])) ∨
       (m ≠ (true, true) ∧ TreeOK Inv cmp t' s ∧
        ((∃ k, op = .add k ∧ lookup cmp s k = none ∧ r = .key none) ∨
         (∃ k, op = .del k ∧ r = .status false))))

theorem rb_treeStep (hc : Comparator cmp) : TreeStep cmp hash RbInv .rb := fun hd _ _ hn hg hs m op =>
  tree_step (hash := hash) hc rb_scheme rb_add_contract rb_del_contract .rb (fun _ _ => rfl)
    (fun t k m => by
      show (treeIcAdd Tree.rbAdd cmp t k m).bind _ = _
      cases h : treeIcAdd Tree.rbAdd cmp t k m <;> (rw [Tree.rbAdd] at h; rw [h]; rfl))
    (fun t k m => by
      show (treeIcDel Tree.rbDel cmp t k).bind _ = _
      cases h : treeIcDel Tree.rbDel cmp t k <;> (rw [Tree.rbDel] at h; rw [h]; rfl)) hd hn hg hs m op

theorem avl_treeStep (hc : Comparator cmp) : TreeStep cmp hash AvlInv .avl := fun hd _ _ hn hg hs m op =>
  tree_step (hash := hash) hc avl_scheme avl_add_contract avl_del_contract .avl (fun _ _ => rfl)
    (fun t k m => by
      show (treeIcAdd Tree.avlAdd cmp t k m).bind _ = _
      cases h : treeIcAdd Tree.avlAdd cmp t k m <;> (rw [Tree.avlAdd] at h; rw [h]; rfl))
    (fun t k m => by
      show (treeIcDel Tree.avlDel cmp t k).bind _ = _
      cases h : treeIcDel Tree.avlDel cmp t k <;> (rw [Tree.avlDel] at h; rw [h]; rfl)) hd hn hg hs m op

theorem step_ok (hc : Comparator cmp) (hh : ∀ x y, cmp x y = 0 → hash x = hash y) {s : List Key}
    (hd : Distinct cmp s) {ic : Ic} {n : Nat} (h3 : 3 ≤ n) (hn : n + 1 < 2 ^ 29)
    (hg : Good cmp hash s ic) (hs : Small n ic) (m : Bool × Bool) (op : Op Key) :
    StepOK cmp hash n s ic m op := by
  cases ic with
  | unsorted a => exact unsorted_step hc hd (by omega) hg hs m op
  | sorted a => exact sorted_step hc hd (by omega) hg hs m op
  | static st => exact static_step hc hd (by omega) h3 hg m op
  | hash h => exact hash_step hc hh hd hn hg hs m op
  | rb t =>
    obtain ⟨t', r, h1, h2, _, _, h3⟩ := rb_treeStep (hash := hash) hc hd (by omega) hg hs m op
    refine ⟨.rb t', r, h1, h2, ?_⟩
    rcases h3 with ⟨h3, h4, _⟩ | h3
    · exact .inl ⟨h3, h4, fun _ => tree_exact h4⟩
    · exact .inr h3
  | avl t =>
    obtain ⟨t', r, h1, h2, _, _, h3⟩ := avl_treeStep (hash := hash) hc hd (by omega) hg hs m op
    refine ⟨.avl t', r, h1, h2, ?_⟩
    rcases h3 with ⟨h3, h4, _⟩ | h3
    · exact .inl ⟨h3, h4, fun _ => tree_exact h4⟩
    · exact .inr h3

/-- Whole histories with enough memory. -/
theorem run_ok (hc : Comparator cmp) (hh : ∀ x y, cmp x y = 0 → hash x = hash y) :
    ∀ (ops : List (Op Key)) (n : Nat) (s : List Key) (ic : Ic), Distinct cmp s → 3 ≤ n →
    n + ops.length < 2 ^ 29 → Good cmp hash s ic → Small n ic →
    ∃ ic', icRun cmp hash ic (ops.map fun op => (op, true, true)) = some (ic', (refRun cmp s ops).2) ∧
      Good cmp hash (refRun cmp s ops).1 ic' ∧
      (Exact s ic → Exact (refRun cmp s ops).1 ic') := by
  intro ops
  induction ops with
  | nil => intro n s ic _ _ _ hg _; exact ⟨ic, rfl, hg, id⟩
  | cons op ops ih =>
    intro n s ic hd h3 hn hg hs
    simp only [List.length_cons] at hn
    obtain ⟨ic', r, h1, h2, hcase⟩ := step_ok hc hh hd h3 (by omega) hg hs (true, true) op
    rcases hcase with ⟨hr, hg', he⟩ | ⟨hm, _⟩
    · obtain ⟨ic'', g1, g2, g3⟩ := ih (n + 1) _ ic' (refStep_distinct hc hd op) (by omega) (by omega) hg' h2
      refine ⟨ic'', ?_, g2, fun h => g3 (he h)⟩
      simp only [List.map_cons, icRun, h1, g1, Option.bind_eq_bind, Option.bind_some, refRun, hr]
    · exact absurd rfl hm

theorem run_any_memory (hc : Comparator cmp) (hh : ∀ x y, cmp x y = 0 → hash x = hash y) :
    ∀ (ops : List (Op Key × Bool × Bool)) (n : Nat) (s : List Key) (ic : Ic), Distinct cmp s → 3 ≤ n →
    n + ops.length < 2 ^ 29 → Good cmp hash s ic → Small n ic →
    ∃ ic' rs s', icRun cmp hash ic ops = some (ic', rs) ∧ Allowed cmp s (ops.map (·.1)) rs s' ∧
      Distinct cmp s' ∧ Good cmp hash s' ic' ∧ Small (n + ops.length) ic' := by
  intro ops
  induction ops with
  | nil => intro n s ic hd _ _ hg hs; exact ⟨ic, [], s, rfl, .nil s, hd, hg, hs⟩
  | cons o ops ih =>
    obtain ⟨op, m⟩ := o
    intro n s ic hd h3 hn hg hs
    simp only [List.length_cons] at hn
    obtain ⟨ic', r, h1, h2, hcase⟩ := step_ok hc hh hd h3 (by omega) hg hs m op
    rcases hcase with ⟨hr, hg', he⟩ | ⟨_, hg', hop⟩
    · obtain ⟨ic'', rs, s', g1, g2, g3, g4, g5⟩ := ih (n + 1) _ ic' (refStep_distinct hc hd op) (by omega)
        (by omega) hg' h2
      refine ⟨ic'', r :: rs, s', ?_, ?_, g3, g4, by
        rw [List.length_cons, show n + (ops.length + 1) = n + 1 + ops.length by omega]; exact g5⟩
      · simp only [icRun, h1, g1, Option.bind_eq_bind, Option.bind_some]
      · rw [hr]; exact .ok g2
    · obtain ⟨ic'', rs, s', g1, g2, g3, g4, g5⟩ := ih (n + 1) s ic' hd (by omega) (by omega) hg' h2
      refine ⟨ic'', r :: rs, s', ?_, ?_, g3, g4, by
        rw [List.length_cons, show n + (ops.length + 1) = n + 1 + ops.length by omega]; exact g5⟩
      · simp only [icRun, h1, g1, Option.bind_eq_bind, Option.bind_some]
      · rcases hop with ⟨k, rfl, hk, rfl⟩ | ⟨k, rfl, rfl⟩
        · exact .addFail hk g2
        · exact .delFail g2

/-! ### bulk loading -/

theorem static_add_small (m : Bool × Bool) (st : Static) (hl : st.arr.length = 3)
    (hcnt : st.itemsCount < 3) (k : Key) :
    ∃ st' v, staticAdd cmp st k m = some (.static st', some v) ∧
      st'.itemsCount ≤ st.itemsCount + 1 := by
  obtain ⟨h1, h2, hlt⟩ := static_find (cmp := cmp) st hl (by omega) k
  unfold staticAdd
  cases hf : staticFind cmp st k with
  | some i =>
    have hi := hlt i hf
    have : st.arr[i]? = some (st.arr[i]'(by omega)) := List.getElem?_eq_getElem (by omega)
    exact ⟨st, st.arr[i]'(by omega), by simp [deref, this], by omega⟩
  | none =>
    have hnn : (if st.itemsCount > staticSize then 0 else st.itemsCount) = st.itemsCount :=
      if_neg (by unfold staticSize; omega)
    have h3 : st.itemsCount ≠ staticSize := by unfold staticSize; omega
    have hget : (st.arr.set st.itemsCount k)[st.itemsCount]? = some k := by
      rw [List.getElem?_set, if_pos rfl, if_pos (by omega)]
    simp only [hnn, if_neg h3, wr]
    rw [if_pos (by omega)]
    exact ⟨{ arr := st.arr.set st.itemsCount k, itemsCount := st.itemsCount + 1 }, k,
      by simp [deref, hget], Nat.le_refl _⟩

theorem static_index_loop (hc : Comparator cmp) (m : Bool × Bool) : ∀ (rarray : List Key) (s : List Key)
    (st : Static), Distinct cmp s → Good cmp hash s (.static st) → Exact s (.static st) →
    st.itemsCount + rarray.length ≤ 3 →
    ∃ st', staticIndexLoop cmp m (.static st) rarray = some (.static st') ∧
      Good cmp hash (refRun cmp s (rarray.map Op.add)).1 (.static st') ∧
      Exact (refRun cmp s (rarray.map Op.add)).1 (.static st') := by
  intro rarray
  induction rarray with
  | nil => intro s st _ hg he _; exact ⟨st, rfl, hg, he⟩
  | cons k rarray ih =>
    intro s st hd hg he hlen
    simp only [List.length_cons] at hlen
    obtain ⟨ic', r, e1, e2, e3⟩ := static_step (hash := hash) hc hd (n := 3) (by omega) (by omega) hg m (.add k)
    obtain ⟨st', v, f1, f2⟩ := static_add_small (cmp := cmp) m st hg.1 (by omega) k
    simp only [icStep, icAdd, f1, Option.bind_eq_bind, Option.bind_some, Option.some.injEq,
      Prod.mk.injEq] at e1
    obtain ⟨rfl, rfl⟩ := e1
    rcases e3 with ⟨e3, e4, e5⟩ | ⟨_, _, ⟨k', _, _, e3⟩ | ⟨k', e3, _⟩⟩
    · obtain ⟨st'', g1, g2, g3⟩ := ih _ st' (refStep_distinct hc hd _) e4 (e5 he) (by omega)
      refine ⟨st'', ?_, g2, g3⟩
      rw [staticIndexLoop]
      simp only [f1, Option.bind_eq_bind, Option.bind_some, g1]
    · cases e3
    · cases e3

theorem tree_index (hc : Comparator cmp) {Inv : Tree.Pool → Tree.T → Prop} (hS : Scheme Inv)
    {reb : Tree.Pool → Tree.Path → Nat → Option Tree.Pool} (hA : Tree.AddContract Inv reb) (ok : Bool) :
    ∀ (rarray s : List Key) (t : TreeIc), Distinct cmp s → TreeOK Inv cmp t s →
    max 1 t.pool.length + rarray.length + 1 < 2 ^ 31 →
    ∃ t' st, treeIcIndex (Tree.treeAdd reb) cmp ok t rarray = some (t', st) ∧
      t'.pool.length ≤ max 1 t.pool.length + rarray.length ∧
      ((st = true ∧ TreeOK Inv cmp t' (refRun cmp s (rarray.map Op.add)).1 ∧
          (t' = t ∧ rarray = [] ∨ t'.pool ≠ [])) ∨
       (st = false ∧ ok = false)) := by
  intro rarray
  induction rarray with
  | nil =>
    intro s t _ h _
    exact ⟨t, true, rfl, by omega, .inl ⟨rfl, h, .inl ⟨rfl, rfl⟩⟩⟩
  | cons k rarray ih =>
    intro s t hd h hlen
    simp only [List.length_cons] at hlen ⊢
    obtain ⟨t', r, h1, h2, h3⟩ := Tree.tree_add hc hS hA hd h (by omega) k (ok, ok)
    simp only [treeIcIndex, h1, Option.bind_eq_bind, Option.bind_some]
    rcases h3 with ⟨h3, h4, h5⟩ | ⟨h3, _, _, h6, _⟩
    · obtain ⟨v, rfl⟩ : ∃ v, r = some v := by
        rw [h3]; cases lookup cmp s k <;> exact ⟨_, rfl⟩
      have h4' : TreeOK Inv cmp t' (refStep cmp s (.add k)).1 := by
        revert h4; simp only [refStep]; cases lookup cmp s k <;> exact id
      obtain ⟨t'', st, g1, g2, g3⟩ := ih _ t' (refStep_distinct hc hd _) h4' (by omega)
      refine ⟨t'', st, g1, by omega, ?_⟩
      rcases g3 with ⟨g3, g4, g5⟩ | g3
      · refine .inl ⟨g3, g4, .inr ?_⟩
        rcases g5 with ⟨rfl, _⟩ | g5
        · exact h5
        · exact g5
      · exact .inr g3
    · subst h6
      refine ⟨t', false, rfl, by omega, .inr ⟨rfl, ?_⟩⟩
      cases ok
      · rfl
      · exact absurd rfl h3

theorem refIndex_distinct (hc : Comparator cmp) (rarray : List Key) : Distinct cmp (refIndex cmp rarray) :=
  refRun_distinct hc _ List.Pairwise.nil

theorem refIndex_lookup (hc : Comparator cmp) (rarray : List Key) (k : Key) :
    lookup cmp (refIndex cmp rarray) k = lookup cmp rarray k := by
  unfold refIndex; rw [refRun_adds_lookup hc, lookup_nil]; rfl

/-- Bulk loading of a fresh collection. -/
theorem index_ok (hc : Comparator cmp) (hh : ∀ x y, cmp x y = 0 → hash x = hash y) (kind : Kind)
    (rarray : List Key) (n : Nat) (hn : rarray.length ≤ n) (hb : n < 2 ^ 29)
    (hz : kind = .hash → ZeroClean cmp rarray) (m : Bool × Bool) :
    ∃ ic st, icIndex cmp hash (icNew kind) rarray m = some (ic, st) ∧
      ((st = true ∧ Good cmp hash (refIndex cmp rarray) ic ∧ Small n ic ∧
        ((kind = .unsorted → Distinct cmp rarray) → Exact (refIndex cmp rarray) ic)) ∨
       (st = false ∧ m.1 = false)) := by
  have hfd := refIndex_distinct hc rarray
  have hfl := refIndex_lookup hc rarray
  have hsorted : ∃ a st, sortedIndex cmp rarray m.1 = some (a, st) ∧
      ((st = true ∧ Good cmp hash (refIndex cmp rarray) (.sorted a) ∧ Small n (.sorted a)) ∨
       (st = false ∧ m.1 = false)) :=
    convert_ok (hash := hash) hc hfd hb hn (fun k => (hfl k).symm) m.1
  cases kind with
  | unsorted =>
    refine ⟨_, true, rfl, .inl ⟨rfl, ⟨rfl, fun k => (hfl k).symm⟩, hn, ?_⟩⟩
    intro hd
    have := perm_of_lookup hc (hd rfl) hfd fun k => (hfl k).symm
    exact ⟨this, fun _ => this.length_eq⟩
  | sorted =>
    obtain ⟨a, st, h1, h2⟩ := hsorted
    refine ⟨.sorted a, st, by simp [icIndex, icNew, h1], ?_⟩
    rcases h2 with ⟨h2, h3, h4⟩ | h2
    · exact .inl ⟨h2, h3, h4, fun _ => exact_sorted h3⟩
    · exact .inr h2
  | static =>
    by_cases h3 : rarray.length > staticSize
    · obtain ⟨a, st, h1, h2⟩ := hsorted
      refine ⟨.sorted a, st, by simp [icIndex, icNew, h1, h3], ?_⟩
      rcases h2 with ⟨h2, h3, h4⟩ | h2
      · exact .inl ⟨h2, h3, h4, fun _ => exact_sorted h3⟩
      · exact .inr h2
    · obtain ⟨st', g1, g2, g3⟩ := static_index_loop (hash := hash) hc m rarray []
        { arr := [0, 0, 0], itemsCount := 0 } List.Pairwise.nil ⟨rfl, by simp, List.Perm.refl _⟩
        ⟨List.Perm.refl _, fun _ => rfl⟩ (by unfold staticSize at h3; simp; omega)
      refine ⟨.static st', true, ?_, .inl ⟨rfl, g2, trivial, fun _ => g3⟩⟩
      simp only [icIndex, icNew, if_neg h3, g1, Option.bind_eq_bind, Option.bind_some]
  | hash =>
    rcases hashReindex_ok hc hh rarray.length rarray (Nat.le_refl _) (by omega) (hz rfl) m.1 with
      ⟨h', g1, g2, g3, g4, g5, g6⟩ | ⟨g0, h', g1⟩
    · have hp : (hashForeach h').Perm (refIndex cmp rarray) :=
        perm_of_lookup hc g2.dist hfd fun k => (g6 k).trans (hfl k).symm
      refine ⟨.hash h', true, by simp [icIndex, icNew, hashIndex, g1], .inl ⟨rfl, ⟨g2, hp⟩, ?_, ?_⟩⟩
      · simp only [Small]; omega
      · intro _
        exact ⟨hp, fun _ => by simp only [icCount]; rw [g3, hp.length_eq]⟩
    · exact ⟨.hash h', false, by simp [icIndex, icNew, hashIndex, g1], .inr ⟨rfl, g0⟩⟩
  | rb =>
    obtain ⟨t', st, h1, h2, h3⟩ := tree_index (cmp := cmp) hc rb_scheme rb_add_contract (m.1 || m.2) rarray []
      { pool := [], itemsCount := 0 } List.Pairwise.nil ⟨.inl ⟨rfl, rfl⟩, fun h => absurd rfl h⟩
      (by simp; omega)
    refine ⟨.rb t', st, ?_, ?_⟩
    · simp only [icIndex, icNew, Tree.rbAdd]
      rw [h1]; rfl
    · rcases h3 with ⟨h3, h4, _⟩ | ⟨h3, h4⟩
      · refine .inl ⟨h3, h4, ?_, fun _ => tree_exact h4⟩
        simp only [Small, List.length_nil] at h2 ⊢; omega
      · refine .inr ⟨h3, ?_⟩
        cases hm : m.1
        · rfl
        · rw [hm] at h4; cases h4
  | avl =>
    obtain ⟨t', st, h1, h2, h3⟩ := tree_index (cmp := cmp) hc avl_scheme avl_add_contract (m.1 || m.2) rarray []
      { pool := [], itemsCount := 0 } List.Pairwise.nil ⟨.inl ⟨rfl, rfl⟩, fun h => absurd rfl h⟩
      (by simp; omega)
    refine ⟨.avl t', st, ?_, ?_⟩
    · simp only [icIndex, icNew, Tree.avlAdd]
      rw [h1]; rfl
    · rcases h3 with ⟨h3, h4, _⟩ | ⟨h3, h4⟩
      · refine .inl ⟨h3, h4, ?_, fun _ => tree_exact h4⟩
        simp only [Small, List.length_nil] at h2 ⊢; omega
      · refine .inr ⟨h3, ?_⟩
        cases hm : m.1
        · rfl
        · rw [hm] at h4; cases h4

theorem new_ok (kind : Kind) (n : Nat) : Good cmp hash [] (icNew kind) ∧ Small n (icNew kind) ∧
    Exact [] (icNew kind) := by
  cases kind with
  | unsorted => exact ⟨⟨rfl, fun _ => rfl⟩, by simp [icNew, Small], List.Perm.refl _, fun _ => rfl⟩
  | sorted => exact ⟨⟨⟨List.Pairwise.nil, rfl⟩, List.Perm.refl _⟩, by simp [icNew, Small], List.Perm.refl _, fun _ => rfl⟩
  | static => exact ⟨⟨rfl, by simp, List.Perm.refl _⟩, trivial, List.Perm.refl _, fun _ => rfl⟩
  | hash =>
    obtain ⟨h1, h2⟩ := zeroed_ok (cmp := cmp) (hash := hash) 0 (.inl rfl)
    exact ⟨⟨h1, List.Perm.refl _⟩, by simp [icNew, Small, hashNew], List.Perm.refl _, fun _ => rfl⟩
  | rb => exact ⟨⟨.inl ⟨rfl, rfl⟩, fun h => absurd rfl h⟩, by simp [icNew, Small], List.Perm.refl _, fun _ => rfl⟩
  | avl => exact ⟨⟨.inl ⟨rfl, rfl⟩, fun h => absurd rfl h⟩, by simp [icNew, Small], List.Perm.refl _, fun _ => rfl⟩

/-- sorted arrays and hash tables keep their kind -/
theorem run_sorted : ∀ (ops : List (Op Key × Bool × Bool)) (a : Arr) (ic : Ic) (rs : List (Res Key)),
    icRun cmp hash (.sorted a) ops = some (ic, rs) → ∃ a', ic = .sorted a' := by
  intro ops
  induction ops with
  | nil => intro a ic rs h; simp only [icRun, Option.some.injEq, Prod.mk.injEq] at h; exact ⟨a, h.1.symm⟩
  | cons o ops ih =>
    obtain ⟨op, m⟩ := o
    intro a ic rs h
    simp only [icRun, Option.bind_eq_bind, Option.bind_eq_some_iff] at h
    obtain ⟨⟨ic1, r1⟩, h1, ⟨ic2, r2⟩, h2, h3⟩ := h
    have : ∃ a1, ic1 = .sorted a1 := by
      cases op with
      | find k =>
        simp only [icStep, Option.bind_eq_bind, Option.bind_eq_some_iff] at h1
        obtain ⟨_, _, h1⟩ := h1
        simp only [Option.some.injEq, Prod.mk.injEq] at h1
        exact ⟨a, h1.1.symm⟩
      | add k =>
        simp only [icStep, icAdd, Option.bind_eq_bind, Option.bind_eq_some_iff] at h1
        obtain ⟨x, ⟨y, _, z, _, h2⟩, h1⟩ := h1
        simp only [Option.some.injEq, Prod.mk.injEq] at h1 h2
        subst h2
        exact ⟨y.1, h1.1.symm⟩
      | del k =>
        simp only [icStep, icDel, Option.bind_eq_bind, Option.bind_eq_some_iff] at h1
        obtain ⟨x, ⟨y, _, h2⟩, h1⟩ := h1
        simp only [Option.some.injEq, Prod.mk.injEq] at h1 h2
        subst h2
        exact ⟨y.1, h1.1.symm⟩
    obtain ⟨a1, rfl⟩ := this
    simp only [Option.some.injEq, Prod.mk.injEq] at h3
    rw [← h3.1]
    exact ih a1 ic2 r2 h2

theorem run_hash : ∀ (ops : List (Op Key × Bool × Bool)) (a : Hash) (ic : Ic) (rs : List (Res Key)),
    icRun cmp hash (.hash a) ops = some (ic, rs) → ∃ a', ic = .hash a' := by
  intro ops
  induction ops with
  | nil => intro a ic rs h; simp only [icRun, Option.some.injEq, Prod.mk.injEq] at h; exact ⟨a, h.1.symm⟩
  | cons o ops ih =>
    obtain ⟨op, m⟩ := o
    intro a ic rs h
    simp only [icRun, Option.bind_eq_bind, Option.bind_eq_some_iff] at h
    obtain ⟨⟨ic1, r1⟩, h1, ⟨ic2, r2⟩, h2, h3⟩ := h
    have : ∃ a1, ic1 = .hash a1 := by
      cases op with
      | find k =>
        simp only [icStep, Option.bind_eq_bind, Option.bind_eq_some_iff] at h1
        obtain ⟨_, _, h1⟩ := h1
        simp only [Option.some.injEq, Prod.mk.injEq] at h1
        exact ⟨a, h1.1.symm⟩
      | add k =>
        simp only [icStep, icAdd, Option.bind_eq_bind, Option.bind_eq_some_iff] at h1
        obtain ⟨x, ⟨y, _, z, _, h2⟩, h1⟩ := h1
        simp only [Option.some.injEq, Prod.mk.injEq] at h1 h2
        subst h2
        exact ⟨y.1, h1.1.symm⟩
      | del k =>
        simp only [icStep, icDel, Option.bind_eq_bind, Option.bind_eq_some_iff] at h1
        obtain ⟨x, ⟨y, _, h2⟩, h1⟩ := h1
        simp only [Option.some.injEq, Prod.mk.injEq] at h1 h2
        subst h2
        exact ⟨y.1, h1.1.symm⟩
    obtain ⟨a1, rfl⟩ := this
    simp only [Option.some.injEq, Prod.mk.injEq] at h3
    rw [← h3.1]
    exact ih a1 ic2 r2 h2

theorem tree_run (hc : Comparator cmp) {Inv : Tree.Pool → Tree.T → Prop} {wrap : TreeIc → Ic}
    (hstep : TreeStep cmp hash Inv wrap) : ∀ (ops : List (Op Key)) (n : Nat) (s : List Key) (t : TreeIc),
    Distinct cmp s → n + ops.length + 3 < 2 ^ 31 → TreeOK Inv cmp t s → t.pool.length ≤ n + 1 →
    ∃ t', icRun cmp hash (wrap t) (ops.map fun op => (op, true, true)) =
        some (wrap t', (refRun cmp s ops).2) ∧ TreeOK Inv cmp t' (refRun cmp s ops).1 ∧
      ((t.pool ≠ [] ∨ ∃ k, .add k ∈ ops) → t'.pool ≠ []) ∧
      ((∀ k, .add k ∉ ops ∧ .del k ∉ ops) → t' = t) := by
  intro ops
  induction ops with
  | nil =>
    intro n s t _ _ hg _
    exact ⟨t, rfl, hg, fun h => h.elim id fun ⟨k, hk⟩ => by simp at hk, fun _ => rfl⟩
  | cons op ops ih =>
    intro n s t hd hn hg hs
    simp only [List.length_cons] at hn
    obtain ⟨t', r, h1, h2, h3, h4, h5⟩ := hstep hd (by omega) hg hs (true, true) op
    rcases h5 with ⟨h5, h6, h7⟩ | ⟨h5, _⟩
    · obtain ⟨t'', g1, g2, g3, g4⟩ := ih (n + 1) _ t' (refStep_distinct hc hd op) (by omega) h6 h2
      refine ⟨t'', ?_, g2, ?_, ?_⟩
      · simp only [List.map_cons, icRun, h1, g1, Option.bind_eq_bind, Option.bind_some, refRun, h5]
      · rintro (h | ⟨k, hk⟩)
        · exact g3 (.inl (h3 h))
        · rw [List.mem_cons] at hk
          rcases hk with hk | hk
          · exact g3 (.inl (h7 ⟨k, hk.symm⟩))
          · exact g3 (.inr ⟨k, hk⟩)
      · intro h
        rw [g4 (fun k => ⟨fun hk => (h k).1 (by simp [hk]), fun hk => (h k).2 (by simp [hk])⟩)]
        apply h4
        cases op with
        | find k => exact ⟨k, rfl⟩
        | add k => exact absurd (by simp) (h k).1
        | del k => exact absurd (by simp) (h k).2
    · exact absurd rfl h5

/-- the same when the allocator may refuse -/
theorem tree_run_any (hc : Comparator cmp) {Inv : Tree.Pool → Tree.T → Prop} {wrap : TreeIc → Ic}
    (hstep : TreeStep cmp hash Inv wrap) :
    ∀ (ops : List (Op Key × Bool × Bool)) (n : Nat) (s : List Key) (t : TreeIc),
    Distinct cmp s → n + ops.length + 3 < 2 ^ 31 → TreeOK Inv cmp t s → t.pool.length ≤ n + 1 →
    ∃ t' rs s', icRun cmp hash (wrap t) ops = some (wrap t', rs) ∧
      Allowed cmp s (ops.map (·.1)) rs s' ∧ Distinct cmp s' ∧ TreeOK Inv cmp t' s' ∧
      t'.pool.length ≤ n + ops.length + 1 := by
  intro ops
  induction ops with
  | nil => intro n s t hd _ hg hs; exact ⟨t, [], s, rfl, .nil s, hd, hg, hs⟩
  | cons o ops ih =>
    obtain ⟨op, m⟩ := o
    intro n s t hd hn hg hs
    simp only [List.length_cons] at hn ⊢
    obtain ⟨t', r, h1, h2, _, _, h5⟩ := hstep hd (by omega) hg hs m op
    rcases h5 with ⟨h5, h6, _⟩ | ⟨_, h6, h7⟩
    · obtain ⟨t'', rs, s', g1, g2, g3, g4, g5⟩ := ih (n + 1) _ t' (refStep_distinct hc hd op) (by omega) h6 h2
      refine ⟨t'', r :: rs, s', ?_, ?_, g3, g4, by omega⟩
      · simp only [icRun, h1, g1, Option.bind_eq_bind, Option.bind_some]
      · rw [h5]; exact .ok g2
    · obtain ⟨t'', rs, s', g1, g2, g3, g4, g5⟩ := ih (n + 1) s t' hd (by omega) h6 h2
      refine ⟨t'', r :: rs, s', ?_, ?_, g3, g4, by omega⟩
      · simp only [icRun, h1, g1, Option.bind_eq_bind, Option.bind_some]
      · rcases h7 with ⟨k, rfl, hk, rfl⟩ | ⟨k, rfl, rfl⟩
        · exact .addFail hk g2
        · exact .delFail g2

/-- the item count of a history on a tree is exact unless keys were only ever deleted -/
theorem tree_not_wrapped (hc : Comparator cmp) {Inv : Tree.Pool → Tree.T → Prop} {wrap : TreeIc → Ic}
    (hstep : TreeStep cmp hash Inv wrap)
    (hw : ∀ t, Wrapped (wrap t) ↔ t.pool = [] ∧ t.itemsCount ≠ 0) (hinj : ∀ t t', wrap t = wrap t' → t = t')
    (ops : List (Op Key)) (n : Nat) (s : List Key) (t : TreeIc) (ic : Ic) (rs : List (Res Key))
    (hd : Distinct cmp s) (hn : n + ops.length + 3 < 2 ^ 31) (hg : TreeOK Inv cmp t s)
    (hs : t.pool.length ≤ n + 1)
    (hrun : icRun cmp hash (wrap t) (ops.map fun op => (op, true, true)) = some (ic, rs))
    (h0 : t.pool = [] → t.itemsCount = 0)
    (h : t.pool ≠ [] ∨ (∃ k, .add k ∈ ops) ∨ ∀ k, .del k ∉ ops) : ¬ Wrapped ic := by
  obtain ⟨t', g1, g2, g3, g4⟩ := tree_run hc hstep ops n s t hd hn hg hs
  rw [hrun] at g1
  simp only [Option.some.injEq, Prod.mk.injEq] at g1
  rw [g1.1, hw]
  rintro ⟨h1, h2⟩
  rcases h with h | h | h
  · exact g3 (.inl h) h1
  · exact g3 (.inr h) h1
  · by_cases ha : ∃ k, .add k ∈ ops
    · exact g3 (.inr ha) h1
    · have := g4 (fun k => ⟨fun hk => ha ⟨k, hk⟩, h k⟩)
      subst this
      exact h2 (h0 h1)

/-! ### the item count of trees -/

def isTree : Ic → Bool
  | .rb _ => true
  | .avl _ => true
  | _ => false

theorem step_not_tree {ic ic' : Ic} {m : Bool × Bool} {op : Op Key} {r : Res Key}
    (h : icStep cmp hash ic m op = some (ic', r)) (ht : isTree ic = false) : isTree ic' = false := by
  cases op with
  | find k =>
    simp only [icStep, Option.bind_eq_bind, Option.bind_eq_some_iff, Option.some.injEq, Prod.mk.injEq] at h
    obtain ⟨_, _, rfl, _⟩ := h
    exact ht
  | add k =>
    simp only [icStep, Option.bind_eq_bind, Option.bind_eq_some_iff, Option.some.injEq, Prod.mk.injEq] at h
    obtain ⟨⟨x, y⟩, h, rfl, _⟩ := h
    cases ic <;> simp only [isTree, Bool.true_eq_false] at ht <;>
      simp only [icAdd, unsortedAdd, staticAdd, Option.bind_eq_bind, Option.bind_eq_some_iff] at h <;>
      grind [isTree, Option.bind_eq_some_iff]
  | del k =>
    simp only [icStep, Option.bind_eq_bind, Option.bind_eq_some_iff, Option.some.injEq, Prod.mk.injEq] at h
    obtain ⟨⟨x, y⟩, h, rfl, _⟩ := h
    cases ic <;> simp only [isTree, Bool.true_eq_false] at ht <;>
      simp only [icDel, unsortedDel, Option.bind_eq_bind, Option.bind_eq_some_iff] at h <;>
      grind [isTree, Option.bind_eq_some_iff]
theorem run_not_tree : ∀ (ops : List (Op Key × Bool × Bool)) {ic ic' : Ic} {rs : List (Res Key)},
    icRun cmp hash ic ops = some (ic', rs) → isTree ic = false → isTree ic' = false := by
  intro ops
  induction ops with
  | nil => intro ic ic' rs h ht; simp only [icRun, Option.some.injEq, Prod.mk.injEq] at h; rw [← h.1]; exact ht
  | cons o ops ih =>
    obtain ⟨op, m⟩ := o
    intro ic ic' rs h ht
    simp only [icRun, Option.bind_eq_bind, Option.bind_eq_some_iff] at h
    obtain ⟨⟨ic1, r1⟩, h1, ⟨ic2, r2⟩, h2, h3⟩ := h
    simp only [Option.some.injEq, Prod.mk.injEq] at h3
    rw [← h3.1]
    exact ih h2 (step_not_tree h1 ht)

theorem staticIndexLoop_not_tree (m : Bool × Bool) : ∀ (ks : List Key) {ic ic' : Ic},
    staticIndexLoop cmp m ic ks = some ic' → isTree ic = false → isTree ic' = false := by
  intro ks
  induction ks with
  | nil => intro ic ic' h ht; cases ic <;> simp_all [staticIndexLoop]
  | cons k ks ih =>
    intro ic ic' h ht
    cases ic with
    | static s =>
      simp only [staticIndexLoop, Option.bind_eq_bind, Option.bind_eq_some_iff] at h
      obtain ⟨⟨x, y⟩, h1, h2⟩ := h
      refine ih h2 ?_
      have := step_not_tree (cmp := cmp) (hash := fun _ => 0) (ic := .static s) (m := m) (op := .add k) (ic' := x) (r := .key y)
        (by simp only [icStep, icAdd, h1, Option.bind_eq_bind, Option.bind_some]) rfl
      exact this
    | _ => simp [staticIndexLoop] at h

theorem index_not_tree {kind : Kind} {keys : List Key} {m : Bool × Bool} {ic : Ic} {st : Bool}
    (h : icIndex cmp hash (icNew kind) keys m = some (ic, st)) (ht : kind ≠ .rb ∧ kind ≠ .avl) :
    isTree ic = false := by
  cases kind <;> simp only [icIndex, icNew] at h
  · grind [isTree, Option.bind_eq_some_iff]
  · simp only [Option.bind_eq_bind, Option.bind_eq_some_iff] at h; grind [isTree, Option.bind_eq_some_iff]
  · split at h
    · simp only [Option.bind_eq_bind, Option.bind_eq_some_iff] at h; grind [isTree, Option.bind_eq_some_iff]
    · simp only [Option.bind_eq_bind, Option.bind_eq_some_iff, Option.some.injEq, Prod.mk.injEq] at h
      obtain ⟨x, h1, rfl, _⟩ := h
      exact staticIndexLoop_not_tree m keys h1 rfl
  · simp only [Option.bind_eq_bind, Option.bind_eq_some_iff] at h; grind [isTree, Option.bind_eq_some_iff]
  · exact absurd rfl ht.1
  · exact absurd rfl ht.2

theorem not_wrapped_of_not_tree {ic : Ic} (h : isTree ic = false) : ¬ Wrapped ic := by
  cases ic <;> simp_all [isTree, Wrapped]

/-- the item count of a loaded collection after a history is exact, except for a tree that was never
filled and asked to delete -/
theorem contract_not_wrapped (hc : Comparator cmp) (kind : Kind) (keys : List Key) (ops : List (Op Key))
    (hlen : keys.length + ops.length + 3 < 2 ^ 29) {ic₀ ic : Ic} {rs : List (Res Key)}
    (hindex : icIndex cmp hash (icNew kind) keys (true, true) = some (ic₀, true))
    (hrun : icRun cmp hash ic₀ (ops.map fun op => (op, true, true)) = some (ic, rs))
    (h : kind = .rb ∨ kind = .avl → keys ≠ [] ∨ (∃ k, .add k ∈ ops) ∨ ∀ k, .del k ∉ ops) :
    ¬ Wrapped ic := by
  by_cases ht : kind = .rb ∨ kind = .avl
  · have hk := h ht
    clear h
    rcases ht with rfl | rfl
    · obtain ⟨t', st, h1, h2, h3⟩ := tree_index (cmp := cmp) hc rb_scheme rb_add_contract true keys []
        { pool := [], itemsCount := 0 } List.Pairwise.nil ⟨.inl ⟨rfl, rfl⟩, fun h => absurd rfl h⟩
        (by simp; omega)
      simp only [icIndex, icNew, Tree.rbAdd, Bool.or_self] at hindex
      rw [h1] at hindex
      simp only [Option.bind_eq_bind, Option.bind_some, Option.some.injEq, Prod.mk.injEq] at hindex
      obtain ⟨rfl, rfl⟩ := hindex
      rcases h3 with ⟨_, h3, h4⟩ | ⟨h3, _⟩
      · refine tree_not_wrapped hc (rb_treeStep hc) (fun _ => .rfl) (fun _ _ h => Ic.rb.inj h) ops
          (keys.length + 3) _ t' ic rs (refIndex_distinct hc keys) (by omega) h3
          (by simp only [List.length_nil] at h2; omega) hrun ?_ ?_
        · intro h0
          rcases h4 with ⟨rfl, _⟩ | h4
          · rfl
          · exact absurd h0 h4
        · rcases h4 with ⟨rfl, rfl⟩ | h4
          · exact .inr (hk.elim (fun h => absurd rfl h) id)
          · exact .inl h4
      · cases h3
    · obtain ⟨t', st, h1, h2, h3⟩ := tree_index (cmp := cmp) hc avl_scheme avl_add_contract true keys []
        { pool := [], itemsCount := 0 } List.Pairwise.nil ⟨.inl ⟨rfl, rfl⟩, fun h => absurd rfl h⟩
        (by simp; omega)
      simp only [icIndex, icNew, Tree.avlAdd, Bool.or_self] at hindex
      rw [h1] at hindex
      simp only [Option.bind_eq_bind, Option.bind_some, Option.some.injEq, Prod.mk.injEq] at hindex
      obtain ⟨rfl, rfl⟩ := hindex
      rcases h3 with ⟨_, h3, h4⟩ | ⟨h3, _⟩
      · refine tree_not_wrapped hc (avl_treeStep hc) (fun _ => .rfl) (fun _ _ h => Ic.avl.inj h) ops
          (keys.length + 3) _ t' ic rs (refIndex_distinct hc keys) (by omega) h3
          (by simp only [List.length_nil] at h2; omega) hrun ?_ ?_
        · intro h0
          rcases h4 with ⟨rfl, _⟩ | h4
          · rfl
          · exact absurd h0 h4
        · rcases h4 with ⟨rfl, rfl⟩ | h4
          · exact .inr (hk.elim (fun h => absurd rfl h) id)
          · exact .inl h4
      · cases h3
  · refine not_wrapped_of_not_tree (run_not_tree _ hrun (index_not_tree hindex ?_))
    exact ⟨fun e => ht (.inl e), fun e => ht (.inr e)⟩

/-- the same for a collection that starts empty -/
theorem new_not_wrapped (hc : Comparator cmp) (kind : Kind) (ops : List (Op Key))
    (hlen : ops.length + 3 < 2 ^ 29) {ic : Ic} {rs : List (Res Key)}
    (hrun : icRun cmp hash (icNew kind) (ops.map fun op => (op, true, true)) = some (ic, rs))
    (h : (∃ k, .add k ∈ ops) ∨ ∀ k, .del k ∉ ops) : ¬ Wrapped ic := by
  cases kind with
  | rb =>
    exact tree_not_wrapped hc (rb_treeStep hc) (fun _ => .rfl) (fun _ _ h => Ic.rb.inj h) ops
      3 [] _ ic rs List.Pairwise.nil (by omega) ⟨.inl ⟨rfl, rfl⟩, fun h => absurd rfl h⟩ (by simp) hrun
      (fun _ => rfl) (.inr h)
  | avl =>
    exact tree_not_wrapped hc (avl_treeStep hc) (fun _ => .rfl) (fun _ _ h => Ic.avl.inj h) ops
      3 [] _ ic rs List.Pairwise.nil (by omega) ⟨.inl ⟨rfl, rfl⟩, fun h => absurd rfl h⟩ (by simp) hrun
      (fun _ => rfl) (.inr h)
  | _ => exact not_wrapped_of_not_tree (run_not_tree _ hrun rfl)
end Verif.Lemmas.Ic
