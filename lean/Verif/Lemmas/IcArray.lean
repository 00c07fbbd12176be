import Verif.Lemmas.Collection
import Verif.Lemmas.Hsort
import Verif.Model.IcArray
namespace Verif.Lemmas.IcArray
open Verif.Model Verif.Model.Ic Verif.Spec Verif.Lemmas.Collection

variable {cmp : Cmp}

/-- strictly increasing -/
def Strict (cmp : Cmp) (s : List Key) : Prop := s.Pairwise fun x y => cmp x y < 0

theorem strict_distinct {s : List Key} (h : Strict cmp s) : Distinct cmp s :=
  h.imp fun h => by omega

theorem strict_get {s : List Key} (h : Strict cmp s) {i j : Nat} (hj : j < s.length) (hij : i < j) :
    cmp (s[i]'(by omega)) s[j] < 0 := by
  exact List.pairwise_iff_getElem.mp h i j (by omega) hj hij

theorem arrayFind_spec (key : Key) (ra : List Key) : ∀ i,
    arrayFind cmp key ra i = (ra.findIdx? fun r => decide (cmp key r = 0)).map (· + i) := by
  induction ra with
  | nil => intro i; rfl
  | cons r ra ih =>
    intro i
    rw [arrayFind, ih, List.findIdx?_cons]
    by_cases h : cmp key r = 0
    · simp [h]
    · simp only [h, if_false, decide_false, Bool.false_eq_true]
      cases List.findIdx? (fun r => decide (cmp key r = 0)) ra <;> simp; omega

/-- linear search finds the reference lookup -/
theorem arrayFind_lookup (key : Key) (ra : List Key) :
    (arrayFind cmp key ra 0).bind (ra[·]?) = lookup cmp ra key ∧
    (arrayFind cmp key ra 0 = none ↔ lookup cmp ra key = none) := by
  rw [arrayFind_spec]
  induction ra with
  | nil => exact ⟨rfl, by simp [lookup_nil]⟩
  | cons r ra ih =>
    rw [List.findIdx?_cons, lookup_cons]
    by_cases h : cmp key r = 0
    · simp [h]
    · simp only [h, if_false, decide_false, Bool.false_eq_true]
      obtain ⟨h1, h2⟩ := ih
      rw [← h1]
      cases hj : List.findIdx? (fun r => decide (cmp key r = 0)) ra with
      | none => simp
      | some j =>
        have := (List.findIdx?_eq_some_iff_getElem.mp hj).1
        simp [this]

/-- Where `key` belongs in `ra`. -/
structure At (cmp : Cmp) (ra : List Key) (key : Key) (diff : Int) (idx : Nat) : Prop where
  le : idx ≤ ra.length
  below : ∀ (j : Nat) (hj : j < ra.length), j < idx → cmp key ra[j] > 0
  eq : diff = 0 → ∃ h : idx < ra.length, cmp key ra[idx] = 0
  above : diff ≠ 0 → ∀ (j : Nat) (hj : j < ra.length), idx ≤ j → cmp key ra[j] < 0

theorem findIdxLoop_ok (hc : Comparator cmp) (ra : List Key) (hs : Strict cmp ra)
    (hlen : ra.length < 2 ^ 31) (key : Key) : ∀ (fuel down up : Nat) (diff : Int),
    up - down < fuel → down ≤ up → up ≤ ra.length →
    (∀ (j : Nat) (hj : j < ra.length), j < down → cmp key ra[j] > 0) →
    (diff = 0 → ∃ h : up < ra.length, cmp key ra[up] = 0) →
    (diff ≠ 0 → ∀ (j : Nat) (hj : j < ra.length), up ≤ j → cmp key ra[j] < 0) →
    ∃ d i, findIdxLoop cmp ra key fuel down up diff = some (d, i) ∧ At cmp ra key d i := by
  intro fuel
  induction fuel with
  | zero => intro down up diff h; omega
  | succ fuel ih =>
    intro down up diff hf hdu hul hb he ha
    rw [findIdxLoop]
    by_cases hcond : up ≠ down ∧ diff ≠ 0
    · rw [if_pos hcond]
      have hmid : u32 (down + up) / 2 = (down + up) / 2 := by unfold u32; omega
      rw [hmid]
      have hm1 : down ≤ (down + up) / 2 := by omega
      have hm2 : (down + up) / 2 < up := by omega
      generalize (down + up) / 2 = mid at *
      have hm : mid < ra.length := by omega
      simp only [List.getElem?_eq_getElem hm, Option.bind_eq_bind, Option.bind_some]
      by_cases hd : cmp key ra[mid] ≤ 0
      · rw [if_pos hd]
        refine ih _ _ _ (by clear he ha hb hmid; omega) (by clear he ha hb hmid; omega) (by clear he ha hb hmid; omega) hb (fun h => ⟨hm, h⟩) ?_
        intro hne j hj hmj
        by_cases hjm : j = mid
        · subst hjm; omega
        · have := strict_get hs hj (i := mid) (by omega)
          exact cmp_lt_of_le_of_lt hc hd this
      · rw [if_neg hd]
        refine ih _ _ _ (by clear he ha hb hmid; omega) (by clear he ha hb hmid; omega) (by clear he ha hb hmid; omega) ?_ (by omega) (fun _ => ha hcond.2)
        intro j hj hjm
        by_cases hjm' : j = mid
        · subst hjm'; omega
        · have h1 := strict_get hs hm (i := j) (by omega)
          have h2 : cmp ra[mid] key < 0 := (hc.anti _ _).mp (by omega)
          exact (hc.anti _ _).mpr (cmp_lt_of_lt_of_le hc h1 (by omega))
    · rw [if_neg hcond]
      refine ⟨diff, up, rfl, hul, ?_, he, ha⟩
      intro j hj hju
      by_cases hd : diff = 0
      · obtain ⟨h1, h2⟩ := he hd
        have h3 := strict_get hs h1 hju
        exact (hc.anti _ _).mpr (cmp_lt_of_lt_of_le hc h3 (by have := cmp_symm hc h2; omega))
      · exact hb j hj (by have : up = down := by omega
                          omega)

theorem findIdx_ok (hc : Comparator cmp) (ra : List Key) (hs : Strict cmp ra)
    (hlen : ra.length < 2 ^ 31) (key : Key) :
    ∃ d i, findIdx cmp ra key = some (d, i) ∧ At cmp ra key d i :=
  findIdxLoop_ok hc ra hs hlen key _ _ _ _ (by omega) (by omega) (by omega) (by intros; omega)
    (by omega) (by intros; omega)

theorem At.lookup_some (hc : Comparator cmp) {ra : List Key} (hs : Strict cmp ra) {key : Key}
    {idx : Nat} (h : At cmp ra key 0 idx) : ∃ hi : idx < ra.length, lookup cmp ra key = some ra[idx] := by
  obtain ⟨h1, h2⟩ := h.eq rfl
  exact ⟨h1, (lookup_eq_some_iff hc (strict_distinct hs)).mpr ⟨List.getElem_mem _, h2⟩⟩

theorem At.lookup_none {ra : List Key} {key : Key} {d : Int} {idx : Nat} (h : At cmp ra key d idx)
    (hd : d ≠ 0) : lookup cmp ra key = none := by
  rw [Collection.lookup_none]
  intro r hr
  obtain ⟨j, hj, rfl⟩ := List.getElem_of_mem hr
  by_cases hji : j < idx
  · have := h.below j hj hji; omega
  · have := h.above hd j hj (by omega); omega

/-- Invariant of a sorted-array collection. -/
structure ArrOK (cmp : Cmp) (a : Arr) : Prop where
  strict : Strict cmp a.ra
  count : a.itemsCount = a.ra.length

theorem sortedFind_ok (hc : Comparator cmp) {a : Arr} (ha : ArrOK cmp a) (hlen : a.ra.length < 2 ^ 31)
    (key : Key) : ∃ r, sortedFind cmp a key = some r ∧ r.bind (a.ra[·]?) = lookup cmp a.ra key ∧
      (r = none ↔ lookup cmp a.ra key = none) := by
  obtain ⟨d, i, h1, h2⟩ := findIdx_ok hc a.ra ha.strict hlen key
  unfold sortedFind
  simp only [h1, Option.bind_eq_bind, Option.bind_some]
  by_cases hd : d = 0
  · subst hd
    obtain ⟨hi, hl⟩ := h2.lookup_some hc ha.strict
    exact ⟨some i, rfl, by simp [hl, hi], by simp [hl]⟩
  · refine ⟨none, by simp [hd], ?_, ?_⟩ <;> simp [h2.lookup_none hd]

theorem sortedAdd_ok (hc : Comparator cmp) {a : Arr} (ha : ArrOK cmp a) (hlen : a.ra.length < 2 ^ 31)
    (key : Key) (ok : Bool) (junk : Key) :
    ∃ a' r, sortedAdd cmp a key ok junk = some (a', r) ∧ ArrOK cmp a' ∧
      ((∃ v, lookup cmp a.ra key = some v ∧ a' = a ∧ r.bind (a'.ra[·]?) = some v) ∨
       (lookup cmp a.ra key = none ∧ ok = true ∧ a'.ra.Perm (a.ra ++ [key]) ∧
          r.bind (a'.ra[·]?) = some key) ∨
       (lookup cmp a.ra key = none ∧ ok = false ∧ a' = a ∧ r = none)) := by
  obtain ⟨d, i, h1, h2⟩ := findIdx_ok hc a.ra ha.strict hlen key
  unfold sortedAdd
  simp only [h1, Option.bind_eq_bind, Option.bind_some]
  by_cases hd : d = 0
  · subst hd
    obtain ⟨hi, hl⟩ := h2.lookup_some hc ha.strict
    exact ⟨a, some i, rfl, ha, .inl ⟨_, hl, rfl, by simp [hi]⟩⟩
  · rw [if_neg hd]
    cases ok with
    | false => exact ⟨a, none, rfl, ha, .inr (.inr ⟨h2.lookup_none hd, rfl, rfl, rfl⟩)⟩
    | true =>
      have hle := h2.le
      have hn : lookup cmp a.ra key = none := h2.lookup_none hd
      have hmv : memmove (a.ra ++ [junk]) (i + 1) i ((a.ra ++ [junk]).length - (i + 1)) =
          some ((a.ra ++ [junk]).take (i + 1) ++ a.ra.drop i) := by
        unfold memmove
        rw [if_pos (by simp; omega)]
        congr 1
        rw [List.append_assoc]
        congr 1
        rw [List.drop_eq_nil_of_le (i := i + 1 + _) (by simp; omega), List.append_nil,
          List.drop_append_of_le_length hle, List.take_append_of_le_length (by simp)]
        rw [List.take_of_length_le (by simp)]
      have hset : ((a.ra ++ [junk]).take (i + 1) ++ a.ra.drop i).set i key =
          a.ra.take i ++ key :: a.ra.drop i := by
        apply List.ext_getElem?
        intro n
        rw [List.getElem?_set]
        simp only [List.getElem?_append, List.length_take, List.length_append, List.length_drop,
          List.getElem?_take, List.getElem?_drop, List.length_singleton]
        by_cases hn : i = n
        · subst hn
          rw [if_pos rfl, if_pos (by omega), if_neg (by omega)]
          simp [Nat.min_eq_left hle]
        · rw [if_neg hn]
          by_cases hlt : n < i
          · rw [if_pos (by omega), if_pos (by omega), if_pos (by omega), if_pos (by omega), if_pos (by omega)]
          · rw [if_neg (by omega), if_neg (by omega)]
            have : n - min i a.ra.length = (n - min (i + 1) (a.ra.length + 1)) + 1 := by omega
            rw [this, List.getElem?_cons_succ, List.getElem?_drop]
      have hwr : wr ((a.ra ++ [junk]).take (i + 1) ++ a.ra.drop i) i key =
          some (a.ra.take i ++ key :: a.ra.drop i) := by
        unfold wr
        rw [if_pos (by simp; omega), hset]
      simp only [Bool.not_true, Bool.false_eq_true, if_false, hmv, Option.bind_some, hwr]
      refine ⟨_, _, rfl, ⟨?_, rfl⟩, .inr (.inl ⟨hn, trivial, ?_, ?_⟩)⟩
      · show Strict cmp (a.ra.take i ++ key :: a.ra.drop i)
        unfold Strict
        rw [List.pairwise_append, List.pairwise_cons]
        have hst : Strict cmp (a.ra.take i ++ a.ra.drop i) := by
          rw [List.take_append_drop]; exact ha.strict
        unfold Strict at hst
        rw [List.pairwise_append] at hst
        refine ⟨hst.1, ⟨?_, hst.2.1⟩, ?_⟩
        · intro y hy
          obtain ⟨j, hj, rfl⟩ := List.getElem_of_mem hy
          rw [List.getElem_drop]
          exact h2.above hd _ _ (by omega)
        · intro x hx y hy
          rw [List.mem_cons] at hy
          rcases hy with rfl | hy
          · obtain ⟨j, hj, rfl⟩ := List.getElem_of_mem hx
            rw [List.getElem_take]
            simp only [List.length_take] at hj
            exact (hc.anti _ _).mp (h2.below j (by omega) (by omega))
          · exact hst.2.2 x hx y hy
      · show (a.ra.take i ++ key :: a.ra.drop i).Perm _
        refine List.perm_middle.trans ?_
        rw [List.take_append_drop]
        exact (List.perm_append_comm (l₁ := [key]) (l₂ := a.ra))
      · show (a.ra.take i ++ key :: a.ra.drop i)[i]? = some key
        rw [List.getElem?_append_right (by simp; omega)]
        simp [Nat.min_eq_left hle]

theorem sortedDel_ok (hc : Comparator cmp) {a : Arr} (ha : ArrOK cmp a) (hlen : a.ra.length < 2 ^ 31)
    (key : Key) :
    ∃ a' st, sortedDel cmp a key = some (a', st) ∧ ArrOK cmp a' ∧
      ((∃ v, lookup cmp a.ra key = some v ∧ st = true ∧
          a'.ra = a.ra.filter (fun r => decide (cmp key r ≠ 0))) ∨
       (lookup cmp a.ra key = none ∧ st = false ∧ a' = a)) := by
  obtain ⟨d, i, h1, h2⟩ := findIdx_ok hc a.ra ha.strict hlen key
  unfold sortedDel
  simp only [h1, Option.bind_eq_bind, Option.bind_some]
  by_cases hd : d = 0
  · subst hd
    obtain ⟨hi, hl⟩ := h2.lookup_some hc ha.strict
    obtain ⟨_, hz⟩ := h2.eq rfl
    have hmv : memmove a.ra i (i + 1) (a.ra.length - 1 - i) =
        some (a.ra.take i ++ a.ra.drop (i + 1) ++ a.ra.drop (a.ra.length - 1)) := by
      unfold memmove
      rw [if_pos (by omega)]
      congr 1
      congr 1
      · congr 1
        rw [List.take_of_length_le (by simp; omega)]
      · congr 1; omega
    have htk : (a.ra.take i ++ a.ra.drop (i + 1) ++ a.ra.drop (a.ra.length - 1)).take
        (a.ra.length - 1) = a.ra.take i ++ a.ra.drop (i + 1) := by
      rw [List.take_append_of_le_length (by simp; omega), List.take_of_length_le (by simp; omega)]
    simp only [ne_eq, not_true, if_false, hmv, Option.bind_some, htk]
    have hfil : a.ra.take i ++ a.ra.drop (i + 1) = a.ra.filter (fun r => decide (cmp key r ≠ 0)) := by
      have e : a.ra = a.ra.take i ++ a.ra[i] :: a.ra.drop (i + 1) := by
        rw [← List.drop_eq_getElem_cons hi, List.take_append_drop]
      conv => rhs; rw [e]
      rw [List.filter_append, List.filter_cons]
      have f1 : (a.ra.take i).filter (fun r => decide (cmp key r ≠ 0)) = a.ra.take i := by
        rw [List.filter_eq_self]
        intro x hx
        obtain ⟨j, hj, rfl⟩ := List.getElem_of_mem hx
        simp only [List.length_take] at hj
        rw [List.getElem_take]
        have := h2.below j (by omega) (by omega)
        simp; omega
      have f2 : (a.ra.drop (i + 1)).filter (fun r => decide (cmp key r ≠ 0)) = a.ra.drop (i + 1) := by
        rw [List.filter_eq_self]
        intro x hx
        obtain ⟨j, hj, rfl⟩ := List.getElem_of_mem hx
        simp only [List.length_drop] at hj
        rw [List.getElem_drop]
        have := strict_get ha.strict (i := i) (j := i + 1 + j) (by omega) (by omega)
        have := cmp_lt_of_le_of_lt hc (x := key) (by omega) this
        simp; omega
      rw [f1, f2]
      simp [hz]
    refine ⟨_, _, rfl, ⟨?_, ?_⟩, .inl ⟨_, hl, rfl, hfil⟩⟩
    · show Strict cmp (a.ra.take i ++ a.ra.drop (i + 1))
      rw [hfil]; exact List.Pairwise.filter _ ha.strict
    · show a.ra.length - 1 = (a.ra.take i ++ a.ra.drop (i + 1)).length
      simp; omega
  · simp only [ne_eq, hd, not_false_eq_true, if_true]
    exact ⟨a, false, rfl, ha, .inr ⟨h2.lookup_none hd, rfl, rfl⟩⟩

/-! ### bulk index -/

theorem sortKeyCmp_pre (hc : Comparator cmp) (rarray : List Key) :
    TotalPreorder (sortKeyCmp cmp rarray) := by
  constructor
  · intro x y h
    unfold sortKeyCmp at *
    have := hc.anti (rarray.getD x 0) (rarray.getD y 0)
    have := hc.anti (rarray.getD y 0) (rarray.getD x 0)
    grind
  · intro x y z h1 h2
    unfold sortKeyCmp at *
    have t := hc.trans (rarray.getD x 0) (rarray.getD y 0) (rarray.getD z 0)
    have t1 := cmp_lt_of_lt_of_le hc (x := rarray.getD x 0) (y := rarray.getD y 0) (z := rarray.getD z 0)
    have t2 := cmp_lt_of_le_of_lt hc (x := rarray.getD x 0) (y := rarray.getD y 0) (z := rarray.getD z 0)
    grind

/-- the key at an index of the input -/
def val (rarray : List Key) (i : Nat) : Key := rarray.getD i 0

theorem dedupLoop_ok (hc : Comparator cmp) (rarray : List Key) : ∀ (src : List Nat) (prev : Key)
    (out done : List Key),
    (∀ i ∈ src, i < rarray.length) →
    (done ++ src.map (val rarray)).Pairwise (fun x y => cmp x y ≤ 0) →
    (∀ x ∈ done, cmp x prev ≤ 0) → prev ∈ done →
    (∀ x ∈ out, x ∈ done) → Strict cmp out → (∀ k, lookup cmp out k = lookup cmp done k) →
    ∃ out', dedupLoop cmp rarray src prev out = some out' ∧ Strict cmp out' ∧
      ∀ k, lookup cmp out' k = lookup cmp (done ++ src.map (val rarray)) k := by
  intro src
  induction src with
  | nil =>
    intro prev out done _ _ _ _ _ h1 h2
    exact ⟨out, rfl, h1, by simpa using h2⟩
  | cons s src ih =>
    intro prev out done hin hsort hprev hpd hsub hstrict hlook
    have hs : s < rarray.length := hin s (by simp)
    have hv : val rarray s = rarray[s] := by simp [val, hs]
    rw [dedupLoop]
    simp only [List.getElem?_eq_getElem hs, Option.bind_eq_bind, Option.bind_some]
    rw [List.map_cons, hv] at hsort
    have hsort' : ((done ++ [rarray[s]]) ++ src.map (val rarray)).Pairwise
        (fun x y => cmp x y ≤ 0) := by simpa using hsort
    have hle : ∀ x ∈ done, cmp x rarray[s] ≤ 0 := by
      rw [List.pairwise_append] at hsort
      exact fun x hx => hsort.2.2 x hx _ (by simp)
    have hex : ∀ x, (x = prev ∨ x ∈ done) ↔ x ∈ done := by
      intro x
      constructor
      · rintro (rfl | h)
        · exact hpd
        · exact h
      · exact .inr
    have hmap : done ++ (s :: src).map (val rarray) = (done ++ [rarray[s]]) ++ src.map (val rarray) := by
      simp [hv]
    rw [hmap]
    apply ih
    · exact fun i hi => hin i (by simp [hi])
    · exact hsort'
    · intro x hx
      rw [List.mem_append, List.mem_singleton] at hx
      rcases hx with hx | rfl
      · exact hle x hx
      · have := cmp_self hc rarray[s]; omega
    · simp
    · intro x hx
      split at hx
      · rw [List.mem_append] at hx ⊢
        exact hx.imp (hsub x) id
      · rw [List.mem_append]; exact .inl (hsub x hx)
    · split
      · rename_i hne
        have hlt : cmp prev rarray[s] < 0 := by
          have h1 := hle prev hpd
          by_cases h0 : cmp prev rarray[s] = 0
          · exact absurd (cmp_symm hc h0) hne
          · omega
        unfold Strict
        rw [List.pairwise_append]
        refine ⟨hstrict, List.pairwise_singleton _ _, ?_⟩
        intro x hx y hy
        rw [List.mem_singleton] at hy
        subst hy
        exact cmp_lt_of_le_of_lt hc (hprev x (hsub x hx)) hlt
      · exact hstrict
    · intro k
      split
      · rw [lookup_append, lookup_append, hlook]
      · rename_i hne
        have hz : cmp rarray[s] prev = 0 := by omega
        rw [lookup_append, hlook, lookup_cons, lookup_nil]
        by_cases hk : cmp k rarray[s] = 0
        · have hkp : cmp k prev = 0 := cmp_eq_trans hc hk hz
          cases hl : lookup cmp done k with
          | none => exact absurd hkp (lookup_none.mp hl prev hpd)
          | some r => rfl
        · rw [if_neg hk]; simp

theorem find_first {p : Nat → Bool} (l : List Nat) (i : Nat) (hi : i ∈ l) (hp : p i = true)
    (hmin : ∀ l1 l2, l = l1 ++ i :: l2 → ∀ j ∈ l1, p j = false) : l.find? p = some i := by
  obtain ⟨l1, l2, rfl⟩ := List.append_of_mem hi
  rw [List.find?_append]
  have : l1.find? p = none := by
    rw [List.find?_eq_none]
    intro x hx
    rw [hmin l1 l2 rfl x hx]; decide
  rw [this]
  simp [hp]

theorem lookup_map_val (rarray : List Key) (l : List Nat) (k : Key) :
    lookup cmp (l.map (val rarray)) k =
      (l.find? fun i => decide (cmp k (val rarray i) = 0)).map (val rarray) := by
  unfold lookup
  rw [List.find?_map]
  rfl

/-- Searching the sorted indices gives the same key as searching the input in order. -/
theorem sorted_lookup (hc : Comparator cmp) (rarray : List Key) (idxs : List Nat)
    (hp : idxs.Perm (List.range rarray.length)) (hs : Sorted (sortKeyCmp cmp rarray) idxs) (k : Key) :
    lookup cmp (idxs.map (val rarray)) k = lookup cmp rarray k := by
  have hr : rarray = (List.range rarray.length).map (val rarray) := by
    apply List.ext_getElem
    · simp
    · intro n h1 h2; simp [val, h1]
  conv => rhs; rw [hr]
  rw [lookup_map_val, lookup_map_val]
  congr 1
  cases h : (List.range rarray.length).find? fun i => decide (cmp k (val rarray i) = 0) with
  | none =>
    rw [List.find?_eq_none] at h ⊢
    exact fun x hx => h x (hp.mem_iff.mp hx)
  | some i =>
    have hi := List.mem_of_find?_eq_some h
    have hpi := List.find?_some h
    apply find_first
    · exact hp.mem_iff.mpr hi
    · exact hpi
    · intro l1 l2 he j hj
      have hlt : ∀ j < i, ¬ (cmp k (val rarray j) = 0) := by
        intro j hj
        rw [List.find?_range_eq_some] at h
        simpa using h.2.2 j hj
      have hnd : idxs.Nodup := hp.symm.nodup List.nodup_range
      have hne : j ≠ i := by
        rintro rfl
        rw [he, List.nodup_append] at hnd
        exact hnd.2.2 _ hj _ (by simp) rfl
      have hle : sortKeyCmp cmp rarray j i ≤ 0 := by
        unfold Sorted at hs
        rw [he, List.pairwise_append] at hs
        exact hs.2.2 j hj i (by simp)
      simp only [decide_eq_false_iff_not]
      intro hj0
      have hpi' : cmp k (val rarray i) = 0 := by simpa using hpi
      have hji : cmp (val rarray j) (val rarray i) = 0 :=
        cmp_eq_trans hc (cmp_symm hc hj0) hpi'
      unfold sortKeyCmp at hle
      simp only [val] at hji
      rw [hji] at hle
      have : j < i := by simp at hle; split at hle <;> split at hle <;> omega
      exact hlt j this hj0

theorem sortedIndex_ok (hc : Comparator cmp) (rarray : List Key) (hlen : rarray.length < 2 ^ 31)
    (ok : Bool) :
    ∃ a st, sortedIndex cmp rarray ok = some (a, st) ∧ ArrOK cmp a ∧
      ((st = true ∧ a.ra.length ≤ rarray.length ∧ ∀ k, lookup cmp a.ra k = lookup cmp rarray k) ∨
       (st = false ∧ ok = false)) := by
  unfold sortedIndex
  by_cases h0 : rarray.length > 0
  · rw [if_pos h0]
    cases ok with
    | false => exact ⟨_, _, rfl, ⟨List.Pairwise.nil, rfl⟩, .inr ⟨rfl, rfl⟩⟩
    | true =>
      obtain ⟨b, h1, h2, h3⟩ := Lemmas.Hsort.hsort_ok (sortKeyCmp cmp rarray)
        (List.range rarray.length) (by rw [List.length_range]; omega)
      have hsorted := h3 (sortKeyCmp_pre hc rarray)
      have hlook := sorted_lookup hc rarray b h2 hsorted
      simp only [Bool.not_true, Bool.false_eq_true, if_false, h1, Option.bind_eq_bind,
        Option.bind_some]
      cases b with
      | nil =>
        have := h2.length_eq
        simp at this; omega
      | cons i0 rest =>
        have hin : ∀ i ∈ i0 :: rest, i < rarray.length := fun i hi => by
          simpa using h2.mem_iff.mp hi
        have hi0 := hin i0 (by simp)
        simp only [List.getElem?_eq_getElem hi0, Option.bind_some]
        have hv : val rarray i0 = rarray[i0] := by simp [val, hi0]
        have hpw : ((i0 :: rest).map (val rarray)).Pairwise (fun x y => cmp x y ≤ 0) := by
          rw [List.pairwise_map]
          refine List.Pairwise.imp ?_ hsorted
          intro x y hxy
          unfold sortKeyCmp at hxy
          show cmp (rarray.getD x 0) (rarray.getD y 0) ≤ 0
          grind
        obtain ⟨out, ho, hst, hlk⟩ := dedupLoop_ok hc rarray rest rarray[i0] [rarray[i0]] [rarray[i0]]
          (fun i hi => hin i (by simp [hi])) (by simpa [hv] using hpw)
          (by simp [cmp_self hc]) (by simp) (fun x hx => hx) (List.pairwise_singleton _ _)
          (fun k => rfl)
        simp only [ho, Option.bind_some]
        have hlk' : ∀ k, lookup cmp out k = lookup cmp rarray k := by
          intro k
          rw [hlk, ← hlook k, List.map_cons, hv]; rfl
        refine ⟨_, _, rfl, ⟨hst, rfl⟩, .inl ⟨rfl, ?_, hlk'⟩⟩
        have hsubset : ∀ x ∈ out, x ∈ rarray := by
          intro x hx
          have := (lookup_eq_some_iff hc (strict_distinct hst)).mpr ⟨hx, cmp_self hc x⟩
          rw [hlk'] at this
          exact (lookup_some_mem this).1
        exact (distinct_nodup hc (strict_distinct hst)).length_le_of_subset hsubset
  · rw [if_neg h0]
    have : rarray = [] := List.length_eq_zero_iff.mp (by omega)
    subst this
    exact ⟨_, _, rfl, ⟨List.Pairwise.nil, rfl⟩, .inl ⟨rfl, by simp, fun k => rfl⟩⟩

end Verif.Lemmas.IcArray
