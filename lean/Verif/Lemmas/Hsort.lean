import Verif.Model.Hsort
import Verif.Spec.Order
namespace Verif.Lemmas.Hsort
open Verif.Model Verif.Model.Hsort Verif.Spec

variable {α : Type}

/-- `b` differs from `a` only by exchanging positions `i` and `j`. -/
theorem perm_swap_set (a : List α) (i j : Nat) (c x : α) (hi : i < a.length)
    (hj : a[j]? = some c) (hij : i ≠ j) :
    ((a.set i c).set j x).Perm (a.set i x) := by
  have hjl : j < a.length := by
    rw [List.getElem?_eq_some_iff] at hj; exact hj.1
  have h := List.set_set_perm (as := a.set i x) (i := i) (j := j) (by simpa) (by simpa)
  have e1 : (a.set i x)[j]'(by simpa) = c := by
    rw [List.getElem?_eq_some_iff] at hj
    obtain ⟨_, hj⟩ := hj
    rw [List.getElem_set_ne hij]; exact hj
  have e2 : (a.set i x)[i]'(by simpa) = x := by simp
  rw [e1, e2] at h
  simpa using h

/-- Heap order between `p` and its children inside `[0, count]`. -/
def HeapAt (cmp : α → α → Int) (count : Nat) (b : List α) (p : Nat) : Prop :=
  ∀ c vc vp, (c = 2 * p + 1 ∨ c = 2 * p + 2) → c ≤ count →
    b[c]? = some vc → b[p]? = some vp → cmp vc vp ≤ 0

/-- Sift-down invariant: heap order holds at every `p ≥ lo` except the hole, and the parent of the
hole dominates the children of the hole. -/
def SiftInv (cmp : α → α → Int) (count lo : Nat) (b : List α) (hole : Nat) : Prop :=
  (∀ p, lo ≤ p → p ≠ hole → HeapAt cmp count b p) ∧
  (∀ p c vc vp, lo ≤ p → (hole = 2 * p + 1 ∨ hole = 2 * p + 2) →
    (c = 2 * hole + 1 ∨ c = 2 * hole + 2) → c ≤ count →
    b[c]? = some vc → b[p]? = some vp → cmp vc vp ≤ 0)

theorem siftInv_step (cmp : α → α → Int) (hc : TotalPreorder cmp) (count lo : Nat) (a : List α)
    (x : α) (i0 i1 : Nat) (c : α) (hlen : count < a.length) (hlo : lo ≤ i0)
    (h1 : i1 = 2 * i0 + 1 ∨ i1 = 2 * i0 + 2) (h1c : i1 ≤ count) (hcv : a[i1]? = some c)
    (hsib : ∀ j v, (j = 2 * i0 + 1 ∨ j = 2 * i0 + 2) → j ≤ count → a[j]? = some v → cmp v c ≤ 0)
    (hgt : cmp c x > 0)
    (hinv : SiftInv cmp count lo (a.set i0 x) i0) :
    SiftInv cmp count lo ((a.set i0 c).set i1 x) i1 := by
  obtain ⟨hA, hB⟩ := hinv
  have hne : i0 ≠ i1 := by omega
  have hxc := hc.total _ _ hgt
  constructor
  · intro p hp hpi k vk vp hk hkc hvk hvp
    have hA' := hA p hp
    unfold HeapAt at hA'
    simp only [List.getElem?_set] at *
    by_cases hp0 : p = i0
    · subst hp0
      by_cases hk1 : k = i1
      · subst hk1
        simp at hvk hvp
        grind
      · have := hsib k vk hk hkc
        grind
    · by_cases hk0 : k = i0
      · subst hk0
        have := hB p i1 c vp hp hk h1 h1c
        grind
      · have hk1 : k ≠ i1 := by omega
        have := hA' hp0 k vk vp hk hkc
        grind
  · intro p k vk vp hp hpi hk hkc hvk hvp
    have hp0 : p = i0 := by omega
    subst hp0
    have := hA i1 (by omega) (by omega) k vk c hk hkc
    simp only [List.getElem?_set] at *
    grind

theorem siftInv_stop (cmp : α → α → Int) (count lo : Nat) (b : List α)
    (x : α) (i0 : Nat) (hx : b[i0]? = some x)
    (hsib : ∀ j v, (j = 2 * i0 + 1 ∨ j = 2 * i0 + 2) → j ≤ count → b[j]? = some v → cmp v x ≤ 0)
    (hinv : SiftInv cmp count lo b i0) :
    ∀ p, lo ≤ p → HeapAt cmp count b p := by
  intro p hp
  by_cases h : p = i0
  · subst h
    intro c vc vp hcc hcl hvc hvp
    have := hsib c vc hcc hcl hvc
    grind
  · exact hinv.1 p hp h

/-- Loop of `sift`: always stops without out-of-bounds access and keeps the elements. -/
theorem siftLoop_ok (cmp : α → α → Int) (count : Nat) (x : α) (n : Nat) (hn : count < n)
    (h31 : n ≤ 2147483648) :
    ∀ (fuel : Nat) (a : List α) (i0 : Nat), a.length = n → i0 ≤ count → count < fuel + i0 →
    ∃ a' j j1, siftLoop cmp count x fuel a i0 (2 * i0 + 1) = some (a', j, j1) ∧
      j ≤ count ∧ a'.length = n ∧ (a'.set j x).Perm (a.set i0 x) ∧
      (a'.drop (count + 1) = a.drop (count + 1)) ∧ j1 ≠ j ∧
      (∀ lo, TotalPreorder cmp → lo ≤ i0 → SiftInv cmp count lo (a.set i0 x) i0 →
        lo ≤ j ∧ SiftInv cmp count lo (a'.set j x) j ∧
        ((j1 = count ∧ j1 = 2 * j + 1) ∨
         (∀ k v, (k = 2 * j + 1 ∨ k = 2 * j + 2) → k ≤ count → a'[k]? = some v → cmp v x ≤ 0) ∧
         (j1 = count → ∀ v, a'[count]? = some v → cmp v x ≤ 0))) := by
  intro fuel
  induction fuel with
  | zero => intro a i0 _ _ h; omega
  | succ fuel ih =>
    intro a i0 hlen hi0 hf
    unfold siftLoop
    by_cases hlt : 2 * i0 + 1 < count
    · have hl : 2 * i0 + 1 < a.length := by omega
      have hr : 2 * i0 + 2 < a.length := by omega
      have e2 : u32 (2 * i0 + 1 + 1) = 2 * i0 + 2 := by unfold u32; omega
      simp only [hlt, if_true, e2, List.getElem?_eq_getElem hl, List.getElem?_eq_getElem hr,
        Option.bind_eq_bind, Option.bind_some]
      -- the chosen child
      generalize hk : (if cmp a[2 * i0 + 1] a[2 * i0 + 2] ≤ 0 then 2 * i0 + 2 else 2 * i0 + 1) = k
      have hk' : k = 2 * i0 + 1 ∨ k = 2 * i0 + 2 := by split at hk <;> omega
      have hkc : k ≤ count := by omega
      have hkl : k < a.length := by omega
      simp only [List.getElem?_eq_getElem hkl, Option.bind_some]
      have hsib : TotalPreorder cmp → ∀ j v, (j = 2 * i0 + 1 ∨ j = 2 * i0 + 2) → j ≤ count →
          a[j]? = some v → cmp v a[k] ≤ 0 := by
        intro hc j v hj hjc hv
        have hrefl : ∀ y, cmp y y ≤ 0 := fun y => by
          by_cases h : cmp y y > 0
          · exact hc.total _ _ h
          · omega
        have ht := hc.total a[2 * i0 + 1] a[2 * i0 + 2]
        rw [List.getElem?_eq_some_iff] at hv
        obtain ⟨hjl, hv⟩ := hv
        subst hv
        split at hk <;> subst hk <;> rcases hj with rfl | rfl <;> first | exact hrefl _ | grind
      by_cases hcx : cmp a[k] x ≤ 0
      · refine ⟨a, i0, k, by simp [hcx], hi0, hlen, List.Perm.refl _, rfl, by omega, ?_⟩
        intro lo hc hlo hinv
        refine ⟨hlo, hinv, Or.inr ⟨?_, ?_⟩⟩
        · intro j v hj hjc hv
          exact hc.trans _ _ _ (hsib hc j v hj hjc hv) hcx
        · intro hkcount v hv
          subst hkcount
          rw [List.getElem?_eq_getElem hkl] at hv
          simp at hv; subst hv; exact hcx
      · have hw : wr a i0 a[k] = some (a.set i0 a[k]) := by
          unfold wr; rw [if_pos]; omega
        have e3 : u32 (2 * k + 1) = 2 * k + 1 := by unfold u32; omega
        simp only [hcx, if_false, hw, Option.bind_some, e3]
        obtain ⟨a', j, j1, hres, hj, hl', hp, hd, hjj, hheap⟩ :=
          ih (a.set i0 a[k]) k (by simpa using hlen) hkc (by omega)
        refine ⟨a', j, j1, hres, hj, hl', ?_, ?_, hjj, ?_⟩
        · exact hp.trans (perm_swap_set a i0 k _ x (by omega) (List.getElem?_eq_getElem hkl) (by omega))
        · rw [hd, List.drop_set_of_lt (by omega)]
        · intro lo hc hlo hinv
          refine hheap lo hc (by omega) ?_
          exact siftInv_step cmp hc count lo a x i0 k a[k] (by omega) hlo hk' hkc
            (List.getElem?_eq_getElem hkl) (hsib hc) (by omega) hinv
    · simp only [hlt, if_false]
      refine ⟨a, i0, 2 * i0 + 1, rfl, hi0, hlen, List.Perm.refl _, rfl, by omega, ?_⟩
      intro lo hc hlo hinv
      refine ⟨hlo, hinv, ?_⟩
      by_cases he : 2 * i0 + 1 = count
      · exact Or.inl ⟨he, rfl⟩
      · exact Or.inr ⟨fun k v hk hkc => by omega, fun h => by omega⟩

/-- `sift` stops, stays in bounds, permutes `[0, count]`, and restores heap order. -/
theorem sift_ok (cmp : α → α → Int) (count : Nat) (a : List α) (i0 : Nat)
    (hn : count < a.length) (h31 : a.length ≤ 2147483648) (hi0 : i0 ≤ count) :
    ∃ b, sift cmp count a i0 = some b ∧ b.length = a.length ∧ b.Perm a ∧
      b.drop (count + 1) = a.drop (count + 1) ∧
      (∀ lo, TotalPreorder cmp → lo ≤ i0 → SiftInv cmp count lo a i0 →
        ∀ p, lo ≤ p → HeapAt cmp count b p) := by
  have hi : i0 < a.length := by omega
  have e1 : u32 (2 * i0 + 1) = 2 * i0 + 1 := by unfold u32; omega
  obtain ⟨a', j, j1, hres, hj, hl', hp, hd, hjj, hheap⟩ :=
    siftLoop_ok cmp count a[i0] a.length hn h31 (count + 1) a i0 rfl hi0 (by omega)
  have hset : a.set i0 a[i0] = a := by simp
  rw [hset] at hp hheap
  unfold sift
  simp only [List.getElem?_eq_getElem hi, Option.bind_eq_bind, Option.bind_some, e1, hres]
  have hjl : j < a'.length := by omega
  have hx : (a'.set j a[i0])[j]? = some a[i0] := by simp [hjl]
  have hw : wr a' j a[i0] = some (a'.set j a[i0]) := by unfold wr; rw [if_pos hjl]
  have hdj : (a'.set j a[i0]).drop (count + 1) = a.drop (count + 1) := by
    rw [List.drop_set_of_lt (by omega), hd]
  by_cases hj1 : j1 = count
  · have hj1l : j1 < a'.length := by omega
    simp only [hj1, if_true]
    subst hj1
    simp only [List.getElem?_eq_getElem hj1l, Option.bind_some]
    by_cases hcx : cmp a'[j1] a[i0] > 0
    · have hw1 : wr a' j a'[j1] = some (a'.set j a'[j1]) := by unfold wr; rw [if_pos hjl]
      have hw2 : wr (a'.set j a'[j1]) j1 a[i0] = some ((a'.set j a'[j1]).set j1 a[i0]) := by
        unfold wr; rw [if_pos (by simpa)]
      simp only [hcx, if_true, hw1, hw2, Option.bind_some]
      refine ⟨_, rfl, by simpa using hl', ?_, ?_, ?_⟩
      · exact (perm_swap_set a' j j1 _ _ hjl (List.getElem?_eq_getElem hj1l) (Ne.symm hjj)).trans hp
      · rw [List.drop_set_of_lt (by omega), List.drop_set_of_lt (by omega), hd]
      · intro lo hc hlo hinv
        obtain ⟨hloj, hinv', hcase⟩ := hheap lo hc hlo hinv
        rcases hcase with ⟨_, hchild⟩ | ⟨_, hle⟩
        · have hstep := siftInv_step cmp hc j1 lo a' a[i0] j j1 a'[j1] (by omega) hloj
            (Or.inl hchild) (Nat.le_refl _) (List.getElem?_eq_getElem hj1l)
            (by
              intro k v hk hkc hv
              have hk1 : k = j1 := by omega
              subst hk1
              rw [List.getElem?_eq_getElem hj1l] at hv
              simp at hv; subst hv
              by_cases h : cmp a'[k] a'[k] > 0
              · exact hc.total _ _ h
              · omega) hcx hinv'
          exact siftInv_stop cmp j1 lo _ a[i0] j1 (by simp [hj1l])
            (fun k v hk hkc => by omega) hstep
        · have := hle rfl _ (List.getElem?_eq_getElem hj1l)
          omega
    · simp only [hcx, if_false, hw]
      refine ⟨_, rfl, by simpa using hl', hp, hdj, ?_⟩
      intro lo hc hlo hinv
      obtain ⟨hloj, hinv', hcase⟩ := hheap lo hc hlo hinv
      refine siftInv_stop cmp j1 lo _ a[i0] j hx ?_ hinv'
      intro k v hk hkc hv
      rw [List.getElem?_set_ne (by omega)] at hv
      rcases hcase with ⟨_, hchild⟩ | ⟨hall, _⟩
      · have hk1 : k = j1 := by omega
        subst hk1
        rw [List.getElem?_eq_getElem hj1l] at hv
        simp at hv; subst hv; omega
      · exact hall k v hk hkc hv
  · simp only [hj1, if_false, hw]
    refine ⟨_, rfl, by simpa using hl', hp, hdj, ?_⟩
    intro lo hc hlo hinv
    obtain ⟨hloj, hinv', hcase⟩ := hheap lo hc hlo hinv
    refine siftInv_stop cmp count lo _ a[i0] j hx ?_ hinv'
    intro k v hk hkc hv
    rw [List.getElem?_set_ne (by omega)] at hv
    rcases hcase with ⟨h, _⟩ | ⟨hall, _⟩
    · exact absurd h hj1
    · exact hall k v hk hkc hv

theorem build_ok (cmp : α → α → Int) (count : Nat) :
    ∀ (i : Nat) (a : List α), count < a.length → a.length ≤ 2147483648 → i ≤ count →
    ∃ b, build cmp count i a = some b ∧ b.length = a.length ∧ b.Perm a ∧
      b.drop (count + 1) = a.drop (count + 1) ∧
      (TotalPreorder cmp → (∀ p, i < p → HeapAt cmp count a p) →
        ∀ p, 0 < p → HeapAt cmp count b p) := by
  intro i
  induction i with
  | zero => intro a _ _ _; exact ⟨a, rfl, rfl, List.Perm.refl _, rfl, fun _ h => h⟩
  | succ i ih =>
    intro a hn h31 hi
    obtain ⟨b, hb, hbl, hbp, hbd, hbh⟩ := sift_ok cmp count a (i + 1) hn h31 hi
    obtain ⟨b', hb', hbl', hbp', hbd', hbh'⟩ := ih b (by omega) (by omega) (by omega)
    refine ⟨b', by simp [build, hb, hb'], by omega, hbp'.trans hbp, by rw [hbd', hbd], ?_⟩
    intro hc hheap
    refine hbh' hc ?_
    intro p hp
    refine hbh (i + 1) hc (Nat.le_refl _) ⟨?_, ?_⟩ p (by omega)
    · intro q hq hne
      exact hheap q (by omega)
    · intro q c vc vp hq hh
      omega

/-- In a full heap the root dominates. -/
theorem heap_root_max (cmp : α → α → Int) (hc : TotalPreorder cmp) (count : Nat) (b : List α)
    (hn : count < b.length) (h : ∀ p, HeapAt cmp count b p) (r : α) (hr : b[0]? = some r) :
    ∀ (k : Nat) (v : α), k ≤ count → b[k]? = some v → cmp v r ≤ 0 := by
  intro k
  induction k using Nat.strongRecOn with
  | ind k ih =>
    intro v hk hv
    by_cases h0 : k = 0
    · subst h0
      rw [hr] at hv; simp at hv; subst hv
      by_cases hh : cmp r r > 0
      · exact hc.total _ _ hh
      · omega
    · have hpl : (k - 1) / 2 < b.length := by omega
      have hp := List.getElem?_eq_getElem hpl
      have h1 := h ((k - 1) / 2) k v _ (by omega) hk hv hp
      have h2 := ih ((k - 1) / 2) (by omega) _ (by omega) hp
      exact hc.trans _ _ _ h1 h2

theorem extract_ok (cmp : α → α → Int) :
    ∀ (count : Nat) (a : List α), count < a.length → a.length ≤ 2147483648 →
    ∃ b, extract cmp count a = some b ∧ b.length = a.length ∧ b.Perm a ∧
      (TotalPreorder cmp → (∀ p, 0 < p → HeapAt cmp count a p) →
        (∀ (i j : Nat) vi vj, i < j → count < j → a[i]? = some vi → a[j]? = some vj → cmp vi vj ≤ 0) →
        (∀ (i j : Nat) vi vj, i < j → b[i]? = some vi → b[j]? = some vj → cmp vi vj ≤ 0)) := by
  intro count
  induction count with
  | zero =>
    intro a _ _
    refine ⟨a, rfl, rfl, List.Perm.refl _, ?_⟩
    intro _ _ h i j vi vj hij
    exact h i j vi vj hij (by omega)
  | succ count ih =>
    intro a hn h31
    obtain ⟨b, hb, hbl, hbp, hbd, hbh⟩ := sift_ok cmp (count + 1) a 0 hn h31 (by omega)
    have hl : count + 1 < b.length := by omega
    have h0 : 0 < b.length := by omega
    have hw1 : wr b (count + 1) b[0] = some (b.set (count + 1) b[0]) := by
      unfold wr; rw [if_pos hl]
    have hw2 : wr (b.set (count + 1) b[0]) 0 b[count + 1] =
        some ((b.set (count + 1) b[0]).set 0 b[count + 1]) := by
      unfold wr; rw [if_pos (by simpa)]
    have hps : ((b.set (count + 1) b[0]).set 0 b[count + 1]).Perm b := by
      have := perm_swap_set b (count + 1) 0 b[0] b[count + 1] hl (List.getElem?_eq_getElem h0) (by omega)
      simpa using this
    obtain ⟨c, hcx, hcl, hcp, hch⟩ :=
      ih ((b.set (count + 1) b[0]).set 0 b[count + 1]) (by simp; omega) (by simp; omega)
    refine ⟨c, ?_, by simp at hcl; omega, hcp.trans (hps.trans hbp), ?_⟩
    · simp only [extract, hb, Option.bind_eq_bind, Option.bind_some,
        List.getElem?_eq_getElem hl, List.getElem?_eq_getElem h0, hw1, hw2, hcx]
    · intro hc hheap hsuf
      have hfull : ∀ p, HeapAt cmp (count + 1) b p := by
        intro p
        refine hbh 0 hc (Nat.le_refl _) ⟨?_, ?_⟩ p (by omega)
        · intro q _ hne; exact hheap q (by omega)
        · intro q c vc vp hq hh; omega
      have hmax := heap_root_max cmp hc (count + 1) b hl hfull b[0] (List.getElem?_eq_getElem h0)
      -- the part above `count + 1` is untouched, the part up to it is permuted
      have htk : (b.take (count + 2)).Perm (a.take (count + 2)) := by
        have h1 : (b.take (count + 2) ++ b.drop (count + 2)).Perm (a.take (count + 2) ++ a.drop (count + 2)) := by
          simpa using hbp
        rw [hbd] at h1
        exact (List.perm_append_right_iff _).mp h1
      have hsuf' : ∀ (i j : Nat) vi vj, i < j → count + 1 < j → b[i]? = some vi → b[j]? = some vj →
          cmp vi vj ≤ 0 := by
        intro i j vi vj hij hj hvi hvj
        have hj' : a[j]? = some vj := by
          have := congrArg (fun l => l[j - (count + 2)]?) hbd
          simp only [List.getElem?_drop] at this
          rw [show count + 1 + 1 + (j - (count + 2)) = j by omega] at this
          rw [← this, hvj]
        by_cases hi : count + 1 < i
        · have hi' : a[i]? = some vi := by
            have := congrArg (fun l => l[i - (count + 2)]?) hbd
            simp only [List.getElem?_drop] at this
            rw [show count + 1 + 1 + (i - (count + 2)) = i by omega] at this
            rw [← this, hvi]
          exact hsuf i j vi vj hij hj hi' hj'
        · have hmem : vi ∈ b.take (count + 2) := by
            rw [List.mem_iff_getElem?]
            exact ⟨i, by rw [List.getElem?_take_of_lt (by omega)]; exact hvi⟩
          have hmem' := htk.mem_iff.mp hmem
          rw [List.mem_iff_getElem?] at hmem'
          obtain ⟨i', hi'⟩ := hmem'
          have hi'l : i' < count + 2 := by
            by_cases h : i' < count + 2
            · exact h
            · rw [List.getElem?_take_eq_none (by omega)] at hi'; simp at hi'
          rw [List.getElem?_take_of_lt hi'l] at hi'
          exact hsuf i' j vi vj (by omega) hj hi' hj'
      refine hch hc ?_ ?_
      · intro p hp k vk vp hk hkc hvk hvp
        rw [List.getElem?_set_ne (by omega), List.getElem?_set_ne (by omega)] at hvk hvp
        exact hfull p k vk vp hk (by omega) hvk hvp
      · intro i j vi vj hij hj hvi hvj
        rw [List.getElem?_set_ne (by omega)] at hvj
        by_cases hj1 : j = count + 1
        · subst hj1
          simp [hl] at hvj
          subst hvj
          by_cases hi0 : i = 0
          · subst hi0
            simp [h0] at hvi
            subst hvi
            exact hmax (count + 1) _ (Nat.le_refl _) (List.getElem?_eq_getElem hl)
          · rw [List.getElem?_set_ne (by omega), List.getElem?_set_ne (by omega)] at hvi
            exact hmax i vi (by omega) hvi
        · rw [List.getElem?_set_ne (by omega)] at hvj
          by_cases hi0 : i = 0
          · subst hi0
            simp [h0] at hvi
            subst hvi
            exact hsuf' (count + 1) j _ vj (by omega) (by omega) (List.getElem?_eq_getElem hl) hvj
          · rw [List.getElem?_set_ne (by omega)] at hvi
            by_cases hi1 : i = count + 1
            · subst hi1
              simp [hl] at hvi
              subst hvi
              exact hsuf' 0 j _ vj (by omega) (by omega) (List.getElem?_eq_getElem h0) hvj
            · rw [List.getElem?_set_ne (by omega)] at hvi
              exact hsuf' i j vi vj hij (by omega) hvi hvj

theorem hsort_ok (cmp : α → α → Int) (a : List α) (h31 : a.length ≤ 2147483648) :
    ∃ b, hsort cmp a = some b ∧ b.Perm a ∧ (TotalPreorder cmp → Sorted cmp b) := by
  unfold hsort
  by_cases h1 : a.length ≤ 1
  · refine ⟨a, by simp [h1], List.Perm.refl _, ?_⟩
    intro _
    match a, h1 with
    | [], _ => exact List.Pairwise.nil
    | [x], _ => exact List.pairwise_singleton _ _
  · have e : u32 ((a.length - 1) / 2) = (a.length - 1) / 2 := by unfold u32; omega
    obtain ⟨b, hb, hbl, hbp, _, hbh⟩ :=
      build_ok cmp (a.length - 1) ((a.length - 1) / 2) a (by omega) h31 (by omega)
    obtain ⟨c, hcx, hcl, hcp, hch⟩ := extract_ok cmp (a.length - 1) b (by omega) (by omega)
    refine ⟨c, by simp [h1, e, hb, hcx], hcp.trans hbp, ?_⟩
    intro hc
    have := hch hc (hbh hc (by
      intro p hp k vk vp hk hkc
      omega)) (by
      intro i j vi vj hij hj hvi hvj
      have : j < b.length := by
        rw [List.getElem?_eq_some_iff] at hvj; exact hvj.1
      omega)
    unfold Sorted
    rw [List.pairwise_iff_getElem]
    intro i j hi hj hij
    exact this i j _ _ hij (List.getElem?_eq_getElem hi) (List.getElem?_eq_getElem hj)

end Verif.Lemmas.Hsort
