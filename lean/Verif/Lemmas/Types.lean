import Verif.Spec.Types

namespace Verif.Lemmas.Types
open Verif.Model Verif.Model.Types Verif.Spec.Types

theorem linked_set {h : Heap} {t : Nat} {d : Td} :
    ∀ {xs : List Nat} {p : Option Nat}, t ∉ xs → Linked h p xs → Linked (h.set t d) p xs := by
  intro xs
  induction xs with
  | nil => intro p _ hl; exact hl
  | cons x xs ih =>
    intro p ht hl
    obtain ⟨hp, d', hd, hr⟩ := hl
    simp only [List.mem_cons, not_or] at ht
    refine ⟨hp, d', ?_, ih ht.2 hr⟩
    rw [List.getElem?_set_ne ht.1]; exact hd

/-- Everything but `next` is the same in the two heaps. -/
def Same (h h' : Heap) : Prop :=
  h'.length = h.length ∧ ∀ (t : Nat) (d : Td), h[t]? = some d →
    ∃ d', h'[t]? = some d' ∧ d'.producer = d.producer ∧ d'.typeNone = d.typeNone ∧ d'.name = d.name

theorem Same.refl (h : Heap) : Same h h := ⟨rfl, fun _ d hd => ⟨d, hd, rfl, rfl, rfl⟩⟩

theorem Same.trans {a b c : Heap} (x : Same a b) (y : Same b c) : Same a c := by
  refine ⟨y.1.trans x.1, fun t d hd => ?_⟩
  obtain ⟨d1, h1, p1, q1, r1⟩ := x.2 t d hd
  obtain ⟨d2, h2, p2, q2, r2⟩ := y.2 t d1 h1
  exact ⟨d2, h2, p2.trans p1, q2.trans q1, r2.trans r1⟩

theorem same_set {h : Heap} {t : Nat} {d : Td} {n : Option Nat} (hd : h[t]? = some d) :
    Same h (h.set t { d with next := n }) := by
  refine ⟨by simp, fun t' d' hd' => ?_⟩
  have hlt := (List.getElem?_eq_some_iff.1 hd).1
  by_cases e : t = t'
  · subst e
    rw [hd] at hd'; cases hd'
    exact ⟨{ d with next := n }, by rw [List.getElem?_set_self hlt], rfl, rfl, rfl⟩
  · exact ⟨d', by rw [List.getElem?_set_ne e]; exact hd', rfl, rfl, rfl⟩

theorem Same.producer {h h' : Heap} (s : Same h h') (t : Nat) :
    producer h' t = producer h t := by
  unfold Spec.Types.producer
  cases e : h[t]? with
  | some d =>
    obtain ⟨d', e', p, _, _⟩ := s.2 t d e
    rw [e']; exact p
  | none =>
    have : h'[t]? = none := by
      rw [List.getElem?_eq_none_iff] at *; have := s.1; omega
    rw [this]

theorem setNext_eq {h : Heap} {t : Nat} {d : Td} {n : Option Nat} (hd : h[t]? = some d) :
    setNext h t n = some (h.set t { d with next := n }) := by
  simp [setNext, hd]

theorem set_self {h : Heap} {t : Nat} {d d' : Td} (hd : h[t]? = some d) :
    (h.set t d')[t]? = some d' :=
  List.getElem?_set_self (List.getElem?_eq_some_iff.1 hd).1

theorem linked_valid {h : Heap} : ∀ {xs : List Nat} {p : Option Nat}, Linked h p xs →
    ∀ x ∈ xs, ∃ d, h[x]? = some d := by
  intro xs
  induction xs with
  | nil => simp
  | cons x xs ih =>
    intro p hl y hy
    obtain ⟨_, d, hd, hr⟩ := hl
    rcases List.mem_cons.1 hy with rfl | hy
    · exact ⟨d, hd⟩
    · exact ih hr y hy

/-! Second loop. -/

theorem collect_linked : ∀ (xs ys : List Nat) (fuel : Nat) (h : Heap) (p r : Option Nat),
    Linked h p xs → Linked h r ys → (xs ++ ys).Nodup → xs.length ≤ fuel →
    ∃ h' r', collect fuel h p r = some (h', r') ∧ Linked h' r' (xs.reverse ++ ys) ∧ Same h h' ∧
      ∀ t q zs, (∀ z ∈ zs, z ∉ xs) → t = zs → Linked h q zs → Linked h' q zs := by
  intro xs
  induction xs with
  | nil =>
    intro ys fuel h p r hp hr _ _
    simp only [Linked] at hp
    subst hp
    refine ⟨h, r, ?_, by simpa using hr, Same.refl h, fun _ _ _ _ _ x => x⟩
    cases fuel <;> rfl
  | cons x xs ih =>
    intro ys fuel h p r hp hr hnd hf
    obtain ⟨rfl, d, hd, hx⟩ := hp
    cases fuel with
    | zero => simp at hf
    | succ fuel =>
      simp only [List.cons_append, List.nodup_cons, List.mem_append, not_or] at hnd
      obtain ⟨⟨hx1, hy1⟩, hnd⟩ := hnd
      obtain ⟨h', r', e, hl, hs, hk⟩ := ih (x :: ys) fuel (h.set x { d with next := r }) d.next
        (some x) (linked_set hx1 hx) ⟨rfl, _, set_self hd, linked_set hy1 hr⟩
        (by
          rw [List.nodup_append] at hnd ⊢
          refine ⟨hnd.1, List.nodup_cons.2 ⟨hy1, hnd.2.1⟩, ?_⟩
          intro a ha b hb
          rcases List.mem_cons.1 hb with rfl | hb
          · intro e; subst e; exact hx1 ha
          · exact hnd.2.2 a ha b hb)
        (by simpa using hf)
      refine ⟨h', r', ?_, by simpa using hl, (same_set hd).trans hs, ?_⟩
      · simp [collect, hd, setNext, e]
      · intro t q zs hz ht hq
        apply hk t q zs (fun z hz' => by
          have := hz z hz'; simp at this; exact this.2) ht
        apply linked_set _ hq
        intro hm
        have := hz x hm
        simp at this

theorem collectAll_linked (fuel : Nat) (bs : List (List Nat)) (by_ : List (Option Nat)) :
    ∀ (n : Nat) (ys : List Nat) (h : Heap) (r : Option Nat),
    n ≤ bs.length →
    (∀ i, i < n → ∃ p xs, by_[i]? = some p ∧ bs[i]? = some xs ∧ Linked h p xs) →
    Linked h r ys → ((bs.take n).flatten ++ ys).Nodup → (bs.take n).flatten.length ≤ fuel →
    ∃ h' r', collectAll fuel by_ n h r = some (h', r') ∧
      Linked h' r' (((bs.take n).map List.reverse).flatten ++ ys) ∧ Same h h' := by
  intro n
  induction n with
  | zero =>
    intro ys h r _ _ hr _ _
    exact ⟨h, r, rfl, by simpa using hr, Same.refl h⟩
  | succ n ih =>
    intro ys h r hn hb hr hnd hf
    obtain ⟨p, xs, e1, e2, hl⟩ := hb n (by omega)
    have htake : bs.take (n + 1) = bs.take n ++ [xs] := by
      rw [List.take_add_one, e2]; rfl
    rw [htake] at hnd hf ⊢
    simp only [List.flatten_append, List.flatten_cons, List.flatten_nil, List.append_nil,
      List.append_assoc, List.length_append, List.map_append, List.map_cons, List.map_nil] at *
    rw [List.nodup_append] at hnd
    obtain ⟨hnd1, hnd2, hdis⟩ := hnd
    obtain ⟨h1, r1, ec, hl1, hs1, hk1⟩ := collect_linked xs ys fuel h p r hl hr hnd2 (by omega)
    obtain ⟨h2, r2, ec2, hl2, hs2⟩ := ih (xs.reverse ++ ys) h1 r1 (by omega)
      (fun i hi => by
        obtain ⟨q, zs, a1, a2, a3⟩ := hb i (by omega)
        refine ⟨q, zs, a1, a2, hk1 zs q zs ?_ rfl a3⟩
        intro z hz hx
        have hz' : z ∈ (bs.take n).flatten := by
          apply List.mem_flatten.2 ⟨zs, ?_, hz⟩
          apply List.mem_iff_getElem?.2 ⟨i, ?_⟩
          rw [List.getElem?_take_of_lt hi]; exact a2
        exact hdis z hz' z (List.mem_append.2 (Or.inl hx)) rfl)
      hl1
      (by
        rw [List.nodup_append]
        refine ⟨hnd1, ?_, ?_⟩
        · rw [List.nodup_append] at hnd2 ⊢
          refine ⟨?_, hnd2.2.1, ?_⟩
          · have := hnd2.1
            exact (List.reverse_perm _).nodup_iff.2 this
          · intro a ha b hb'
            exact hnd2.2.2 a (by simpa using ha) b hb'
        · intro a ha b hb'
          apply hdis a ha b
          simpa using hb')
      (by omega)
    refine ⟨h2, r2, ?_, by simpa using hl2, hs1.trans hs2⟩
    simp [collectAll, e1, ec, ec2]

/-! First loop. -/

theorem distribute_linked : ∀ (xs : List Nat) (fuel : Nat) (h : Heap) (p : Option Nat)
    (by_ : List (Option Nat)) (bs : List (List Nat)),
    Linked h p xs → by_.length = 4 → bs.length = 4 →
    (∀ (i : Nat) (q : Option Nat) (zs : List Nat), by_[i]? = some q → bs[i]? = some zs → Linked h q zs) →
    (∀ (i : Nat) (zs : List Nat), bs[i]? = some zs → ∀ z ∈ zs, z ∉ xs ∧ producer h z = i) →
    xs.Nodup → xs.length ≤ fuel →
    ∃ h' by', distribute fuel h p by_ = some (h', by') ∧ by'.length = 4 ∧ Same h h' ∧
      ∀ (i : Nat) (zs : List Nat), bs[i]? = some zs → ∃ q, by'[i]? = some q ∧
        Linked h' q ((xs.filter (fun x => producer h x = i)).reverse ++ zs) := by
  intro xs
  induction xs with
  | nil =>
    intro fuel h p by_ bs hp hl1 hl2 hb _ _ _
    simp only [Linked] at hp
    subst hp
    refine ⟨h, by_, by cases fuel <;> rfl, hl1, Same.refl h, ?_⟩
    intro i zs hz
    have hi : i < by_.length := by
      have := (List.getElem?_eq_some_iff.1 hz).1; omega
    exact ⟨by_[i], List.getElem?_eq_getElem hi, by
      simpa using hb i _ zs (List.getElem?_eq_getElem hi) hz⟩
  | cons x xs ih =>
    intro fuel h p by_ bs hp hl1 hl2 hb hd hnd hf
    obtain ⟨rfl, d, hdx, hx⟩ := hp
    cases fuel with
    | zero => simp at hf
    | succ fuel =>
      have hpx : producer h x = d.producer := by simp [producer, hdx]
      simp only [List.nodup_cons] at hnd
      by_cases hlt : d.producer < tdpLast
      · have hlt' : d.producer < by_.length := by simp [hl1]; simpa [tdpLast] using hlt
        have hlt2 : d.producer < bs.length := by omega
        have hbi := List.getElem?_eq_getElem hlt'
        have hbsi := List.getElem?_eq_getElem hlt2
        have hsame : Same h (h.set x { d with next := by_[d.producer] }) := same_set hdx
        obtain ⟨h', by', e, hlen, hs, hall⟩ := ih fuel (h.set x { d with next := by_[d.producer] })
          d.next (by_.set d.producer (some x)) (bs.set d.producer (x :: bs[d.producer]))
          (linked_set hnd.1 hx) (by simpa using hl1) (by simpa using hl2)
          (by
            intro i q zs hq hz
            by_cases e : d.producer = i
            · subst e
              rw [List.getElem?_set_self hlt'] at hq
              rw [List.getElem?_set_self hlt2] at hz
              cases hq; cases hz
              refine ⟨rfl, _, set_self hdx, ?_⟩
              apply linked_set _ (hb _ _ _ hbi hbsi)
              intro hm
              exact (hd _ _ hbsi x hm).1 (List.mem_cons_self)
            · rw [List.getElem?_set_ne e] at hq hz
              apply linked_set _ (hb i q zs hq hz)
              intro hm
              exact (hd i zs hz x hm).1 (List.mem_cons_self))
          (by
            intro i zs hz z hm
            rw [hsame.producer]
            by_cases e : d.producer = i
            · subst e
              rw [List.getElem?_set_self hlt2] at hz
              cases hz
              rcases List.mem_cons.1 hm with rfl | hm
              · exact ⟨hnd.1, hpx⟩
              · have := hd _ _ hbsi z hm
                exact ⟨fun hh => this.1 (List.mem_cons_of_mem _ hh), this.2⟩
            · rw [List.getElem?_set_ne e] at hz
              have := hd _ _ hz z hm
              exact ⟨fun hh => this.1 (List.mem_cons_of_mem _ hh), this.2⟩)
          hnd.2 (by simpa using hf)
        refine ⟨h', by', ?_, hlen, hsame.trans hs, ?_⟩
        · simp only [distribute, hdx, Option.bind_eq_bind, Option.bind_some, hlt, ↓reduceIte, hbi,
            setNext, wr, hlt']
          exact e
        · intro i zs hz
          by_cases e : d.producer = i
          · subst e
            rw [hbsi] at hz; cases hz
            obtain ⟨q, hq, hl⟩ := hall d.producer (x :: bs[d.producer])
              (List.getElem?_set_self hlt2)
            refine ⟨q, hq, ?_⟩
            simp only [hsame.producer] at hl
            simpa [List.filter_cons, hpx] using hl
          · obtain ⟨q, hq, hl⟩ := hall i zs (by rw [List.getElem?_set_ne e]; exact hz)
            refine ⟨q, hq, ?_⟩
            simp only [hsame.producer] at hl
            simpa [List.filter_cons, hpx, e] using hl
      · obtain ⟨h', by', e, hlen, hs, hall⟩ := ih fuel h d.next by_ bs hx hl1 hl2 hb
          (fun i zs hz z hm => by
            have := hd _ _ hz z hm
            exact ⟨fun hh => this.1 (List.mem_cons_of_mem _ hh), this.2⟩)
          hnd.2 (by simpa using hf)
        refine ⟨h', by', ?_, hlen, hs, ?_⟩
        · simp only [distribute, hdx, Option.bind_eq_bind, Option.bind_some, hlt, ↓reduceIte]
          exact e
        · intro i zs hz
          obtain ⟨q, hq, hl⟩ := hall i zs hz
          refine ⟨q, hq, ?_⟩
          have hi : ¬ d.producer = i := by
            have := (List.getElem?_eq_some_iff.1 hz).1
            intro e
            apply hlt
            simp [tdpLast]; omega
          simpa [List.filter_cons, hpx, hi] using hl

/-- The list the sort leaves. -/
def sorted (h : Heap) (xs : List Nat) : List Nat :=
  xs.filter (fun x => producer h x = 0) ++ (xs.filter (fun x => producer h x = 1) ++
    (xs.filter (fun x => producer h x = 2) ++ xs.filter (fun x => producer h x = 3)))

theorem filter_disjoint (h : Heap) (xs : List Nat) (i j : Nat) (hij : i ≠ j) (a b : Nat)
    (ha : a ∈ xs.filter (fun x => producer h x = i)) (hb : b ∈ xs.filter (fun x => producer h x = j)) :
    a ≠ b := by
  intro e
  subst e
  simp only [List.mem_filter, decide_eq_true_eq] at ha hb
  exact hij (ha.2.symm.trans hb.2)

theorem sorted_perm (h : Heap) (xs : List Nat) :
    (sorted h xs).Perm (xs.filter (fun x => producer h x < 4)) := by
  induction xs with
  | nil => simp [sorted]
  | cons x xs ih =>
    simp only [sorted, List.filter_cons, decide_eq_true_eq] at *
    have cases4 : producer h x = 0 ∨ producer h x = 1 ∨ producer h x = 2 ∨ producer h x = 3 ∨
        ¬ producer h x < 4 := by omega
    rcases cases4 with e | e | e | e | e
    · simp only [e]
      simpa using ih
    · simp only [e]
      simp only [show ¬ (1 = 0) by omega, show ¬ (1 = 2) by omega, show ¬ (1 = 3) by omega,
        show 1 < 4 by omega, ↓reduceIte, List.cons_append]
      exact List.perm_middle.trans (ih.cons x)
    · simp only [e]
      simp only [show ¬ (2 = 0) by omega, show ¬ (2 = 1) by omega, show ¬ (2 = 3) by omega,
        show 2 < 4 by omega, ↓reduceIte, List.cons_append]
      refine List.Perm.trans ?_ (ih.cons x)
      rw [← List.append_assoc, ← List.append_assoc]
      exact List.perm_middle
    · simp only [e]
      simp only [show ¬ (3 = 0) by omega, show ¬ (3 = 1) by omega, show ¬ (3 = 2) by omega,
        show 3 < 4 by omega, ↓reduceIte]
      refine List.Perm.trans ?_ (ih.cons x)
      rw [← List.append_assoc, ← List.append_assoc, ← List.append_assoc, ← List.append_assoc]
      exact List.perm_middle
    · have h0 : ¬ producer h x = 0 := by omega
      have h1 : ¬ producer h x = 1 := by omega
      have h2 : ¬ producer h x = 2 := by omega
      have h3 : ¬ producer h x = 3 := by omega
      simpa [h0, h1, h2, h3, e] using ih

theorem sorted_pairwise (h : Heap) (xs : List Nat) :
    (sorted h xs).Pairwise (fun a b => producer h a ≤ producer h b) := by
  have same : ∀ i, (xs.filter (fun x => producer h x = i)).Pairwise
      (fun a b => producer h a ≤ producer h b) := by
    intro i
    rw [List.pairwise_iff_getElem]
    intro a b ha hb hab
    have h1 := List.getElem_mem ha
    have h2 := List.getElem_mem hb
    simp only [List.mem_filter, decide_eq_true_eq] at h1 h2
    omega
  simp only [sorted, List.pairwise_append, List.mem_append, List.mem_filter, decide_eq_true_eq]
  refine ⟨same 0, ⟨same 1, ⟨same 2, same 3, ?_⟩, ?_⟩, ?_⟩
  · intro a ha b hb; omega
  · intro a ha b hb; rcases hb with hb | hb <;> omega
  · intro a ha b hb; rcases hb with hb | hb | hb <;> omega

theorem sorted_stable (h : Heap) (xs : List Nat) (p : Nat) (hp : p < 4) :
    (sorted h xs).filter (fun x => producer h x = p) = xs.filter (fun x => producer h x = p) := by
  have go : ∀ i, (xs.filter (fun x => producer h x = i)).filter (fun x => producer h x = p) =
      if i = p then xs.filter (fun x => producer h x = p) else [] := by
    intro i
    by_cases e : i = p
    · subst e; simp [List.filter_filter]
    · simp only [e, ↓reduceIte, List.filter_eq_nil_iff, List.mem_filter, decide_eq_true_eq]
      intro a ha; omega
  simp only [sorted, List.filter_append, go]
  have : p = 0 ∨ p = 1 ∨ p = 2 ∨ p = 3 := by omega
  rcases this with e | e | e | e <;> subst e <;> simp

theorem nodup_filter {p : Nat → Bool} {xs : List Nat} (h : xs.Nodup) : (xs.filter p).Nodup :=
  List.Sublist.nodup List.filter_sublist h

theorem sorted_nodup (h : Heap) {xs : List Nat} (hnd : xs.Nodup) : (sorted h xs).Nodup :=
  (sorted_perm h xs).nodup_iff.2 (nodup_filter hnd)

theorem sortTd_linked (h : Heap) (p : Option Nat) (xs : List Nat) (fuel : Nat)
    (hl : Linked h p xs) (hnd : xs.Nodup) (hf : xs.length ≤ fuel) :
    ∃ h' r, sortTd fuel h p = some (h', r) ∧ Linked h' r (sorted h xs) ∧ Same h h' := by
  obtain ⟨h1, by1, e1, hlen, hs1, hall⟩ := distribute_linked xs fuel h p
    (List.replicate 4 none) [[], [], [], []] hl (by simp) (by simp)
    (by
      intro i q zs hq hz
      have hz' : zs = [] := by
        have := List.mem_of_getElem? hz
        simpa using this
      have hq' : q = none := by
        have := List.mem_of_getElem? hq
        simp at this; exact this
      subst hz'; subst hq'; rfl)
    (by
      intro i zs hz z hm
      have hz' : zs = [] := by
        have := List.mem_of_getElem? hz
        simpa using this
      subst hz'; simp at hm)
    hnd hf
  obtain ⟨q0, a0, l0⟩ := hall 0 [] rfl
  obtain ⟨q1, a1, l1⟩ := hall 1 [] rfl
  obtain ⟨q2, a2, l2⟩ := hall 2 [] rfl
  obtain ⟨q3, a3, l3⟩ := hall 3 [] rfl
  have hperm := sorted_perm h xs
  have hndf : (sorted h xs).Nodup := sorted_nodup h hnd
  simp only [List.append_nil] at l0 l1 l2 l3
  let bs : List (List Nat) := [(xs.filter (fun x => producer h x = 0)).reverse,
    (xs.filter (fun x => producer h x = 1)).reverse, (xs.filter (fun x => producer h x = 2)).reverse,
    (xs.filter (fun x => producer h x = 3)).reverse]
  have hbsperm : (bs.flatten).Perm (sorted h xs) := by
    simp only [bs, List.flatten_cons, List.flatten_nil, List.append_nil, sorted]
    exact (List.reverse_perm _).append ((List.reverse_perm _).append
      ((List.reverse_perm _).append (List.reverse_perm _)))
  obtain ⟨h2, r2, e2, hl2, hs2⟩ := collectAll_linked fuel bs by1 4 [] h1 none (by simp [bs])
    (by
      intro i hi
      have : i = 0 ∨ i = 1 ∨ i = 2 ∨ i = 3 := by omega
      rcases this with e | e | e | e <;> subst e
      · exact ⟨_, _, a0, rfl, l0⟩
      · exact ⟨_, _, a1, rfl, l1⟩
      · exact ⟨_, _, a2, rfl, l2⟩
      · exact ⟨_, _, a3, rfl, l3⟩)
    rfl
    (by
      rw [List.append_nil]
      exact hbsperm.nodup_iff.2 hndf)
    (by
      have h1 := hbsperm.length_eq
      have h2 := hperm.length_eq
      have h3 : (xs.filter (fun x => producer h x < 4)).length ≤ xs.length :=
        List.length_filter_le _ _
      simp only [bs] at h1 ⊢
      simp only [List.take_succ_cons, List.take_zero]
      omega)
  refine ⟨h2, r2, ?_, ?_, hs1.trans hs2⟩
  · have et : tdpLast = 4 := rfl
    simp only [sortTd, et, e1, Option.bind_eq_bind, Option.bind_some]
    exact e2
  · simpa [bs, sorted] using hl2

end Verif.Lemmas.Types
