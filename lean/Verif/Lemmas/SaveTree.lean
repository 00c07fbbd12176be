import Verif.Model.Save
import Verif.Spec.Ptrs
import Verif.Lemmas.Ptrs
import Verif.Lemmas.Dfs
/-!
The node array of `mr_save` as a tree: `mr_add_child` next to the node added last.
-/
namespace Verif.Lemmas.SaveTree
open Verif.Model Verif.Model.Ptrs Verif.Spec.Ptrs

/-- node `i`, a zeroed one outside of the array -/
def nd (ra : List Pd) (i : Nat) : Pd := (ra[i]?).getD {}

theorem nd_get {ra : List Pd} {i : Nat} (h : i < ra.length) : ra[i]? = some (nd ra i) := by
  simp [nd, h]

theorem nd_set (ra : List Pd) (i : Nat) (v : Pd) (j : Nat) (h : i < ra.length) :
    nd (ra.set i v) j = if j = i then v else nd ra j := by
  unfold nd
  rw [List.getElem?_set]
  by_cases hj : j = i
  · subst hj; simp [h]
  · simp [hj, Ne.symm hj]

theorem upd_nd {ra : List Pd} {i : Nat} (f : Pd → Pd) (h : i < ra.length) : upd ra i f = some (ra.set i (f (nd ra i))) :=
  Lemmas.Ptrs.upd_ok f (nd_get h)

/-- following `next` from `h` gives `l` -/
def ChainF (P : Nat → Pd) : Nat → List Nat → Prop
  | h, [] => h = 0
  | h, c :: l => h = c ∧ c ≠ 0 ∧ ChainF P (P c).next l

/-- the distance to the root -/
inductive Dep (P : Nat → Pd) : Nat → Nat → Prop
  | root : Dep P 1 0
  | up {c k : Nat} : 1 < c → Dep P (P c).parent k → Dep P c (k + 1)

/-- `a` is `x` or above it -/
inductive Anc (P : Nat → Pd) (a : Nat) : Nat → Prop
  | self : Anc P a a
  | up {x : Nat} : 1 < x → Anc P a (P x).parent → Anc P a x

structure Tree (P : Nat → Pd) (n : Nat) (ks : Nat → List Nat) : Prop where
  root : (P 1).parent = 0
  chain : ∀ i, 1 ≤ i → i < n → ChainF P (kidsHead (P i)) (ks i)
  own : ∀ i c, c ∈ ks i → 1 ≤ i ∧ i < n ∧ 1 < c ∧ c < n ∧ (P c).parent = i
  mem : ∀ c, 1 < c → c < n → c ∈ ks (P c).parent
  nodup : ∀ i, (ks i).Nodup
  dep : ∀ c, 1 ≤ c → c < n → ∃ k, Dep P c k
  rnext : (P 1).next = 0

theorem dep_pos {P : Nat → Pd} {c k : Nat} (h : Dep P c k) : 1 ≤ c := by
  cases h with
  | root => omega
  | up h1 _ => omega

theorem dep_unique {P : Nat → Pd} {c k : Nat} (h : Dep P c k) : ∀ {k'}, Dep P c k' → k = k' := by
  induction h with
  | root =>
    intro k' h'
    cases h' with
    | root => rfl
    | up h1 _ => omega
  | @up c k h1 _ ih =>
    intro k' h'
    cases h' with
    | root => omega
    | up _ h2 => rw [ih h2]

theorem anc_dep {P : Nat → Pd} {a x i j : Nat} (h : Anc P a x) (ha : Dep P a i) (hx : Dep P x j) : (a = x ∧ i = j) ∨ i < j := by
  induction h generalizing j with
  | self => left; exact ⟨rfl, dep_unique ha hx⟩
  | @up x h1 _ ih =>
    cases hx with
    | root => omega
    | up _ h2 =>
      rcases ih h2 with ⟨_, h⟩ | h
      · right; omega
      · right; omega

theorem anc_trans {P : Nat → Pd} {a b c : Nat} (h1 : Anc P a b) (h2 : Anc P b c) : Anc P a c := by
  induction h2 with
  | self => exact h1
  | up h _ ih => exact Anc.up h ih

theorem anc_dep_exists {P : Nat → Pd} {a x j : Nat} (h : Anc P a x) (hx : Dep P x j) : ∃ i, Dep P a i := by
  induction h generalizing j with
  | self => exact ⟨j, hx⟩
  | up h1 _ ih =>
    cases hx with
    | root => omega
    | up _ h2 => exact ih h2

/-- parents are in range -/
def Closed (P : Nat → Pd) (n : Nat) : Prop := ∀ c, 1 < c → c < n → (P c).parent < n

theorem tree_closed {P : Nat → Pd} {n : Nat} {ks : Nat → List Nat} (h : Tree P n ks) : Closed P n :=
  fun c h1 h2 => (h.own _ _ (h.mem c h1 h2)).2.1

theorem dep_lt {P : Nat → Pd} {n c k : Nat} (hc : Closed P n) (h : Dep P c k) (hn : c < n) : k < n := by
  suffices ∃ l : List Nat, l.length = k + 1 ∧ l.Nodup ∧ ∀ x ∈ l, x < n ∧ ∃ j, j ≤ k ∧ Dep P x j by
    obtain ⟨l, h1, h2, h3⟩ := this
    have := Lemmas.Dfs.nodup_len h2 (fun x hx => (h3 x hx).1)
    omega
  induction h with
  | root => exact ⟨[1], rfl, by simp, by intro x hx; simp at hx; subst hx; exact ⟨hn, 0, by omega, Dep.root⟩⟩
  | @up c k h1 h2 ih =>
    obtain ⟨l, h3, h4, h5⟩ := ih (hc c h1 hn)
    refine ⟨c :: l, by simp [h3], ?_, ?_⟩
    · rw [List.nodup_cons]
      refine ⟨fun hm => ?_, h4⟩
      obtain ⟨_, j, h6, h7⟩ := h5 c hm
      have := dep_unique h7 (Dep.up h1 h2)
      omega
    · intro x hx
      rcases List.mem_cons.1 hx with h | h
      · subst h; exact ⟨hn, k + 1, by omega, Dep.up h1 h2⟩
      · obtain ⟨h6, j, h7, h8⟩ := h5 x h
        exact ⟨h6, j, by omega, h8⟩

theorem climb_anc {ra : List Pd} {n p z x : Nat} (hn : ra.length = n) (hc : Closed (nd ra) n) (hr : (nd ra 1).parent = 0) (hp : 1 ≤ p)
    (hz : (nd ra z).parent = p) (hz1 : 1 < z) (h : Anc (nd ra) z x) {k : Nat} (hx : Dep (nd ra) x k) (hxn : x < n) {fuel : Nat} (hf : k < fuel) :
    climb fuel ra p x = some z := by
  induction h generalizing k fuel with
  | self =>
    cases fuel with
    | zero => omega
    | succ fuel =>
      rw [climb, if_neg (by omega), nd_get (by omega)]
      simp [hz]
  | @up x h1 h2 ih =>
    cases fuel with
    | zero => omega
    | succ fuel =>
      cases hx with
      | root => omega
      | @up _ k _ h3 =>
        rw [climb, if_neg (by omega), nd_get (by omega)]
        have hne : (nd ra x).parent ≠ p := by
          intro he
          rw [he] at h2 h3
          obtain ⟨i, hi⟩ := anc_dep_exists h2 h3
          have hzp : Dep (nd ra) z (k + 1) := Dep.up hz1 (by rw [hz]; exact h3)
          rcases anc_dep h2 hzp h3 with h | h <;> omega
        simp only [Option.bind_eq_bind, Option.bind_some, hne, if_false]
        exact ih h3 (hc x h1 hxn) (by omega)

/-- a tree in which node `c` (with everything below it) hangs nowhere; its parent member is not yet the new
parent `p` or already set -/
structure Detached (P : Nat → Pd) (n : Nat) (ks : Nat → List Nat) (c p : Nat) : Prop where
  root : (P 1).parent = 0
  chain : ∀ i, 1 ≤ i → i < n → ChainF P (kidsHead (P i)) (ks i)
  own : ∀ i x, x ∈ ks i → 1 ≤ i ∧ i < n ∧ 1 < x ∧ x < n ∧ (P x).parent = i ∧ x ≠ c
  mem : ∀ x, 1 < x → x < n → x ≠ c → x ∈ ks (P x).parent
  nodup : ∀ i, (ks i).Nodup
  dep : ∀ x, 1 ≤ x → x < n → ∃ k, Dep P x k
  child : 1 < c ∧ c < n
  range : (P c).parent < n
  last : (P c).next = 0
  above : ¬ Anc P c p
  parent : 1 ≤ p ∧ p < n
  plain : (P p).ref = false ∧ (P p).cref = false
  rnext : (P 1).next = 0

/-- node `j` after `c` became the last child of `p` -/
def attached (P : Nat → Pd) (ks : Nat → List Nat) (p c j : Nat) : Pd :=
  { P j with
    parent := if j = c then p else (P j).parent
    firstChild := if j = p ∧ ks p = [] then c else (P j).firstChild
    next := if (ks p).getLast? = some j then c else (P j).next }

def updF {α : Type} (f : Nat → α) (i : Nat) (v : α) : Nat → α := fun j => if j = i then v else f j

theorem chainF_congr {P Q : Nat → Pd} {h : Nat} {l : List Nat} (hc : ChainF P h l) (heq : ∀ c ∈ l, (Q c).next = (P c).next) : ChainF Q h l := by
  induction l generalizing h with
  | nil => exact hc
  | cons c l ih =>
    obtain ⟨h1, h2, h3⟩ := hc
    refine ⟨h1, h2, ?_⟩
    rw [heq c (by simp)]
    exact ih h3 fun d hd => heq d (by simp [hd])

theorem chainF_snoc {P Q : Nat → Pd} {h z c : Nat} {l : List Nat} (hc : ChainF P h (l ++ [z])) (heq : ∀ x ∈ l, (Q x).next = (P x).next)
    (hz : (Q z).next = c) (hc0 : c ≠ 0) (hl : (Q c).next = 0) : ChainF Q h (l ++ [z] ++ [c]) := by
  induction l generalizing h with
  | nil =>
    obtain ⟨h1, h2, h3⟩ := hc
    exact ⟨h1, h2, hz, hc0, hl⟩
  | cons x l ih =>
    obtain ⟨h1, h2, h3⟩ := hc
    refine ⟨h1, h2, ?_⟩
    rw [heq x (by simp)]
    exact ih h3 fun d hd => heq d (by simp [hd])

theorem chainF_head {P : Nat → Pd} {h : Nat} {l : List Nat} (hc : ChainF P h l) : h = l.headD 0 := by
  cases l with
  | nil => exact hc
  | cons c l => exact hc.1

theorem chainF_last {P : Nat → Pd} {h z : Nat} {l : List Nat} (hc : ChainF P h (l ++ [z])) : (P z).next = 0 := by
  induction l generalizing h with
  | nil => exact hc.2.2
  | cons x l ih => exact ih hc.2.2

theorem chainF_ne {P : Nat → Pd} {h : Nat} {l : List Nat} (hc : ChainF P h l) : ∀ x ∈ l, x ≠ 0 := by
  induction l generalizing h with
  | nil => simp
  | cons c l ih =>
    intro x hx
    rcases List.mem_cons.1 hx with h | h
    · subst h; exact hc.2.1
    · exact ih hc.2.2 x h

theorem kidsHead_plain {pd : Pd} (h : pd.ref = false) (h' : pd.cref = false) : kidsHead pd = pd.firstChild := by
  simp [kidsHead, h, h']

theorem detached_closed {P : Nat → Pd} {n : Nat} {ks : Nat → List Nat} {c p : Nat} (h : Detached P n ks c p) : Closed P n := by
  intro x h1 h2
  by_cases hx : x = c
  · subst hx; exact h.range
  · exact (h.own _ _ (h.mem x h1 h2 hx)).2.1

theorem getLast_snoc {l : List Nat} {z : Nat} : (l ++ [z]).getLast? = some z := by simp

theorem eq_snoc_of_ne {l : List Nat} (h : l ≠ []) : ∃ l' z, l = l' ++ [z] :=
  ⟨l.dropLast, l.getLast h, (List.dropLast_concat_getLast h).symm⟩

/-- `mr_add_child`: the new links -/
theorem addChild_nd {s : Ptrs} {n p c : Nat} {ks : Nat → List Nat} (hn : s.ra.length = n) (hd : Detached (nd s.ra) n ks c p)
    (hl : ∀ z, (ks p).getLast? = some z → Anc (nd s.ra) z s.lastChild ∧ 1 ≤ s.lastChild ∧ s.lastChild < n) :
    ∃ ra', addChild s p c = some { ra := ra', lastChild := c } ∧ ra'.length = n ∧ nd ra' = attached (nd s.ra) ks p c := by
  have hp1 := hd.parent.1
  have hp2 := hd.parent.2
  have hc2 := hd.child.2
  have hcp : c ≠ p := fun h => hd.above (h ▸ Anc.self)
  have hch := hd.chain p hp1 hp2
  rw [kidsHead_plain hd.plain.1 hd.plain.2] at hch
  by_cases hk : ks p = []
  · have hf : (nd s.ra p).firstChild = 0 := by rw [hk] at hch; exact hch
    have h1 : lastChildForParent s p = some (s, 0) := by
      rw [lastChildForParent, if_neg (by omega), nd_get (by omega)]
      simp [hf]
    have h2 : nd (s.ra.set c { nd s.ra c with parent := p }) p = nd s.ra p := by
      rw [nd_set _ _ _ _ (by omega), if_neg (Ne.symm hcp)]
    refine ⟨(s.ra.set c { nd s.ra c with parent := p }).set p { nd s.ra p with firstChild := c }, ?_, by simp [hn], ?_⟩
    · rw [addChild, h1]
      simp only [Option.bind_eq_bind, Option.bind_some]
      rw [upd_nd _ (by omega)]
      simp only [Option.bind_some]
      rw [if_neg (by omega), nd_get (by simp; omega)]
      simp only [Option.bind_some]
      rw [h2, if_pos hf, upd_nd _ (by simp; omega), h2]
      rfl
    · funext j
      rw [nd_set _ _ _ _ (by simp; omega), nd_set _ _ _ _ (by omega)]
      unfold attached
      by_cases hj : j = p
      · subst hj
        rw [if_pos rfl]
        simp [hk, Ne.symm hcp]
      · rw [if_neg hj]
        by_cases hj' : j = c
        · subst hj'
          simp [hk, hcp]
        · simp [hj, hj', hk]
  · obtain ⟨l, z, hz⟩ := eq_snoc_of_ne hk
    have hzl : (ks p).getLast? = some z := by rw [hz]; simp
    obtain ⟨hanc, hl1, hl2⟩ := hl z hzl
    have hzm : z ∈ ks p := by rw [hz]; simp
    obtain ⟨_, _, hz1, hzn, hzp, hzc⟩ := hd.own p z hzm
    have hf : (nd s.ra p).firstChild ≠ 0 := by
      rw [hz] at hch
      cases l with
      | nil => rw [hch.1]; exact hch.2.1
      | cons x l => rw [hch.1]; exact hch.2.1
    obtain ⟨k, hk'⟩ := hd.dep s.lastChild hl1 hl2
    have hclimb := climb_anc hn (detached_closed hd) hd.root hp1 hzp hz1 hanc hk' hl2 (fuel := s.ra.length + 1)
      (by have := dep_lt (detached_closed hd) hk' hl2; omega)
    have h1 : lastChildForParent s p = some ({ s with lastChild := z }, z) := by
      rw [lastChildForParent, if_neg (by omega), nd_get (by omega)]
      simp only [Option.bind_eq_bind, Option.bind_some, hf, if_false, hclimb]
      rw [if_neg (by omega)]
    have h2 : nd (s.ra.set c { nd s.ra c with parent := p }) p = nd s.ra p := by
      rw [nd_set _ _ _ _ (by omega), if_neg (Ne.symm hcp)]
    have h3 : nd (s.ra.set c { nd s.ra c with parent := p }) z = nd s.ra z := by
      rw [nd_set _ _ _ _ (by omega), if_neg hzc]
    refine ⟨(s.ra.set c { nd s.ra c with parent := p }).set z { nd s.ra z with next := c }, ?_, by simp [hn], ?_⟩
    · rw [addChild, h1]
      simp only [Option.bind_eq_bind, Option.bind_some]
      rw [upd_nd _ (by omega)]
      simp only [Option.bind_some]
      rw [if_neg (by omega), nd_get (by simp; omega)]
      simp only [Option.bind_some]
      rw [h2, if_neg hf, if_pos (by omega), upd_nd _ (by simp; omega), h3]
      rfl
    · funext j
      rw [nd_set _ _ _ _ (by simp; omega), nd_set _ _ _ _ (by omega)]
      unfold attached
      rw [hzl]
      by_cases hj : j = z
      · subst hj
        rw [if_pos rfl]
        simp [hzc, hk]
      · rw [if_neg hj]
        by_cases hj' : j = c
        · subst hj'
          simp [hk, Ne.symm hj]
        · simp [hj', hk, Ne.symm hj]

theorem attached_next {P : Nat → Pd} {ks : Nat → List Nat} {p c j : Nat} (h : (ks p).getLast? ≠ some j) : (attached P ks p c j).next = (P j).next := by
  simp [attached, h]

theorem attached_anc {P : Nat → Pd} {n : Nat} {ks : Nat → List Nat} {c p a x : Nat} (hd : Detached P n ks c p)
    (h : Anc P a x) (hx : ¬ Anc P c x) : Anc (attached P ks p c) a x := by
  induction h with
  | self => exact Anc.self
  | @up x h1 h2 ih =>
    have hxc : x ≠ c := fun h => hx (h ▸ Anc.self)
    refine Anc.up h1 ?_
    have : (attached P ks p c x).parent = (P x).parent := by simp [attached, hxc]
    rw [this]
    exact ih fun h => hx (Anc.up h1 h)

theorem attached_dep0 {P : Nat → Pd} {ks : Nat → List Nat} {c p x k : Nat} (h : Dep P x k) (hx : ¬ Anc P c x) :
    Dep (attached P ks p c) x k := by
  induction h with
  | root => exact Dep.root
  | @up x k h1 h2 ih =>
    have hxc : x ≠ c := fun h => hx (h ▸ Anc.self)
    refine Dep.up h1 ?_
    have : (attached P ks p c x).parent = (P x).parent := by simp [attached, hxc]
    rw [this]
    exact ih fun h => hx (Anc.up h1 h)

theorem attached_dep {P : Nat → Pd} {n : Nat} {ks : Nat → List Nat} {c p : Nat} (hd : Detached P n ks c p) {x k : Nat} (h : Dep P x k) :
    ∃ k', Dep (attached P ks p c) x k' := by
  obtain ⟨kp, hkp⟩ := hd.dep p hd.parent.1 hd.parent.2
  have hp := attached_dep0 (ks := ks) (p := p) hkp hd.above
  have hc : Dep (attached P ks p c) c (kp + 1) := by
    refine Dep.up hd.child.1 ?_
    have : (attached P ks p c c).parent = p := by simp [attached]
    rw [this]; exact hp
  induction h with
  | root => exact ⟨0, Dep.root⟩
  | @up x k h1 h2 ih =>
    by_cases hxc : x = c
    · exact ⟨kp + 1, by rw [hxc]; exact hc⟩
    · obtain ⟨k', hk'⟩ := ih
      refine ⟨k' + 1, Dep.up h1 ?_⟩
      have : (attached P ks p c x).parent = (P x).parent := by simp [attached, hxc]
      rw [this]; exact hk'

theorem nodup_snoc {l : List Nat} {x : Nat} (h : l.Nodup) (hx : x ∉ l) : (l ++ [x]).Nodup := by
  rw [List.nodup_append]
  refine ⟨h, by simp, ?_⟩
  intro a ha b hb
  simp at hb
  subst hb
  intro he
  exact hx (he ▸ ha)

theorem tree_attached {P : Nat → Pd} {n : Nat} {ks : Nat → List Nat} {c p : Nat} (hd : Detached P n ks c p) :
    Tree (attached P ks p c) n (updF ks p (ks p ++ [c])) := by
  have hcp : c ≠ p := fun h => hd.above (h ▸ Anc.self)
  have hcl : (ks p).getLast? ≠ some c := by
    intro h
    have : c ∈ ks p := List.mem_of_getLast? h
    exact (hd.own p c this).2.2.2.2.2 rfl
  refine ⟨?_, ?_, ?_, ?_, ?_, ?_, ?_⟩
  · have : (1 : Nat) ≠ c := by have := hd.child.1; omega
    simp [attached, this, hd.root]
  · intro i h1 h2
    have h0 := hd.chain i h1 h2
    unfold updF
    by_cases hi : i = p
    · subst hi
      rw [if_pos rfl]
      rw [kidsHead_plain hd.plain.1 hd.plain.2] at h0
      have hkh : kidsHead (attached P ks i c i) = (attached P ks i c i).firstChild := kidsHead_plain hd.plain.1 hd.plain.2
      rw [hkh]
      by_cases hk : ks i = []
      · rw [hk]
        simp only [List.nil_append]
        refine ⟨by simp [attached, hk], by have := hd.child.1; omega, ?_⟩
        show (attached P ks i c c).next = 0
        rw [attached_next hcl, hd.last]
      · obtain ⟨l, z, hz⟩ := eq_snoc_of_ne hk
        have hfc : (attached P ks i c i).firstChild = (P i).firstChild := by simp [attached, hk]
        rw [hfc]
        rw [hz] at h0 ⊢
        have hzl : (ks i).getLast? = some z := by rw [hz]; simp
        have hnd := hd.nodup i
        rw [hz] at hnd
        refine chainF_snoc h0 ?_ ?_ (by have := hd.child.1; omega) ?_
        · intro x hx
          apply attached_next
          rw [hzl]
          intro he
          cases he
          rw [List.nodup_append] at hnd
          exact hnd.2.2 z hx z (by simp) rfl
        · simp [attached, hzl]
        · rw [attached_next hcl, hd.last]
    · rw [if_neg hi]
      have hkh : kidsHead (attached P ks p c i) = kidsHead (P i) := by simp [attached, hi, kidsHead]
      rw [hkh]
      refine chainF_congr h0 ?_
      intro x hx
      apply attached_next
      intro he
      have h3 := (hd.own i x hx).2.2.2.2.1
      have h4 := (hd.own p x (List.mem_of_getLast? he)).2.2.2.2.1
      omega
  · intro i x hx
    unfold updF at hx
    by_cases hi : i = p
    · subst hi
      rw [if_pos rfl] at hx
      rcases List.mem_append.1 hx with h | h
      · obtain ⟨h1, h2, h3, h4, h5, h6⟩ := hd.own i x h
        exact ⟨h1, h2, h3, h4, by simp [attached, h6, h5]⟩
      · simp at h
        subst h
        exact ⟨hd.parent.1, hd.parent.2, hd.child.1, hd.child.2, by simp [attached]⟩
    · rw [if_neg hi] at hx
      obtain ⟨h1, h2, h3, h4, h5, h6⟩ := hd.own i x hx
      exact ⟨h1, h2, h3, h4, by simp [attached, h6, h5]⟩
  · intro x h1 h2
    unfold updF
    by_cases hx : x = c
    · subst hx
      have : (attached P ks p x x).parent = p := by simp [attached]
      rw [this, if_pos rfl]
      simp
    · have : (attached P ks p c x).parent = (P x).parent := by simp [attached, hx]
      rw [this]
      have := hd.mem x h1 h2 hx
      by_cases hp : (P x).parent = p
      · rw [hp] at this ⊢
        simp [this]
      · rw [if_neg hp]; exact this
  · intro i
    unfold updF
    by_cases hi : i = p
    · subst hi
      rw [if_pos rfl]
      exact nodup_snoc (hd.nodup i) fun h => (hd.own i c h).2.2.2.2.2 rfl
    · rw [if_neg hi]; exact hd.nodup i
  · intro x h1 h2
    obtain ⟨k, hk⟩ := hd.dep x h1 h2
    exact attached_dep hd hk
  · rw [attached_next, hd.rnext]
    intro h
    have := (hd.own p 1 (List.mem_of_getLast? h)).2.2.1
    omega

end Verif.Lemmas.SaveTree
