import Verif.Model.Ptrs
import Verif.Spec.Number
/-!
# Building a tree in document order

The parsers add a node, then the nodes below it, then its next sibling.  Exact contents of the descriptor array.
-/
namespace Verif.Lemmas.TopDown
open Verif.Model Verif.Model.Ptrs Verif.Spec.Ptrs

theorem upd_eq {ra : List Pd} {i : Nat} (f : Pd → Pd) (h : i < ra.length) : upd ra i f = some (ra.modify i f) := by
  unfold upd wr
  rw [List.getElem?_eq_getElem h]
  simp only [Option.bind_eq_bind, Option.bind_some, if_pos h]
  congr 1
  apply List.ext_getElem?
  intro j
  rw [List.getElem?_modify, List.getElem?_set]
  by_cases hj : i = j
  · subst hj
    simp [h]
  · simp [hj]

theorem modify_left {ra rb : List Pd} {i : Nat} (f : Pd → Pd) (h : i < ra.length) : (ra ++ rb).modify i f = ra.modify i f ++ rb := by
  induction ra generalizing i with
  | nil => simp at h
  | cons x ra ih =>
    cases i with
    | zero => simp
    | succ i => simp only [List.cons_append, List.modify_succ_cons]; rw [ih (by simpa using h)]

theorem modify_right {ra : List Pd} (x : Pd) (rb : List Pd) (f : Pd → Pd) (i : Nat) (h : i = ra.length) : (ra ++ x :: rb).modify i f = ra ++ f x :: rb := by
  subst h
  induction ra with
  | nil => simp
  | cons y ra ih => simp only [List.cons_append, List.length_cons, List.modify_succ_cons]; rw [ih]

/-- the array and the cached child, when the next child of `p` is about to be added; `z` is the last child of `p`, 0
if there is none yet.  The nodes below `z` are at the end of the array. -/
structure Ready (ra : List Pd) (lc p z : Nat) : Prop where
  range : p < ra.length
  none : z = 0 → p ≠ 0 → ∃ pp, ra[p]? = some pp ∧ pp.firstChild = 0
  root : p = 0 → z = 0
  some : z ≠ 0 → p < z ∧ z ≤ lc ∧ lc < ra.length ∧ (∃ pp, ra[p]? = some pp ∧ pp.firstChild ≠ 0) ∧
    (∃ pz, ra[z]? = some pz ∧ pz.parent = p) ∧ ∀ (j : Nat) (pj : Pd), z < j → ra[j]? = some pj → z ≤ pj.parent ∧ pj.parent < j

theorem climb_ok {ra : List Pd} {p z hi : Nat} (h0 : z ≠ 0) (hp : p < z) (hz : ∃ pz, ra[z]? = some pz ∧ pz.parent = p) (hhi : hi ≤ ra.length)
    (hj : ∀ (j : Nat) (pj : Pd), z < j → j < hi → ra[j]? = some pj → z ≤ pj.parent ∧ pj.parent < j) :
    ∀ (fuel lc : Nat), z ≤ lc → lc < hi → lc < fuel → climb fuel ra p lc = some z := by
  intro fuel
  induction fuel with
  | zero => intro lc _ _ h; omega
  | succ fuel ih =>
    intro lc h1 h2 h3
    rw [climb, if_neg (by omega)]
    by_cases e : lc = z
    · subst e
      obtain ⟨pz, hz1, hz2⟩ := hz
      rw [hz1]
      simp [hz2]
    · have hl : lc < ra.length := by omega
      rw [List.getElem?_eq_getElem hl]
      simp only [Option.bind_eq_bind, Option.bind_some]
      have := hj lc _ (by omega) h2 (List.getElem?_eq_getElem hl)
      rw [if_neg (by omega)]
      exact ih _ this.1 (by omega) (by omega)

theorem last_ready {ra extra : List Pd} {lc p z : Nat} (h : Ready ra lc p z) :
    lastChildForParent { ra := ra ++ extra, lastChild := lc } p = some ({ ra := ra ++ extra, lastChild := if z = 0 then lc else z }, z) := by
  unfold lastChildForParent
  by_cases hp : p = 0
  · rw [if_pos hp, h.root hp]; rfl
  · rw [if_neg hp]
    by_cases hz : z = 0
    · obtain ⟨pp, h1, h2⟩ := h.none hz hp
      simp only [List.getElem?_append_left h.range, h1, Option.bind_eq_bind, Option.bind_some, h2, if_true]
      rw [hz]; rfl
    · obtain ⟨h1, h2, h3, ⟨pp, h4, h5⟩, ⟨pz, h6, h7⟩, h8⟩ := h.some hz
      simp only [List.getElem?_append_left h.range, h4, Option.bind_eq_bind, Option.bind_some, if_neg h5]
      have hzl := (List.getElem?_eq_some_iff.1 h6).1
      rw [climb_ok (ra := ra ++ extra) (hi := ra.length) hz h1 ⟨pz, by rw [List.getElem?_append_left hzl]; exact h6, h7⟩ (by simp)
        (fun j pj hj1 hj2 hj3 => h8 j pj hj1 (by rw [List.getElem?_append_left hj2] at hj3; exact hj3)) _ lc h2 h3 (by simp; omega)]
      simp only [Option.bind_some, if_neg hz]

/-- the link to the new child `n` -/
def link (ra : List Pd) (p z n : Nat) : List Pd :=
  if p = 0 then ra
  else if z = 0 then ra.modify p fun pd => { pd with firstChild := n }
  else ra.modify z fun pd => { pd with next := n }

theorem link_length (ra : List Pd) (p z n : Nat) : (link ra p z n).length = ra.length := by
  unfold link
  split
  · rfl
  · split <;> simp

theorem add_ready {ra : List Pd} {lc p z : Nat} (h : Ready ra lc p z) :
    addChild (addPtr { ra := ra, lastChild := lc }).1 p ra.length =
      some { ra := link ra p z ra.length ++ [{ parent := p }], lastChild := ra.length } := by
  unfold addChild addPtr
  simp only
  rw [last_ready h]
  simp only [Option.bind_eq_bind, Option.bind_some]
  rw [upd_eq _ (by simp)]
  simp only [Option.bind_some]
  rw [modify_right {} [] _ ra.length rfl]
  unfold link
  by_cases hp : p = 0
  · simp [hp]
  · simp only [if_neg hp, List.getElem?_append_left h.range]
    by_cases hz : z = 0
    · obtain ⟨pp, h1, h2⟩ := h.none hz hp
      simp only [h1, Option.bind_some, h2, if_true, if_pos hz]
      rw [upd_eq _ (by have := h.range; simp; omega)]
      simp only [Option.bind_some]
      rw [modify_left _ h.range]
    · obtain ⟨h1, h2, h3, ⟨pp, h4, h5⟩, ⟨pz, h6, h7⟩, h8⟩ := h.some hz
      simp only [h4, Option.bind_some, if_neg h5, ne_eq, hz, not_false_eq_true, if_true, if_false]
      have hzl := (List.getElem?_eq_some_iff.1 h6).1
      rw [upd_eq _ (by simp; omega)]
      simp only [Option.bind_some]
      rw [modify_left _ hzl]

/-- a new node is ready for its first child -/
theorem ready_new (ra : List Pd) (pd : Pd) (h0 : pd.firstChild = 0) (lc : Nat) : Ready (ra ++ [pd]) lc ra.length 0 where
  range := by simp
  none := fun _ _ => ⟨pd, by simp, h0⟩
  root := fun _ => rfl
  some := fun h => absurd rfl h

/-- the descriptors after a subtree has been added below `p` at index `n` -/
theorem ready_next {ra : List Pd} {lc p z lc' : Nat} (h : Ready ra lc p z) (x : Pd) (sub : List Pd) (hp0 : p ≠ 0) (hx : x.parent = p)
    (hlc : ra.length ≤ lc') (hlc' : lc' < ra.length + 1 + sub.length)
    (hsub : ∀ (j : Nat) (pj : Pd), sub[j]? = some pj → ra.length ≤ pj.parent ∧ pj.parent < ra.length + 1 + j) :
    Ready (link ra p z ra.length ++ x :: sub) lc' p ra.length where
  range := by have := h.range; simp [link_length]; omega
  none := fun h0 => by have := h.range; omega
  root := fun h0 => absurd h0 hp0
  some := fun _ => by
    have hr := h.range
    refine ⟨hr, hlc, by simp [link_length]; omega, ?_, ⟨x, by rw [List.getElem?_append_right (by rw [link_length]; exact Nat.le_refl _), link_length, Nat.sub_self]; rfl, hx⟩, ?_⟩
    · rw [List.getElem?_append_left (by rw [link_length]; exact hr)]
      unfold link
      rw [if_neg hp0]
      by_cases hz : z = 0
      · rw [if_pos hz]
        obtain ⟨pp, h1, _⟩ := h.none hz hp0
        exact ⟨_, by rw [List.getElem?_modify_eq, h1]; rfl, fun e => by simp only at e; omega⟩
      · rw [if_neg hz]
        obtain ⟨h1, _, _, ⟨pp, h4, h5⟩, _⟩ := h.some hz
        exact ⟨pp, by rw [List.getElem?_modify_ne _ _ (by omega)]; exact h4, h5⟩
    · intro j pj hj hpj
      rw [List.getElem?_append_right (by rw [link_length]; omega), link_length] at hpj
      obtain ⟨m, hm⟩ : ∃ m, j - ra.length = m + 1 := ⟨j - ra.length - 1, by omega⟩
      rw [hm, List.getElem?_cons_succ] at hpj
      have := hsub m pj hpj
      omega

/-- the descriptor of a node at index `n` -/
def node (p n : Nat) (k s : Forest) : Pd :=
  { parent := p, idx := n, firstChild := if k = .nil then 0 else n + 1, next := if s = .nil then 0 else n + 1 + k.nodes.length }

/-- the descriptors of a forest below `p` that was added in document order from index `n` on -/
def canon (p n : Nat) : Forest → List Pd
  | .nil => []
  | .cons _ k s => node p n k s :: (canon n (n + 1) k ++ canon p (n + 1 + k.nodes.length) s)

theorem canon_length (f : Forest) : ∀ p n, (canon p n f).length = f.nodes.length := by
  induction f with
  | nil => intro p n; rfl
  | cons i k s ih1 ih2 => intro p n; simp [canon, Forest.nodes, ih1, ih2]

theorem canon_parent (f : Forest) : ∀ (p n j : Nat) (pj : Pd), (canon p n f)[j]? = some pj →
    pj.parent = p ∨ (n ≤ pj.parent ∧ pj.parent < n + j) := by
  induction f with
  | nil => intro p n j pj h; simp [canon] at h
  | cons i k s ih1 ih2 =>
    intro p n j pj h
    rw [canon] at h
    cases j with
    | zero => simp at h; left; rw [← h]; rfl
    | succ j =>
      rw [List.getElem?_cons_succ, List.getElem?_append, canon_length] at h
      split at h
      · right
        rcases ih1 _ _ _ _ h with h1 | h1 <;> omega
      · rcases ih2 _ _ _ _ h with h1 | h1
        · exact .inl h1
        · right; omega

theorem canon_idx (f : Forest) : ∀ (p n j : Nat) (pj : Pd), (canon p n f)[j]? = some pj →
    pj.idx = n + j ∧ pj.ref = false ∧ pj.cref = false := by
  induction f with
  | nil => intro p n j pj h; simp [canon] at h
  | cons i k s ih1 ih2 =>
    intro p n j pj h
    rw [canon] at h
    cases j with
    | zero => simp at h; rw [← h]; exact ⟨rfl, rfl, rfl⟩
    | succ j =>
      rw [List.getElem?_cons_succ, List.getElem?_append, canon_length] at h
      split at h
      · obtain ⟨h1, h2⟩ := ih1 _ _ _ _ h
        exact ⟨by omega, h2⟩
      · obtain ⟨h1, h2⟩ := ih2 _ _ _ _ h
        exact ⟨by omega, h2⟩

theorem number_nil {n : Nat} {f : Forest} : number n f = .nil ↔ f = .nil := by
  cases f <;> simp [number]

theorem number_nodes (f : Forest) : ∀ n, (number n f).nodes = List.range' n f.nodes.length := by
  induction f with
  | nil => intro n; rfl
  | cons i k s ih1 ih2 =>
    intro n
    simp only [number, Forest.nodes, ih1, ih2, List.length_cons, List.length_append, List.range'_succ]
    rw [List.range'_append_1]

/-- the array of a forest added in document order represents the forest -/
theorem canon_rep (f : Forest) : ∀ (pre post : List Pd) (p : Nat), pre ≠ [] →
    Rep (pre ++ (canon p pre.length f ++ post)) p (if f = .nil then 0 else pre.length) (number pre.length f) := by
  induction f with
  | nil => intro pre post p _; rfl
  | cons i k s ih1 ih2 =>
    intro pre post p hp
    have hl : pre.length ≠ 0 := fun h => hp (List.eq_nil_of_length_eq_zero h)
    refine ⟨by rw [if_neg (by simp)], hl, _, by rw [List.getElem?_append_right (Nat.le_refl _), Nat.sub_self]; rfl, rfl, ?_, ?_⟩
    · have := ih1 (pre ++ [node p pre.length k s]) (canon p (pre.length + 1 + k.nodes.length) s ++ post) pre.length (by simp)
      simp only [List.length_append, List.length_cons, List.length_nil, Nat.zero_add] at this
      simpa [canon, kidsHead, node] using this
    · have := ih2 (pre ++ node p pre.length k s :: canon pre.length (pre.length + 1) k) post p (by simp)
      simp only [List.length_append, List.length_cons, canon_length] at this
      rw [show pre.length + (k.nodes.length + 1) = pre.length + 1 + k.nodes.length by omega] at this
      simpa [canon, node] using this

end Verif.Lemmas.TopDown
