import Verif.Lemmas.Ptrs
/-!
# C27: building the node tree

`run ops` performs the calls `ops` (allocation of a node, `mr_add_child`) on an empty tree.
`children (links ops) p` are the children given to `p` by these calls, in order; `Lists ra p l`: following
the links of the array gives `l` as children of `p`, and each of them is linked back to `p`.
-/
namespace Verif.Props.Ptrs
open Verif.Model Verif.Model.Ptrs Verif.Spec.Ptrs Verif.Lemmas.Ptrs

/-- what C27 claims of a sequence of calls -/
def KeepsOrder (ops : List Op) : Prop :=
  ∃ s, run ops = some s ∧ s.ra.length = count ops ∧
    ∀ p, p ≠ 0 → p < count ops → Lists s.ra p (children (links ops) p)

/-- **C27.** A new node is a zeroed descriptor under a fresh index; the others do not change. -/
theorem C27_new_node (s : Ptrs) : (addPtr s).1.ra[(addPtr s).2]? = some {} ∧ (addPtr s).2 = s.ra.length ∧
    (addPtr s).1.lastChild = s.lastChild ∧ ∀ i, i ≠ (addPtr s).2 → (addPtr s).1.ra[i]? = s.ra[i]? := by
  refine ⟨by simp [addPtr], rfl, rfl, fun i hi => ?_⟩
  simp only [addPtr] at hi ⊢
  by_cases h : i < s.ra.length
  · rw [List.getElem?_append_left h]
  · rw [List.getElem?_eq_none (by simp; omega), List.getElem?_eq_none (by omega)]

/-- **C27.** Top-down loading (text parsers, XDR, YAML): nodes added in document order, of any tree. -/
theorem C27_document_order (ps : List Nat) (h : DocumentOrder ps) : KeepsOrder (topDown 1 ps) := by
  have hp := (proper_topDown ps h).1
  obtain ⟨s, h1, h2⟩ := proper_inv hp
  exact ⟨s, h1, h2.len, fun p h3 h4 => inv_lists (proper_hw hp) h2 h3 h4⟩

/-- **C27.** Bottom-up loading (libxml2 trees): every element is loaded completely before it is added to
its parent. -/
theorem C27_bottom_up (e : Elems) : KeepsOrder (.alloc :: (bottomUp 1 2 e).1) := by
  have h0 : Proper [Op.alloc] := Proper.alloc Proper.nil
  have hp : Proper (.alloc :: (bottomUp 1 2 e).1) :=
    (proper_bottomUp e [.alloc] 1 h0 (by omega) (by simp [count]) (by simp [links]) (Or.inl (by simp [links, children]))).1
  obtain ⟨s, h1, h2⟩ := proper_inv hp
  exact ⟨s, h1, h2.len, fun p h3 h4 => inv_lists (proper_hw hp) h2 h3 h4⟩

/-- **C27.** In general: any interleaving of allocations and sensible additions (to a parent without
children, next to the part of the tree that was extended last, or far from it) keeps the order. -/
theorem C27_general (ops : List Op) (h : Proper ops) : KeepsOrder ops := by
  obtain ⟨s, h1, h2⟩ := proper_inv h
  exact ⟨s, h1, h2.len, fun p h3 h4 => inv_lists (proper_hw h) h2 h3 h4⟩

/-- **C27.** The condition is exact: a sensible addition to `p` appends the child to the children of `p` if
and only if the node added last is not below a child of `p` other than the last one. -/
theorem C27_exactly_when (ops : List Op) (h : Proper ops) (p c : Nat) (hs : Sensible (count ops) (links ops) p c) :
    KeepsOrder (ops ++ [.link p c]) ↔ Aligned (links ops) p := by
  constructor
  · intro hk
    apply Classical.byContradiction
    intro hal
    obtain ⟨s, h1, h2⟩ := proper_inv h
    obtain ⟨s', h3, h4⟩ := unaligned_wrong (proper_hw h) h2 hs hal
    obtain ⟨s2, k1, _, k3⟩ := hk
    rw [run_append, h1] at k1
    have : addChild s p c = some s2 := by simpa using k1
    rw [h3] at this
    cases this
    have hp : p ≠ 0 := by
      intro h; subst h; exact hal fun h => absurd rfl h
    have := k3 p hp (by rw [count_link]; exact hs.parent)
    rw [links_append, show links [Op.link p c] = [(p, c)] from rfl, children_append, if_pos rfl] at this
    exact h4 this
  · intro hal
    exact C27_general _ (Proper.link h hs hal)

/-- **C27, deviation.** In other orders nodes get lost: root 1 with children 2 and 3, then 4 below 2, then
5 below 1.  Node 3 is no more reachable: the children of 1 are listed as 2, 5. -/
theorem C27_deviation_other_orders :
    (run [.alloc, .link 0 1, .alloc, .link 1 2, .alloc, .link 1 3, .alloc, .link 2 4, .alloc, .link 1 5]).map (fun s =>
      (s.ra[1]?.map Pd.firstChild, s.ra[2]?.map Pd.next, s.ra[3]?.map Pd.next, s.ra[5]?.map Pd.next)) =
    some (some 2, some 5, some 0, some 0) := by decide +kernel

/-! non-vacuity: a document `1 (2 (3 4) 5)` -/
example : DocumentOrder [0, 1, 2, 2, 1] := by
  intro k hk
  match k with
  | 0 => left; rfl
  | 1 => right; exact ⟨by omega, Anc.self⟩
  | 2 => right; exact ⟨by omega, Anc.self⟩
  | 3 => right; exact ⟨by omega, Anc.up (p := 2) (by decide) Anc.self⟩
  | 4 => right; exact ⟨by omega, Anc.up (p := 2) (by decide) (Anc.up (p := 1) (by decide) Anc.self)⟩
  | k + 5 => simp at hk; omega
example : links (topDown 1 [0, 1, 2, 2, 1]) = [(0, 1), (1, 2), (2, 3), (2, 4), (1, 5)] := by decide
example : children (links (topDown 1 [0, 1, 2, 2, 1])) 1 = [2, 5] := by decide
example : (bottomUp 1 2 (.cons (.cons .nil .nil) (.cons .nil .nil))).1 =
    [.alloc, .alloc, .link 2 3, .link 1 2, .alloc, .link 1 4] := by decide

end Verif.Props.Ptrs
