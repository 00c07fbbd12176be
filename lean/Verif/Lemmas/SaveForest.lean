import Verif.Lemmas.SaveTree
/-!
The node tree built by `mr_save` as an ordered forest.
-/
namespace Verif.Lemmas.SaveForest
open Verif.Model Verif.Model.Ptrs Verif.Spec.Ptrs Verif.Lemmas.SaveTree

theorem anc_common {P : Nat → Pd} {a b x k : Nat} (h : SaveTree.Anc P a x) (ha : Dep P a k) (hb : Dep P b k) (h' : SaveTree.Anc P b x) : a = b := by
  induction h with
  | self =>
    rcases anc_dep h' hb ha with ⟨h, _⟩ | h
    · exact h.symm
    · omega
  | @up x h1 h2 ih =>
    cases h' with
    | self =>
      rcases anc_dep (SaveTree.Anc.up h1 h2) ha hb with ⟨h, _⟩ | h
      · exact h
      · omega
    | up _ h3 => exact ih h3

theorem anc_first {P : Nat → Pd} {n : Nat} {ks : Nat → List Nat} (ht : Tree P n ks) {a x : Nat} (h : SaveTree.Anc P a x) (hx : x < n) :
    x = a ∨ ∃ c ∈ ks a, SaveTree.Anc P c x := by
  induction h with
  | self => exact Or.inl rfl
  | @up x h1 h2 ih =>
    right
    rcases ih (tree_closed ht x h1 hx) with h | ⟨c, hc, h⟩
    · exact ⟨x, h ▸ ht.mem x h1 hx, SaveTree.Anc.self⟩
    · exact ⟨c, hc, SaveTree.Anc.up h1 h⟩

theorem forest_of_tree {ra : List Pd} {n : Nat} {ks : Nat → List Nat} (hn : ra.length = n) (h : Tree (nd ra) n ks) (m : Nat) :
    ∀ k i, n ≤ k + m → Dep (nd ra) i k → i < n →
    ∃ f, Rep ra i (kidsHead (nd ra i)) f ∧ f.nodes.Nodup ∧ ∀ x, x ∈ f.nodes ↔ x < n ∧ x ≠ i ∧ SaveTree.Anc (nd ra) i x := by
  induction m with
  | zero =>
    intro k i h1 h2 h3
    have := dep_lt (tree_closed h) h2 h3
    omega
  | succ m ih =>
    intro k i h1 h2 h3
    have hi1 := dep_pos h2
    suffices hs : ∀ (l : List Nat) (head : Nat), ChainF (nd ra) head l → (∀ c ∈ l, c ∈ ks i) → l.Nodup →
        ∃ f, Rep ra i head f ∧ f.nodes.Nodup ∧ ∀ x, x ∈ f.nodes ↔ x < n ∧ ∃ c ∈ l, SaveTree.Anc (nd ra) c x by
      obtain ⟨f, f1, f2, f3⟩ := hs _ _ (h.chain i hi1 h3) (fun c hc => hc) (h.nodup i)
      refine ⟨f, f1, f2, fun x => (f3 x).trans ⟨?_, ?_⟩⟩
      · rintro ⟨x1, c, hc, ha⟩
        obtain ⟨_, _, c1, c2, c3⟩ := h.own i c hc
        refine ⟨x1, ?_, anc_trans (SaveTree.Anc.up c1 (by rw [c3]; exact SaveTree.Anc.self)) ha⟩
        rintro rfl
        have hd : Dep (nd ra) c (k + 1) := Dep.up c1 (by rw [c3]; exact h2)
        rcases anc_dep ha hd h2 with ⟨_, h⟩ | h <;> omega
      · rintro ⟨x1, x2, x3⟩
        rcases anc_first h x3 x1 with h4 | h4
        · exact absurd h4 x2
        · exact ⟨x1, h4⟩
    intro l
    induction l with
    | nil =>
      intro head hc _ _
      exact ⟨.nil, hc, by simp [Forest.nodes], by simp [Forest.nodes]⟩
    | cons c l ihl =>
      intro head hc hk hnd
      obtain ⟨e1, e2, e3⟩ := hc
      obtain ⟨_, _, c1, c2, c3⟩ := h.own i c (hk c (by simp))
      have hdc : Dep (nd ra) c (k + 1) := Dep.up c1 (by rw [c3]; exact h2)
      obtain ⟨hnd1, hnd2⟩ := List.nodup_cons.1 hnd
      obtain ⟨s, s1, s2, s3⟩ := ihl _ e3 (fun x hx => hk x (by simp [hx])) hnd2
      obtain ⟨f, f1, f2, f3⟩ := ih (k + 1) c (by omega) hdc c2
      have hdl : ∀ d ∈ l, Dep (nd ra) d (k + 1) := by
        intro d hd
        obtain ⟨_, _, d1, d2, d3⟩ := h.own i d (hk d (by simp [hd]))
        exact Dep.up d1 (by rw [d3]; exact h2)
      have hdis : ∀ x, SaveTree.Anc (nd ra) c x → x ∉ s.nodes := by
        intro x hx hs
        obtain ⟨_, d, hd, hax⟩ := (s3 x).1 hs
        have := anc_common hx hdc (hdl d hd) hax
        exact hnd1 (this ▸ hd)
      refine ⟨.cons c f s, ⟨e1, e2, nd ra c, nd_get (by omega), c3, f1, s1⟩, ?_, ?_⟩
      · rw [Forest.nodes, List.nodup_cons, List.nodup_append, List.mem_append]
        refine ⟨?_, f2, s2, ?_⟩
        · rintro (h4 | h4)
          · exact ((f3 c).1 h4).2.1 rfl
          · exact hdis c SaveTree.Anc.self h4
        · rintro a ha b hb rfl
          exact hdis a ((f3 a).1 ha).2.2 hb
      · intro x
        rw [Forest.nodes, List.mem_cons, List.mem_append, f3, s3]
        constructor
        · rintro (rfl | ⟨x1, _, x3⟩ | ⟨x1, d, hd, x3⟩)
          · exact ⟨c2, x, by simp, SaveTree.Anc.self⟩
          · exact ⟨x1, c, by simp, x3⟩
          · exact ⟨x1, d, by simp [hd], x3⟩
        · rintro ⟨x1, d, hd, x3⟩
          rcases List.mem_cons.1 hd with rfl | hd
          · by_cases hx : x = d
            · exact Or.inl hx
            · exact Or.inr (Or.inl ⟨x1, hx, x3⟩)
          · exact Or.inr (Or.inr ⟨x1, d, hd, x3⟩)

theorem anc_root {P : Nat → Pd} {x k : Nat} (h : Dep P x k) : SaveTree.Anc P 1 x := by
  induction h with
  | root => exact SaveTree.Anc.self
  | up h1 _ ih => exact SaveTree.Anc.up h1 ih

/-- all nodes are in one tree -/
theorem rep_of_tree {ra : List Pd} {n : Nat} {ks : Nat → List Nat} (hn : ra.length = n) (h1 : 1 < n) (h : Tree (nd ra) n ks) :
    ∃ k, Rep ra 0 1 (.cons 1 k .nil) ∧ (1 :: k.nodes).Nodup ∧ ∀ x, x ∈ 1 :: k.nodes ↔ 1 ≤ x ∧ x < n := by
  obtain ⟨f, f1, f2, f3⟩ := forest_of_tree hn h n 0 1 (by omega) Dep.root h1
  refine ⟨f, ⟨rfl, by omega, nd ra 1, nd_get (by omega), h.root, f1, h.rnext⟩, ?_, ?_⟩
  · rw [List.nodup_cons]
    exact ⟨fun h => ((f3 1).1 h).2.1 rfl, f2⟩
  · intro x
    rw [List.mem_cons, f3]
    constructor
    · rintro (rfl | ⟨x1, x2, x3⟩)
      · omega
      · refine ⟨?_, x1⟩
        cases x3 with
        | self => exact absurd rfl x2
        | up h _ => omega
    · rintro ⟨x1, x2⟩
      by_cases hx : x = 1
      · exact Or.inl hx
      · obtain ⟨k, hk⟩ := h.dep x x1 x2
        exact Or.inr ⟨x2, hx, anc_root hk⟩

end Verif.Lemmas.SaveForest
