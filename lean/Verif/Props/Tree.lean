import Verif.Lemmas.Ic
import Verif.Lemmas.TreeValid
import Verif.Lemmas.BasicCmp
/-!
# C16–C20, C48: balanced trees

A history is a list of API calls, each with the answers of the allocator (granted or refused), on a
collection that starts empty.  `… = some _` includes: no access outside the node array, none outside the
63 path entries, no endless loop.  The bound 2^31 is the range of the 31-bit node indices.
-/
namespace Verif.Props.Tree
open Verif.Model Verif.Model.Ic Verif.Model.Tree Verif.Spec

/-- What is promised about a tree with storage `pool` that holds the set `s`. -/
structure TreeFacts (cmp : Cmp) (pool : Pool) (s : List Key) : Prop where
  /-- `mr_tree_walk` visits every element exactly once, in increasing order -/
  walk : ∃ ks, treeWalk pool = some ks ∧ ks.Perm s ∧ ks.Pairwise fun x y => cmp x y < 0
  /-- `mr_tree_find` uses at most 61 of the 63 path entries -/
  path : ∀ k, ∃ tr, find cmp k pool pool.length = some tr ∧ tr.size ≤ 61
  /-- after `mr_tree_find` of any key, stored or not, repeated `mr_tree_next` to the right passes all
  greater elements in increasing order, to the left all smaller ones in decreasing order -/
  cursor : pool ≠ [] → ∀ k ks, treeWalk pool = some ks → ∃ tr, find cmp k pool pool.length = some tr ∧
    cursorLoop pool true (pool.length + 1) tr = some (ks.filter fun x => decide (cmp k x < 0)) ∧
    cursorLoop pool false (pool.length + 1) tr = some (ks.filter fun x => decide (cmp k x > 0)).reverse

theorem facts {Inv : Pool → Lemmas.Tree.T → Prop} {cmp : Cmp} (hc : Comparator cmp)
    (hS : Lemmas.Tree.Scheme Inv) {p : Pool} {s : List Key} (h : Lemmas.Tree.PoolOK Inv cmp p s) :
    TreeFacts cmp p s := by
  rcases h with ⟨rfl, rfl⟩ | ⟨u, hw, hi, hs, hp⟩
  · refine ⟨⟨[], rfl, .refl _, .nil⟩, fun k => ⟨_, rfl, by simp⟩, fun h => absurd rfl h⟩
  · have hh := Lemmas.Tree.wf_height hS hw hi
    have hwalk := Lemmas.Tree.treeWalk_ok hw (by omega)
    refine ⟨⟨_, hwalk, hp, hs⟩, ?_, ?_⟩
    · intro k
      obtain ⟨path, _, h3⟩ := Lemmas.Tree.find_ok (cmp := cmp) hw k (by unfold pathSize; omega)
      rcases h3 with ⟨gs, e1, e2, _⟩ | ⟨gs, l, i, r, e1, e2, _⟩
      · have := Lemmas.Tree.height_plug gs Lemmas.Tree.T.nil
        rw [e2] at this
        exact ⟨_, e1, by simp only; omega⟩
      · have := Lemmas.Tree.height_plug gs (.node l i r)
        rw [e2] at this
        exact ⟨_, e1, by simp only [Lemmas.Tree.T.height] at this ⊢; omega⟩
    · intro _ k ks hks
      rw [hwalk] at hks
      simp only [Option.some.injEq] at hks
      subst hks
      obtain ⟨tr, h1, h2⟩ := Lemmas.Tree.cursor_ok hc hw (by omega) hs k true
      obtain ⟨tr', h1', h2'⟩ := Lemmas.Tree.cursor_ok hc hw (by omega) hs k false
      rw [h1] at h1'
      cases h1'
      exact ⟨tr, h1, h2, h2'⟩

theorem rb_run (cmp : Cmp) (hcmp : Comparator cmp) (ops : List (Op Key × Bool × Bool))
    (hlen : ops.length + 3 < 2 ^ 31) :
    ∃ t rs s, icRun cmp (fun _ => 0) (icNew .rb) ops = some (.rb t, rs) ∧
      Allowed cmp [] (ops.map (·.1)) rs s ∧ Distinct cmp s ∧ Lemmas.Tree.TreeOK Lemmas.Tree.RbInv cmp t s ∧
      t.pool.length ≤ ops.length + 1 := by
  obtain ⟨t, rs, s, h1, h2, h3, h4, h5⟩ := Lemmas.Ic.tree_run_any (hash := fun _ => 0) hcmp
    (Lemmas.Ic.rb_treeStep hcmp) ops 0 [] ⟨[], 0⟩ .nil (by omega) ⟨.inl ⟨rfl, rfl⟩, fun h => absurd rfl h⟩ (by simp)
  exact ⟨t, rs, s, h1, h2, h3, h4, by omega⟩

theorem avl_run (cmp : Cmp) (hcmp : Comparator cmp) (ops : List (Op Key × Bool × Bool))
    (hlen : ops.length + 3 < 2 ^ 31) :
    ∃ t rs s, icRun cmp (fun _ => 0) (icNew .avl) ops = some (.avl t, rs) ∧
      Allowed cmp [] (ops.map (·.1)) rs s ∧ Distinct cmp s ∧ Lemmas.Tree.TreeOK Lemmas.Tree.AvlInv cmp t s ∧
      t.pool.length ≤ ops.length + 1 := by
  obtain ⟨t, rs, s, h1, h2, h3, h4, h5⟩ := Lemmas.Ic.tree_run_any (hash := fun _ => 0) hcmp
    (Lemmas.Ic.avl_treeStep hcmp) ops 0 [] ⟨[], 0⟩ .nil (by omega) ⟨.inl ⟨rfl, rfl⟩, fun h => absurd rfl h⟩ (by simp)
  exact ⟨t, rs, s, h1, h2, h3, h4, by omega⟩

/-- **C16** After every history, with memory granted or refused, `mr_rbtree_is_valid` accepts the tree. -/
theorem C16_rbtree_stays_valid (cmp : Cmp) (hcmp : Comparator cmp) (ops : List (Op Key × Bool × Bool))
    (hlen : ops.length + 3 < 2 ^ 31) :
    ∃ t rs, icRun cmp (fun _ => 0) (icNew .rb) ops = some (.rb t, rs) ∧ rbIsValid cmp t.pool = some true := by
  obtain ⟨t, rs, s, h1, _, _, ⟨h4, _⟩, _⟩ := rb_run cmp hcmp ops hlen
  refine ⟨t, rs, h1, ?_⟩
  rcases h4 with ⟨h5, _⟩ | ⟨u, hw, hi, hs, _⟩
  · rw [h5]; rfl
  · exact Lemmas.Tree.rbIsValid_complete hcmp hw hi hs

/-- **C17** After every history, with memory granted or refused, `mr_avltree_is_valid` accepts the tree. -/
theorem C17_avltree_stays_valid (cmp : Cmp) (hcmp : Comparator cmp) (ops : List (Op Key × Bool × Bool))
    (hlen : ops.length + 3 < 2 ^ 31) :
    ∃ t rs, icRun cmp (fun _ => 0) (icNew .avl) ops = some (.avl t, rs) ∧ avlIsValid cmp t.pool = some true := by
  obtain ⟨t, rs, s, h1, _, _, ⟨h4, _⟩, _⟩ := avl_run cmp hcmp ops hlen
  refine ⟨t, rs, h1, ?_⟩
  rcases h4 with ⟨h5, _⟩ | ⟨u, hw, hi, hs, _⟩
  · rw [h5]; rfl
  · exact Lemmas.Tree.avlIsValid_complete hcmp hw hi hs

/-- **C18** No history of calls on a tree, with memory granted or refused, makes any call write outside
the path array (`icRun … = some _`), and a descent to any key afterwards uses at most 61 of its 63
entries. -/
theorem C18_path_never_overflows (cmp : Cmp) (hcmp : Comparator cmp) (ops : List (Op Key × Bool × Bool))
    (hlen : ops.length + 3 < 2 ^ 31) :
    (∃ t rs, icRun cmp (fun _ => 0) (icNew .rb) ops = some (.rb t, rs) ∧
      ∀ k, ∃ tr, find cmp k t.pool t.pool.length = some tr ∧ tr.size ≤ 61) ∧
    (∃ t rs, icRun cmp (fun _ => 0) (icNew .avl) ops = some (.avl t, rs) ∧
      ∀ k, ∃ tr, find cmp k t.pool t.pool.length = some tr ∧ tr.size ≤ 61) := by
  obtain ⟨t, rs, s, h1, _, _, ⟨h4, _⟩, _⟩ := rb_run cmp hcmp ops hlen
  obtain ⟨t', rs', s', h1', _, _, ⟨h4', _⟩, _⟩ := avl_run cmp hcmp ops hlen
  exact ⟨⟨t, rs, h1, (facts hcmp Lemmas.Tree.rb_scheme h4).path⟩,
    ⟨t', rs', h1', (facts hcmp Lemmas.Tree.avl_scheme h4').path⟩⟩

/-- **C19** After every history that produced the answers `rs`, the tree holds a set `s` that the answers
account for, and walks and cursors pass the elements of `s` in order (`TreeFacts`). -/
theorem C19_iteration_in_order (cmp : Cmp) (hcmp : Comparator cmp) (ops : List (Op Key × Bool × Bool))
    (hlen : ops.length + 3 < 2 ^ 31) :
    (∃ t rs s, icRun cmp (fun _ => 0) (icNew .rb) ops = some (.rb t, rs) ∧
      Allowed cmp [] (ops.map (·.1)) rs s ∧ TreeFacts cmp t.pool s) ∧
    (∃ t rs s, icRun cmp (fun _ => 0) (icNew .avl) ops = some (.avl t, rs) ∧
      Allowed cmp [] (ops.map (·.1)) rs s ∧ TreeFacts cmp t.pool s) := by
  obtain ⟨t, rs, s, h1, h2, _, ⟨h4, _⟩, _⟩ := rb_run cmp hcmp ops hlen
  obtain ⟨t', rs', s', h1', h2', _, ⟨h4', _⟩, _⟩ := avl_run cmp hcmp ops hlen
  exact ⟨⟨t, rs, s, h1, h2, facts hcmp Lemmas.Tree.rb_scheme h4⟩,
    ⟨t', rs', s', h1', h2', facts hcmp Lemmas.Tree.avl_scheme h4'⟩⟩

theorem del_walk {Inv : Pool → Lemmas.Tree.T → Prop} {cmp : Cmp} (hc : Comparator cmp)
    (hS : Lemmas.Tree.Scheme Inv) {reb : Pool → Path → Nat → Option Pool}
    (hD : Lemmas.Tree.DelContract Inv reb) {p : Pool} {s ks : List Key}
    (h : Lemmas.Tree.PoolOK Inv cmp p s) (hks : treeWalk p = some ks) (k : Key) :
    ∃ p', treeDel reb cmp p k = some (p', (lookup cmp ks k).isSome) ∧
      treeWalk p' = some (ks.filter fun x => decide (cmp k x ≠ 0)) ∧
      p'.length = p.length - (if (lookup cmp ks k).isSome then 1 else 0) := by
  rcases h with ⟨rfl, rfl⟩ | ⟨u, hw, hi, hs, hp⟩
  · have : ks = [] := by
      have h0 : treeWalk [] = some [] := rfl
      rw [h0] at hks; cases hks; rfl
    subst this
    refine ⟨[], ?_, rfl, rfl⟩
    unfold treeDel
    simp [Tree.find, wr, pathSize, lookup]
  · have hh := Lemmas.Tree.wf_height hS hw hi
    rw [Lemmas.Tree.treeWalk_ok hw (by omega)] at hks
    simp only [Option.some.injEq] at hks
    subst hks
    obtain ⟨p', r, h1, h2⟩ := Lemmas.Tree.treeDel_ok hc hS hD hw hi hs k
    rcases h2 with ⟨rfl, rfl, h3⟩ | ⟨rfl, h3, u', hw', hi', h6, h7⟩
    · refine ⟨_, by rw [h1, h3]; rfl, ?_, by rw [h3]; rfl⟩
      rw [Lemmas.Tree.treeWalk_ok hw (by omega)]
      congr 1
      symm
      rw [List.filter_eq_self]
      intro x hx
      unfold lookup at h3
      rw [List.find?_eq_none] at h3
      simpa using h3 x hx
    · have hsome : (lookup cmp (Lemmas.Tree.keys p u) k).isSome = true := by
        cases hx : lookup cmp (Lemmas.Tree.keys p u) k with
        | none => exact absurd hx h3
        | some x => rfl
      have hh' := Lemmas.Tree.wf_height hS hw' hi'
      refine ⟨p', by rw [h1, hsome], ?_, by rw [h7, hsome]; rfl⟩
      rw [Lemmas.Tree.treeWalk_ok hw' (by omega), h6]

/-- **C20** Deleting from a tree reached by any history leaves exactly the other elements, in the same
order, and frees one slot iff the key was stored. -/
theorem C20_delete_keeps_the_others (cmp : Cmp) (hcmp : Comparator cmp) (ops : List (Op Key × Bool × Bool))
    (hlen : ops.length + 3 < 2 ^ 31) (k : Key) :
    (∃ t rs ks p', icRun cmp (fun _ => 0) (icNew .rb) ops = some (.rb t, rs) ∧ treeWalk t.pool = some ks ∧
      rbDel cmp t.pool k = some (p', (lookup cmp ks k).isSome) ∧
      treeWalk p' = some (ks.filter fun x => decide (cmp k x ≠ 0)) ∧
      p'.length = t.pool.length - (if (lookup cmp ks k).isSome then 1 else 0)) ∧
    (∃ t rs ks p', icRun cmp (fun _ => 0) (icNew .avl) ops = some (.avl t, rs) ∧ treeWalk t.pool = some ks ∧
      avlDel cmp t.pool k = some (p', (lookup cmp ks k).isSome) ∧
      treeWalk p' = some (ks.filter fun x => decide (cmp k x ≠ 0)) ∧
      p'.length = t.pool.length - (if (lookup cmp ks k).isSome then 1 else 0)) := by
  obtain ⟨t, rs, s, h1, h2, _, ⟨h4, _⟩, _⟩ := rb_run cmp hcmp ops hlen
  obtain ⟨t', rs', s', h1', h2', _, ⟨h4', _⟩, _⟩ := avl_run cmp hcmp ops hlen
  obtain ⟨ks, w, _, _⟩ := (facts hcmp Lemmas.Tree.rb_scheme h4).walk
  obtain ⟨ks', w', _, _⟩ := (facts hcmp Lemmas.Tree.avl_scheme h4').walk
  obtain ⟨p, d⟩ := del_walk hcmp Lemmas.Tree.rb_scheme Lemmas.Tree.rb_del_contract h4 w k
  obtain ⟨p', d'⟩ := del_walk hcmp Lemmas.Tree.avl_scheme Lemmas.Tree.avl_del_contract h4' w' k
  exact ⟨⟨t, rs, ks, p, h1, w, d⟩, ⟨t', rs', ks', p', h1', w', d'⟩⟩

theorem hdr_right {p : Pool} (h : p ≠ [] → getNx p 0 true = some 0) : p ≠ [] → Lemmas.Tree.N p 0 true = 0 := by
  intro hne
  have h1 := h hne
  rw [Lemmas.Tree.getNx_eq (List.length_pos_iff.mpr hne)] at h1
  simpa using h1

/-- **C48** On any node array whatsoever (at most 2^31 nodes, right link of the header unused)
`mr_rbtree_is_valid` answers without leaving the array, and an array it accepts can be relied on: walks
and cursors are in order, and every further history behaves as on the set that the walk lists. -/
theorem C48_rb_validator_can_be_trusted (cmp : Cmp) (hcmp : Comparator cmp) (p : Pool) (hlen : p.length ≤ 2 ^ 31)
    (hhdr0 : p ≠ [] → getNx p 0 true = some 0) :
    ∃ b, rbIsValid cmp p = some b ∧ (b = true → ∃ ks, treeWalk p = some ks ∧ TreeFacts cmp p ks ∧
      ∀ ops : List (Op Key × Bool × Bool), p.length + ops.length + 3 < 2 ^ 31 →
        ∃ t rs s, icRun cmp (fun _ => 0) (.rb ⟨p, p.length - 1⟩) ops = some (.rb t, rs) ∧
          Allowed cmp ks (ops.map (·.1)) rs s ∧ TreeFacts cmp t.pool s) := by
  have hhdr := hdr_right hhdr0
  obtain ⟨b, h1, h2⟩ := Lemmas.Tree.rbIsValid_sound hcmp hlen hhdr
  refine ⟨b, h1, fun hb => ?_⟩
  obtain ⟨ks, hok, hw, hd⟩ : ∃ ks, Lemmas.Tree.PoolOK Lemmas.Tree.RbInv cmp p ks ∧ treeWalk p = some ks ∧
      Distinct cmp ks := by
    rcases h2 hb with rfl | ⟨u, hw, hi, hs⟩
    · exact ⟨[], .inl ⟨rfl, rfl⟩, rfl, .nil⟩
    · exact ⟨_, .inr ⟨u, hw, hi, hs, .refl _⟩, Lemmas.Tree.treeWalk_ok hw (by
        have := Lemmas.Tree.wf_height Lemmas.Tree.rb_scheme hw hi; omega), Lemmas.IcArray.strict_distinct hs⟩
  refine ⟨ks, hw, facts hcmp Lemmas.Tree.rb_scheme hok, ?_⟩
  intro ops ho
  obtain ⟨t, rs, s, g1, g2, _, ⟨g4, _⟩, _⟩ := Lemmas.Ic.tree_run_any (hash := fun _ => 0) hcmp
    (Lemmas.Ic.rb_treeStep hcmp) ops p.length ks ⟨p, p.length - 1⟩ hd (by omega) ⟨hok, fun _ => rfl⟩ (by simp)
  exact ⟨t, rs, s, g1, g2, facts hcmp Lemmas.Tree.rb_scheme g4⟩

/-- **C48** The same for `mr_avltree_is_valid`. -/
theorem C48_avl_validator_can_be_trusted (cmp : Cmp) (hcmp : Comparator cmp) (p : Pool) (hlen : p.length ≤ 2 ^ 31)
    (hhdr0 : p ≠ [] → getNx p 0 true = some 0) :
    ∃ b, avlIsValid cmp p = some b ∧ (b = true → ∃ ks, treeWalk p = some ks ∧ TreeFacts cmp p ks ∧
      ∀ ops : List (Op Key × Bool × Bool), p.length + ops.length + 3 < 2 ^ 31 →
        ∃ t rs s, icRun cmp (fun _ => 0) (.avl ⟨p, p.length - 1⟩) ops = some (.avl t, rs) ∧
          Allowed cmp ks (ops.map (·.1)) rs s ∧ TreeFacts cmp t.pool s) := by
  have hhdr := hdr_right hhdr0
  obtain ⟨b, h1, h2⟩ := Lemmas.Tree.avlIsValid_sound hcmp hlen hhdr
  refine ⟨b, h1, fun hb => ?_⟩
  obtain ⟨ks, hok, hw, hd⟩ : ∃ ks, Lemmas.Tree.PoolOK Lemmas.Tree.AvlInv cmp p ks ∧ treeWalk p = some ks ∧
      Distinct cmp ks := by
    rcases h2 hb with rfl | ⟨u, hw, hi, hs⟩
    · exact ⟨[], .inl ⟨rfl, rfl⟩, rfl, .nil⟩
    · exact ⟨_, .inr ⟨u, hw, hi, hs, .refl _⟩, Lemmas.Tree.treeWalk_ok hw (by
        have := Lemmas.Tree.wf_height Lemmas.Tree.avl_scheme hw hi; omega), Lemmas.IcArray.strict_distinct hs⟩
  refine ⟨ks, hw, facts hcmp Lemmas.Tree.avl_scheme hok, ?_⟩
  intro ops ho
  obtain ⟨t, rs, s, g1, g2, _, ⟨g4, _⟩, _⟩ := Lemmas.Ic.tree_run_any (hash := fun _ => 0) hcmp
    (Lemmas.Ic.avl_treeStep hcmp) ops p.length ks ⟨p, p.length - 1⟩ hd (by omega) ⟨hok, fun _ => rfl⟩ (by simp)
  exact ⟨t, rs, s, g1, g2, facts hcmp Lemmas.Tree.avl_scheme g4⟩

/-! ### the hypotheses are met, the conclusions are not trivial -/

def wordCmp (x y : Nat) : Int := (if x > y then 1 else 0) - (if x < y then 1 else 0)

/-- seven adds, one of them refused, two dels -/
def history : List (Op Key × Bool × Bool) :=
  [(.add 5, true, true), (.add 1, true, true), (.add 3, true, true), (.add 9, true, true), (.add 2, false, false),
   (.add 7, true, true), (.add 8, true, true), (.add 6, true, true), (.del 5, true, true), (.del 4, true, true)]

/-- the pool behind a tree collection -/
def poolOf : Ic → Pool
  | .rb t => t.pool
  | .avl t => t.pool
  | _ => []

example : (icRun wordCmp (fun _ => 0) (icNew .rb) history).bind (fun x => treeWalk (poolOf x.1)) =
    some [1, 3, 6, 7, 8, 9] := by decide +kernel
example : (icRun wordCmp (fun _ => 0) (icNew .avl) history).bind (fun x => treeWalk (poolOf x.1)) =
    some [1, 3, 6, 7, 8, 9] := by decide +kernel
example : (icRun wordCmp (fun _ => 0) (icNew .rb) history).bind (fun x => rbIsValid wordCmp (poolOf x.1)) =
    some true := by decide +kernel
example : (icRun wordCmp (fun _ => 0) (icNew .rb) history).bind (fun x => do
    let tr ← find wordCmp 4 (poolOf x.1) (poolOf x.1).length
    cursorLoop (poolOf x.1) true 20 tr) = some [6, 7, 8, 9] := by decide +kernel
/-- a right-leaning chain is ordered but not balanced: both validators reject -/
example : rbIsValid wordCmp [⟨0, 1, false, 0, false⟩, ⟨10, 0, false, 2, false⟩, ⟨20, 0, false, 3, false⟩, ⟨30, 0, false, 0, false⟩] =
    some false := by decide +kernel
/-- links out of range, shared or cyclic nodes and unreachable nodes are rejected -/
example : rbIsValid wordCmp [⟨0, 1, false, 0, false⟩, ⟨10, 0, false, 9, false⟩] = some false := by decide +kernel
example : avlIsValid wordCmp [⟨0, 1, false, 0, false⟩, ⟨10, 0, false, 1, true⟩] = some false := by decide +kernel
example : avlIsValid wordCmp [⟨0, 1, false, 0, false⟩, ⟨10, 0, true, 0, false⟩, ⟨20, 0, true, 0, false⟩] = some false := by
  decide +kernel
/-- and a balanced one is accepted -/
example : avlIsValid wordCmp [⟨0, 2, false, 0, false⟩, ⟨10, 0, true, 0, false⟩, ⟨20, 1, false, 0, false⟩] = some true := by
  decide +kernel

end Verif.Props.Tree
