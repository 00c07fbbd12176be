import Verif.Lemmas.AvlTree
import Verif.Model.Ic
namespace Verif.Lemmas.Tree
open Verif.Model Verif.Model.Ic Verif.Model.Tree Verif.Spec Verif.Lemmas.Collection Verif.Lemmas.IcArray
open T

variable {cmp : Cmp} {Inv : Pool → T → Prop}

/-- The pool is empty or a balanced search tree with the keys of `s`. -/
def PoolOK (Inv : Pool → T → Prop) (cmp : Cmp) (p : Pool) (s : List Key) : Prop :=
  (p = [] ∧ s = []) ∨
  ∃ t, Wf p t ∧ Inv p t ∧ Strict cmp (keys p t) ∧ (keys p t).Perm s

def TreeOK (Inv : Pool → T → Prop) (cmp : Cmp) (t : TreeIc) (s : List Key) : Prop :=
  PoolOK Inv cmp t.pool s ∧ (t.pool ≠ [] → t.itemsCount = t.pool.length - 1)

theorem wf_pos {p : Pool} {t : T} (h : Wf p t) : 0 < p.length := by
  have := h.count; omega

theorem wf_ne {p : Pool} {t : T} (h : Wf p t) : p ≠ [] := by
  intro e; have := wf_pos h; simp [e] at this

theorem wf_height {p : Pool} {t : T} (hS : Scheme Inv) (hw : Wf p t) (hi : Inv p t) : t.height ≤ 60 :=
  hS.height hi (by rw [← hw.count]; exact hw.len)

theorem wf_single : Wf [Node.zero] nil := by
  refine ⟨by simp, ?_, ?_⟩
  · exact ⟨by simp, rfl, rfl, trivial, trivial⟩
  · exact List.Perm.refl _

theorem treeCount_pos {p : Pool} (h0 : 0 < p.length) (h : p.length ≤ 2 ^ 32) :
    treeCount p = p.length - 1 := by
  unfold treeCount
  rw [show p.length + 4294967295 = p.length - 1 + 4294967296 by omega, Nat.add_mod_right,
    Nat.mod_eq_of_lt (by omega)]

theorem treeFind_ok (hc : Comparator cmp) (hS : Scheme Inv) {t : TreeIc} {s : List Key}
    (h : PoolOK Inv cmp t.pool s) (key : Key) : treeIcFind cmp t key = some (lookup cmp s key) := by
  rcases h with ⟨h1, rfl⟩ | ⟨u, hw, hi, hs, hp⟩
  · unfold treeIcFind
    rw [h1]
    simp [Tree.find, wr, pathSize, lookup]
  · rw [← lookup_perm hc hp (strict_distinct hs)]
    obtain ⟨path', _, h3⟩ := find_ok (cmp := cmp) hw key (by
      have := wf_height hS hw hi; unfold pathSize; omega)
    unfold treeIcFind
    rcases h3 with ⟨gs, e1, e2, _, e4⟩ | ⟨gs, l, i, r, e1, e2, _, e4, e5, _⟩
    · rw [e1]
      simp only [Option.bind_eq_bind, Option.bind_some, Bool.false_eq_true, if_false]
      subst e2
      rw [notfound_lookup hc hs e4]
    · rw [e1]
      have hmem : i ∈ u.ids := by rw [← e2, ids_plug]; simp [ids]
      have hlt : i < t.pool.length := links_lt hw.links.2.2.2.1 i hmem
      simp only [Option.bind_eq_bind, Option.bind_some, if_true, Nat.add_succ_sub_one,
        e4, getKey_eq hlt]
      rw [(lookup_eq_some_iff hc (strict_distinct hs)).mpr ⟨?_, e5⟩]
      exact List.mem_map.mpr ⟨i, hmem, rfl⟩

/-- the keys behind the pool, header first -/
theorem foreach_perm {t : TreeIc} {s : List Key} (h : PoolOK Inv cmp t.pool s) :
    (treeIcForeach t).Perm s := by
  rcases h with ⟨h1, rfl⟩ | ⟨u, hw, hi, hs, hp⟩
  · unfold treeIcForeach; rw [h1]; exact .refl _
  · refine List.Perm.trans ?_ hp
    have h1 : u.ids.Perm (List.range' 1 (t.pool.length - 1)) := by
      have h2 := hw.perm
      rw [List.range_eq_range'] at h2
      have hpos := wf_pos hw
      obtain ⟨n, hn⟩ : ∃ n, t.pool.length = n + 1 := ⟨t.pool.length - 1, by omega⟩
      rw [hn, List.range'_succ] at h2
      rw [hn]
      have h3 : (0 :: u.ids).Perm (0 :: List.range' 1 n) := by
        refine List.Perm.trans ?_ h2
        simp only [ids]
        exact (List.perm_append_singleton 0 u.ids).symm
      exact h3.cons_inv
    have h2 : (t.pool.drop 1).map (·.key) = (List.range' 1 (t.pool.length - 1)).map (K t.pool) := by
      apply List.ext_getElem
      · simp
      · intro j h3 h4
        simp only [List.length_map, List.length_drop] at h3
        simp only [List.getElem_map, List.getElem_drop, List.getElem_range', K,
          List.getD_eq_getElem?_getD, Nat.one_mul]
        rw [List.getElem?_eq_getElem (by omega)]
        rfl
    unfold treeIcForeach
    split
    · rw [h2]
      exact (List.reverse_perm _).trans (h1.map _).symm
    · next hlt =>
      have := hw.count
      have : u.ids = [] := List.length_eq_zero_iff.mp (by omega)
      unfold keys; rw [this]; exact .refl _

theorem tree_add (hc : Comparator cmp) (hS : Scheme Inv) {reb : Pool → Path → Nat → Option Pool}
    (hA : AddContract Inv reb) {t : TreeIc} {s : List Key} (hd : Distinct cmp s)
    (h : TreeOK Inv cmp t s) (hlen : t.pool.length + 1 < 2 ^ 31) (key : Key) (m : Bool × Bool) :
    ∃ t' r, treeIcAdd (treeAdd reb) cmp t key m = some (t', r) ∧ t'.pool.length ≤ max 1 t.pool.length + 1 ∧
      ((r = match lookup cmp s key with | some x => some x | none => some key) ∧
        TreeOK Inv cmp t' (match lookup cmp s key with | some _ => s | none => s ++ [key]) ∧ t'.pool ≠ [] ∨
       (m ≠ (true, true) ∧ TreeOK Inv cmp t' s ∧ lookup cmp s key = none ∧ r = none ∧
        (t.pool ≠ [] → t'.pool ≠ []))) := by
  -- a pool with a header
  have main : ∀ (p : Pool) (u : T), Wf p u → Inv p u → Strict cmp (keys p u) → (keys p u).Perm s →
      p.length < 2 ^ 31 →
      ∃ t' r, (do
          let (p, r) ← treeAdd reb cmp p key m
          some (({ pool := p, itemsCount := treeCount p } : TreeIc), ← deref (p.map (·.key)) r)) =
            some (t', r) ∧ t'.pool.length ≤ p.length + 1 ∧
      ((r = match lookup cmp s key with | some x => some x | none => some key) ∧
        TreeOK Inv cmp t' (match lookup cmp s key with | some _ => s | none => s ++ [key]) ∧ t'.pool ≠ [] ∨
       (m ≠ (true, true) ∧ TreeOK Inv cmp t' s ∧ lookup cmp s key = none ∧ r = none ∧ t'.pool ≠ [])) := by
    intro p u hw hi hs hp hl
    have hlk : lookup cmp s key = lookup cmp (keys p u) key :=
      (lookup_perm hc hp (strict_distinct hs) key).symm
    obtain ⟨p', r, h1, h2⟩ := treeAdd_ok hc hS hA hw hi hs hl key m
    rw [h1]
    simp only [Option.bind_eq_bind, Option.bind_some]
    have hder : ∀ (q : Pool) (i : Nat), i < q.length → deref (q.map (·.key)) (some i) = some (some (K q i)) := by
      intro q i hi
      simp only [deref, List.getElem?_map, get_eq hi, Option.map_some, K]
    rcases h2 with ⟨i, rfl, rfl, h3, h4⟩ | ⟨h3, u', i, rfl, h4, h5, h6, h7, h8, h9, h10⟩ | ⟨h3, h4, rfl, rfl⟩
    · rw [hder _ i h3]
      refine ⟨_, _, rfl, by simp, .inl ⟨?_, ⟨?_, fun _ => treeCount_pos (wf_pos hw) (by omega)⟩, wf_ne hw⟩⟩
      · rw [hlk, h4]
      · rw [hlk, h4]; exact .inr ⟨u, hw, hi, hs, hp⟩
    · rw [hder _ i h4]
      refine ⟨_, _, rfl, by simp [h10], .inl ⟨?_, ⟨?_, fun _ => treeCount_pos (wf_pos h6) ?_⟩, wf_ne h6⟩⟩
      · rw [hlk, h3, h5]
      · rw [hlk, h3]; exact .inr ⟨u', h6, h7, h8, h9.trans (hp.append_right _)⟩
      · omega
    · refine ⟨_, _, rfl, by simp, .inr ⟨?_, ⟨.inr ⟨u, hw, hi, hs, hp⟩,
        fun _ => treeCount_pos (wf_pos hw) (by omega)⟩, by rw [hlk]; exact h3, rfl, wf_ne hw⟩⟩
      intro e; rw [e] at h4; cases h4
  unfold treeIcAdd
  rcases h.1 with ⟨h1, rfl⟩ | ⟨u, hw, hi, hs, hp⟩
  · rw [h1]
    by_cases hm : m.1 = true
    · have : treeAdd reb cmp [] key m = treeAdd reb cmp [Node.zero] key m := by
        unfold treeAdd
        simp [hm, nodeNew]
      rw [this]
      obtain ⟨t', r, g1, g2, g3⟩ := main [Node.zero] nil wf_single hS.empty List.Pairwise.nil
        (.refl _) (by simp)
      refine ⟨t', r, g1, by simpa using g2, ?_⟩
      rcases g3 with g3 | ⟨g3, g4, g5, g6, g7⟩
      · exact .inl g3
      · exact .inr ⟨g3, g4, g5, g6, fun _ => g7⟩
    · have : treeAdd reb cmp [] key m = some ([], none) := by
        unfold treeAdd
        simp [hm, nodeNew]
      rw [this]
      refine ⟨⟨[], treeCount []⟩, none, rfl, by simp, .inr ⟨?_, ⟨.inl ⟨rfl, rfl⟩, fun h => absurd rfl h⟩, rfl, rfl,
        fun h => absurd rfl h⟩⟩
      intro e; rw [e] at hm; exact hm rfl
  · obtain ⟨t', r, g1, g2, g3⟩ := main t.pool u hw hi hs hp (by omega)
    refine ⟨t', r, g1, by have := wf_pos hw; omega, ?_⟩
    rcases g3 with g3 | ⟨g3, g4, g5, g6, g7⟩
    · exact .inl g3
    · exact .inr ⟨g3, g4, g5, g6, fun _ => g7⟩

theorem tree_del (hc : Comparator cmp) (hS : Scheme Inv) {reb : Pool → Path → Nat → Option Pool}
    (hD : DelContract Inv reb) {t : TreeIc} {s : List Key} (hd : Distinct cmp s)
    (h : TreeOK Inv cmp t s) (key : Key) :
    ∃ t' r, treeIcDel (treeDel reb) cmp t key = some (t', r) ∧ t'.pool.length ≤ t.pool.length ∧
      (t.pool ≠ [] → t'.pool ≠ []) ∧
      (match lookup cmp s key with
       | some _ => r = true ∧ TreeOK Inv cmp t' (s.filter fun r => decide (cmp key r ≠ 0))
       | none => r = false ∧ TreeOK Inv cmp t' s) := by
  unfold treeIcDel
  rcases h.1 with ⟨h1, rfl⟩ | ⟨u, hw, hi, hs, hp⟩
  · rw [h1]
    have : treeDel reb cmp [] key = some ([], false) := by
      unfold treeDel
      simp [Tree.find, wr, pathSize]
    rw [this]
    exact ⟨⟨[], treeCount []⟩, false, rfl, by simp, fun h => absurd rfl h, rfl, .inl ⟨rfl, rfl⟩, fun h => absurd rfl h⟩
  · have hlk : lookup cmp s key = lookup cmp (keys t.pool u) key :=
      (lookup_perm hc hp (strict_distinct hs) key).symm
    obtain ⟨p', r, h1, h2⟩ := treeDel_ok hc hS hD hw hi hs key
    rw [h1]
    refine ⟨_, _, rfl, ?_, ?_, ?_⟩
    · rcases h2 with ⟨rfl, _⟩ | ⟨_, _, _, _, _, _, h3⟩
      · exact Nat.le_refl _
      · simp only [h3]; omega
    · intro _
      rcases h2 with ⟨rfl, _⟩ | ⟨_, _, _, h3, _⟩
      · exact wf_ne hw
      · exact wf_ne h3
    · have hl2 := hw.len
      rcases h2 with ⟨rfl, rfl, h3⟩ | ⟨rfl, h3, u', h4, h5, h6, h7⟩
      · rw [hlk, h3]
        exact ⟨rfl, .inr ⟨u, hw, hi, hs, hp⟩, fun _ => treeCount_pos (wf_pos hw) (by omega)⟩
      · rw [hlk]
        cases hx : lookup cmp (keys t.pool u) key with
        | none => exact absurd hx h3
        | some x =>
          refine ⟨rfl, .inr ⟨u', h4, h5, ?_, ?_⟩, fun _ => treeCount_pos (wf_pos h4) (by omega)⟩
          · rw [h6]; exact List.Pairwise.filter _ hs
          · rw [h6]; exact hp.filter _

end Verif.Lemmas.Tree
