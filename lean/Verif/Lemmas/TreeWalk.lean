import Verif.Lemmas.TreeIc
namespace Verif.Lemmas.Tree
open Verif.Model Verif.Model.Ic Verif.Model.Tree Verif.Spec Verif.Lemmas.Collection Verif.Lemmas.IcArray
open T

variable {p : Pool} {cmp : Cmp}

/-! ### `mr_tree_walk` -/

/-- indices still to visit for a stack of nodes with their right subtrees -/
def pend : List (Nat × T) → List Nat
  | [] => []
  | (i, r) :: xs => i :: (r.ids ++ pend xs)

def StackOK (p : Pool) : List (Nat × T) → Prop
  | [] => True
  | (i, r) :: xs => i < p.length ∧ N p i true = r.rt ∧ Links p r ∧ 0 ∉ r.ids ∧
      xs.length + r.height ≤ 62 ∧ StackOK p xs

theorem walkPush_ok : ∀ (t : T) (xs : List (Nat × T)) (fuel : Nat), Links p t → 0 ∉ t.ids →
    StackOK p xs → xs.length + t.height ≤ 62 → t.height < fuel →
    ∃ ys, walkPush p fuel t.rt (xs.map (·.1)) = some (ys.map (·.1)) ∧ StackOK p ys ∧
      pend ys = t.ids ++ pend xs := by
  intro t
  induction t with
  | nil =>
    intro xs fuel _ _ h3 _ h5
    cases fuel with
    | zero => omega
    | succ fuel => exact ⟨xs, by simp [walkPush], h3, rfl⟩
  | node l i r ihl ihr =>
    intro xs fuel h1 h2 h3 h4 h5
    cases fuel with
    | zero => omega
    | succ fuel =>
      obtain ⟨hi, hl, hr, hL, hR⟩ := h1
      simp only [ids, List.mem_append, List.mem_cons, not_or] at h2
      simp only [height] at h4 h5
      obtain ⟨ys, g1, g2, g3⟩ := ihl ((i, r) :: xs) fuel hL h2.1
        ⟨hi, hr, hR, h2.2.2, by omega, h3⟩ (by simp only [List.length_cons]; omega) (by omega)
      refine ⟨ys, ?_, g2, by rw [g3]; simp [pend, ids]⟩
      rw [walkPush, if_neg (show ¬ (node l i r).rt = 0 from fun h => h2.2.1 h.symm),
        if_pos (by simp only [List.length_map, pathSize]; omega)]
      simp only [rt]
      rw [getNx_eq hi, hl]
      exact g1

theorem walkLoop_ok : ∀ (fuel : Nat) (t : T) (xs : List (Nat × T)), Links p t → 0 ∉ t.ids →
    StackOK p xs → xs.length + t.height ≤ 62 → (t.ids ++ pend xs).length < fuel →
    walkLoop p fuel t.rt (xs.map (·.1)) = some ((t.ids ++ pend xs).map (K p)) := by
  intro fuel
  induction fuel with
  | zero => intro t xs _ _ _ _ h; omega
  | succ fuel ih =>
    intro t xs h1 h2 h3 h4 h5
    obtain ⟨ys, g1, g2, g3⟩ := walkPush_ok t xs (pathSize + 1) h1 h2 h3 h4 (by unfold pathSize; omega)
    rw [walkLoop, g1]
    rw [← g3] at h5 ⊢
    cases ys with
    | nil => rfl
    | cons y ys =>
      obtain ⟨i, r⟩ := y
      obtain ⟨hi, hr, hR, h0, hh, hx⟩ := g2
      simp only [pend, List.length_cons] at h5
      have := ih r ys hR h0 hx hh (by omega)
      simp only [List.map_cons, Option.bind_eq_bind, Option.bind_some, getKey_eq hi, getNx_eq hi, hr,
        this, pend]

theorem treeWalk_ok {t : T} (hw : Wf p t) (hh : t.height ≤ 62) : treeWalk p = some (keys p t) := by
  have hc := hw.count
  unfold treeWalk
  obtain ⟨h1, h2, _, h4, _⟩ := hw.links
  split
  · have : t.ids = [] := List.length_eq_zero_iff.mp (by omega)
    unfold keys; rw [this]; rfl
  · rw [getNx_eq h1, h2]
    have := walkLoop_ok p.length t [] h4 hw.zero trivial (by simpa using hh) (by simp [pend]; omega)
    simp only [Option.bind_eq_bind, Option.bind_some]
    simp only [List.map_nil, pend, List.append_nil] at this
    exact this

/-! ### `mr_tree_next` -/

/-- indices in the direction of travel -/
def ordd (d : Dir) (t : T) : List Nat := if d then t.ids else t.ids.reverse
/-- indices beyond the hole in the direction of travel -/
def aftd (d : Dir) (gs : List Frame) : List Nat := if d then aft gs else (bef gs).reverse

theorem ordd_mk (d : Dir) (a : T) (i : Nat) (b : T) : ordd d (mk d a i b) = ordd d b ++ i :: ordd d a := by
  cases d <;> simp [ordd, mk, ids]

theorem aftd_same (d : Dir) (i : Nat) (s : T) (gs : List Frame) : aftd d (⟨d, i, s⟩ :: gs) = aftd d gs := by
  cases d <;> simp [aftd, aft, bef]

theorem aftd_other (d : Dir) (i : Nat) (s : T) (gs : List Frame) :
    aftd d (⟨!d, i, s⟩ :: gs) = i :: (ordd d s ++ aftd d gs) := by
  cases d <;> simp [aftd, aft, bef, ordd]

/-- the traverse stands on node `i`, which has `A` on side `d` -/
structure At (tr : Traverse) (t : T) (d : Dir) (gs : List Frame) (A : T) (i : Nat) (Bt : T) : Prop where
  len : tr.path.length = pathSize
  size : tr.size = gs.length + 2
  equal : tr.equal = true
  path : PathOK tr.path (gs ++ [hdr])
  top : ∃ b, tr.path[gs.length + 1]? = some (i, b)
  tree : plug gs (mk d A i Bt) = t

theorem ne_not {e d : Dir} (h : ¬ e = d) : e = !d := by cases e <;> cases d <;> simp_all

theorem nextUp_ok {path : Path} (t : T) (d : Dir) : ∀ (gs : List Frame) (X : T), PathOK path (gs ++ [hdr]) →
    plug gs X = t →
    (nextUp path d (gs.length + 2) = some 1 ∧ aftd d gs = []) ∨
    ∃ gs' A i Bt, nextUp path d (gs.length + 2) = some (gs'.length + 2) ∧ PathOK path (gs' ++ [hdr]) ∧
      (∃ b, path[gs'.length + 1]? = some (i, b)) ∧ plug gs' (mk d A i Bt) = t ∧
      aftd d gs = i :: (ordd d A ++ aftd d gs') := by
  intro gs
  induction gs with
  | nil => intro X _ _; left; exact ⟨by simp [nextUp], by cases d <;> rfl⟩
  | cons f gs ih =>
    intro X hp ht
    obtain ⟨e, i, s⟩ := f
    obtain ⟨h1, h2⟩ := hp
    have hla : (gs.append [hdr]).length = gs.length + 1 := by simp
    rw [hla] at h1
    have hstep : nextUp path d ((⟨e, i, s⟩ :: gs).length + 2) =
        if e ≠ d then some (gs.length + 2) else nextUp path d (gs.length + 2) := by
      simp only [List.length_cons]
      rw [show gs.length + 1 + 2 = (gs.length + 2) + 1 by omega]
      rw [nextUp, if_pos (by omega)]
      rw [show gs.length + 2 - 1 = gs.length + 1 by omega, h1]
      rfl
    by_cases he : e = d
    · subst he
      rw [hstep, if_neg (by simp), aftd_same]
      exact ih _ h2 ht
    · have he' : e = !d := ne_not he
      subst he'
      rw [hstep, if_pos he, aftd_other]
      right
      refine ⟨gs, s, i, X, rfl, h2, ⟨_, h1⟩, ?_, rfl⟩
      rw [← ht, plug, mk_not]

theorem nextDown_ok (d : Dir) : ∀ (S : T) (hs : List Frame) (path : Path) (fuel : Nat), S ≠ nil →
    Links p S → 0 ∉ S.ids → PathOK path (hs ++ [hdr]) → path.length = pathSize →
    hs.length + 1 + S.height ≤ pathSize → S.height < fuel →
    ∃ path' hs' A i, nextDown p d fuel path (hs.length + 1) S.rt = some (path', hs'.length + 2) ∧
      path'.length = pathSize ∧ PathOK path' (hs' ++ [hdr]) ∧
      (∃ b, path'[hs'.length + 1]? = some (i, b)) ∧ plug hs' (mk d A i nil) = plug hs S ∧
      ordd d S ++ aftd d hs = i :: (ordd d A ++ aftd d hs') := by
  have main : ∀ (n : Nat) (S : T), S.height ≤ n → ∀ (hs : List Frame) (path : Path) (fuel : Nat), S ≠ nil →
    Links p S → 0 ∉ S.ids → PathOK path (hs ++ [hdr]) → path.length = pathSize →
    hs.length + 1 + S.height ≤ pathSize → S.height < fuel →
    ∃ path' hs' A i, nextDown p d fuel path (hs.length + 1) S.rt = some (path', hs'.length + 2) ∧
      path'.length = pathSize ∧ PathOK path' (hs' ++ [hdr]) ∧
      (∃ b, path'[hs'.length + 1]? = some (i, b)) ∧ plug hs' (mk d A i nil) = plug hs S ∧
      ordd d S ++ aftd d hs = i :: (ordd d A ++ aftd d hs') := by
    intro n
    induction n with
    | zero =>
      intro S hn
      cases S with
      | nil => intro _ _ _ h; exact absurd rfl h
      | node l i r => simp [height] at hn
    | succ n ih =>
      intro S hn hs path fuel hne h1 h2 h3 h4 h5 h6
      obtain ⟨l, i, r, rfl⟩ : ∃ l i r, S = node l i r := by
        cases S with
        | nil => exact absurd rfl hne
        | node l i r => exact ⟨l, i, r, rfl⟩
      obtain ⟨A, Bt, hS⟩ := eq_mk d l i r
      rw [hS] at h1 h2 h5 h6 hn ⊢
      cases fuel with
      | zero => omega
      | succ fuel =>
        rw [links_mk] at h1
        obtain ⟨hi, _, hb, _, hB⟩ := h1
        rw [mem_mk] at h2
        simp only [not_or] at h2
        rw [height_mk] at h5 h6 hn
        have hwr : wr path (hs.length + 1) (i, !d) = some (path.set (hs.length + 1) (i, !d)) := by
          rw [wr, if_pos (by omega)]
        have hget : (path.set (hs.length + 1) (i, !d))[hs.length + 1]? = some (i, !d) := by
          rw [List.getElem?_set, if_pos rfl, if_pos (by omega)]
        have hpath : PathOK (path.set (hs.length + 1) (i, !d)) (hs ++ [hdr]) :=
          pathOK_set (by simp) h3
        simp only [nextDown, rt_mk]
        rw [if_neg (fun h => h2.1 h.symm), hwr]
        simp only [Option.bind_eq_bind, Option.bind_some, getNx_eq hi, hb]
        by_cases hnil : Bt = nil
        · subst hnil
          refine ⟨path.set (hs.length + 1) (i, !d), hs, A, i, ?_, by simp [h4], hpath, ⟨_, hget⟩, rfl, ?_⟩
          · cases fuel with
            | zero => simp only [height] at h6; omega
            | succ fuel => simp [nextDown]
          · rw [ordd_mk]
            have : ordd d nil = [] := by cases d <;> rfl
            simp [this]
        · obtain ⟨path', hs', A', i', g1, g2, g3, g4, g5, g6⟩ := ih Bt (by omega) (⟨!d, i, A⟩ :: hs)
            (path.set (hs.length + 1) (i, !d)) fuel hnil hB h2.2.2
            ⟨by simpa using hget, hpath⟩ (by simp [h4]) (by simp only [List.length_cons]; omega) (by omega)
          refine ⟨path', hs', A', i', g1, g2, g3, g4, ?_, ?_⟩
          · rw [g5, plug, mk_not]
          · rw [← g6, aftd_other, ordd_mk]; simp
  intro S
  exact main S.height S (Nat.le_refl _)

theorem next_equal {t : T} (hl : Links p t) (hz : 0 ∉ t.ids) (hh : t.height ≤ 60) {tr : Traverse} {d : Dir}
    {gs : List Frame} {A : T} {i : Nat} {Bt : T} (h : At tr t d gs A i Bt) (eq : Bool)
    (heq : eq = true ∨ ∃ b, tr.path[gs.length + 1]? = some (i, b) ∧ b = d) :
    ∃ tr', treeNext p { tr with equal := eq } d = some tr' ∧
      ((ordd d A ++ aftd d gs = [] ∧ tr'.size ≤ 1) ∨
       ∃ gs' A' i' Bt', At tr' t d gs' A' i' Bt' ∧
        ordd d A ++ aftd d gs = i' :: (ordd d A' ++ aftd d gs')) := by
  obtain ⟨path, size, equal⟩ := tr
  obtain ⟨h1, h2, h3, h4, ⟨b, h5⟩, h6⟩ := h
  simp only at h1 h2 h3 h4 h5 heq
  subst h2
  have hcond : (eq || b == d) = true := by
    rcases heq with rfl | ⟨b', e1, e2⟩
    · rfl
    · rw [h5] at e1
      simp only [Option.some.injEq, Prod.mk.injEq, true_and] at e1
      subst e1 e2; simp
  have hheight : gs.length + (mk d A i Bt).height ≤ 60 := by
    have := height_plug gs (mk d A i Bt)
    rw [h6] at this; omega
  rw [height_mk] at hheight
  have hlen : gs.length + 1 < path.length := by rw [h1]; unfold pathSize; omega
  have hlinks : Links p (mk d A i Bt) := by
    rw [← h6, links_plug] at hl; exact hl.2
  have hz' : 0 ∉ A.ids := by
    intro h0; apply hz; rw [← h6, ids_plug]; simp [h0]
  rw [links_mk] at hlinks
  obtain ⟨hi, ha, _, hA, _⟩ := hlinks
  unfold treeNext
  simp only
  rw [if_neg (by omega), show gs.length + 2 - 1 = gs.length + 1 by omega, h5]
  simp only [Option.bind_eq_bind, Option.bind_some, hcond, if_true]
  have hwr : wr path (gs.length + 1) (i, d) = some (path.set (gs.length + 1) (i, d)) := by
    rw [wr, if_pos hlen]
  have hget : (path.set (gs.length + 1) (i, d))[gs.length + 1]? = some (i, d) := by
    rw [List.getElem?_set, if_pos rfl, if_pos hlen]
  have hpath : PathOK (path.set (gs.length + 1) (i, d)) (gs ++ [hdr]) := pathOK_set (by simp) h4
  rw [hwr]
  simp only [Option.bind_some, getNx_eq hi, ha]
  by_cases hnil : A = nil
  · subst hnil
    have ho : ordd d nil = [] := by cases d <;> rfl
    rw [if_neg (by simp), ho, List.nil_append]
    rcases nextUp_ok t d gs _ hpath h6 with ⟨e1, e2⟩ | ⟨gs', A', i', Bt', e1, e2, e3, e4, e5⟩
    · rw [e1]
      exact ⟨_, rfl, .inl ⟨e2, by simp⟩⟩
    · rw [e1]
      exact ⟨_, rfl, .inr ⟨gs', A', i', Bt', ⟨by simp [h1], rfl, rfl, e2, e3, e4⟩, e5⟩⟩
  · have hne : A.rt ≠ 0 := fun h => hz' (h ▸ rt_mem hnil)
    rw [if_pos hne]
    obtain ⟨path', hs', A', i', g1, g2, g3, g4, g5, g6⟩ := nextDown_ok (p := p) d A (⟨d, i, Bt⟩ :: gs)
      (path.set (gs.length + 1) (i, d)) (pathSize + 1) hnil hA hz' ⟨by simpa using hget, hpath⟩
      (by simp [h1]) (by simp only [List.length_cons, pathSize]; omega) (by simp only [pathSize]; omega)
    simp only [List.length_cons] at g1
    rw [g1]
    refine ⟨_, rfl, .inr ⟨hs', A', i', nil, ⟨g2, rfl, rfl, g3, g4, ?_⟩, ?_⟩⟩
    · rw [g5, plug]; exact h6
    · rw [← g6, aftd_same]

/-- iteration from a node on -/
theorem cursor_at {t : T} (hl : Links p t) (hz : 0 ∉ t.ids) (hh : t.height ≤ 60) (d : Dir) :
    ∀ (fuel : Nat) (tr : Traverse) (gs : List Frame) (A : T) (i : Nat) (Bt : T), At tr t d gs A i Bt →
    (ordd d A ++ aftd d gs).length < fuel →
    cursorLoop p d fuel tr = some ((ordd d A ++ aftd d gs).map (K p)) := by
  intro fuel
  induction fuel with
  | zero => intro tr gs A i Bt _ h; omega
  | succ fuel ih =>
    intro tr gs A i Bt h hf
    obtain ⟨tr', h1, h2⟩ := next_equal hl hz hh h tr.equal (.inl h.equal)
    have : treeNext p tr d = some tr' := h1
    rw [cursorLoop, this]
    simp only [Option.bind_eq_bind, Option.bind_some]
    rcases h2 with ⟨e1, e2⟩ | ⟨gs', A', i', Bt', e1, e2⟩
    · rw [if_pos e2, e1]; rfl
    · obtain ⟨b, hb⟩ := e1.top
      have hi : i' < p.length := by
        have := links_lt hl i' (by rw [← e1.tree, ids_plug]; simp)
        exact this
      rw [e2] at hf ⊢
      simp only [List.length_cons] at hf
      rw [if_neg (by rw [e1.size]; omega), e1.size, show gs'.length + 2 - 1 = gs'.length + 1 by omega, hb]
      simp only [Option.bind_some, getKey_eq hi, ih tr' gs' A' i' Bt' e1 (by omega), List.map_cons]

theorem filter_split {a b : List Key} {q : Key → Bool} (ha : ∀ x ∈ a, q x = false) (hb : ∀ x ∈ b, q x = true) :
    (a ++ b).filter q = b := by
  rw [List.filter_append, List.filter_eq_nil_iff.mpr (by intro x hx; simp [ha x hx]), List.nil_append,
    List.filter_eq_self.mpr hb]

theorem filter_split' {a b : List Key} {q : Key → Bool} (ha : ∀ x ∈ a, q x = true) (hb : ∀ x ∈ b, q x = false) :
    (a ++ b).filter q = a := by
  rw [List.filter_append, (List.filter_eq_nil_iff (l := b)).mpr (by intro x hx; simp [hb x hx]), List.append_nil,
    List.filter_eq_self.mpr ha]

/-- `mr_tree_find` followed by `mr_tree_next` in one direction -/
theorem cursor_ok (hc : Comparator cmp) {t : T} (hw : Wf p t) (hh : t.height ≤ 60)
    (hs : Strict cmp (keys p t)) (key : Key) (d : Dir) : ∃ tr, find cmp key p p.length = some tr ∧
      cursorLoop p d (p.length + 1) tr = some (if d then (keys p t).filter fun x => decide (cmp key x < 0)
        else ((keys p t).filter fun x => decide (cmp key x > 0)).reverse) := by
  obtain ⟨path', hlen, h3⟩ := find_ok (cmp := cmp) hw key (by unfold pathSize; omega)
  have hl := hw.links.2.2.2.1
  have hz := hw.zero
  have hcount := hw.count
  rcases h3 with ⟨gs, e1, e2, e3, e4⟩ | ⟨gs, l, i, r, e1, e2, e3, e4, e5, e6⟩
  · refine ⟨_, e1, ?_⟩
    -- the keys split at the hole
    have hres : (if d then (keys p t).filter fun x => decide (cmp key x < 0)
        else ((keys p t).filter fun x => decide (cmp key x > 0)).reverse) = (aftd d gs).map (K p) := by
      subst e2
      obtain ⟨h1, h2⟩ := notfound_order hc hs e4
      have hsplit : keys p (plug gs nil) = (bef gs).map (K p) ++ (aft gs).map (K p) := by
        unfold keys; rw [ids_plug]; simp [ids]
      rw [hsplit]
      cases d
      · simp only [Bool.false_eq_true, if_false, aftd, List.map_reverse]
        rw [filter_split']
        · intro x hx
          obtain ⟨j, hj, rfl⟩ := List.mem_map.mp hx
          have := (hc.anti key (K p j)).mpr (h1 j hj)
          simp [this]
        · intro x hx
          obtain ⟨j, hj, rfl⟩ := List.mem_map.mp hx
          have := h2 j hj
          simp; omega
      · simp only [if_true, aftd]
        rw [filter_split]
        · intro x hx
          obtain ⟨j, hj, rfl⟩ := List.mem_map.mp hx
          have := (hc.anti key (K p j)).mpr (h1 j hj)
          simp; omega
        · intro x hx
          obtain ⟨j, hj, rfl⟩ := List.mem_map.mp hx
          simp [h2 j hj]
    rw [hres]
    have hlen2 : (aftd d gs).length ≤ t.ids.length := by
      rw [← e2, ids_plug]
      cases d <;> simp [aftd] <;> omega
    cases gs with
    | nil =>
      have : aftd d [] = [] := by cases d <;> rfl
      rw [this, cursorLoop, treeNext]
      simp
    | cons f gs =>
      obtain ⟨e, i, s⟩ := f
      have htop := e3.1
      have hla : (gs.append [hdr]).length = gs.length + 1 := by simp
      rw [hla] at htop
      by_cases he : e = d
      · subst he
        have hat : At ⟨path', (⟨e, i, s⟩ :: gs).length + 1, true⟩ t e gs nil i s :=
          ⟨hlen, by simp, rfl, e3.2, ⟨_, htop⟩, e2⟩
        obtain ⟨tr', h1, h2⟩ := next_equal hl hz hh hat false (.inr ⟨e, htop, rfl⟩)
        simp only at h1
        rw [cursorLoop, h1, aftd_same]
        have ho : ordd e nil = [] := by cases e <;> rfl
        rw [ho, List.nil_append] at h2
        rw [aftd_same] at hlen2
        simp only [Option.bind_eq_bind, Option.bind_some]
        rcases h2 with ⟨g1, g2⟩ | ⟨gs', A', i', Bt', g1, g2⟩
        · rw [if_pos g2, g1]; rfl
        · obtain ⟨b, hb⟩ := g1.top
          have hi : i' < p.length := links_lt hl i' (by rw [← g1.tree, ids_plug]; simp)
          rw [g2] at hlen2 ⊢
          simp only [List.length_cons] at hlen2
          rw [if_neg (by rw [g1.size]; omega), g1.size, show gs'.length + 2 - 1 = gs'.length + 1 by omega, hb]
          simp only [Option.bind_some, getKey_eq hi,
            cursor_at hl hz hh e p.length tr' gs' A' i' Bt' g1 (by omega), List.map_cons]
      · have he' : e = !d := ne_not he
        subst he'
        rw [aftd_other] at hlen2 ⊢
        simp only [List.length_cons] at hlen2
        have hat : At ⟨path', gs.length + 2, true⟩ t d gs s i nil :=
          ⟨hlen, rfl, rfl, e3.2, ⟨_, htop⟩, by rw [← e2, plug, mk_not]⟩
        have hnext : treeNext p ⟨path', (⟨!d, i, s⟩ :: gs).length + 1, false⟩ d =
            some ⟨path', gs.length + 2, true⟩ := by
          unfold treeNext
          simp only [List.length_cons]
          rw [if_neg (by omega), show gs.length + 1 + 1 - 1 = gs.length + 1 by omega, htop]
          cases d <;> simp
        have hi : i < p.length := links_lt hl i (by rw [← e2, ids_plug]; cases d <;> simp [bef, aft])
        rw [cursorLoop, hnext]
        simp only [Option.bind_eq_bind, Option.bind_some]
        rw [if_neg (by omega), show gs.length + 2 - 1 = gs.length + 1 by omega, htop]
        simp only [Option.bind_some, getKey_eq hi,
            cursor_at hl hz hh d p.length _ gs s i nil hat (by omega), List.map_cons]
  · refine ⟨_, e1, ?_⟩
    obtain ⟨A, Bt, hm⟩ := eq_mk d l i r
    rw [hm] at e2
    have hat : At ⟨path', gs.length + 2, true⟩ t d gs A i Bt :=
      ⟨hlen, rfl, rfl, e3, ⟨_, e4⟩, e2⟩
    have hlen2 : (ordd d A ++ aftd d gs).length ≤ t.ids.length := by
      rw [← e2, ids_plug, List.length_append, List.length_append, List.length_append,
        (ids_mk_perm d A i Bt).length_eq]
      cases d <;> simp [aftd, ordd] <;> omega
    rw [cursor_at hl hz hh d _ _ gs A i Bt hat (by omega)]
    congr 1
    have hst := hs
    unfold keys at hst ⊢
    rw [← e2, ids_plug] at hst ⊢
    unfold Strict at hst
    cases d
    · simp only [mk, Bool.false_eq_true, if_false, ids, ordd, aftd] at hst ⊢
      have hsplit : (bef gs ++ (A.ids ++ i :: Bt.ids) ++ aft gs).map (K p) =
          (bef gs ++ A.ids).map (K p) ++ (K p i :: (Bt.ids ++ aft gs).map (K p)) := by simp
      rw [hsplit] at hst ⊢
      rw [List.pairwise_append, List.pairwise_cons] at hst
      rw [filter_split']
      · simp
      · intro x hx
        have := hst.2.2 x hx (K p i) (by simp)
        have h7 := (hc.anti key x).mpr (cmp_lt_of_lt_of_le hc this (by have := cmp_symm hc e5; omega))
        simp [h7]
      · intro x hx
        rw [List.mem_cons] at hx
        rcases hx with rfl | hx
        · simp [e5]
        · have h7 := cmp_lt_of_le_of_lt hc (show cmp key (K p i) ≤ 0 by omega) (hst.2.1.1 x hx)
          simp; omega
    · simp only [mk, if_true, ids, ordd, aftd] at hst ⊢
      have hsplit : (bef gs ++ (Bt.ids ++ i :: A.ids) ++ aft gs).map (K p) =
          ((bef gs ++ Bt.ids).map (K p) ++ [K p i]) ++ (A.ids ++ aft gs).map (K p) := by simp
      rw [hsplit] at hst ⊢
      rw [List.pairwise_append, List.pairwise_append] at hst
      rw [filter_split]
      · intro x hx
        rw [List.mem_append, List.mem_singleton] at hx
        rcases hx with hx | rfl
        · have := hst.1.2.2 x hx (K p i) (by simp)
          have h7 := (hc.anti key x).mpr (cmp_lt_of_lt_of_le hc this (by have := cmp_symm hc e5; omega))
          simp; omega
        · simp [e5]
      · intro x hx
        have := hst.2.2 (K p i) (by simp) x hx
        have h7 := cmp_lt_of_le_of_lt hc (show cmp key (K p i) ≤ 0 by omega) this
        simp [h7]

end Verif.Lemmas.Tree
