import Verif.Spec.Xml2
import Verif.Lemmas.TopDown
/-!
# Reading a tree of libxml2

The reader adds the children of a node after they have been read completely.  The array it leaves is the one that
results from adding the nodes in document order (`canon`).
-/
namespace Verif.Lemmas.Xml2Load
open Verif.Model Verif.Model.Ptrs Verif.Model.Xml2 Verif.Spec Verif.Spec.Ptrs Verif.Spec.Xml2
open Verif.Lemmas.TopDown (upd_eq modify_left modify_right link link_length)
open Verif.Model.Xml1 (Loaded sRef sContent sIdx sNull)

/-- the descriptor made for a node, before it gets children -/
def A (x : XNode) : Pd := (attrs x).getD {}

def isRef (x : XNode) : Bool := (A x).ref || (A x).cref

theorem property_cases {x : XNode} {n : List Nat} {set : Nat → Pd → Pd} {pd pd' : Pd} (h : property x n set pd = some pd') :
    pd' = pd ∨ ∃ v, pd' = set v pd := by
  unfold property at h
  cases hg : getProp x n with
  | none => rw [hg] at h; simp at h; exact .inl h.symm
  | some t =>
    rw [hg] at h
    simp only at h
    split at h
    · simp at h; exact .inr ⟨_, h.symm⟩
    · cases h

theorem A_links (x : XNode) : (A x).parent = 0 ∧ (A x).next = 0 ∧ (isRef x = false → (A x).firstChild = 0) := by
  unfold isRef A
  cases h : attrs x with
  | none => exact ⟨rfl, rfl, fun _ => rfl⟩
  | some pd =>
    unfold attrs at h
    obtain ⟨p1, h1, h⟩ := Option.bind_eq_some_iff.1 h
    obtain ⟨p2, h2, h⟩ := Option.bind_eq_some_iff.1 h
    rcases property_cases h1 with rfl | ⟨v1, rfl⟩ <;> rcases property_cases h2 with rfl | ⟨v2, rfl⟩ <;>
      rcases property_cases h with rfl | ⟨v3, rfl⟩ <;> simp

/-- the descriptor of a node at index `n` below `p` -/
def node (p n : Nat) (x : XNode) (k s : Forest) : Pd :=
  { A x with parent := p, firstChild := if k = .nil then (A x).firstChild else n + 1, next := if s = .nil then 0 else n + 1 + k.nodes.length }

/-- the descriptors of trees below `p` from index `n` on -/
def canon (p n : Nat) : Tree → List Pd
  | .nil => []
  | .cons x k s => node p n x k.shape s.shape :: (canon n (n + 1) k ++ canon p (n + 1 + k.shape.nodes.length) s)

theorem shape_nil {D : Tree} : D.shape = .nil ↔ D = .nil := by
  cases D <;> simp [Tree.shape]

theorem canon_length (D : Tree) : ∀ p n, (canon p n D).length = D.shape.nodes.length := by
  induction D with
  | nil => intro p n; rfl
  | cons x k s ih1 ih2 => intro p n; simp [canon, Tree.shape, Forest.nodes, ih1, ih2]

theorem nodes_length (D : Tree) : D.nodes.length = D.shape.nodes.length := by
  induction D with
  | nil => rfl
  | cons x k s ih1 ih2 => simp [Tree.nodes, Tree.shape, Forest.nodes, ih1, ih2]

def isNil : Tree → Bool
  | .nil => true
  | .cons .. => false

/-- the trees the reader accepts -/
def ok (known : List Nat → Bool) : Tree → Bool
  | .nil => true
  | .cons x k s => (attrs x).isSome && known x.name && (!isRef x || isNil k) && ok known k && ok known s

theorem canon_rep (known : List Nat → Bool) (D : Tree) : ∀ (pre post : List Pd) (p : Nat), ok known D = true → pre ≠ [] →
    Rep (pre ++ (canon p pre.length D ++ post)) p (if D.shape = .nil then 0 else pre.length) (Ptrs.number pre.length D.shape) := by
  induction D with
  | nil => intro pre post p _ _; rfl
  | cons x k s ih1 ih2 =>
    intro pre post p hok hp
    simp only [ok, Bool.and_eq_true] at hok
    obtain ⟨⟨⟨_, hr⟩, hk⟩, hs⟩ := hok
    have hl : pre.length ≠ 0 := fun h => hp (List.eq_nil_of_length_eq_zero h)
    refine ⟨by rw [if_neg (by simp [Tree.shape])], hl, node p pre.length x k.shape s.shape, by rw [List.getElem?_append_right (Nat.le_refl _), Nat.sub_self]; rfl, rfl, ?_, ?_⟩
    · have hh : kidsHead (node p pre.length x k.shape s.shape) = if k.shape = .nil then 0 else pre.length + 1 := by
        unfold kidsHead
        show (if isRef x = true then 0 else if k.shape = .nil then (A x).firstChild else pre.length + 1) = _
        cases hx : isRef x with
        | true =>
          rw [hx] at hr
          cases k with
          | nil => simp [Tree.shape]
          | cons => simp [isNil] at hr
        | false =>
          simp only [Bool.false_eq_true, if_false]
          rw [(A_links x).2.2 hx]
      rw [hh]
      have := ih1 (pre ++ [node p pre.length x k.shape s.shape]) (canon p (pre.length + 1 + k.shape.nodes.length) s ++ post) pre.length hk (by simp)
      simp only [List.length_append, List.length_cons, List.length_nil, Nat.zero_add] at this
      simpa [canon] using this
    · have := ih2 (pre ++ node p pre.length x k.shape s.shape :: canon pre.length (pre.length + 1) k) post p hs (by simp)
      simp only [List.length_append, List.length_cons, canon_length] at this
      rw [show pre.length + (k.shape.nodes.length + 1) = pre.length + 1 + k.shape.nodes.length by omega] at this
      simpa [canon, node] using this

/-- the cached child after trees have been read that start at index `n` -/
def lastLc (lc n : Nat) : Tree → Nat
  | .nil => lc
  | .cons _ k s => lastLc n (n + 1 + k.shape.nodes.length) s

/-- the last tree starts at the cached child -/
theorem lastLc_spec (D : Tree) : ∀ (lc p n : Nat), D ≠ .nil →
    ∃ j x, lastLc lc n D = n + j ∧ (canon p n D)[j]? = some x ∧ x.parent = p := by
  induction D with
  | nil => intro _ _ _ h; exact absurd rfl h
  | cons x k s _ ih =>
    intro lc p n _
    cases s with
    | nil => exact ⟨0, node p n x k.shape .nil, rfl, rfl, rfl⟩
    | cons x' k' s' =>
      obtain ⟨j, y, h1, h2, h3⟩ := ih n p (n + 1 + k.shape.nodes.length) (by simp)
      refine ⟨1 + k.shape.nodes.length + j, y, by rw [lastLc, h1]; omega, ?_, h3⟩
      rw [canon, show 1 + k.shape.nodes.length + j = (k.shape.nodes.length + j) + 1 by omega, List.getElem?_cons_succ,
        List.getElem?_append_right (by rw [canon_length]; omega), canon_length, show k.shape.nodes.length + j - k.shape.nodes.length = j by omega]
      exact h2

/-- the way along the siblings from `a` to the last one, `z` -/
inductive Path (ra : List Pd) (z : Nat) : Nat → Prop
  | last (pd : Pd) : ra[z]? = some pd → pd.next = 0 → Path ra z z
  | step (a : Nat) (pd : Pd) : ra[a]? = some pd → pd.next ≠ 0 → a < pd.next → Path ra z pd.next → Path ra z a

theorem path_last {ra : List Pd} {z a : Nat} (h : Path ra z a) : ∀ fuel, ra.length < fuel + a → lastSibling fuel ra a = some z := by
  induction h with
  | last pd h1 h2 =>
    intro fuel hf
    have := (List.getElem?_eq_some_iff.1 h1).1
    obtain ⟨fuel, rfl⟩ : ∃ f, fuel = f + 1 := ⟨fuel - 1, by omega⟩
    rw [lastSibling, h1]
    simp [h2]
  | step a pd h1 h2 h3 _ ih =>
    intro fuel hf
    have := (List.getElem?_eq_some_iff.1 h1).1
    obtain ⟨fuel, rfl⟩ : ∃ f, fuel = f + 1 := ⟨fuel - 1, by omega⟩
    rw [lastSibling, h1]
    simp only [Option.bind_eq_bind, Option.bind_some, if_neg h2]
    exact ih fuel (by omega)

theorem path_append {ra : List Pd} {z a : Nat} (h : Path ra z a) (rb : List Pd) : Path (ra ++ rb) z a := by
  have ext : ∀ {i : Nat} {pd : Pd}, ra[i]? = some pd → (ra ++ rb)[i]? = some pd := fun h => by
    rw [List.getElem?_append_left (List.getElem?_eq_some_iff.1 h).1]; exact h
  induction h with
  | last pd h1 h2 => exact .last pd (ext h1) h2
  | step a pd h1 h2 h3 _ ih => exact .step a pd (ext h1) h2 h3 ih

/-- a new last sibling -/
theorem path_link {ra rb : List Pd} {z a n : Nat} (h : Path ra z a) (hn : n = ra.length) (x : Pd) (hx : x.next = 0) :
    Path (ra.modify z (fun pd => { pd with next := n }) ++ x :: rb) n a := by
  have hnew : Path (ra.modify z (fun pd => { pd with next := n }) ++ x :: rb) n n :=
    .last x (by rw [List.getElem?_append_right (by simp [hn])]; simp [hn]) hx
  induction h with
  | last pd h1 h2 =>
    have hz := (List.getElem?_eq_some_iff.1 h1).1
    exact .step z { pd with next := n } (by rw [List.getElem?_append_left (by simpa using hz), List.getElem?_modify_eq, h1]; rfl)
      (by show n ≠ 0; omega) (by show z < n; omega) hnew
  | step a pd h1 h2 h3 hp ih =>
    have ha := (List.getElem?_eq_some_iff.1 h1).1
    have hne : a ≠ z := by
      rintro rfl
      have : ∀ {b : Nat}, Path ra a b → ∃ p, ra[a]? = some p ∧ p.next = 0 := by
        intro b hb
        induction hb with
        | last p g1 g2 => exact ⟨p, g1, g2⟩
        | step _ _ _ _ _ _ ih => exact ih
      obtain ⟨p, g1, g2⟩ := this hp
      rw [h1] at g1; cases g1
      exact h2 g2
    exact .step a pd (by rw [List.getElem?_append_left (by simpa using ha), List.getElem?_modify_ne _ _ (Ne.symm hne)]; exact h1) h2 h3 ih

/-- the array, when the next child of `p` is about to be read; `z` is the last child of `p`, 0 if there is none yet -/
structure Ready (ra : List Pd) (lc p z : Nat) : Prop where
  range : p < ra.length
  root : p ≠ 0
  none : z = 0 → ∃ pp, ra[p]? = some pp ∧ pp.firstChild = 0
  some : z ≠ 0 → lc = z ∧ p < z ∧ (∃ pz, ra[z]? = some pz ∧ pz.parent = p) ∧ ∃ pp, ra[p]? = some pp ∧ pp.firstChild ≠ 0 ∧ Path ra z pp.firstChild

/-- the child at the end of the array is added -/
theorem add_ready {ra : List Pd} {lc p z : Nat} (h : Ready ra lc p z) (x : Pd) (D : Tree) (hx : x.parent = 0) :
    addChild ⟨ra ++ x :: canon ra.length (ra.length + 1) D, lastLc lc (ra.length + 1) D⟩ p ra.length =
      some ⟨link ra p z ra.length ++ { x with parent := p } :: canon ra.length (ra.length + 1) D, ra.length⟩ := by
  have hr := h.range
  have hp := h.root
  have hl : ∃ lc', lastChildForParent ⟨ra ++ x :: canon ra.length (ra.length + 1) D, lastLc lc (ra.length + 1) D⟩ p =
      some (⟨ra ++ x :: canon ra.length (ra.length + 1) D, lc'⟩, z) := by
    unfold lastChildForParent
    rw [if_neg hp]
    by_cases hz : z = 0
    · obtain ⟨pp, h1, h2⟩ := h.none hz
      simp only [List.getElem?_append_left hr, h1, Option.bind_eq_bind, Option.bind_some, h2, if_true]
      rw [hz]; exact ⟨_, rfl⟩
    · obtain ⟨rfl, h1, ⟨pz, h3, h4⟩, pp, h5, h6, h7⟩ := h.some hz
      simp only [List.getElem?_append_left hr, h5, Option.bind_eq_bind, Option.bind_some, if_neg h6]
      have hzl := (List.getElem?_eq_some_iff.1 h3).1
      have hlast := path_last (path_append h7 (x :: canon ra.length (ra.length + 1) D))
        ((ra ++ x :: canon ra.length (ra.length + 1) D).length + 1) (by omega)
      have hc : climb ((ra ++ x :: canon ra.length (ra.length + 1) D).length + 1) (ra ++ x :: canon ra.length (ra.length + 1) D) p
          (lastLc lc (ra.length + 1) D) = some lc ∨
          climb ((ra ++ x :: canon ra.length (ra.length + 1) D).length + 1) (ra ++ x :: canon ra.length (ra.length + 1) D) p
          (lastLc lc (ra.length + 1) D) = some 0 := by
        by_cases hD : D = .nil
        · left
          subst hD
          rw [climb]
          simp only [lastLc, if_neg hz, List.getElem?_append_left hzl, h3, Option.bind_eq_bind, Option.bind_some, h4, if_true]
        · right
          obtain ⟨j, y, g1, g2, g3⟩ := lastLc_spec D lc ra.length (ra.length + 1) hD
          have hj : (ra ++ x :: canon ra.length (ra.length + 1) D)[ra.length + 1 + j]? = some y := by
            rw [List.getElem?_append_right (by omega), show ra.length + 1 + j - ra.length = j + 1 by omega, List.getElem?_cons_succ]
            exact g2
          have hn : (ra ++ x :: canon ra.length (ra.length + 1) D)[ra.length]? = some x := by
            rw [List.getElem?_append_right (Nat.le_refl _), Nat.sub_self]; rfl
          obtain ⟨m, hm⟩ : ∃ m, (ra ++ x :: canon ra.length (ra.length + 1) D).length = m + 2 := ⟨ra.length - 1 + (canon ra.length (ra.length + 1) D).length, by simp; omega⟩
          rw [hm, g1, climb, if_neg (by omega), hj]
          simp only [Option.bind_eq_bind, Option.bind_some]
          rw [g3, if_neg (by omega), climb, if_neg (by omega), hn]
          simp only [Option.bind_eq_bind, Option.bind_some]
          rw [hx, if_neg (Ne.symm hp), climb, if_pos rfl]
      rcases hc with hc | hc
      · rw [hc]
        simp only [Option.bind_some, if_neg hz]
        exact ⟨_, rfl⟩
      · rw [hc]
        simp only [Option.bind_some, if_true, hlast]
        exact ⟨_, rfl⟩
  obtain ⟨lc', hl⟩ := hl
  unfold addChild
  rw [hl]
  simp only [Option.bind_eq_bind, Option.bind_some]
  rw [upd_eq _ (by simp)]
  simp only [Option.bind_some]
  rw [modify_right x _ _ ra.length rfl, if_neg hp]
  unfold link
  rw [if_neg hp]
  by_cases hz : z = 0
  · obtain ⟨pp, h1, h2⟩ := h.none hz
    simp only [List.getElem?_append_left hr, h1, Option.bind_some, h2, if_true, if_pos hz]
    rw [upd_eq _ (by simp; omega)]
    simp only [Option.bind_some]
    rw [modify_left _ hr]
  · obtain ⟨_, _, ⟨pz, h3, _⟩, pp, h5, h6, _⟩ := h.some hz
    have hzl := (List.getElem?_eq_some_iff.1 h3).1
    simp only [List.getElem?_append_left hr, h5, Option.bind_some, if_neg h6, ne_eq, hz, not_false_eq_true, if_true, if_false]
    rw [upd_eq _ (by simp; omega)]
    simp only [Option.bind_some]
    rw [modify_left _ hzl]

theorem ready_next {ra : List Pd} {lc p z : Nat} (h : Ready ra lc p z) (x : Pd) (sub : List Pd) (hp : x.parent = p) (hx : x.next = 0) :
    Ready (link ra p z ra.length ++ x :: sub) ra.length p ra.length where
  range := by have := h.range; simp [link_length]; omega
  root := h.root
  none := fun h0 => by have := h.range; omega
  some := fun _ => by
    have hr := h.range
    refine ⟨rfl, hr, ⟨x, by rw [List.getElem?_append_right (by rw [link_length]; exact Nat.le_refl _), link_length, Nat.sub_self]; rfl, hp⟩, ?_⟩
    rw [List.getElem?_append_left (by rw [link_length]; exact hr)]
    unfold link
    rw [if_neg h.root]
    by_cases hz : z = 0
    · rw [if_pos hz]
      obtain ⟨pp, h1, _⟩ := h.none hz
      refine ⟨{ pp with firstChild := ra.length }, by rw [List.getElem?_modify_eq, h1]; rfl, (fun e => by simp only at e; omega), ?_⟩
      exact .last x (by rw [List.getElem?_append_right (by simp)]; simp) hx
    · rw [if_neg hz]
      obtain ⟨_, h1, _, pp, h5, h6, h7⟩ := h.some hz
      exact ⟨pp, by rw [List.getElem?_modify_ne _ _ (by omega)]; exact h5, h6, path_link h7 rfl x hx⟩

/-- the depth of trees -/
def depth : Tree → Nat
  | .nil => 0
  | .cons _ k s => max (depth k + 1) (depth s)

theorem upd_new (ra : List Pd) (pd : Pd) : upd (ra ++ [({} : Pd)]) ra.length (fun _ => pd) = some (ra ++ [pd]) := by
  rw [upd_eq _ (by simp), modify_right {} [] _ ra.length rfl]

/-- reading one node -/
theorem load_eq {known : List Nat → Bool} {h : Heap} {fuel : Nat} {x : XNode} {i : Nat} (hi : h i = some x) (s : St) :
    load known h (fuel + 1) s i =
      if (attrs x).isSome && known x.name then
        (loadKids (load known h fuel) s.ptrs.ra.length (isRef x) x.kids ⟨⟨s.ptrs.ra ++ [A x], s.ptrs.lastChild⟩, s.data ++ [loaded x]⟩).map
          (Option.map fun t => (t, s.ptrs.ra.length))
      else some none := by
  rw [load, hi]
  simp only [Option.bind_eq_bind, Option.bind_some]
  cases ha : attrs x with
  | none => rfl
  | some pd =>
    have hA : A x = pd := by unfold A; rw [ha]; rfl
    cases hk : known x.name with
    | false => rfl
    | true =>
      simp only [Option.isSome_some, Bool.and_self, if_true]
      show Option.bind (upd (s.ptrs.ra ++ [({} : Pd)]) s.ptrs.ra.length fun _ => pd) _ = _
      rw [upd_new]
      simp only [Option.bind_some]
      unfold isRef
      rw [hA]
      show Option.bind (loadKids (load known h fuel) s.ptrs.ra.length (pd.ref || pd.cref) x.kids ⟨⟨s.ptrs.ra ++ [pd], s.ptrs.lastChild⟩, s.data ++ [loaded x]⟩) _ = _
      cases loadKids (load known h fuel) s.ptrs.ra.length (pd.ref || pd.cref) x.kids ⟨⟨s.ptrs.ra ++ [pd], s.ptrs.lastChild⟩, s.data ++ [loaded x]⟩ with
      | none => rfl
      | some r => cases r <;> rfl

theorem ref_kids {known : List Nat → Bool} {h : Heap} {x : XNode} {k : Tree} (f : St → Nat → Option (Option (St × Nat))) (n : Nat) (s : St)
    (hk : InMemory h x.kids k) (hx : isRef x = true) : loadKids f n (isRef x) x.kids s = if isNil k then some (some s) else some none := by
  rw [hx]
  cases hl : x.kids with
  | nil =>
    rw [hl] at hk
    cases k with
    | nil => rfl
    | cons => simp [InMemory] at hk
  | cons i l =>
    rw [hl] at hk
    cases k with
    | nil => simp [InMemory] at hk
    | cons => rfl

theorem link_last {pre : List Pd} (x : Pd) (sub : List Pd) {p n m : Nat} (hp : p ≠ 0) (hn : n ≠ 0) (h : n = pre.length) :
    link (pre ++ x :: sub) p n m = pre ++ { x with next := m } :: sub := by
  unfold link
  rw [if_neg hp, if_neg hn, modify_right _ _ _ n h]

/-- the array after trees have been read below `p`, whose last child was `z` -/
def after (ra : List Pd) (p z : Nat) (D : Tree) : List Pd :=
  match D with
  | .nil => ra
  | D => link ra p z ra.length ++ canon p ra.length D

/-- what `kids_eq` says about trees -/
def KidsEq (known : List Nat → Bool) (h : Heap) (D : Tree) : Prop :=
  ∀ (ids : List Nat) (ra : List Pd) (lc p z : Nat) (data : List Loaded) (fuel : Nat),
    InMemory h ids D → Ready ra lc p z → depth D ≤ fuel →
    loadKids (load known h fuel) p false ids ⟨⟨ra, lc⟩, data⟩ =
      if ok known D then some (some ⟨⟨after ra p z D, lastLc lc ra.length D⟩, data ++ D.nodes.map loaded⟩) else some none

/-- the children of a new node are read -/
theorem one_node (known : List Nat → Bool) (h : Heap) (x : XNode) (k : Tree) (ih1 : KidsEq known h k) (ra : List Pd) (lc : Nat) (data : List Loaded) (fuel : Nat)
    (hk : InMemory h x.kids k) (hr : 0 < ra.length) (hd : depth k ≤ fuel) :
    loadKids (load known h fuel) ra.length (isRef x) x.kids ⟨⟨ra ++ [A x], lc⟩, data ++ [loaded x]⟩ =
            if (!isRef x || isNil k) && ok known k then
              some (some ⟨⟨ra ++ { node 0 ra.length x k.shape .nil with next := 0 } :: canon ra.length (ra.length + 1) k, lastLc lc (ra.length + 1) k⟩,
                data ++ loaded x :: k.nodes.map loaded⟩)
            else some none := by
  have hleaf : ({ node 0 ra.length x .nil .nil with next := 0 } : Pd) = A x := by
    obtain ⟨h1, h2, _⟩ := A_links x
    show ({ A x with parent := 0, firstChild := (A x).firstChild, next := 0 } : Pd) = A x
    rw [show ({ A x with parent := 0, firstChild := (A x).firstChild, next := 0 } : Pd) = { A x with parent := (A x).parent, firstChild := (A x).firstChild, next := (A x).next } by rw [h1, h2]]
  cases hrx : isRef x with
  | true =>
    have := ref_kids (known := known) (load known h fuel) ra.length ⟨⟨ra ++ [A x], lc⟩, data ++ [loaded x]⟩ hk hrx
    rw [hrx] at this
    rw [this]
    cases k with
    | nil => simp [ok, isNil, Tree.shape, hleaf, canon, lastLc, Tree.nodes]
    | cons => simp [isNil]
  | false =>
    have hready : Ready (ra ++ [A x]) lc ra.length 0 :=
      ⟨by simp, by omega, fun _ => ⟨A x, by simp, (A_links x).2.2 hrx⟩, fun e => absurd rfl e⟩
    rw [ih1 x.kids (ra ++ [A x]) lc ra.length 0 (data ++ [loaded x]) fuel hk hready (by omega)]
    simp only [Bool.not_false, Bool.true_or, Bool.true_and]
    cases hok : ok known k with
    | false => rfl
    | true =>
      simp only [if_true, List.length_append, List.length_cons, List.length_nil, Nat.zero_add]
      have he : after (ra ++ [A x]) ra.length 0 k = ra ++ { node 0 ra.length x k.shape .nil with next := 0 } :: canon ra.length (ra.length + 1) k := by
        cases k with
        | nil => simp [after, Tree.shape, hleaf, canon]
        | cons y k' s' =>
          obtain ⟨h1, h2, _⟩ := A_links x
          simp only [after]
          unfold link
          rw [if_neg (by omega), if_pos rfl, modify_right (A x) [] _ ra.length rfl]
          simp only [List.length_append, List.length_cons, List.length_nil, Nat.zero_add, List.append_assoc, List.singleton_append]
          congr 2
          show ({ A x with firstChild := ra.length + 1 } : Pd) = { A x with parent := 0, firstChild := ra.length + 1, next := 0 }
          simp [h1, h2]
      rw [he]
      simp

/-- the subtrees of a node are read -/
theorem kids_eq (known : List Nat → Bool) (h : Heap) (D : Tree) : ∀ (ids : List Nat) (ra : List Pd) (lc p z : Nat) (data : List Loaded) (fuel : Nat),
    InMemory h ids D → Ready ra lc p z → depth D ≤ fuel →
    loadKids (load known h fuel) p false ids ⟨⟨ra, lc⟩, data⟩ =
      if ok known D then some (some ⟨⟨after ra p z D, lastLc lc ra.length D⟩, data ++ D.nodes.map loaded⟩) else some none := by
  induction D with
  | nil =>
    intro ids ra lc p z data fuel hm _ _
    cases ids with
    | nil => simp [loadKids, ok, after, lastLc, Tree.nodes]
    | cons => simp [InMemory] at hm
  | cons x k s ih1 ih2 =>
    intro ids ra lc p z data fuel hm hr hd
    cases ids with
    | nil => simp [InMemory] at hm
    | cons i l =>
      obtain ⟨hi, hk, hs⟩ := hm
      simp only [depth] at hd
      obtain ⟨fuel, rfl⟩ : ∃ f, fuel = f + 1 := ⟨fuel - 1, by omega⟩
      rw [loadKids]
      simp only [Bool.false_eq_true, if_false]
      rw [load_eq hi]
      simp only [ok]
      by_cases hx : ((attrs x).isSome && known x.name) = true
      case neg =>
        have hx : ((attrs x).isSome && known x.name) = false := by simpa using hx
        simp [hx]
      case pos =>
        simp only [hx, if_true, Bool.true_and]
        rw [one_node known h x k ih1 ra lc data fuel hk (by have := hr.range; omega) (by omega)]
        by_cases hok : ((!isRef x || isNil k) && ok known k) = true
        · rw [if_pos hok]
          simp only [Option.map_some, Option.bind_eq_bind, Option.bind_some]
          rw [add_ready hr _ k rfl]
          simp only [Option.bind_some]
          have hlen : (link ra p z ra.length ++ ({ node 0 ra.length x k.shape .nil with next := 0, parent := p } : Pd) :: canon ra.length (ra.length + 1) k).length =
              ra.length + 1 + k.shape.nodes.length := by
            simp [link_length, canon_length]; omega
          have hih := ih2 l _ ra.length p ra.length (data ++ loaded x :: k.nodes.map loaded) (fuel + 1) hs
            (ready_next hr ({ node 0 ra.length x k.shape .nil with next := 0, parent := p } : Pd) (canon ra.length (ra.length + 1) k) rfl rfl) (by omega)
          rw [hlen] at hih
          refine hih.trans ?_
          rw [hok, Bool.true_and]
          cases hso : ok known s with
          | false => rfl
          | true =>
            simp only [if_true]
            have he : after (link ra p z ra.length ++ ({ node 0 ra.length x k.shape .nil with next := 0, parent := p } : Pd) :: canon ra.length (ra.length + 1) k) p ra.length s =
                after ra p z (.cons x k s) := by
              cases s with
              | nil => simp [after, canon, node, Tree.shape]
              | cons y k' s' =>
                simp only [after]
                rw [hlen]
                rw [link_last _ _ hr.root (by have := hr.range; omega) (link_length ra p z ra.length).symm]
                simp only [canon, List.append_assoc, List.cons_append]
                simp [node, Tree.shape]
            rw [he]
            simp [lastLc, Tree.nodes]
        · rw [if_neg hok]
          have : ((!isRef x || isNil k) && ok known k) = false := by simpa using hok
          rw [this]
          rfl

/-- the whole tree is read -/
theorem root_eq (known : List Nat → Bool) (h : Heap) (i : Nat) (x : XNode) (k : Tree) (fuel : Nat) (hm : InMemory h [i] (.cons x k .nil)) (hd : depth k ≤ fuel) :
    load known h (fuel + 1) start i =
      if ok known (.cons x k .nil) then
        some (some (⟨⟨{} :: canon 0 1 (.cons x k .nil), lastLc 0 2 k⟩, {} :: (Tree.cons x k .nil).nodes.map loaded⟩, 1))
      else some none := by
  obtain ⟨hi, hk, _⟩ := hm
  rw [load_eq hi]
  simp only [ok, Bool.and_true]
  by_cases hx : ((attrs x).isSome && known x.name) = true
  case neg =>
    have hx : ((attrs x).isSome && known x.name) = false := by simpa using hx
    simp [hx]
  case pos =>
    simp only [hx, if_true, Bool.true_and]
    have := one_node known h x k (kids_eq known h k) [{}] 0 [{}] fuel hk (by simp) hd
    refine (congrArg (Option.map (Option.map fun t => (t, 1))) this).trans ?_
    by_cases hok : ((!isRef x || isNil k) && ok known k) = true
    · rw [if_pos hok, if_pos hok]
      simp [canon, node, Tree.nodes, Tree.shape]
    · rw [if_neg hok, if_neg hok]
      rfl

/-- the descriptors of the nodes -/
theorem canon_get (known : List Nat → Bool) (D : Tree) : ∀ (p n j : Nat) (x : XNode), ok known D = true → D.nodes[j]? = some x →
    ∃ q, (canon p n D)[j]? = some q ∧ q.ref = (A x).ref ∧ q.cref = (A x).cref ∧ q.refd = (A x).refd ∧ q.idx = (A x).idx ∧
      (isRef x = true → q.firstChild = (A x).firstChild) := by
  induction D with
  | nil => intro p n j x _ h; simp [Tree.nodes] at h
  | cons y k s ih1 ih2 =>
    intro p n j x hok h
    simp only [ok, Bool.and_eq_true] at hok
    obtain ⟨⟨⟨_, hr⟩, hk⟩, hs⟩ := hok
    rw [Tree.nodes] at h
    rw [canon]
    cases j with
    | zero =>
      simp at h
      subst h
      refine ⟨_, rfl, rfl, rfl, rfl, rfl, fun hx => ?_⟩
      rw [hx] at hr
      cases k with
      | nil => rfl
      | cons => simp [isNil] at hr
    | succ j =>
      rw [List.getElem?_cons_succ, List.getElem?_append] at h ⊢
      rw [canon_length, ← nodes_length]
      split at h
      · rename_i hj; rw [if_pos hj]; exact ih1 _ _ _ _ hk h
      · rename_i hj; rw [if_neg hj]; exact ih2 _ _ _ _ hs h

end Verif.Lemmas.Xml2Load
