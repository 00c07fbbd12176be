import Verif.Lemmas.Tree
import Verif.Lemmas.IcArray
namespace Verif.Lemmas.Tree
open Verif.Model Verif.Model.Ic Verif.Model.Tree Verif.Spec Verif.Lemmas.Collection Verif.Lemmas.IcArray
open T

variable {p : Pool} {cmp : Cmp} {i : Nat}

/-- the header slot as outermost frame -/
def hdr : Frame := ⟨false, 0, nil⟩

theorem plug_append (gs fs : List Frame) : ∀ t, plug (gs ++ fs) t = plug fs (plug gs t) := by
  induction gs with
  | nil => intro t; rfl
  | cons g gs ih => intro t; exact ih _

theorem plug_hdr (gs : List Frame) (t : T) : plug (gs ++ [hdr]) t = node (plug gs t) 0 nil := by
  rw [plug_append]; rfl

theorem pathOK_append {path : Path} {gs fs : List Frame} (h : PathOK path (gs ++ fs)) :
    PathOK path fs := by
  induction gs with
  | nil => exact h
  | cons g gs ih => exact ih h.2

theorem height_plug (gs : List Frame) : ∀ t, gs.length + t.height ≤ (plug gs t).height := by
  induction gs with
  | nil => intro t; simp [plug]
  | cons g gs ih =>
    intro t
    have := ih (mk g.d t g.i g.s)
    have h2 : t.height + 1 ≤ (mk g.d t g.i g.s).height := by
      obtain ⟨d, i, s⟩ := g
      cases d <;> simp [mk, height] <;> omega
    simp only [List.length_cons, plug]; omega

/-- keys of the tree in order -/
def keys (p : Pool) (t : T) : List Key := t.ids.map (K p)

/-- the descent of `find` reaches a node with an equal key or the place where the key belongs -/
theorem findLoop_ok (key : Key) (fs : List Frame) : ∀ (t : T) (gs : List Frame) (path : Path) (fuel : Nat),
    Links p t → 0 ∉ t.ids → PathOK path (gs ++ fs) → path.length = pathSize →
    (gs ++ fs).length + t.height ≤ pathSize → t.height < fuel →
    (∀ f ∈ gs, if f.d then cmp key (K p f.i) > 0 else cmp key (K p f.i) < 0) →
    ∃ path', path'.length = pathSize ∧
      ((∃ gs', findLoop cmp key p fuel path (gs ++ fs).length t.rt =
            some ⟨path', (gs' ++ fs).length, false⟩ ∧
          plug gs' nil = plug gs t ∧ PathOK path' (gs' ++ fs) ∧
          (∀ f ∈ gs', if f.d then cmp key (K p f.i) > 0 else cmp key (K p f.i) < 0)) ∨
       (∃ gs' l i r, findLoop cmp key p fuel path (gs ++ fs).length t.rt =
            some ⟨path', (gs' ++ fs).length + 1, true⟩ ∧
          plug gs' (node l i r) = plug gs t ∧ PathOK path' (gs' ++ fs) ∧
          path'[(gs' ++ fs).length]? = some (i, false) ∧ cmp key (K p i) = 0 ∧
          (∀ f ∈ gs', if f.d then cmp key (K p f.i) > 0 else cmp key (K p f.i) < 0))) := by
  intro t
  induction t with
  | nil =>
    intro gs path fuel _ _ h3 h4 _ h6 h7
    cases fuel with
    | zero => simp [height] at h6
    | succ fuel =>
      exact ⟨path, h4, .inl ⟨gs, by simp [findLoop], rfl, h3, h7⟩⟩
  | node l i r ihl ihr =>
    intro gs path fuel h1 h2 h3 h4 h5 h6 h7
    cases fuel with
    | zero => omega
    | succ fuel =>
      obtain ⟨hi, hl, hr, hL, hR⟩ := h1
      have hi0 : i ≠ 0 := by intro h; apply h2; simp [ids, h]
      have h2l : 0 ∉ l.ids := fun h => h2 (by simp [ids, h])
      have h2r : 0 ∉ r.ids := fun h => h2 (by simp [ids, h])
      simp only [height] at h5 h6
      have hw : wr path (gs ++ fs).length (i, decide (cmp key (K p i) > 0)) =
          some (path.set (gs ++ fs).length (i, decide (cmp key (K p i) > 0))) := by
        rw [wr, if_pos (by omega)]
      simp only [rt, findLoop, hi0, if_false, getKey_eq hi, Option.bind_eq_bind, Option.bind_some, hw,
        getNx_eq hi]
      have hget : (path.set (gs ++ fs).length (i, decide (cmp key (K p i) > 0)))[(gs ++ fs).length]? =
          some (i, decide (cmp key (K p i) > 0)) := by
        rw [List.getElem?_set_self (by omega)]
      by_cases hc : cmp key (K p i) = 0
      · rw [if_pos hc]
        refine ⟨_, by rw [List.length_set]; exact h4, .inr ⟨gs, l, i, r, rfl, rfl, pathOK_set (Nat.le_refl _) h3, ?_, hc, h7⟩⟩
        rw [hget]; simp [hc]
      · rw [if_neg hc]
        by_cases hgt : cmp key (K p i) > 0
        · have hd : decide (cmp key (K p i) > 0) = true := decide_eq_true hgt
          rw [hd] at hget ⊢
          rw [hr]
          refine ihr (⟨true, i, l⟩ :: gs) _ fuel hR h2r ⟨hget, pathOK_set (Nat.le_refl _) h3⟩
            (by rw [List.length_set]; exact h4) (by simp only [List.cons_append, List.length_cons]; omega) (by omega) ?_
          intro f hf
          rw [List.mem_cons] at hf
          rcases hf with rfl | hf
          · simpa using hgt
          · exact h7 f hf
        · have hd : decide (cmp key (K p i) > 0) = false := decide_eq_false hgt
          rw [hd] at hget ⊢
          rw [hl]
          refine ihl (⟨false, i, r⟩ :: gs) _ fuel hL h2l ⟨hget, pathOK_set (Nat.le_refl _) h3⟩
            (by rw [List.length_set]; exact h4) (by simp only [List.cons_append, List.length_cons]; omega) (by omega) ?_
          intro f hf
          rw [List.mem_cons] at hf
          rcases hf with rfl | hf
          · simp only [Bool.false_eq_true, if_false]; omega
          · exact h7 f hf

theorem bef_lt (hc : Comparator cmp) {key : Key} : ∀ {gs : List Frame},
    Strict cmp ((bef gs).map (K p)) →
    (∀ f ∈ gs, if f.d then cmp key (K p f.i) > 0 else cmp key (K p f.i) < 0) →
    ∀ x ∈ bef gs, cmp (K p x) key < 0 := by
  intro gs
  induction gs with
  | nil => intro _ _ x hx; simp [bef] at hx
  | cons f gs ih =>
    intro hs hf x hx
    obtain ⟨d, i, s⟩ := f
    have hf0 := hf ⟨d, i, s⟩ (by simp)
    have hf' := fun g hg => hf g (List.mem_cons_of_mem _ hg)
    cases d with
    | false =>
      simp only [bef, Bool.false_eq_true, if_false, List.append_nil] at hs hx
      exact ih hs hf' x hx
    | true =>
      simp only [bef, if_true, List.map_append, List.mem_append] at hs hx hf0
      have hi : cmp (K p i) key < 0 := (hc.anti _ _).mp hf0
      unfold Strict at hs
      rw [List.pairwise_append] at hs
      rcases hx with hx | hx | hx
      · exact ih hs.1 hf' x hx
      · rw [List.pairwise_append] at hs
        have := hs.2.1.2.2 (K p x) (List.mem_map_of_mem hx) (K p i) (by simp)
        exact cmp_lt_of_lt_of_le hc this (by omega)
      · simp only [List.mem_singleton] at hx; rw [hx]; exact hi

theorem aft_gt (hc : Comparator cmp) {key : Key} : ∀ {gs : List Frame},
    Strict cmp ((aft gs).map (K p)) →
    (∀ f ∈ gs, if f.d then cmp key (K p f.i) > 0 else cmp key (K p f.i) < 0) →
    ∀ x ∈ aft gs, cmp key (K p x) < 0 := by
  intro gs
  induction gs with
  | nil => intro _ _ x hx; simp [aft] at hx
  | cons f gs ih =>
    intro hs hf x hx
    obtain ⟨d, i, s⟩ := f
    have hf0 := hf ⟨d, i, s⟩ (by simp)
    have hf' := fun g hg => hf g (List.mem_cons_of_mem _ hg)
    cases d with
    | true =>
      simp only [aft, if_true, List.nil_append] at hs hx
      exact ih hs hf' x hx
    | false =>
      simp only [aft, Bool.false_eq_true, if_false, List.map_append, List.mem_append, List.map_cons,
        List.mem_cons, List.cons_append] at hs hx hf0
      unfold Strict at hs
      rw [List.pairwise_cons, List.pairwise_append] at hs
      rcases hx with hx | hx | hx
      · rw [hx]; exact hf0
      · have := hs.1 (K p x) (by simp only [List.mem_append]; exact .inl (List.mem_map_of_mem hx))
        exact cmp_lt_of_lt_of_le hc hf0 (by omega)
      · exact ih hs.2.2.1 hf' x hx

/-- The pool is exactly the tree `t` below the header. -/
structure Wf (p : Pool) (t : T) : Prop where
  len : p.length ≤ 2 ^ 31
  links : Links p (node t 0 nil)
  perm : (node t 0 nil).ids.Perm (List.range p.length)

theorem Wf.nodup {t : T} (h : Wf p t) : (node t 0 nil).ids.Nodup :=
  h.perm.nodup_iff.mpr List.nodup_range

theorem Wf.zero {t : T} (h : Wf p t) : 0 ∉ t.ids := by
  have := h.nodup
  simp only [ids, List.nodup_append] at this
  intro h0; exact this.2.2 0 h0 0 (by simp) rfl

theorem Wf.count {t : T} (h : Wf p t) : p.length = t.ids.length + 1 := by
  have := h.perm.length_eq
  simp [ids] at this; omega

theorem find_size {t : T} (hl : Links p (node t 0 nil)) (hz : 0 ∉ t.ids) (size : Nat) (hs : t ≠ nil → 2 ≤ size) (key : Key)
    (hh : t.height + 1 ≤ pathSize) :
    ∃ path', path'.length = pathSize ∧
      ((∃ gs', find cmp key p size = some ⟨path', gs'.length + 1, false⟩ ∧
          plug gs' nil = t ∧ PathOK path' (gs' ++ [hdr]) ∧
          (∀ f ∈ gs', if f.d then cmp key (K p f.i) > 0 else cmp key (K p f.i) < 0)) ∨
       (∃ gs' l i r, find cmp key p size = some ⟨path', gs'.length + 2, true⟩ ∧
          plug gs' (node l i r) = t ∧ PathOK path' (gs' ++ [hdr]) ∧
          path'[gs'.length + 1]? = some (i, false) ∧ cmp key (K p i) = 0 ∧
          (∀ f ∈ gs', if f.d then cmp key (K p f.i) > 0 else cmp key (K p f.i) < 0))) := by
  have hp : PathOK ((List.replicate pathSize (0, false)).set 0 (0, false)) ([] ++ [hdr]) := by
    refine ⟨?_, trivial⟩; simp [pathSize, hdr]
  have hwr : wr (List.replicate pathSize (0, false)) 0 ((0, false) : Nat × Dir) =
      some ((List.replicate pathSize (0, false)).set 0 (0, false)) := by
    rw [wr, if_pos (by simp [pathSize])]
  unfold find
  rw [hwr]
  simp only [Option.bind_eq_bind, Option.bind_some]
  have hlen : ((List.replicate pathSize ((0, false) : Nat × Dir)).set 0 (0, false)).length = pathSize := by simp
  generalize (List.replicate pathSize ((0, false) : Nat × Dir)).set 0 (0, false) = path0 at *
  by_cases h2 : size ≥ 2
  · simp only [Links] at hl
    rw [if_pos h2, getNx_eq hl.1, hl.2.1]
    simp only [Option.bind_some]
    obtain ⟨path', h3, h4⟩ := findLoop_ok (cmp := cmp) key [hdr] t [] path0 (pathSize + 1)
      hl.2.2.2.1 hz hp hlen (by simpa [Nat.add_comm] using hh) (by omega) (by simp)
    refine ⟨path', h3, ?_⟩
    simpa [plug] using h4
  · rw [if_neg h2]
    have ht : t = nil := Classical.byContradiction fun h => h2 (hs h)
    subst ht
    exact ⟨path0, hlen, .inl ⟨[], rfl, rfl, hp, by simp⟩⟩

theorem find_ok {t : T} (hw : Wf p t) (key : Key) (hh : t.height + 1 ≤ pathSize) :
    ∃ path', path'.length = pathSize ∧
      ((∃ gs', find cmp key p p.length = some ⟨path', gs'.length + 1, false⟩ ∧
          plug gs' nil = t ∧ PathOK path' (gs' ++ [hdr]) ∧
          (∀ f ∈ gs', if f.d then cmp key (K p f.i) > 0 else cmp key (K p f.i) < 0)) ∨
       (∃ gs' l i r, find cmp key p p.length = some ⟨path', gs'.length + 2, true⟩ ∧
          plug gs' (node l i r) = t ∧ PathOK path' (gs' ++ [hdr]) ∧
          path'[gs'.length + 1]? = some (i, false) ∧ cmp key (K p i) = 0 ∧
          (∀ f ∈ gs', if f.d then cmp key (K p f.i) > 0 else cmp key (K p f.i) < 0))) := by
  refine find_size hw.links hw.zero p.length ?_ key hh
  intro h
  have := hw.count
  cases t with
  | nil => exact absurd rfl h
  | node l i r => simp [ids] at this; omega

/-- in the not-found case the key is absent and belongs into the hole -/
theorem notfound_order (hc : Comparator cmp) {gs : List Frame} {key : Key}
    (hs : Strict cmp (keys p (plug gs nil)))
    (hf : ∀ f ∈ gs, if f.d then cmp key (K p f.i) > 0 else cmp key (K p f.i) < 0) :
    (∀ x ∈ bef gs, cmp (K p x) key < 0) ∧ (∀ x ∈ aft gs, cmp key (K p x) < 0) := by
  unfold keys at hs
  rw [ids_plug] at hs
  simp only [ids, List.append_nil, List.map_append] at hs
  unfold Strict at hs
  rw [List.pairwise_append] at hs
  exact ⟨bef_lt hc hs.1 hf, aft_gt hc hs.2.1 hf⟩

theorem notfound_lookup (hc : Comparator cmp) {gs : List Frame} {key : Key}
    (hs : Strict cmp (keys p (plug gs nil)))
    (hf : ∀ f ∈ gs, if f.d then cmp key (K p f.i) > 0 else cmp key (K p f.i) < 0) :
    lookup cmp (keys p (plug gs nil)) key = none := by
  obtain ⟨h1, h2⟩ := notfound_order hc hs hf
  rw [lookup_none]
  intro r hr
  unfold keys at hr
  rw [List.mem_map] at hr
  obtain ⟨x, hx, rfl⟩ := hr
  rw [ids_plug] at hx
  simp only [ids, List.append_nil, List.mem_append] at hx
  rcases hx with hx | hx
  · have := (hc.anti _ _).mpr (h1 x hx); omega
  · have := h2 x hx; omega

/-! ### what a balancing scheme has to guarantee -/

/-- rename the nodes of a tree -/
def T.map (f : Nat → Nat) : T → T
  | nil => nil
  | node l i r => node (l.map f) (f i) (r.map f)

structure Scheme (Inv : Pool → T → Prop) : Prop where
  height : ∀ {p t}, Inv p t → t.ids.length + 1 ≤ 2 ^ 31 → t.height ≤ 60
  empty : Inv [Node.zero] nil
  map : ∀ {p p' t} (f : Nat → Nat), (∀ i ∈ t.ids, R p' (f i) = R p i ∧ B p' (f i) = B p i) →
    R p' 0 = R p 0 → Inv p t → Inv p' (t.map f)

def AddContract (Inv : Pool → T → Prop) (reb : Pool → Path → Nat → Option Pool) : Prop :=
  ∀ {p : Pool} {gs : List Frame} {x : Nat} {path : Path} {dx : Dir}, p.length ≤ 2 ^ 31 →
    Links p (plug (gs ++ [hdr]) (node nil x nil)) → (plug (gs ++ [hdr]) (node nil x nil)).ids.Nodup →
    Inv p (plug gs nil) → PathOK path (gs ++ [hdr]) → path[gs.length + 1]? = some (x, dx) →
    path.length = pathSize →
    ∃ p' t', reb p path (gs.length + 1) = some p' ∧ Links p' (node t' 0 nil) ∧
      t'.ids = (plug gs (node nil x nil)).ids ∧ Inv p' t' ∧ p'.length = p.length ∧
      ∀ i, K p' i = K p i

def DelContract (Inv : Pool → T → Prop) (reb : Pool → Path → Nat → Option Pool) : Prop :=
  ∀ {p : Pool} {gs : List Frame} {c : T} {x : Nat} {path : Path} {dx d : Dir}, p.length ≤ 2 ^ 31 →
    Links p (plug (gs ++ [hdr]) c) → (plug (gs ++ [hdr]) (mk d c x nil)).ids.Nodup → x < p.length →
    Inv p (plug gs (mk d c x nil)) → PathOK path (gs ++ [hdr]) → path[gs.length + 1]? = some (x, dx) →
    path.length = pathSize → gs.length + 1 ≤ 60 →
    ∃ p' t', reb p path (gs.length + 1) = some p' ∧ Links p' (node t' 0 nil) ∧
      t'.ids = (plug gs c).ids ∧ Inv p' t' ∧ p'.length = p.length ∧ ∀ i, K p' i = K p i

theorem T.map_id (f : Nat → Nat) (t : T) (h : ∀ i ∈ t.ids, f i = i) : t.map f = t := by
  induction t with
  | nil => rfl
  | node l i r ihl ihr =>
    simp only [map]
    rw [ihl (fun j hj => h j (by simp [ids, hj])), ihr (fun j hj => h j (by simp [ids, hj])),
      h i (by simp [ids])]

theorem Scheme.congr {Inv : Pool → T → Prop} (hs : Scheme Inv) {p p' : Pool} {t : T}
    (h : ∀ i ∈ t.ids, R p' i = R p i ∧ B p' i = B p i) (h0 : R p' 0 = R p 0) (hi : Inv p t) :
    Inv p' t := by
  have := hs.map (fun i => i) h h0 hi
  rwa [T.map_id _ _ (fun _ _ => rfl)] at this

/-! ### appending a node -/

theorem getD_append_lt (h : i < p.length) (n : Node) : (p ++ [n]).getD i default = p.getD i default := by
  simp [List.getD_eq_getElem?_getD, List.getElem?_append_left h]

theorem getD_append_self (p : Pool) (n : Node) : (p ++ [n]).getD p.length default = n := by
  simp [List.getD_eq_getElem?_getD]

theorem links_append (n : Node) {t : T} (h : Links p t) : Links (p ++ [n]) t := by
  induction t with
  | nil => trivial
  | node l i r ihl ihr =>
    obtain ⟨h1, h2, h3, h4, h5⟩ := h
    refine ⟨by simp; omega, ?_, ?_, ihl h4, ihr h5⟩
    · unfold N at *; rw [getD_append_lt h1]; exact h2
    · unfold N at *; rw [getD_append_lt h1]; exact h3

theorem strict_insert {a b : List Key} {k : Key} (hs : Strict cmp (a ++ b))
    (h1 : ∀ x ∈ a, cmp x k < 0) (h2 : ∀ x ∈ b, cmp k x < 0) : Strict cmp (a ++ k :: b) := by
  unfold Strict at *
  rw [List.pairwise_append] at hs ⊢
  refine ⟨hs.1, List.pairwise_cons.mpr ⟨h2, hs.2.1⟩, ?_⟩
  intro x hx y hy
  rw [List.mem_cons] at hy
  rcases hy with rfl | hy
  · exact h1 x hx
  · exact hs.2.2 x hx y hy

/-- replacing the hole of a context: only the innermost frame's link changes -/
theorem links_relink {p p' : Pool} {f : Frame} {fs : List Frame} {t t' : T}
    (hl : Links p (plug (f :: fs) t)) (hn : (plug (f :: fs) t).ids.Nodup)
    (hlen : p'.length = p.length)
    (hN : ∀ j e, N p' j e = if j = f.i ∧ e = f.d then t'.rt else N p j e)
    (ht : Links p t') (hft : f.i ∉ t'.ids) : Links p' (plug (f :: fs) t') := by
  rw [links_plug] at hl ⊢
  obtain ⟨⟨h1, h2, h3, h4, h5⟩, h6⟩ := hl
  rw [nodup_plug] at hn
  simp only [fids, List.nodup_append, List.nodup_cons, List.mem_append, List.mem_cons, not_or] at hn
  have hne : ∀ j, j ≠ f.i → ∀ e, N p' j e = N p j e := by
    intro j hj e; rw [hN]; simp [hj]
  refine ⟨⟨by omega, by rw [hN]; simp, by rw [hN]; simp [h3], links_congr hlen ?_ h4,
    linksF_congr hlen ?_ h5⟩, links_congr hlen ?_ ht⟩
  · intro j hj; apply hne; intro h; subst h; exact hn.2.1.1.1 hj
  · intro j hj; apply hne; intro h; subst h; exact hn.2.1.1.2 hj
  · intro j hj; apply hne; intro h; subst h; exact hft hj

theorem gs_hdr (gs : List Frame) : ∃ f fs, gs ++ [hdr] = f :: fs ∧ fs.length = gs.length := by
  cases gs with
  | nil => exact ⟨hdr, [], rfl, rfl⟩
  | cons g gs => exact ⟨g, gs ++ [hdr], rfl, by simp⟩

/-- What `treeAdd` does on a pool that has a header. -/
theorem treeAdd_ok (hc : Comparator cmp) {Inv : Pool → T → Prop} (hS : Scheme Inv)
    {reb : Pool → Path → Nat → Option Pool} (hA : AddContract Inv reb) {t : T} (hw : Wf p t)
    (hi : Inv p t) (hs : Strict cmp (keys p t)) (hlen : p.length < 2 ^ 31) (key : Key) (m : Bool × Bool) :
    ∃ p' r, treeAdd reb cmp p key m = some (p', r) ∧
      ((∃ i, p' = p ∧ r = some i ∧ i < p.length ∧ lookup cmp (keys p t) key = some (K p i)) ∨
       (lookup cmp (keys p t) key = none ∧ ∃ t' i, r = some i ∧ i < p'.length ∧ K p' i = key ∧
          Wf p' t' ∧ Inv p' t' ∧ Strict cmp (keys p' t') ∧ (keys p' t').Perm (keys p t ++ [key]) ∧
          p'.length = p.length + 1) ∨
       (lookup cmp (keys p t) key = none ∧ m.2 = false ∧ p' = p ∧ r = none)) := by
  have hp0 : p.length ≠ 0 := by have := hw.count; omega
  have hheight := hS.height hi (by have := hw.count; omega)
  unfold treeAdd
  simp only [hp0, if_false]
  obtain ⟨path, hpl, h | h⟩ := find_ok (cmp := cmp) hw key (by unfold pathSize; omega)
  · obtain ⟨gs, h1, rfl, h3, h4⟩ := h
    simp only [h1, Option.bind_eq_bind, Option.bind_some, Bool.false_eq_true, if_false]
    have hlk := notfound_lookup hc hs h4
    have hgl := height_plug gs nil
    simp only [T.height] at hgl
    cases hm : m.2 with
    | false => exact ⟨p, none, rfl, .inr (.inr ⟨hlk, rfl, rfl, rfl⟩)⟩
    | true =>
      simp only [nodeNew, if_true]
      have hmod : p.length % 2147483648 = p.length := Nat.mod_eq_of_lt (by omega)
      rw [hmod]
      obtain ⟨old, hpg⟩ : ∃ old, path[gs.length + 1]? = some old :=
        ⟨_, List.getElem?_eq_getElem (by rw [hpl]; unfold pathSize; omega)⟩
      rw [hpg]
      simp only [Option.bind_some]
      rw [wr, if_pos (by rw [hpl]; unfold pathSize; omega)]
      simp only [Option.bind_some]
      rw [setKey_eq (by simp)]
      simp only [Option.bind_some, Nat.add_sub_cancel]
      obtain ⟨f, fs, hfs, hfl⟩ := gs_hdr gs
      have hpath' : PathOK (path.set (gs.length + 1) (p.length, old.2)) (gs ++ [hdr]) :=
        pathOK_set (by simp) h3
      have hpar := hpath'
      rw [hfs] at hpar
      have hpar := hpar.1
      rw [hfl] at hpar
      rw [hpar]
      simp only [Option.bind_some]
      -- the pool with the new, unlinked node
      have hL0 : Links p (plug (gs ++ [hdr]) nil) := by rw [plug_hdr]; exact hw.links
      have hn0 : (plug (gs ++ [hdr]) nil).ids.Nodup := by rw [plug_hdr]; exact hw.nodup
      have hlt0 := links_lt hL0
      have hfi : f.i < p.length := by
        have := hL0; rw [hfs, links_plug] at this; exact this.1.1
      have hL1 : Links (updK (p ++ [Node.zero]) p.length key) (plug (gs ++ [hdr]) nil) :=
        links_congr (by simp) (fun i _ d => by simp) (links_append Node.zero hL0)
      have hx1 : Links (updK (p ++ [Node.zero]) p.length key) (node nil p.length nil) := by
        refine ⟨by simp, ?_, ?_, trivial, trivial⟩ <;>
        · rw [N_updK]; unfold N; rw [getD_append_self]; rfl
      rw [setNx_eq (by simp; omega)]
      simp only [Option.bind_some]
      have hL2 : Links (updN (updK (p ++ [Node.zero]) p.length key) f.i f.d p.length)
          (plug (gs ++ [hdr]) (node nil p.length nil)) := by
        rw [hfs] at hL1 hn0 ⊢
        refine links_relink hL1 hn0 (by simp) ?_ hx1 ?_
        · intro j e; rw [N_updN (by simp; omega) (by omega)]; rfl
        · simp [ids]; omega
      have hids : (plug (gs ++ [hdr]) (node nil p.length nil)).ids.Perm (List.range (p.length + 1)) := by
        rw [ids_plug, List.range_succ]
        have h5 : (bef (gs ++ [hdr]) ++ (node nil p.length nil).ids ++ aft (gs ++ [hdr])).Perm
            (p.length :: (plug (gs ++ [hdr]) nil).ids) := by
          rw [ids_plug]; simp only [ids, List.nil_append, List.append_nil, List.append_assoc, List.cons_append]
          exact List.perm_middle
        refine h5.trans (List.Perm.trans (List.Perm.cons _ ?_) (List.perm_append_comm (l₁ := [p.length])))
        rw [plug_hdr]; exact hw.perm
      have hn2 : (plug (gs ++ [hdr]) (node nil p.length nil)).ids.Nodup :=
        hids.nodup_iff.mpr List.nodup_range
      have hR2 : ∀ j, j < p.length → R (updN (updK (p ++ [Node.zero]) p.length key) f.i f.d p.length) j = R p j := by
        intro j hj; simp; unfold R; rw [getD_append_lt hj]
      have hB2 : ∀ j, j < p.length → B (updN (updK (p ++ [Node.zero]) p.length key) f.i f.d p.length) j = B p j := by
        intro j hj; simp; unfold B; rw [getD_append_lt hj]
      have hK2 : ∀ j, K (updN (updK (p ++ [Node.zero]) p.length key) f.i f.d p.length) j =
          if j = p.length then key else K (p ++ [Node.zero]) j := by
        intro j; rw [K_updN, K_updK (by simp)]
      have hlen2 : (updN (updK (p ++ [Node.zero]) p.length key) f.i f.d p.length).length = p.length + 1 := by
        simp
      generalize updN (updK (p ++ [Node.zero]) p.length key) f.i f.d p.length = q at *
      have hinv : Inv q (plug gs nil) := by
        refine hS.congr (fun i hi' => ?_) (hR2 0 (by omega)) hi
        have := hlt0 i (by rw [plug_hdr]; simp [ids, hi'])
        exact ⟨hR2 i this, hB2 i this⟩
      obtain ⟨q', t', g1, g2, g3, g4, g5, g6⟩ := hA (p := q) (gs := gs) (x := p.length)
        (path := path.set (gs.length + 1) (p.length, old.2)) (dx := old.2) (by omega) hL2 hn2 hinv hpath'
        (by rw [List.getElem?_set_self (by rw [hpl]; unfold pathSize; omega)]) (by rw [List.length_set]; exact hpl)
      rw [g1]
      have hKlt : ∀ j, j < p.length → K q' j = K p j := by
        intro j hj; rw [g6, hK2]
        have : j ≠ p.length := by omega
        simp only [this, if_false]; unfold K; rw [getD_append_lt hj]
      have hKx : K q' p.length = key := by rw [g6, hK2]; simp
      have hkeys : keys q' t' = (bef gs).map (K p) ++ key :: (aft gs).map (K p) := by
        have hb : ∀ x ∈ bef gs, x < p.length := fun x hx => hlt0 x (by rw [plug_hdr, ids, ids_plug]; simp [hx])
        have ha : ∀ x ∈ aft gs, x < p.length := fun x hx => hlt0 x (by rw [plug_hdr, ids, ids_plug]; simp [hx])
        unfold keys
        rw [g3, ids_plug]
        simp only [ids, List.nil_append, List.map_append, List.map_cons, List.append_assoc, List.cons_append, hKx]
        rw [List.map_congr_left (fun x hx => hKlt x (hb x hx)), List.map_congr_left (fun x hx => hKlt x (ha x hx))]
      have hkeys0 : keys p (plug gs nil) = (bef gs).map (K p) ++ (aft gs).map (K p) := by
        unfold keys; rw [ids_plug]; simp [ids]
      obtain ⟨o1, o2⟩ := notfound_order hc hs h4
      refine ⟨q', some p.length, rfl, .inr (.inl ⟨hlk, t', p.length, rfl, by omega, hKx, ⟨by omega, g2, ?_⟩, g4, ?_, ?_, by omega⟩)⟩
      · rw [plug_hdr] at hids
        have : (node t' 0 nil).ids = (node (plug gs (node nil p.length nil)) 0 nil).ids := by
          simp only [ids, g3]
        rw [this, g5, hlen2]; exact hids
      · rw [hkeys]
        rw [hkeys0] at hs
        refine strict_insert hs ?_ ?_
        · intro x hx; rw [List.mem_map] at hx; obtain ⟨y, hy, rfl⟩ := hx; exact o1 y hy
        · intro x hx; rw [List.mem_map] at hx; obtain ⟨y, hy, rfl⟩ := hx; exact o2 y hy
      · rw [hkeys, hkeys0]
        exact List.perm_middle.trans (List.perm_append_comm (l₁ := [key]))
  · obtain ⟨gs, l, i, r, h1, rfl, h3, h4, h5, h6⟩ := h
    simp only [h1, Option.bind_eq_bind, Option.bind_some, if_true]
    have hmem : i ∈ (plug gs (node l i r)).ids := by rw [ids_plug]; simp [ids]
    refine ⟨p, some i, ?_, .inl ⟨i, rfl, rfl, ?_, ?_⟩⟩
    · have : gs.length + 2 - 1 = gs.length + 1 := by omega
      rw [this, h4]; rfl
    · exact links_lt hw.links i (by simp [ids, hmem])
    · rw [lookup_eq_some_iff hc (strict_distinct hs)]
      exact ⟨List.mem_map_of_mem hmem, h5⟩

end Verif.Lemmas.Tree
