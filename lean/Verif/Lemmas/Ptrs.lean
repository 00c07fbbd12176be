import Verif.Spec.Ptrs
/-!
# Lemmas about building the node tree
-/
namespace Verif.Lemmas.Ptrs
open Verif.Model Verif.Model.Ptrs Verif.Spec.Ptrs

/-! ### histories -/

/-- the parent recorded for `x`; 0 if there is none -/
def par (H : Hist) (x : Nat) : Nat := ((H.find? (·.2 = x)).map (·.1)).getD 0

/-- the nodes from `x` up to its root -/
inductive Path (H : Hist) : Nat → List Nat → Prop
  | root : Path H 0 []
  | step {x : Nat} {l : List Nat} : x ≠ 0 → Path H (par H x) l → Path H x (x :: l)

/-- histories of sensible additions -/
structure HW (n : Nat) (H : Hist) : Prop where
  pos : 0 < n
  nodup : (H.map (·.2)).Nodup
  range : ∀ p c, (p, c) ∈ H → c ≠ 0 ∧ c < n ∧ p < n
  path : ∀ x, x < n → ∃ l, Path H x l

theorem find_of_mem {H : Hist} (hn : (H.map (·.2)).Nodup) {p c : Nat} (h : (p, c) ∈ H) : H.find? (·.2 = c) = some (p, c) := by
  induction H with
  | nil => simp at h
  | cons e H ih =>
    rw [List.map_cons, List.nodup_cons] at hn
    rcases List.mem_cons.1 h with h1 | h1
    · subst h1; simp
    · have : e.2 ≠ c := by
        intro hc; exact hn.1 (by rw [hc]; exact List.mem_map.2 ⟨(p, c), h1, rfl⟩)
      rw [List.find?_cons_of_neg (by simpa using this)]
      exact ih hn.2 h1

theorem par_of_mem {H : Hist} (hn : (H.map (·.2)).Nodup) {p c : Nat} (h : (p, c) ∈ H) : par H c = p := by
  rw [par, find_of_mem hn h]; rfl

theorem mem_of_par {H : Hist} {x : Nat} (h : par H x ≠ 0) : (par H x, x) ∈ H := by
  unfold par at *
  cases hf : H.find? (·.2 = x) with
  | none => rw [hf] at h; simp at h
  | some e =>
    have h1 := List.find?_some hf
    have h2 := List.mem_of_find?_eq_some hf
    simp only [decide_eq_true_eq] at h1
    rw [← h1]
    simpa using h2

theorem par_none {H : Hist} {x : Nat} (h : x ∉ H.map (·.2)) : par H x = 0 := by
  apply Classical.byContradiction
  intro h1
  exact h (List.mem_map.2 ⟨_, mem_of_par h1, rfl⟩)

theorem mem_children {H : Hist} {p c : Nat} : c ∈ children H p ↔ (p, c) ∈ H := by
  simp only [children, List.mem_map, List.mem_filter, decide_eq_true_eq]
  constructor
  · rintro ⟨⟨a, b⟩, ⟨h1, h2⟩, h3⟩
    simp only at h2 h3
    subst h2 h3; exact h1
  · intro h; exact ⟨(p, c), ⟨h, rfl⟩, rfl⟩

theorem children_nodup {H : Hist} (hn : (H.map (·.2)).Nodup) (p : Nat) : (children H p).Nodup :=
  hn.sublist (List.filter_sublist.map _)

theorem children_append (H : Hist) (p c q : Nat) :
    children (H ++ [(p, c)]) q = if q = p then children H q ++ [c] else children H q := by
  unfold children
  rw [List.filter_append, List.map_append]
  by_cases h : q = p
  · subst h; simp
  · simp [h, Ne.symm h]

theorem lastAdded_append (H : Hist) (p c : Nat) : lastAdded (H ++ [(p, c)]) = c := by simp [lastAdded]

theorem path_unique {H : Hist} {x : Nat} {l l' : List Nat} (h : Path H x l) (h' : Path H x l') : l = l' := by
  induction h generalizing l' with
  | root => cases h' with
    | root => rfl
    | step h _ => exact absurd rfl h
  | step hx _ ih => cases h' with
    | root => exact absurd rfl hx
    | step _ h2 => rw [ih h2]

/-- each node on a path has the tail of the path as its own path -/
theorem path_mem {H : Hist} {x a : Nat} {l : List Nat} (h : Path H x l) (ha : a ∈ l) :
    ∃ l', Path H a (a :: l') ∧ (a :: l') <:+ l := by
  induction h with
  | root => simp at ha
  | @step x l hx hp ih =>
    rcases List.mem_cons.1 ha with rfl | h1
    · exact ⟨l, Path.step hx hp, List.suffix_refl _⟩
    · obtain ⟨l', h2, h3⟩ := ih h1
      exact ⟨l', h2, List.IsSuffix.trans h3 (List.suffix_cons _ _)⟩

theorem path_nodup {H : Hist} {x : Nat} {l : List Nat} (h : Path H x l) : l.Nodup := by
  induction h with
  | root => simp
  | @step x l hx hp ih =>
    rw [List.nodup_cons]
    refine ⟨?_, ih⟩
    intro hm
    obtain ⟨l', h1, h2⟩ := path_mem hp hm
    have h3 := path_unique h1 (Path.step hx hp)
    have h4 := h2.length_le
    rw [h3] at h4
    simp only [List.length_cons] at h4
    omega

theorem path_range {n : Nat} {H : Hist} (hw : HW n H) {x : Nat} {l : List Nat} (h : Path H x l) (hx : x < n) : ∀ a ∈ l, a < n := by
  induction h with
  | root => simp
  | @step x l hx0 hp ih =>
    have : par H x < n := by
      by_cases h0 : par H x = 0
      · have := hw.pos; omega
      · exact (hw.range _ _ (mem_of_par h0)).2.2
    intro a ha
    rcases List.mem_cons.1 ha with rfl | h1
    · exact hx
    · exact ih this a h1

theorem path_length {n : Nat} {H : Hist} (hw : HW n H) {x : Nat} {l : List Nat} (h : Path H x l) (hx : x < n) : l.length ≤ n := by
  have := (path_nodup h).length_le_of_subset (l₂ := List.range n) (fun a ha => List.mem_range.2 (path_range hw h hx a ha))
  simpa using this

theorem path_ne_zero {H : Hist} {x : Nat} {l : List Nat} (h : Path H x l) : ∀ a ∈ l, a ≠ 0 := by
  induction h with
  | root => simp
  | step hx _ ih =>
    intro a ha
    rcases List.mem_cons.1 ha with rfl | h1
    · exact hx
    · exact ih a h1

/-- the path lists the node and its ancestors -/
theorem anc_iff {n : Nat} {H : Hist} (hw : HW n H) {x a : Nat} {l : List Nat} (h : Path H x l) (ha : a ≠ 0) :
    Anc H a x ↔ a ∈ l := by
  constructor
  · intro hA
    induction hA generalizing l with
    | self => cases h with
      | root => exact absurd rfl ha
      | step _ _ => simp
    | @up p x hm _ ih =>
      have hp := par_of_mem hw.nodup hm
      cases h with
      | root => exact absurd rfl (hw.range _ _ hm).1
      | step _ h2 => rw [hp] at h2; exact List.mem_cons_of_mem _ (ih h2)
  · intro hm
    induction h with
    | root => simp at hm
    | @step x l hx hp ih =>
      rcases List.mem_cons.1 hm with rfl | h1
      · exact Anc.self
      · have h0 : par H x ≠ 0 := by
          intro h0; rw [h0] at hp; cases hp with
          | root => simp at h1
          | step h _ => exact absurd rfl h
        exact Anc.up (mem_of_par h0) (ih h1)

theorem anc_mono {H : Hist} {e : Nat × Nat} {a x : Nat} (h : Anc H a x) : Anc (H ++ [e]) a x := by
  induction h with
  | self => exact Anc.self
  | up hm _ ih => exact Anc.up (List.mem_append_left _ hm) ih

theorem par_append {H : Hist} {p c : Nat} (hc : c ∉ H.map (·.2)) (x : Nat) :
    par (H ++ [(p, c)]) x = if x = c then p else par H x := by
  by_cases h : x = c
  · subst h
    have : H.find? (·.2 = x) = none := by
      rw [List.find?_eq_none]
      intro e he; simp only [decide_eq_true_eq]
      intro h1; exact hc (List.mem_map.2 ⟨e, he, h1⟩)
    simp [par, List.find?_append, this]
  · simp only [par, List.find?_append, h, if_false]
    cases H.find? (·.2 = x) with
    | none => simp [Ne.symm h]
    | some e => simp

theorem hw_init : HW 1 [] where
  pos := by omega
  nodup := by simp
  range := by simp
  path x hx := ⟨[], by rw [show x = 0 by omega]; exact Path.root⟩

theorem hw_alloc {n : Nat} {H : Hist} (hw : HW n H) : HW (n + 1) H where
  pos := by omega
  nodup := hw.nodup
  range p c h := by have := hw.range p c h; omega
  path x hx := by
    by_cases h : x = n
    · have : par H x = 0 := by
        apply Classical.byContradiction; intro h1
        have := hw.range _ _ (mem_of_par h1); omega
      have hp := hw.pos
      exact ⟨[x], Path.step (by omega) (by rw [this]; exact Path.root)⟩
    · exact hw.path x (by omega)

theorem path_same {H : Hist} {p c x : Nat} {l : List Nat} (hc : c ∉ H.map (·.2)) (h : Path H x l) (hl : c ∉ l) :
    Path (H ++ [(p, c)]) x l := by
  induction h with
  | root => exact Path.root
  | @step x l hx hp ih =>
    rw [List.mem_cons, not_or] at hl
    refine Path.step hx ?_
    rw [par_append hc, if_neg (by intro h; exact hl.1 h.symm)]
    exact ih hl.2

theorem path_through {H : Hist} {p c x : Nat} {l lp : List Nat} (hc : c ∉ H.map (·.2)) (h : Path H x l) (hl : c ∈ l)
    (hp : Path (H ++ [(p, c)]) p lp) : Path (H ++ [(p, c)]) x (l ++ lp) := by
  induction h with
  | root => simp at hl
  | @step x l hx hpx ih =>
    rw [List.cons_append]
    refine Path.step hx ?_
    rw [par_append hc]
    by_cases h : x = c
    · rw [if_pos h]
      subst h
      rw [par_none hc] at hpx
      cases hpx with
      | root => exact hp
      | step h _ => exact absurd rfl h
    · rw [if_neg h]
      exact ih (by rcases List.mem_cons.1 hl with h1 | h1; exact absurd h1.symm h; exact h1)

theorem hw_link {n : Nat} {H : Hist} {p c : Nat} (hw : HW n H) (hs : Sensible n H p c) : HW n (H ++ [(p, c)]) where
  pos := hw.pos
  nodup := by
    rw [List.map_append, List.nodup_append]
    refine ⟨hw.nodup, by simp, ?_⟩
    intro a ha b hb hab
    simp only [List.map_cons, List.map_nil, List.mem_singleton] at hb
    subst hb; subst hab; exact hs.fresh ha
  range q d h := by
    rcases List.mem_append.1 h with h1 | h1
    · exact hw.range q d h1
    · simp only [List.mem_singleton, Prod.mk.injEq] at h1
      rw [h1.1, h1.2]; exact ⟨hs.child.1, hs.child.2, hs.parent⟩
  path x hx := by
    obtain ⟨lp, hlp⟩ := hw.path p hs.parent
    have hcp : c ∉ lp := fun h => hs.acyclic ((anc_iff hw hlp hs.child.1).2 h)
    obtain ⟨l, hl⟩ := hw.path x hx
    by_cases h : c ∈ l
    · exact ⟨_, path_through hs.fresh hl h (path_same hs.fresh hlp hcp)⟩
    · exact ⟨_, path_same hs.fresh hl h⟩

theorem count_alloc (ops : List Op) : count (ops ++ [.alloc]) = count ops + 1 := by simp [count, List.filter_append]; omega
theorem count_link (ops : List Op) (p c : Nat) : count (ops ++ [.link p c]) = count ops := by simp [count, List.filter_append]
theorem links_append (a b : List Op) : links (a ++ b) = links a ++ links b := by
  induction a with
  | nil => rfl
  | cons o a ih => cases o <;> simp [links, ih]

theorem proper_hw {ops : List Op} (h : Proper ops) : HW (count ops) (links ops) := by
  induction h with
  | nil => exact hw_init
  | @alloc ops _ ih => rw [count_alloc, links_append]; simpa [links] using hw_alloc ih
  | @link ops p c _ hs _ ih => rw [count_link, links_append]; exact hw_link ih hs

/-! ### chains -/

theorem chain_congr {ra ra' : List Pd} {h : Nat} {l : List Nat} (hc : Chain ra h l)
    (heq : ∀ c ∈ l, (ra'[c]?).map Pd.next = (ra[c]?).map Pd.next) : Chain ra' h l := by
  induction l generalizing h with
  | nil => exact hc
  | cons c l ih =>
    obtain ⟨h1, h2, pd, h3, h4⟩ := hc
    have := heq c (by simp)
    rw [h3] at this
    cases h5 : ra'[c]? with
    | none => rw [h5] at this; simp at this
    | some pd' =>
      rw [h5] at this
      simp only [Option.map_some, Option.some.injEq] at this
      exact ⟨h1, h2, pd', h5, by rw [this]; exact ih h4 fun d hd => heq d (by simp [hd])⟩

theorem chain_unique {ra : List Pd} {h : Nat} {l l' : List Nat} (hc : Chain ra h l) (hc' : Chain ra h l') : l = l' := by
  induction l generalizing h l' with
  | nil =>
    cases l' with
    | nil => rfl
    | cons c l' => obtain ⟨h1, h2, _⟩ := hc'; exact absurd (h1.symm.trans hc) h2
  | cons c l ih =>
    obtain ⟨h1, h2, pd, h3, h4⟩ := hc
    cases l' with
    | nil => exact absurd (h1.symm.trans hc') h2
    | cons c' l' =>
      obtain ⟨g1, g2, pd', g3, g4⟩ := hc'
      have : c = c' := h1.symm.trans g1
      subst this
      rw [h3] at g3; cases g3
      rw [ih h4 g4]

/-- the last node of a chain ends it; linking it to a new last node extends the chain -/
theorem chain_snoc {ra ra' : List Pd} {h z c : Nat} {l : List Nat} {pz pc : Pd} (hc : Chain ra h (l ++ [z])) (hn : (l ++ [z]).Nodup)
    (heq : ∀ x ∈ l, (ra'[x]?).map Pd.next = (ra[x]?).map Pd.next) (hz : ra'[z]? = some pz) (hpz : pz.next = c)
    (hc0 : c ≠ 0) (hcc : ra'[c]? = some pc) (hpc : pc.next = 0) : Chain ra' h (l ++ [z] ++ [c]) := by
  induction l generalizing h with
  | nil =>
    obtain ⟨h1, h2, pd, h3, h4⟩ := hc
    exact ⟨h1, h2, pz, hz, hpz, hc0, pc, hcc, hpc⟩
  | cons x l ih =>
    obtain ⟨h1, h2, pd, h3, h4⟩ := hc
    have := heq x (by simp)
    rw [h3] at this
    cases h5 : ra'[x]? with
    | none => rw [h5] at this; simp at this
    | some pd' =>
      rw [h5] at this
      simp only [Option.map_some, Option.some.injEq] at this
      rw [List.cons_append, List.nodup_cons] at hn
      exact ⟨h1, h2, pd', h5, by rw [this]; exact ih h4 hn.2 fun d hd => heq d (by simp [hd])⟩

theorem chain_last {ra : List Pd} {h z : Nat} {l : List Nat} (hc : Chain ra h (l ++ [z])) : ∃ pd, ra[z]? = some pd ∧ pd.next = 0 := by
  induction l generalizing h with
  | nil => obtain ⟨_, _, pd, h3, h4⟩ := hc; exact ⟨pd, h3, h4⟩
  | cons x l ih => obtain ⟨_, _, pd, _, h4⟩ := hc; exact ih h4

theorem lastSibling_ok {ra : List Pd} {h z : Nat} {l : List Nat} (hc : Chain ra h (l ++ [z])) {fuel : Nat} (hf : l.length < fuel) :
    lastSibling fuel ra h = some z := by
  induction l generalizing h fuel with
  | nil =>
    obtain ⟨h1, h2, pd, h3, h4⟩ := hc
    cases fuel with
    | zero => simp at hf
    | succ fuel => subst h1; simp only [lastSibling, h3]; simp [show pd.next = 0 from h4]
  | cons x l ih =>
    obtain ⟨h1, h2, pd, h3, h4⟩ := hc
    cases fuel with
    | zero => simp at hf
    | succ fuel =>
      subst h1
      have h0 : pd.next ≠ 0 := by
        cases l with
        | nil => intro h0; exact absurd (h4.1.symm.trans h0) h4.2.1
        | cons y l => intro h0; exact absurd (h4.1.symm.trans h0) h4.2.1
      have : lastSibling fuel ra pd.next = some z := ih h4 (by simpa using hf)
      simp only [lastSibling, h3]; simp [h0, this]

/-! ### the invariant -/

structure Inv (s : Ptrs) (n : Nat) (H : Hist) : Prop where
  len : s.ra.length = n
  last : s.lastChild = lastAdded H
  node : ∀ x, x ≠ 0 → x < n → ∃ pd, s.ra[x]? = some pd ∧ pd.parent = par H x ∧ Chain s.ra pd.firstChild (children H x) ∧
    (par H x = 0 → pd.next = 0)

theorem climb_ok {s : Ptrs} {n : Nat} {H : Hist} (hw : HW n H) (hi : Inv s n H) (p : Nat) {x : Nat} {l : List Nat} (h : Path H x l)
    (hx : x < n) {fuel : Nat} (hf : l.length < fuel) :
    climb fuel s.ra p x = some ((l.find? fun a => par H a = p).getD 0) := by
  induction h generalizing fuel with
  | root =>
    cases fuel with
    | zero => simp at hf
    | succ fuel => simp [climb]
  | @step x l hx0 hp ih =>
    cases fuel with
    | zero => simp at hf
    | succ fuel =>
      obtain ⟨pd, h1, h2, _⟩ := hi.node x hx0 hx
      simp only [climb, if_neg hx0, h1]
      show (if pd.parent = p then _ else _) = _
      by_cases hpp : par H x = p
      · rw [if_pos (by rw [h2, hpp]), List.find?_cons_of_pos (by simpa using hpp)]; rfl
      · rw [if_neg (by rw [h2]; exact hpp), List.find?_cons_of_neg (by simpa using hpp), h2]
        refine ih ?_ (by simpa using hf)
        by_cases h0 : par H x = 0
        · have := hw.pos; omega
        · exact (hw.range _ _ (mem_of_par h0)).2.2

theorem upd_ok {ra : List Pd} {i : Nat} {pd : Pd} (f : Pd → Pd) (h : ra[i]? = some pd) : upd ra i f = some (ra.set i (f pd)) := by
  have := (List.getElem?_eq_some_iff.1 h).1
  show (ra[i]?).bind _ = _
  rw [h]
  show wr _ _ _ = _
  rw [wr, if_pos this]

theorem get_set {ra : List Pd} {i : Nat} {pd : Pd} (h : ra[i]? = some pd) (v : Pd) (j : Nat) :
    (ra.set i v)[j]? = if j = i then some v else ra[j]? := by
  have hl := (List.getElem?_eq_some_iff.1 h).1
  rw [List.getElem?_set]
  by_cases hj : j = i
  · subst hj; simp [hl]
  · simp [hj, Ne.symm hj]

theorem inv_init : Inv { ra := [{}] } 1 [] where
  len := rfl
  last := rfl
  node x h1 h2 := by omega

theorem inv_alloc {s : Ptrs} {n : Nat} {H : Hist} (hw : HW n H) (hi : Inv s n H) : Inv (addPtr s).1 (n + 1) H where
  len := by simp [addPtr, hi.len]
  last := hi.last
  node x h1 h2 := by
    by_cases h : x = n
    · have hch : children H x = [] := by
        rw [List.eq_nil_iff_forall_not_mem]
        intro c hc
        have := hw.range _ _ (mem_children.1 hc); omega
      have hp : par H x = 0 := by
        apply Classical.byContradiction; intro h1
        have := hw.range _ _ (mem_of_par h1); omega
      refine ⟨{}, by simp [addPtr, h, ← hi.len], hp.symm, ?_, fun _ => rfl⟩
      rw [hch]; rfl
    · obtain ⟨pd, g1, g2, g3, g4⟩ := hi.node x h1 (by omega)
      have hget : ∀ c, c < n → (s.ra ++ [({} : Pd)])[c]? = s.ra[c]? := by
        intro c hc
        rw [List.getElem?_append_left (by rw [hi.len]; exact hc)]
      refine ⟨pd, by rw [addPtr]; show (s.ra ++ [({} : Pd)])[x]? = _; rw [hget x (by omega), g1], g2, ?_, g4⟩
      refine chain_congr g3 fun c hc => ?_
      show ((s.ra ++ [({} : Pd)])[c]?).map Pd.next = _
      rw [hget c (hw.range _ _ (mem_children.1 hc)).2.1]

/-- the outcome of one addition when the last child was determined to be `lc` -/
theorem link_general {s : Ptrs} {n : Nat} {H : Hist} {p c : Nat} (hw : HW n H) (hi : Inv s n H) (hs : Sensible n H p c)
    (hal : Aligned H p) : ∃ s', addChild s p c = some s' ∧ Inv s' n (H ++ [(p, c)]) := by
  obtain ⟨pc, c1, c2, c3, c4⟩ := hi.node c hs.child.1 hs.child.2
  have hcp : par H c = 0 := par_none hs.fresh
  have c5 := c4 hcp
  have hne : c ≠ p := by
    intro h; apply hs.acyclic; rw [h]; exact Anc.self
  have hcch : ∀ x, c ∉ children H x := fun x hm => hs.fresh (List.mem_map.2 ⟨_, mem_children.1 hm, rfl⟩)
  by_cases hp0 : p = 0
  · -- a root
    refine ⟨{ ra := s.ra.set c { pc with parent := p }, lastChild := c }, ?_, ?_⟩
    · unfold addChild lastChildForParent
      simp only [hp0, if_pos]
      show (upd s.ra c _).bind _ = _
      rw [upd_ok _ c1]; rfl
    · refine ⟨by simp [hi.len], by rw [lastAdded_append], ?_⟩
      intro x h1 h2
      obtain ⟨pd, g1, g2, g3, g4⟩ := hi.node x h1 h2
      have hch : children (H ++ [(p, c)]) x = children H x := by rw [children_append, if_neg (by omega)]
      have hchain : Chain (s.ra.set c { pc with parent := p }) pd.firstChild (children H x) := by
        refine chain_congr g3 fun d hd => ?_
        rw [get_set c1]
        by_cases hdc : d = c
        · subst hdc; exact absurd hd (hcch x)
        · rw [if_neg hdc]
      rw [hch, par_append hs.fresh]
      show ∃ pd, (s.ra.set c { pc with parent := p })[x]? = some pd ∧ _
      rw [get_set c1]
      by_cases hxc : x = c
      · subst hxc
        rw [c1] at g1; cases g1
        rw [if_pos rfl, if_pos rfl]
        exact ⟨_, rfl, rfl, hchain, fun _ => c5⟩
      · exact ⟨pd, by rw [if_neg hxc]; exact g1, by rw [if_neg hxc]; exact g2, hchain, by rw [if_neg hxc]; exact g4⟩
  · obtain ⟨pp, p1, p2, p3, p4⟩ := hi.node p hp0 hs.parent
    have p1' : (s.ra.set c { pc with parent := p })[p]? = some pp := by
      rw [get_set c1, if_neg (Ne.symm hne)]; exact p1
    cases hch : children H p with
    | nil =>
      -- the first child
      rw [hch] at p3
      have hf : pp.firstChild = 0 := p3
      let ra' := (s.ra.set c { pc with parent := p }).set p { pp with firstChild := c }
      have hget : ∀ x, ra'[x]? = if x = p then some { pp with firstChild := c } else if x = c then some { pc with parent := p } else s.ra[x]? := by
        intro x; show ((s.ra.set c { pc with parent := p }).set p { pp with firstChild := c })[x]? = _
        rw [get_set p1', get_set c1]
      refine ⟨{ ra := ra', lastChild := c }, ?_, ?_⟩
      · unfold addChild lastChildForParent
        simp only [hp0, if_false, p1]
        show (if pp.firstChild = 0 then _ else _ : Option _).bind _ = _
        rw [if_pos hf]
        show (upd s.ra c _).bind _ = _
        rw [upd_ok _ c1]
        show ((s.ra.set c _)[p]?).bind _ = _
        rw [p1']
        show (if pp.firstChild = 0 then _ else _ : Option _) = _
        rw [if_pos hf]
        show (upd _ p _).bind _ = _
        rw [upd_ok _ p1']; rfl
      · refine ⟨by simp [ra', hi.len], by rw [lastAdded_append], ?_⟩
        intro x h1 h2
        obtain ⟨pd, g1, g2, g3, g4⟩ := hi.node x h1 h2
        have hkeep : ∀ h l, Chain s.ra h l → (∀ d ∈ l, d ≠ p → d ≠ c → True) → c ∉ l → Chain ra' h l := by
          intro h l hc _ hcl
          refine chain_congr hc fun d hd => ?_
          rw [hget]
          by_cases h1 : d = p
          · subst h1; rw [if_pos rfl, p1]; rfl
          · rw [if_neg h1, if_neg (by intro h; subst h; exact hcl hd)]
        have hchain : Chain ra' pd.firstChild (children H x) := hkeep _ _ g3 (fun _ _ _ _ => trivial) (hcch x)
        rw [children_append, par_append hs.fresh]
        show ∃ pd, ra'[x]? = some pd ∧ _
        rw [hget]
        by_cases hxp : x = p
        · subst hxp
          rw [p1] at g1; cases g1
          rw [if_pos rfl, if_neg (Ne.symm hne), if_pos rfl, hch]
          refine ⟨_, rfl, g2, ?_, g4⟩
          exact ⟨rfl, hs.child.1, { pc with parent := x }, by rw [hget, if_neg hne, if_pos rfl], c5⟩
        · rw [if_neg hxp, if_neg hxp]
          by_cases hxc : x = c
          · subst hxc
            rw [c1] at g1; cases g1
            rw [if_pos rfl, if_pos rfl]
            exact ⟨_, rfl, rfl, hchain, fun _ => c5⟩
          · exact ⟨pd, by rw [if_neg hxc]; exact g1, by rw [if_neg hxc]; exact g2, hchain, by rw [if_neg hxc]; exact g4⟩
    | cons k0 ks =>
      obtain ⟨l0, z, hlz⟩ : ∃ l0 z, children H p = l0 ++ [z] := by
        have : children H p ≠ [] := by rw [hch]; simp
        exact ⟨(children H p).dropLast, (children H p).getLast this, (List.dropLast_concat_getLast this).symm⟩
      have hzm : z ∈ children H p := by rw [hlz]; simp
      have hzpar : par H z = p := par_of_mem hw.nodup (mem_children.1 hzm)
      have hf : pp.firstChild ≠ 0 := by
        rw [hch] at p3
        obtain ⟨q1, q2, _⟩ := p3
        intro h; exact q2 (q1.symm.trans h)
      have hzr := hw.range _ _ (mem_children.1 hzm)
      obtain ⟨pz, z1, z2, z3, z4⟩ := hi.node z hzr.1 hzr.2.1
      have hzc : z ≠ c := by intro h; subst h; exact hcch p hzm
      have hlc : (do
          let lc ← climb (s.ra.length + 1) s.ra p s.lastChild
          let lc ← if lc = 0 then lastSibling (s.ra.length + 1) s.ra pp.firstChild else some lc
          some (({ s with lastChild := lc } : Ptrs), lc)) = some ({ s with lastChild := z }, z) := by
        have hlr : s.lastChild < n := by
          rw [hi.last]; unfold lastAdded
          cases hg : H.getLast? with
          | none => have := hw.pos; simpa using this
          | some e => exact (hw.range e.1 e.2 (List.mem_of_getLast? hg)).2.1
        obtain ⟨l, hl⟩ := hw.path _ hlr
        rw [climb_ok hw hi p hl hlr (by have := path_length hw hl hlr; rw [hi.len]; omega)]
        cases hfd : l.find? (fun a => par H a = p) with
        | none =>
          rw [hlz] at p3
          have hle : (children H p).length ≤ n := by
            have := (children_nodup hw.nodup p).length_le_of_subset (l₂ := List.range n)
              (fun a ha => List.mem_range.2 (hw.range _ _ (mem_children.1 ha)).2.1)
            simpa using this
          rw [hlz] at hle
          simp only [List.length_append, List.length_cons, List.length_nil] at hle
          have hls := lastSibling_ok p3 (fuel := s.ra.length + 1) (by rw [hi.len]; omega)
          simp [hls]
        | some a =>
          have ha1 := List.mem_of_find?_eq_some hfd
          have ha2 : par H a = p := by simpa using List.find?_some hfd
          have ha0 := path_ne_zero hl a ha1
          have ham : a ∈ children H p := mem_children.2 (by rw [← ha2]; exact mem_of_par (by rw [ha2]; exact hp0))
          have := hal hp0 a ham (by rw [← hi.last]; exact (anc_iff hw hl ha0).2 ha1)
          rw [hlz] at this
          have haz : a = z := by simpa using this.symm
          subst haz
          simp [ha0]
      have z1' : (s.ra.set c { pc with parent := p })[z]? = some pz := by
        rw [get_set c1, if_neg hzc]; exact z1
      let ra' := (s.ra.set c { pc with parent := p }).set z { pz with next := c }
      have hget : ∀ x, ra'[x]? = if x = z then some { pz with next := c } else if x = c then some { pc with parent := p } else s.ra[x]? := by
        intro x; show ((s.ra.set c { pc with parent := p }).set z { pz with next := c })[x]? = _
        rw [get_set z1', get_set c1]
      refine ⟨{ ra := ra', lastChild := c }, ?_, ?_⟩
      · unfold addChild lastChildForParent
        simp only [hp0, if_false, p1]
        show (if pp.firstChild = 0 then _ else _ : Option _).bind _ = _
        rw [if_neg hf]
        rw [hlc]
        show (upd s.ra c _).bind _ = _
        rw [upd_ok _ c1]
        show ((s.ra.set c _)[p]?).bind _ = _
        rw [p1']
        show (if pp.firstChild = 0 then _ else _ : Option _) = _
        rw [if_neg hf]
        show (if z ≠ 0 then _ else _ : Option _) = _
        rw [if_pos hzr.1]
        show (upd _ z _).bind _ = _
        rw [upd_ok _ z1']; rfl
      · refine ⟨by simp [ra', hi.len], by rw [lastAdded_append], ?_⟩
        intro x h1 h2
        obtain ⟨pd, g1, g2, g3, g4⟩ := hi.node x h1 h2
        have hkeep : x ≠ p → Chain ra' pd.firstChild (children H x) := by
          intro hxp
          refine chain_congr g3 fun d hd => ?_
          have hdz : d ≠ z := by
            intro h; subst h
            have := par_of_mem hw.nodup (mem_children.1 hd)
            exact hxp (this.symm.trans hzpar)
          rw [hget, if_neg hdz, if_neg (by intro h; subst h; exact hcch x hd)]
        rw [children_append, par_append hs.fresh]
        show ∃ pd, ra'[x]? = some pd ∧ _
        rw [hget]
        by_cases hxp : x = p
        · subst hxp
          rw [p1] at g1; cases g1
          have hchain : Chain ra' pp.firstChild (children H x ++ [c]) := by
            rw [hlz] at p3 ⊢
            have hnd := children_nodup hw.nodup x
            rw [hlz] at hnd
            refine chain_snoc (pz := { pz with next := c }) (pc := { pc with parent := x }) p3 hnd ?_ (by rw [hget, if_pos rfl]) rfl hs.child.1
              (by rw [hget, if_neg (Ne.symm hzc), if_pos rfl]) c5
            intro d hd
            have hdz : d ≠ z := by
              intro h; subst h
              rw [List.nodup_append] at hnd
              exact hnd.2.2 d hd d (by simp) rfl
            rw [hget, if_neg hdz, if_neg (by intro h; subst h; exact hcch x (by rw [hlz]; simp [hd]))]
          have hxz : x ≠ z := by
            intro h; subst h
            -- a node is not its own child
            obtain ⟨l, hl⟩ := hw.path x h2
            have := path_nodup hl
            cases hl with
            | root => exact h1 rfl
            | @step _ l _ hl2 =>
              rw [hzpar] at hl2
              have hl3 := path_unique hl2 (Path.step h1 (by rw [hzpar]; exact hl2))
              exact absurd (congrArg List.length hl3) (by simp)
          rw [if_neg hxz, if_neg (Ne.symm hne), if_pos rfl, if_neg (Ne.symm hne)]
          exact ⟨pp, p1, g2, hchain, g4⟩
        · rw [if_neg hxp]
          by_cases hxz : x = z
          · subst hxz
            rw [z1] at g1; cases g1
            rw [if_pos rfl, if_neg hzc]
            exact ⟨_, rfl, g2, hkeep hxp, by intro h; rw [hzpar] at h; exact absurd h hp0⟩
          · rw [if_neg hxz]
            by_cases hxc : x = c
            · subst hxc
              rw [c1] at g1; cases g1
              rw [if_pos rfl, if_pos rfl]
              exact ⟨_, rfl, rfl, hkeep hxp, fun _ => c5⟩
            · exact ⟨pd, by rw [if_neg hxc]; exact g1, by rw [if_neg hxc]; exact g2, hkeep hxp, by rw [if_neg hxc]; exact g4⟩

theorem run_append (a b : List Op) : run (a ++ b) = (run a).bind fun s =>
    b.foldlM (fun s o => match o with | .alloc => some (addPtr s).1 | .link p c => addChild s p c) s := by
  unfold run; rw [List.foldlM_append]; rfl

theorem proper_inv {ops : List Op} (h : Proper ops) : ∃ s, run ops = some s ∧ Inv s (count ops) (links ops) := by
  induction h with
  | nil => exact ⟨_, rfl, inv_init⟩
  | @alloc ops hp ih =>
    obtain ⟨s, h1, h2⟩ := ih
    refine ⟨(addPtr s).1, by rw [run_append, h1]; rfl, ?_⟩
    rw [count_alloc, links_append]
    simpa [links] using inv_alloc (proper_hw hp) h2
  | @link ops p c hp hs hal ih =>
    obtain ⟨s, h1, h2⟩ := ih
    obtain ⟨s', h3, h4⟩ := link_general (proper_hw hp) h2 hs hal
    refine ⟨s', by rw [run_append, h1]; show (addChild s p c).bind _ = _; rw [h3]; rfl, ?_⟩
    rw [count_link, links_append]; exact h4

theorem inv_lists {s : Ptrs} {n : Nat} {H : Hist} (hw : HW n H) (hi : Inv s n H) {p : Nat} (hp : p ≠ 0) (hn : p < n) :
    Lists s.ra p (children H p) := by
  obtain ⟨pd, h1, _, h3, _⟩ := hi.node p hp hn
  refine ⟨⟨pd, h1, h3⟩, fun c hc => ?_⟩
  have hr := hw.range _ _ (mem_children.1 hc)
  obtain ⟨pc, g1, g2, _⟩ := hi.node c hr.1 hr.2.1
  exact ⟨pc, g1, by rw [g2]; exact par_of_mem hw.nodup (mem_children.1 hc)⟩

/-! ### exactness -/

theorem chain_next {ra : List Pd} {h a b : Nat} {l1 l2 : List Nat} (hc : Chain ra h (l1 ++ a :: b :: l2)) :
    ∃ pd, ra[a]? = some pd ∧ pd.next = b := by
  induction l1 generalizing h with
  | nil => obtain ⟨_, _, pd, h3, h4⟩ := hc; exact ⟨pd, h3, h4.1⟩
  | cons x l1 ih => obtain ⟨_, _, pd, _, h4⟩ := hc; exact ih h4

/-- a path meets the children of a node at most once -/
theorem path_child_unique {H : Hist} {x p a b : Nat} {l lp : List Nat} (hl : Path H x l) (hlp : Path H p lp)
    (ha : a ∈ l) (hb : b ∈ l) (hpa : par H a = p) (hpb : par H b = p) : a = b := by
  obtain ⟨la, h1, h2⟩ := path_mem hl ha
  obtain ⟨lb, h3, h4⟩ := path_mem hl hb
  have e1 : la = lp := by
    cases h1 with
    | step _ h => rw [hpa] at h; exact path_unique h hlp
  have e2 : lb = lp := by
    cases h3 with
    | step _ h => rw [hpb] at h; exact path_unique h hlp
  subst e1; subst e2
  have := List.suffix_of_suffix_length_le h2 h4 (by simp)
  have := this.eq_of_length (by simp)
  exact (List.cons.inj this).1

/-- if the node added last is in another subtree of `p`, the addition goes wrong -/
theorem unaligned_wrong {s : Ptrs} {n : Nat} {H : Hist} {p c : Nat} (hw : HW n H) (hi : Inv s n H) (hs : Sensible n H p c)
    (hal : ¬ Aligned H p) : ∃ s', addChild s p c = some s' ∧ ¬ Lists s'.ra p (children H p ++ [c]) := by
  simp only [Aligned, Classical.not_imp, Classical.not_forall] at hal
  obtain ⟨hp0, a, ha, hanc, hlast⟩ := hal
  obtain ⟨pc, c1, c2, c3, c4⟩ := hi.node c hs.child.1 hs.child.2
  have hne : c ≠ p := by
    intro h; apply hs.acyclic; rw [h]; exact Anc.self
  obtain ⟨pp, p1, p2, p3, p4⟩ := hi.node p hp0 hs.parent
  have hcch : ∀ x, c ∉ children H x := fun x hm => hs.fresh (List.mem_map.2 ⟨_, mem_children.1 hm, rfl⟩)
  have p1' : (s.ra.set c { pc with parent := p })[p]? = some pp := by
    rw [get_set c1, if_neg (Ne.symm hne)]; exact p1
  have har := hw.range _ _ (mem_children.1 ha)
  have hapar := par_of_mem hw.nodup (mem_children.1 ha)
  obtain ⟨l1, l2, hsplit⟩ := List.append_of_mem ha
  have hl2 : l2 ≠ [] := by
    intro h; rw [h] at hsplit; rw [hsplit] at hlast; simp at hlast
  obtain ⟨b, l3, hb⟩ := List.exists_cons_of_ne_nil hl2
  rw [hb] at hsplit
  have hf : pp.firstChild ≠ 0 := by
    rw [hsplit] at p3
    intro h
    cases l1 with
    | nil => exact p3.2.1 (p3.1.symm.trans h)
    | cons y l1 => exact p3.2.1 (p3.1.symm.trans h)
  have hac : a ≠ c := by intro h; subst h; exact hcch p ha
  obtain ⟨pa, a1, a2, _⟩ := hi.node a har.1 har.2.1
  have hlr : s.lastChild < n := by
    rw [hi.last]; unfold lastAdded
    cases hg : H.getLast? with
    | none => have := hw.pos; simpa using this
    | some e => exact (hw.range e.1 e.2 (List.mem_of_getLast? hg)).2.1
  obtain ⟨l, hl⟩ := hw.path _ hlr
  obtain ⟨lp, hlp⟩ := hw.path _ hs.parent
  have hal : a ∈ l := (anc_iff hw hl har.1).1 (by rw [hi.last]; exact hanc)
  have hfd : l.find? (fun x => par H x = p) = some a := by
    cases hfd : l.find? (fun x => par H x = p) with
    | none =>
      have := List.find?_eq_none.1 hfd a hal
      exact absurd hapar (by simpa using this)
    | some x =>
      have h1 := List.mem_of_find?_eq_some hfd
      have h2 : par H x = p := by simpa using List.find?_some hfd
      rw [path_child_unique hl hlp h1 hal h2 hapar]
  have hlc : (do
      let lc ← climb (s.ra.length + 1) s.ra p s.lastChild
      let lc ← if lc = 0 then lastSibling (s.ra.length + 1) s.ra pp.firstChild else some lc
      some (({ s with lastChild := lc } : Ptrs), lc)) = some ({ s with lastChild := a }, a) := by
    rw [climb_ok hw hi p hl hlr (by have := path_length hw hl hlr; rw [hi.len]; omega), hfd]
    simp [har.1]
  have a1' : (s.ra.set c { pc with parent := p })[a]? = some pa := by
    rw [get_set c1, if_neg hac]; exact a1
  refine ⟨{ ra := (s.ra.set c { pc with parent := p }).set a { pa with next := c }, lastChild := c }, ?_, ?_⟩
  · unfold addChild lastChildForParent
    simp only [hp0, if_false, p1]
    show (if pp.firstChild = 0 then _ else _ : Option _).bind _ = _
    rw [if_neg hf]
    rw [hlc]
    show (upd s.ra c _).bind _ = _
    rw [upd_ok _ c1]
    show ((s.ra.set c _)[p]?).bind _ = _
    rw [p1']
    show (if pp.firstChild = 0 then _ else _ : Option _) = _
    rw [if_neg hf]
    show (if a ≠ 0 then _ else _ : Option _) = _
    rw [if_pos har.1]
    show (upd _ a _).bind _ = _
    rw [upd_ok _ a1']; rfl
  · rintro ⟨⟨pd, _, hch⟩, _⟩
    rw [hsplit] at hch
    rw [show l1 ++ a :: b :: l3 ++ [c] = l1 ++ a :: b :: (l3 ++ [c]) by simp] at hch
    obtain ⟨pd', g1, g2⟩ := chain_next hch
    simp only at g1
    rw [get_set a1', if_pos rfl] at g1
    cases g1
    exact hcch p (by rw [hsplit]; have hcb : c = b := g2; rw [hcb]; simp)

/-! ### the orders used by the loaders -/

theorem anc_strip {H : Hist} {p c b x : Nat} (h : Anc (H ++ [(p, c)]) b x) (hx : ¬ Anc H c x) : Anc H b x := by
  induction h with
  | self => exact Anc.self
  | @up q x hm _ ih =>
    rcases List.mem_append.1 hm with h1 | h1
    · exact Anc.up h1 (ih fun h => hx (Anc.up h1 h))
    · simp only [List.mem_singleton, Prod.mk.injEq] at h1
      rw [h1.2] at hx; exact absurd Anc.self hx

theorem anc_trans {H : Hist} {a b c : Nat} (h1 : Anc H a b) (h2 : Anc H b c) : Anc H a c := by
  induction h2 with
  | self => exact h1
  | up hm _ ih => exact Anc.up hm ih

theorem anc_range {n : Nat} {H : Hist} (hw : HW n H) {a x : Nat} (h : Anc H a x) : a = x ∨ a < n := by
  induction h with
  | self => exact Or.inl rfl
  | up hm _ ih =>
    rcases ih with rfl | h
    · exact Or.inr (hw.range _ _ hm).2.2
    · exact Or.inr h

theorem anc_root {H : Hist} {a x : Nat} (hx : x ∉ H.map (·.2)) (h : Anc H a x) : a = x := by
  cases h with
  | self => rfl
  | up hm _ => exact absurd (List.mem_map.2 ⟨_, hm, rfl⟩) hx

theorem not_anc_self_child {n : Nat} {H : Hist} (hw : HW n H) {p b : Nat} (hm : (p, b) ∈ H) : ¬ Anc H b p := by
  intro h
  have hr := hw.range _ _ hm
  obtain ⟨l, hl⟩ := hw.path p hr.2.2
  have hb := (anc_iff hw hl hr.1).1 h
  obtain ⟨l', h1, h2⟩ := path_mem hl hb
  cases h1 with
  | step _ h3 =>
    rw [par_of_mem hw.nodup hm] at h3
    rw [path_unique h3 hl] at h2
    have := h2.length_le
    simp only [List.length_cons] at this
    omega

/-- every node on the way from the last added node to its root is a last child -/
def Spine (H : Hist) : Prop := ∀ q b, (q, b) ∈ H → q ≠ 0 → Anc H b (lastAdded H) → (children H q).getLast? = some b

theorem spine_aligned {H : Hist} (h : Spine H) (p : Nat) : Aligned H p :=
  fun hp a ha hanc => h p a (mem_children.1 ha) hp hanc

theorem spine_step {n : Nat} {H : Hist} {p c : Nat} (hw : HW n H) (hs : Sensible n H p c) (h : Spine H)
    (hp : p = 0 ∨ Anc H p (lastAdded H)) : Spine (H ++ [(p, c)]) := by
  intro q b hm hq hanc
  rw [lastAdded_append] at hanc
  rw [children_append]
  cases hanc with
  | self =>
    have hqp : q = p := by
      have := par_of_mem (hw_link hw hs).nodup hm
      rw [par_append hs.fresh, if_pos rfl] at this
      exact this.symm
    subst hqp; simp
  | @up r _ hm2 hanc2 =>
    have hr : r = p := by
      have := par_of_mem (hw_link hw hs).nodup hm2
      rw [par_append hs.fresh, if_pos rfl] at this
      exact this.symm
    subst hr
    have hb := anc_strip hanc2 hs.acyclic
    have hbm : (q, b) ∈ H := by
      rcases List.mem_append.1 hm with h1 | h1
      · exact h1
      · simp only [List.mem_singleton, Prod.mk.injEq] at h1
        rw [h1.2] at hb; exact absurd hb hs.acyclic
    have hqr : q ≠ r := by
      intro h; subst h; exact not_anc_self_child hw hbm hb
    rw [if_neg hqr]
    rcases hp with h0 | h0
    · subst h0
      have hb0 := (hw.range _ _ hbm).1
      cases hb with
      | self => exact absurd rfl hb0
      | up hm3 _ => exact absurd rfl (hw.range _ _ hm3).1
    · exact h q b hbm hq (anc_trans hb h0)

theorem topDown_snoc (k : Nat) (ps : List Nat) (p : Nat) :
    topDown k (ps ++ [p]) = topDown k ps ++ [.alloc, .link p (k + ps.length)] := by
  induction ps generalizing k with
  | nil => simp [topDown]
  | cons q ps ih => simp only [List.cons_append, topDown, ih, List.length_cons]; rw [show k + 1 + ps.length = k + (ps.length + 1) by omega]

theorem count_topDown (ps : List Nat) (k : Nat) : count (topDown k ps) = 1 + ps.length := by
  induction ps generalizing k with
  | nil => rfl
  | cons p ps ih =>
    have := ih (k + 1)
    simp only [topDown, count] at *
    simp only [List.filter_cons, decide_true, if_true]
    simp
    omega

theorem links_topDown (ps : List Nat) (k : Nat) : links (topDown k ps) = ps.zip (List.range' k ps.length) := by
  induction ps generalizing k with
  | nil => rfl
  | cons p ps ih => simp [topDown, links, ih, List.range'_succ]

theorem lastAdded_topDown (ps : List Nat) : lastAdded (links (topDown 1 ps)) = ps.length := by
  rcases List.eq_nil_or_concat ps with rfl | ⟨ps, p, rfl⟩
  · rfl
  · rw [List.concat_eq_append, topDown_snoc, links_append]
    have : links [Op.alloc, Op.link p (1 + ps.length)] = [(p, 1 + ps.length)] := rfl
    rw [this, lastAdded_append]; simp; omega

theorem proper_topDown (ps : List Nat) (h : DocumentOrder ps) : Proper (topDown 1 ps) ∧ Spine (links (topDown 1 ps)) := by
  generalize hm : ps.length = m
  induction m generalizing ps with
  | zero =>
    have : ps = [] := List.length_eq_zero_iff.1 hm
    subst this
    exact ⟨Proper.nil, by intro q b h; simp [topDown, links] at h⟩
  | succ m ih =>
    obtain ⟨qs, p, rfl⟩ : ∃ qs p, ps = qs ++ [p] := by
      rcases List.eq_nil_or_concat ps with rfl | ⟨qs, p, rfl⟩
      · simp at hm
      · exact ⟨qs, p, by simp⟩
    have hm' : qs.length = m := by simpa using hm
    have hd : DocumentOrder qs := by
      intro k hk
      have := h k (by simp; omega)
      rw [List.getElem?_append_left hk, List.take_append_of_le_length (by omega)] at this
      exact this
    obtain ⟨h1, h2⟩ := ih qs hd hm'
    have hw := proper_hw h1
    have h3 := Proper.alloc h1
    have hw3 := proper_hw h3
    have hlk : links (topDown 1 qs ++ [.alloc]) = links (topDown 1 qs) := by rw [links_append]; simp [links]
    have hct : count (topDown 1 qs ++ [.alloc]) = m + 2 := by rw [count_alloc, count_topDown]; omega
    have hcn : count (topDown 1 qs) = m + 1 := by rw [count_topDown]; omega
    have hp : p = 0 ∨ (m ≠ 0 ∧ Anc (links (topDown 1 qs)) p (lastAdded (links (topDown 1 qs)))) := by
      have := h m (by simp; omega)
      rw [show (qs ++ [p])[m]? = some p by rw [← hm']; simp, show (qs ++ [p]).take m = qs by rw [← hm']; simp] at this
      rw [lastAdded_topDown, links_topDown, hm']
      exact this
    have hpm : p ≤ m := by
      rcases hp with h0 | ⟨h0, h0'⟩
      · omega
      · rw [lastAdded_topDown] at h0'
        rcases anc_range hw h0' with h | h
        · omega
        · omega
    have hs : Sensible (count (topDown 1 qs ++ [.alloc])) (links (topDown 1 qs ++ [.alloc])) p (1 + qs.length) := by
      rw [hlk, hct]
      refine ⟨⟨by omega, by omega⟩, by omega, ?_, ?_⟩
      · intro hmem
        obtain ⟨⟨q, d⟩, e1, e2⟩ := List.mem_map.1 hmem
        have := (hw.range q d e1).2.1
        simp only at e2
        omega
      · intro hA
        rcases anc_range hw hA with h | h <;> omega
    rw [topDown_snoc, show [Op.alloc, Op.link p (1 + qs.length)] = [Op.alloc] ++ [Op.link p (1 + qs.length)] from rfl, ← List.append_assoc]
    refine ⟨Proper.link h3 hs (by rw [hlk]; exact spine_aligned h2 p), ?_⟩
    rw [links_append]
    exact spine_step hw3 hs (by rw [hlk]; exact h2) (by rw [hlk]; rcases hp with h | h; exact Or.inl h; exact Or.inr h.2)

theorem bottomUp_links (e : Elems) : ∀ idx n, n ≤ (bottomUp idx n e).2 ∧
    ∀ p c, (p, c) ∈ links (bottomUp idx n e).1 → n ≤ c ∧ (p = idx ∨ n ≤ p) := by
  induction e with
  | nil => intro idx n; simp [bottomUp, links]
  | cons kids next ih1 ih2 =>
    intro idx n
    obtain ⟨a1, a2⟩ := ih1 n (n + 1)
    obtain ⟨b1, b2⟩ := ih2 idx (bottomUp n (n + 1) kids).2
    simp only [bottomUp]
    refine ⟨by omega, ?_⟩
    intro p c hm
    rw [show (Op.alloc :: (bottomUp n (n + 1) kids).1 ++ [Op.link idx n] ++ (bottomUp idx (bottomUp n (n + 1) kids).2 next).1) =
      [Op.alloc] ++ (bottomUp n (n + 1) kids).1 ++ [Op.link idx n] ++ (bottomUp idx (bottomUp n (n + 1) kids).2 next).1 by simp] at hm
    simp only [links_append, List.mem_append, links, List.mem_singleton, Prod.mk.injEq] at hm
    rcases hm with ((hm | hm) | hm) | hm
    · simp at hm
    · have := a2 p c hm; omega
    · omega
    · have := b2 p c hm; omega

theorem proper_bottomUp (e : Elems) : ∀ (ops : List Op) (idx : Nat), Proper ops → idx ≠ 0 → idx < count ops →
    idx ∉ (links ops).map (·.2) →
    (children (links ops) idx = [] ∨ (children (links ops) idx).getLast? = some (lastAdded (links ops))) →
    Proper (ops ++ (bottomUp idx (count ops) e).1) ∧ count (ops ++ (bottomUp idx (count ops) e).1) = (bottomUp idx (count ops) e).2 ∧
    (children (links (ops ++ (bottomUp idx (count ops) e).1)) idx = [] ∨
      (children (links (ops ++ (bottomUp idx (count ops) e).1)) idx).getLast? = some (lastAdded (links (ops ++ (bottomUp idx (count ops) e).1)))) := by
  induction e with
  | nil => intro ops idx h1 _ _ _ h5; simpa [bottomUp] using ⟨h1, h5⟩
  | cons kids next ih1 ih2 =>
    intro ops idx h1 h2 h3 h4 h5
    have hw := proper_hw h1
    have hlk : links (ops ++ [.alloc]) = links ops := by rw [links_append]; simp [links]
    have hn : count ops ∉ (links (ops ++ [.alloc])).map (·.2) := by
      rw [hlk]; intro hm
      obtain ⟨⟨q, d⟩, e1, e2⟩ := List.mem_map.1 hm
      have := (hw.range q d e1).2.1
      simp only at e2; omega
    have hcn : children (links (ops ++ [.alloc])) (count ops) = [] := by
      rw [List.eq_nil_iff_forall_not_mem]
      intro c hc
      rw [hlk] at hc
      have := hw.range _ _ (mem_children.1 hc); omega
    have hpos := hw.pos
    obtain ⟨k1, k2, k3⟩ := ih1 (ops ++ [.alloc]) (count ops) (Proper.alloc h1) (by omega) (by rw [count_alloc]; omega) hn (Or.inl hcn)
    rw [count_alloc] at k1 k2 k3
    generalize ho1 : bottomUp (count ops) (count ops + 1) kids = b1 at k1 k2 k3
    have hfr := (bottomUp_links kids (count ops) (count ops + 1)).2
    rw [ho1] at hfr
    have hlk2 : links (ops ++ [.alloc] ++ b1.1) = links ops ++ links b1.1 := by rw [links_append, hlk]
    have hmap : ∀ x, x ≤ count ops → x ∉ (links ops).map (·.2) → x ∉ (links (ops ++ [.alloc] ++ b1.1)).map (·.2) := by
      intro x hx hx2 hm
      rw [hlk2, List.map_append] at hm
      rcases List.mem_append.1 hm with hm | hm
      · exact hx2 hm
      · obtain ⟨⟨q, d⟩, e1, e2⟩ := List.mem_map.1 hm
        have := (hfr q d e1).1
        simp only at e2; omega
    have hfresh : count ops ∉ (links (ops ++ [.alloc] ++ b1.1)).map (·.2) := hmap _ (Nat.le_refl _) (by rw [hlk] at hn; exact hn)
    have hidx : idx ∉ (links (ops ++ [.alloc] ++ b1.1)).map (·.2) := hmap _ (by omega) h4
    have hw2 := proper_hw k1
    have hchi : children (links (ops ++ [.alloc] ++ b1.1)) idx = children (links ops) idx := by
      rw [hlk2, children, List.filter_append, List.map_append]
      have : (links b1.1).filter (·.1 = idx) = [] := by
        rw [List.filter_eq_nil_iff]
        rintro ⟨q, d⟩ e1
        have := (hfr q d e1).2
        simp only [decide_eq_true_eq]; omega
      rw [this]; simp [children]
    have hs : Sensible (count (ops ++ [.alloc] ++ b1.1)) (links (ops ++ [.alloc] ++ b1.1)) idx (count ops) := by
      have hb2 := (bottomUp_links kids (count ops) (count ops + 1)).1
      rw [ho1] at hb2
      refine ⟨⟨by omega, by omega⟩, by omega, hfresh, ?_⟩
      intro hA
      have := anc_root hidx hA; omega
    have hal : Aligned (links (ops ++ [.alloc] ++ b1.1)) idx := by
      intro _ a ha hA
      cases kids with
      | nil =>
        simp only [bottomUp] at ho1
        subst ho1
        simp only [List.append_nil, hlk] at *
        rcases h5 with h5 | h5
        · rw [h5] at ha; simp at ha
        · rw [h5]
          cases hA with
          | self => rfl
          | @up q _ hm hA2 =>
            have hq : q = idx := (par_of_mem hw.nodup hm).symm.trans
              (par_of_mem hw.nodup (mem_children.1 (List.mem_of_getLast? h5)))
            subst hq
            have := anc_root h4 hA2
            subst this
            exact absurd (List.mem_map.2 ⟨_, mem_children.1 ha, rfl⟩) h4
      | cons a' b' =>
        rcases k3 with k3 | k3
        · -- the new node has children
          exfalso
          have : (count ops, count ops + 1) ∈ links (ops ++ [.alloc] ++ b1.1) := by
            rw [hlk2, ← ho1]
            simp only [bottomUp]
            rw [List.mem_append]; right
            rw [show ∀ (x y : List Op), (Op.alloc :: x ++ [Op.link (count ops) (count ops + 1)] ++ y) =
              (Op.alloc :: x) ++ [Op.link (count ops) (count ops + 1)] ++ y from fun _ _ => rfl]
            rw [links_append, links_append]
            simp [links]
          have := mem_children.2 this
          rw [k3] at this; simp at this
        · have hlm := mem_children.1 (List.mem_of_getLast? k3)
          exfalso
          generalize links (ops ++ [.alloc] ++ b1.1) = H at *
          cases hA with
          | self =>
            have := (par_of_mem hw2.nodup hlm).symm.trans (par_of_mem hw2.nodup (mem_children.1 ha))
            omega
          | @up q _ hm hA2 =>
            have hq : q = count ops := (par_of_mem hw2.nodup hm).symm.trans (par_of_mem hw2.nodup hlm)
            subst hq
            have := anc_root hfresh hA2
            subst this
            exact hfresh (List.mem_map.2 ⟨_, mem_children.1 ha, rfl⟩)
    have hp3 := Proper.link k1 hs hal
    have hl3 : links (ops ++ [.alloc] ++ b1.1 ++ [.link idx (count ops)]) = links (ops ++ [.alloc] ++ b1.1) ++ [(idx, count ops)] := by
      rw [links_append]; rfl
    have := ih2 (ops ++ [.alloc] ++ b1.1 ++ [.link idx (count ops)]) idx hp3 h2
      (by rw [count_link]; have := (bottomUp_links kids (count ops) (count ops + 1)).1; rw [ho1] at this; omega)
      (by
        rw [hl3, List.map_append, List.mem_append, not_or]
        refine ⟨hidx, ?_⟩
        simp only [List.map_cons, List.map_nil, List.mem_singleton]; omega)
      (by
        right
        rw [hl3, lastAdded_append, children_append, if_pos rfl]; simp)
    rw [count_link, k2] at this
    simp only [bottomUp, ho1]
    rw [show ops ++ (Op.alloc :: b1.1 ++ [Op.link idx (count ops)] ++ (bottomUp idx b1.2 next).1) =
      ops ++ [.alloc] ++ b1.1 ++ [.link idx (count ops)] ++ (bottomUp idx b1.2 next).1 by simp]
    exact this

end Verif.Lemmas.Ptrs
