import Verif.Lemmas.YamlMissed
/-!
# The reader of YAML documents and any list of events
-/
namespace Verif.Lemmas.YamlSafe
open Verif.Model Verif.Model.Ptrs Verif.Model.Yaml Verif.Lemmas.TopDown Verif.Lemmas.YamlMissed
open Verif.Model.Scm (isRef)

/-- the node is not a reference -/
def Plain (ra : List Pd) (i : Nat) : Prop := ∀ pd, ra[i]? = some pd → isRef pd = false

/-- links lead to nodes: parents are older and are not references, siblings are younger -/
structure Links (ra : List Pd) : Prop where
  pos : 0 < ra.length
  zero : ∀ pd, ra[0]? = some pd → pd.parent = 0
  parent : ∀ (i : Nat) (pd : Pd), i ≠ 0 → ra[i]? = some pd → pd.parent < i
  plain : ∀ (i : Nat) (pd : Pd), ra[i]? = some pd → Plain ra pd.parent
  next : ∀ (i : Nat) (pd : Pd), ra[i]? = some pd → pd.next = 0 ∨ (i < pd.next ∧ pd.next < ra.length)
  first : ∀ (i : Nat) (pd : Pd), ra[i]? = some pd → isRef pd = false → pd.firstChild < ra.length

theorem climb_safe {ra ra' : List Pd} (h : Links ra) (hs : ∀ i < ra.length, ra'[i]? = ra[i]?) (p : Nat) :
    ∀ (fuel lc : Nat), lc < fuel → lc < ra.length → ∃ z, climb fuel ra' p lc = some z ∧ z < ra.length
  | 0, lc, hf, _ => by omega
  | fuel + 1, lc, hf, hl => by
    unfold climb
    by_cases h0 : lc = 0
    · rw [if_pos h0]
      exact ⟨0, rfl, h.pos⟩
    · rw [if_neg h0]
      obtain ⟨pd, hpd⟩ : ∃ pd, ra[lc]? = some pd := ⟨_, List.getElem?_eq_getElem hl⟩
      rw [hs lc hl, hpd]
      simp only [Option.bind_eq_bind, Option.bind_some]
      by_cases he : pd.parent = p
      · rw [if_pos he]; exact ⟨lc, rfl, hl⟩
      · rw [if_neg he]
        have := h.parent lc pd h0 hpd
        exact climb_safe h hs p fuel pd.parent (by omega) (by omega)

theorem sibling_safe {ra ra' : List Pd} (h : Links ra) (hs : ∀ i < ra.length, ra'[i]? = ra[i]?) :
    ∀ (fuel lc : Nat), ra.length - lc < fuel → lc < ra.length → ∃ z, lastSibling fuel ra' lc = some z ∧ z < ra.length
  | 0, lc, hf, _ => by omega
  | fuel + 1, lc, hf, hl => by
    unfold lastSibling
    obtain ⟨pd, hpd⟩ : ∃ pd, ra[lc]? = some pd := ⟨_, List.getElem?_eq_getElem hl⟩
    rw [hs lc hl, hpd]
    simp only [Option.bind_eq_bind, Option.bind_some]
    by_cases he : pd.next = 0
    · rw [if_pos he]; exact ⟨lc, rfl, hl⟩
    · rw [if_neg he]
      have := (h.next lc pd hpd).resolve_left he
      exact sibling_safe h hs fuel pd.next (by omega) this.2

theorem last_safe {ra ra' : List Pd} {l : Nat} (h : Links ra) (hs : ∀ i < ra.length, ra'[i]? = ra[i]?) (hle : ra.length ≤ ra'.length) (hlc : l < ra.length)
    {p : Nat} (hp : p < ra.length) (hpl : Plain ra p) :
    ∃ s' lc, lastChildForParent { ra := ra', lastChild := l } p = some (s', lc) ∧ s'.ra = ra' ∧ lc < ra.length := by
  unfold lastChildForParent
  by_cases h0 : p = 0
  · rw [if_pos h0]; exact ⟨_, 0, rfl, rfl, h.pos⟩
  · rw [if_neg h0]
    obtain ⟨pp, hpp⟩ : ∃ pp, ra[p]? = some pp := ⟨_, List.getElem?_eq_getElem hp⟩
    simp only [hs p hp, hpp, Option.bind_eq_bind, Option.bind_some]
    by_cases hf : pp.firstChild = 0
    · rw [if_pos hf]; exact ⟨_, 0, rfl, rfl, h.pos⟩
    · rw [if_neg hf]
      obtain ⟨z, hz, hzl⟩ := climb_safe h hs p (ra'.length + 1) l (by omega) hlc
      rw [hz]
      simp only [Option.bind_some]
      by_cases hz0 : z = 0
      · rw [if_pos hz0]
        obtain ⟨y, hy, hyl⟩ := sibling_safe h hs (ra'.length + 1) pp.firstChild (by omega) (h.first p pp hpp (hpl pp hpp))
        rw [hy]
        exact ⟨_, y, rfl, rfl, hyl⟩
      · rw [if_neg hz0]
        exact ⟨_, z, rfl, rfl, hzl⟩

/-- what a new node adds: nothing else changes but `firstChild` of the parent and `next` of a node -/
theorem links_modify {ra : List Pd} {i : Nat} {f : Pd → Pd} (h : Links ra)
    (hf : ∀ pd, ra[i]? = some pd → (f pd).parent = pd.parent ∧ isRef (f pd) = isRef pd ∧
      ((f pd).next = 0 ∨ (i < (f pd).next ∧ (f pd).next < ra.length)) ∧ (isRef pd = false → (f pd).firstChild < ra.length)) :
    Links (ra.modify i f) := by
  have hget : ∀ (j : Nat) (q : Pd), (ra.modify i f)[j]? = some q → ∃ pd, ra[j]? = some pd ∧ q.parent = pd.parent ∧ isRef q = isRef pd ∧
      (q.next = 0 ∨ (j < q.next ∧ q.next < ra.length)) ∧ (isRef pd = false → q.firstChild < ra.length) := by
    intro j q hq
    by_cases e : i = j
    · subst e
      rw [List.getElem?_modify_eq] at hq
      cases hpd : ra[i]? with
      | none => rw [hpd] at hq; cases hq
      | some pd =>
        rw [hpd] at hq; cases hq
        exact ⟨pd, rfl, hf pd hpd⟩
    · rw [List.getElem?_modify_ne _ _ e] at hq
      exact ⟨q, hq, rfl, rfl, h.next j q hq, h.first j q hq⟩
  refine ⟨by simpa using h.pos, fun q hq => ?_, fun j q hj hq => ?_, fun j q hq r hr => ?_, fun j q hq => ?_, fun j q hq hr => ?_⟩
  · obtain ⟨pd, h1, h2, _⟩ := hget 0 q hq
    rw [h2]; exact h.zero pd h1
  · obtain ⟨pd, h1, h2, _⟩ := hget j q hq
    rw [h2]; exact h.parent j pd hj h1
  · obtain ⟨pd, h1, h2, _⟩ := hget j q hq
    rw [h2] at hr
    obtain ⟨pr, k1, _, k3, _⟩ := hget _ r hr
    rw [k3]
    exact h.plain j pd h1 pr k1
  · obtain ⟨pd, _, _, _, h4, _⟩ := hget j q hq
    simpa using h4
  · obtain ⟨pd, _, _, h3, _, h5⟩ := hget j q hq
    rw [h3] at hr
    simpa using h5 hr

/-- a node is added, not yet as a child -/
theorem links_append {ra : List Pd} (h : Links ra) {p : Nat} (hp : p < ra.length) (hpl : Plain ra p) : Links (ra ++ [({ parent := p } : Pd)]) := by
  have hget : ∀ (j : Nat) (q : Pd), (ra ++ [({ parent := p } : Pd)])[j]? = some q → ra[j]? = some q ∨ (j = ra.length ∧ q = { parent := p }) := by
    intro j q hq
    rw [List.getElem?_append] at hq
    by_cases hj : j < ra.length
    · rw [if_pos hj] at hq; exact .inl hq
    · rw [if_neg hj] at hq
      have : j - ra.length = 0 := by
        cases hh : j - ra.length with
        | zero => rfl
        | succ m => rw [hh] at hq; simp at hq
      rw [this] at hq
      simp only [List.getElem?_cons_zero, Option.some.injEq] at hq
      exact .inr ⟨by omega, hq.symm⟩
  have hpl' : ∀ i, Plain ra i → Plain (ra ++ [({ parent := p } : Pd)]) i := by
    intro i hi q hq
    rcases hget i q hq with k | ⟨_, k⟩
    · exact hi q k
    · rw [k]; rfl
  refine ⟨by simp, fun q hq => ?_, fun j q hj hq => ?_, fun j q hq => ?_, fun j q hq => ?_, fun j q hq hr => ?_⟩
  · rcases hget 0 q hq with k | ⟨k, _⟩
    · exact h.zero q k
    · have := h.pos; omega
  · rcases hget j q hq with k | ⟨k, k'⟩
    · exact h.parent j q hj k
    · rw [k', k]; exact hp
  · rcases hget j q hq with k | ⟨_, k'⟩
    · exact hpl' _ (h.plain j q k)
    · rw [k']; exact hpl' _ hpl
  · rcases hget j q hq with k | ⟨_, k'⟩
    · rcases h.next j q k with k2 | k2
      · exact .inl k2
      · exact .inr ⟨k2.1, by simp; omega⟩
    · rw [k']; exact .inl rfl
  · rcases hget j q hq with k | ⟨_, k'⟩
    · have := h.first j q k hr
      simp; omega
    · rw [k']; simp

/-- the bounds of public indices -/
def Small (ra : List Pd) : Prop := ∀ pd ∈ ra, pd.idx < 2 ^ 31

theorem upd_some {ra : List Pd} {i : Nat} (h : i < ra.length) (f : Pd → Pd) : upd ra i f = some (ra.modify i f) := upd_eq f h

theorem small_modify {ra : List Pd} (h : Small ra) {i : Nat} {f : Pd → Pd} (hf : ∀ pd, ra[i]? = some pd → (f pd).idx < 2 ^ 31) : Small (ra.modify i f) := by
  intro q hq
  obtain ⟨j, hj⟩ := List.mem_iff_getElem?.1 hq
  by_cases e : i = j
  · subst e
    rw [List.getElem?_modify_eq] at hj
    cases hpd : ra[i]? with
    | none => rw [hpd] at hj; cases hj
    | some pd =>
      rw [hpd] at hj; cases hj
      exact hf pd hpd
  · rw [List.getElem?_modify_ne _ _ e] at hj
    exact h q (List.mem_of_getElem? hj)

theorem plain_modify {ra : List Pd} {i j : Nat} {f : Pd → Pd} (h : Plain ra j) (hf : ∀ pd, ra[i]? = some pd → isRef (f pd) = isRef pd) : Plain (ra.modify i f) j := by
  intro q hq
  by_cases e : i = j
  · subst e
    rw [List.getElem?_modify_eq] at hq
    cases hpd : ra[i]? with
    | none => rw [hpd] at hq; cases hq
    | some pd =>
      rw [hpd] at hq; cases hq
      rw [hf pd hpd]; exact h pd hpd
  · rw [List.getElem?_modify_ne _ _ e] at hq
    exact h q hq

theorem plain_append {ra : List Pd} {i p : Nat} (h : Plain ra i) : Plain (ra ++ [({ parent := p } : Pd)]) i := by
  intro q hq
  rw [List.getElem?_append] at hq
  by_cases hi : i < ra.length
  · rw [if_pos hi] at hq; exact h q hq
  · rw [if_neg hi] at hq
    have := List.mem_of_getElem? hq
    rw [List.mem_singleton] at this
    rw [this]; rfl

/-- `mr_add_child` for a new node -/
theorem child_safe {s : Ptrs} (h : Links s.ra) (hs : Small s.ra) (hlc : s.lastChild < s.ra.length) {p : Nat} (hp : p < s.ra.length) (hpl : Plain s.ra p) :
    ∃ s', addChild { s with ra := s.ra ++ [{}] } p s.ra.length = some s' ∧ Links s'.ra ∧ Small s'.ra ∧ s'.ra.length = s.ra.length + 1 ∧ s'.lastChild = s.ra.length ∧
      s'.ra[s.ra.length]? = some { parent := p } ∧ ∀ i, Plain s.ra i → Plain s'.ra i := by
  obtain ⟨s1, lc, h1, h2, h3⟩ := last_safe (ra' := s.ra ++ [{}]) (l := s.lastChild) h (fun i hi => List.getElem?_append_left hi) (by simp) hlc hp hpl
  have hL := links_append h hp hpl
  have hS : Small (s.ra ++ [({ parent := p } : Pd)]) := by
    intro q hq
    rcases List.mem_append.1 hq with k | k
    · exact hs q k
    · rw [List.mem_singleton.1 k]; show 0 < 2 ^ 31; decide
  have hg : (s.ra ++ [({ parent := p } : Pd)])[s.ra.length]? = some { parent := p } := by simp
  have hmod : (s.ra ++ [({} : Pd)]).modify s.ra.length (fun pd => { pd with parent := p }) = s.ra ++ [({ parent := p } : Pd)] := by
    apply List.ext_getElem?
    intro j
    by_cases e : s.ra.length = j
    · subst e
      rw [List.getElem?_modify_eq]
      simp
    · rw [List.getElem?_modify_ne _ _ e, List.getElem?_append, List.getElem?_append]
      by_cases hj : j < s.ra.length
      · rw [if_pos hj, if_pos hj]
      · rw [if_neg hj, if_neg hj, List.getElem?_eq_none (by simp; omega), List.getElem?_eq_none (by simp; omega)]
  unfold addChild
  simp only [h1, Option.bind_eq_bind, Option.bind_some, h2]
  rw [upd_some (by simp), hmod]
  simp only [Option.bind_some]
  by_cases hp0 : p = 0
  · rw [if_pos hp0]
    exact ⟨_, rfl, hL, hS, by simp, rfl, hg, fun i hi => plain_append hi⟩
  · rw [if_neg hp0]
    obtain ⟨pp, hpp⟩ : ∃ pp, s.ra[p]? = some pp := ⟨_, List.getElem?_eq_getElem hp⟩
    have hpp' : (s.ra ++ [({ parent := p } : Pd)])[p]? = some pp := by rw [List.getElem?_append_left hp]; exact hpp
    rw [hpp']
    simp only [Option.bind_some]
    by_cases hf : pp.firstChild = 0
    · rw [if_pos hf, upd_some (by simp; omega)]
      refine ⟨_, rfl, links_modify hL fun pd hpd => ⟨rfl, rfl, hL.next p pd hpd, fun _ => by simp⟩, small_modify hS fun pd hpd => hS pd (List.mem_of_getElem? hpd), by simp, rfl, ?_,
        fun i hi => plain_modify (plain_append hi) fun _ _ => rfl⟩
      rw [List.getElem?_modify_ne _ _ (by omega)]
      exact hg
    · rw [if_neg hf]
      by_cases hl : lc ≠ 0
      · rw [if_pos hl, upd_some (by simp; omega)]
        refine ⟨_, rfl, links_modify hL fun pd hpd => ⟨rfl, rfl, .inr ⟨h3, by simp⟩, fun hr => hL.first lc pd hpd hr⟩, small_modify hS fun pd hpd => hS pd (List.mem_of_getElem? hpd), by simp, rfl, ?_,
          fun i hi => plain_modify (plain_append hi) fun _ _ => rfl⟩
        rw [List.getElem?_modify_ne _ _ (by omega)]
        exact hg
      · rw [if_neg hl]
        exact ⟨_, rfl, hL, hS, by simp, rfl, hg, fun i hi => plain_append hi⟩

/-! ### the reader -/

structure Inv (s : St) : Prop where
  links : Links s.ptrs.ra
  small : Small s.ptrs.ra
  data : s.data.length = s.ptrs.ra.length
  last : s.ptrs.lastChild < s.ptrs.ra.length
  parent : s.parent < s.ptrs.ra.length
  plain : Plain s.ptrs.ra s.parent

/-- the attributes of a node change neither its parent nor its siblings -/
theorem attrs_same (an al : Option (List Nat)) (pd : Pd) : (attrs an al pd).parent = pd.parent ∧ (attrs an al pd).next = pd.next := by
  have h1 : ∀ a pd, (aliasPd a pd).parent = pd.parent ∧ (aliasPd a pd).next = pd.next := by
    intro a pd
    unfold aliasPd
    split
    · exact ⟨rfl, rfl⟩
    · split <;> exact ⟨rfl, rfl⟩
  have h2 : ∀ a pd, (anchorPd a pd).parent = pd.parent ∧ (anchorPd a pd).next = pd.next := by
    intro a pd
    unfold anchorPd
    split <;> exact ⟨rfl, rfl⟩
  unfold attrs
  cases an <;> cases al <;> simp [h1, h2]

theorem alias_same (a : List Nat) (pd : Pd) : (aliasPd a pd).idx = pd.idx ∧ (isRef (aliasPd a pd) = false → aliasPd a pd = pd) := by
  unfold aliasPd
  split
  · exact ⟨rfl, fun h => by simp [isRef] at h⟩
  · split
    · exact ⟨rfl, fun h => by simp [isRef] at h⟩
    · exact ⟨rfl, fun _ => rfl⟩

theorem anchor_same (a : List Nat) (pd : Pd) : isRef (anchorPd a pd) = isRef pd ∧ (anchorPd a pd).firstChild = pd.firstChild := by
  unfold anchorPd
  split <;> exact ⟨rfl, rfl⟩

/-- the index of an anchor is less than 2³¹ -/
def SmallAnchor (an : Option (List Nat)) : Prop := ∀ a n, an = some a → scanTemplate (Xml1.sIdx ++ [95]) a = some n → n < 2 ^ 31

def onAlias (al : Option (List Nat)) (pd : Pd) : Pd := match al with | some a => aliasPd a pd | none => pd
def onAnchor (an : Option (List Nat)) (pd : Pd) : Pd := match an with | some a => anchorPd a pd | none => pd
theorem attrs_eq (an al : Option (List Nat)) (pd : Pd) : attrs an al pd = onAnchor an (onAlias al pd) := rfl

theorem attrs_idx {an : Option (List Nat)} (h : SmallAnchor an) (al : Option (List Nat)) (pd : Pd) (hp : pd.idx < 2 ^ 31) : (attrs an al pd).idx < 2 ^ 31 := by
  have hal : (onAlias al pd).idx < 2 ^ 31 := by
    unfold onAlias
    cases al with
    | none => exact hp
    | some a => show (aliasPd a pd).idx < _; rw [(alias_same a pd).1]; exact hp
  rw [attrs_eq]
  generalize onAlias al pd = q at hal
  unfold onAnchor
  cases an with
  | none => exact hal
  | some a =>
    show (anchorPd a q).idx < _
    unfold anchorPd
    split
    · rename_i n hn
      exact h a n rfl hn
    · exact hal

theorem attrs_first (an al : Option (List Nat)) (pd : Pd) (hr : isRef (attrs an al pd) = false) : (attrs an al pd).firstChild = pd.firstChild := by
  have hal : isRef (onAlias al pd) = false → (onAlias al pd).firstChild = pd.firstChild := by
    unfold onAlias
    cases al with
    | none => exact fun _ => rfl
    | some a =>
      intro h
      show (aliasPd a pd).firstChild = _
      rw [(alias_same a pd).2 h]
  rw [attrs_eq] at hr ⊢
  generalize onAlias al pd = q at hal hr
  unfold onAnchor at hr ⊢
  cases an with
  | none => exact hal hr
  | some a =>
    show (anchorPd a q).firstChild = _
    rw [(anchor_same a q).2]
    exact hal (by rw [← (anchor_same a q).1]; exact hr)

theorem attrs_plain (an : Option (List Nat)) (pd : Pd) : isRef (attrs an none pd) = isRef pd := by
  unfold attrs
  cases an with
  | none => rfl
  | some a => exact (anchor_same a pd).1

theorem add_safe {s : St} (h : Inv s) (name value an al : Option (List Nat)) (un : Bool) (ha : SmallAnchor an) :
    ∃ s', addNode s name value an al un = some s' ∧ Inv s' ∧ s'.ptrs.ra.length = s.ptrs.ra.length + 1 := by
  obtain ⟨p, h1, h2, h3, h4, h5, h6, h7⟩ := child_safe h.links h.small h.last h.parent h.plain
  have hL := h2
  unfold addNode
  simp only [addPtr, h1, Option.bind_eq_bind, Option.bind_some]
  rw [upd_some (by omega)]
  have hsame : ∀ j, j ≠ s.ptrs.ra.length → (p.ra.modify s.ptrs.ra.length (attrs an al))[j]? = p.ra[j]? := fun j hj => List.getElem?_modify_ne _ _ (fun e => hj e.symm)
  have hnew : (p.ra.modify s.ptrs.ra.length (attrs an al))[s.ptrs.ra.length]? = some (attrs an al { parent := s.parent }) := by
    rw [List.getElem?_modify_eq, h6]; rfl
  -- the new node is nobody's parent
  have hpar : ∀ (j : Nat) (q : Pd), p.ra[j]? = some q → q.parent ≠ s.ptrs.ra.length := by
    intro j q hq e
    have hj := (List.getElem?_eq_some_iff.1 hq).1
    by_cases h0 : j = 0
    · subst h0
      have := hL.zero q hq
      have := h.links.pos
      omega
    · have := hL.parent j q h0 hq
      omega
  have hplain : ∀ i, i ≠ s.ptrs.ra.length → Plain p.ra i → Plain (p.ra.modify s.ptrs.ra.length (attrs an al)) i := by
    intro i hi hp q hq
    rw [hsame i hi] at hq
    exact hp q hq
  have hget : ∀ (j : Nat) (q : Pd), (p.ra.modify s.ptrs.ra.length (attrs an al))[j]? = some q → ∃ pd, p.ra[j]? = some pd ∧ q.parent = pd.parent ∧ q.next = pd.next ∧
      (isRef q = false → q.firstChild < p.ra.length) := by
    intro j q hq
    by_cases e : j = s.ptrs.ra.length
    · subst e
      rw [hnew] at hq
      cases hq
      obtain ⟨k1, k2⟩ := attrs_same an al { parent := s.parent }
      exact ⟨_, h6, k1, k2, fun hr => by rw [attrs_first an al _ hr]; show 0 < _; omega⟩
    · rw [hsame j e] at hq
      exact ⟨q, hq, rfl, rfl, hL.first j q hq⟩
  have hlinks : Links (p.ra.modify s.ptrs.ra.length (attrs an al)) := by
    refine ⟨by simpa using hL.pos, fun q hq => ?_, fun j q hj hq => ?_, fun j q hq => ?_, fun j q hq => ?_, fun j q hq hr => ?_⟩
    · obtain ⟨pd, k1, k2, _⟩ := hget 0 q hq
      rw [k2]; exact hL.zero pd k1
    · obtain ⟨pd, k1, k2, _⟩ := hget j q hq
      rw [k2]; exact hL.parent j pd hj k1
    · obtain ⟨pd, k1, k2, _⟩ := hget j q hq
      rw [k2]; exact hplain _ (hpar j pd k1) (hL.plain j pd k1)
    · obtain ⟨pd, k1, _, k3, _⟩ := hget j q hq
      rw [k3]; simpa using hL.next j pd k1
    · obtain ⟨pd, _, _, _, k4⟩ := hget j q hq
      simpa using k4 hr
  refine ⟨_, rfl, ⟨hlinks, small_modify h3 fun pd hpd => attrs_idx ha al pd (h3 pd (List.mem_of_getElem? hpd)), ?_, ?_, ?_, ?_⟩, by simp [h4]⟩
  · simp [h4, h.data]
  · show p.lastChild < _
    simp [h4, h5]
  · show (if value = none ∧ al = none then s.ptrs.ra.length else s.parent) < _
    have := h.parent
    simp only [List.length_modify, h4]
    split <;> omega
  · show Plain _ (if value = none ∧ al = none then s.ptrs.ra.length else s.parent)
    by_cases hc : value = none ∧ al = none
    · rw [if_pos hc]
      intro q hq
      rw [hnew, hc.2] at hq
      cases hq
      rw [attrs_plain]; rfl
    · rw [if_neg hc]
      exact hplain _ (by have := h.parent; omega) (h7 _ h.plain)

/-- the anchor of an event -/
def anchorOf : Event → Option (List Nat)
  | .scalar a _ | .mapStart a | .seqStart a => a
  | _ => none

/-- the anchors of the events have small indices, there are not too many nodes -/
def Next (s : St) (r : Step) : Prop := ∃ o, r = some o ∧ ∀ s', o = some s' → Inv s' ∧ s'.ptrs.ra.length ≤ s.ptrs.ra.length + 1

theorem next_fail {s : St} : Next s (some none) := ⟨none, rfl, fun _ h => by cases h⟩
theorem next_same {s s' : St} (h : Inv s') (e : s'.ptrs.ra.length ≤ s.ptrs.ra.length + 1) : Next s (some (some s')) := ⟨_, rfl, fun _ k => by cases k; exact ⟨h, e⟩⟩
theorem next_add {s : St} (h : Inv s) (name value an al : Option (List Nat)) (un : Bool) (ha : SmallAnchor an) : Next s ((addNode s name value an al un).map some) := by
  obtain ⟨s', h1, h2, h3⟩ := add_safe h name value an al un ha
  rw [h1]
  exact next_same h2 (by omega)

theorem none_small : SmallAnchor none := fun _ _ h => by cases h

theorem close_safe {s : St} (h : Inv s) (b : Bool) : Next s (close s b) := by
  unfold close
  by_cases h0 : s.parent = 0
  · rw [if_pos h0]; exact next_fail
  · rw [if_neg h0]
    obtain ⟨y, hy⟩ : ∃ y, s.data[s.parent]? = some y := ⟨_, List.getElem?_eq_getElem (by rw [h.data]; exact h.parent)⟩
    obtain ⟨pd, hpd⟩ : ∃ pd, s.ptrs.ra[s.parent]? = some pd := ⟨_, List.getElem?_eq_getElem h.parent⟩
    simp only [hy, hpd, Option.bind_eq_bind, Option.bind_some]
    by_cases e : y.unnamed = b
    · rw [if_pos e]
      have := h.links.parent s.parent pd h0 hpd
      have hp := h.parent
      exact next_same ⟨h.links, h.small, h.data, h.last, by show pd.parent < s.ptrs.ra.length; omega, h.links.plain _ pd hpd⟩ (by simp)
    · rw [if_neg e]; exact next_fail

theorem step_safe (w : List Nat → Bool) {s : St} (h : Inv s) (e : Event) (ha : SmallAnchor (anchorOf e)) : Next s (step w s e) := by
  unfold step
  cases hp : s.pending with
  | some n =>
    simp only
    unfold named
    cases e <;> first | exact next_add h _ _ _ _ _ ha | exact next_add h _ _ _ _ _ none_small | exact next_fail
  | none =>
    simp only
    have hdoc : Next s (some (if s.parent = 0 then some s else none)) := by
      by_cases h0 : s.parent = 0
      · rw [if_pos h0]; exact next_same h (by omega)
      · rw [if_neg h0]; exact next_fail
    unfold unnamedEvent
    cases e with
    | scalar a v =>
      obtain ⟨b, hb⟩ : ∃ b, wantsName s = some b := by
        unfold wantsName
        by_cases h0 : s.parent = 0
        · rw [if_pos h0]; exact ⟨_, rfl⟩
        · rw [if_neg h0]
          rw [List.getElem?_eq_getElem (by rw [h.data]; exact h.parent)]
          exact ⟨_, rfl⟩
      simp only [hb, Option.bind_eq_bind, Option.bind_some]
      cases b with
      | true =>
        simp only [if_true]
        by_cases hk : w v = true
        · rw [if_pos hk]
          exact next_same ⟨h.links, h.small, h.data, h.last, h.parent, h.plain⟩ (by simp)
        · rw [if_neg hk]; exact next_fail
      | false =>
        simp only [Bool.false_eq_true, if_false]
        exact next_add h _ _ _ _ _ ha
    | alias a => exact next_add h _ _ _ _ _ none_small
    | mapStart a => exact next_add h _ _ _ _ _ ha
    | seqStart a => exact next_add h _ _ _ _ _ ha
    | mapEnd => exact close_safe h _
    | seqEnd => exact close_safe h _
    | streamStart => exact hdoc
    | streamEnd => exact hdoc
    | docStart => exact hdoc
    | docEnd => exact hdoc

theorem run_safe (w : List Nat → Bool) : ∀ (es : List Event) (s : St), Inv s → (∀ e ∈ es, SmallAnchor (anchorOf e)) →
    ∃ o, run w es s = some o ∧ ∀ s', o = some s' → Inv s' ∧ s'.ptrs.ra.length ≤ s.ptrs.ra.length + es.length
  | [], s, _, _ => ⟨none, rfl, fun _ h => by cases h⟩
  | e :: es, s, h, ha => by
    obtain ⟨o, h1, h2⟩ := step_safe w h e (ha e (by simp))
    unfold run
    simp only [h1, Option.bind_eq_bind, Option.bind_some]
    cases o with
    | none => exact ⟨none, rfl, fun _ h => by cases h⟩
    | some s' =>
      obtain ⟨k1, k2⟩ := h2 s' rfl
      simp only
      by_cases he : e = .streamEnd
      · rw [if_pos he]
        refine ⟨_, rfl, fun s'' h' => ?_⟩
        cases h'
        exact ⟨k1, by simp; omega⟩
      · rw [if_neg he]
        obtain ⟨o, m1, m2⟩ := run_safe w es s' k1 (fun e he => ha e (by simp [he]))
        refine ⟨o, m1, fun s'' h' => ?_⟩
        obtain ⟨n1, n2⟩ := m2 s'' h'
        exact ⟨n1, by simp; omega⟩

theorem start_inv : Inv start := by
  have h0 : ∀ (i : Nat) (pd : Pd), start.ptrs.ra[i]? = some pd → i = 0 ∧ pd = {} := by
    intro i pd h
    cases i with
    | zero => exact ⟨rfl, by simpa [start] using h.symm⟩
    | succ i => simp [start] at h
  refine ⟨⟨by decide, fun pd h => ?_, fun i pd hi h => ?_, fun i pd h q hq => ?_, fun i pd h => ?_, fun i pd h _ => ?_⟩, fun pd h => ?_, rfl, by decide, by decide, fun pd h => ?_⟩
  · rw [(h0 0 pd h).2]
  · exact absurd (h0 i pd h).1 hi
  · rw [(h0 _ q hq).2]; rfl
  · rw [(h0 i pd h).2]; exact .inl rfl
  · rw [(h0 i pd h).2]; decide
  · obtain ⟨i, hi⟩ := List.mem_iff_getElem?.1 h
    rw [(h0 i pd hi).2]; decide
  · rw [(h0 _ pd h).2]; rfl

/-! ### the second pass -/

theorem fill_safe : ∀ (l : List Pd) (i : Nat) (t : List Nat), (∀ pd ∈ l, pd.idx < t.length) → ∃ t', fillTable i l t = some t' ∧ t'.length = t.length
  | [], _, t, _ => ⟨t, rfl, rfl⟩
  | pd :: l, i, t, h => by
    obtain ⟨t1, h1, h2⟩ : ∃ t1, fillOne t pd i = some t1 ∧ t1.length = t.length := by
      unfold fillOne
      by_cases h0 : pd.idx ≠ 0
      · rw [if_pos h0]
        unfold wr
        rw [if_pos (h pd (by simp))]
        exact ⟨_, rfl, by simp⟩
      · rw [if_neg h0]; exact ⟨t, rfl, rfl⟩
    unfold fillTable
    simp only [h1, Option.bind_eq_bind, Option.bind_some]
    obtain ⟨t2, h3, h4⟩ := fill_safe l (i + 1) t1 (fun p hp => by rw [h2]; exact h p (by simp [hp]))
    exact ⟨t2, h3, by rw [h4, h2]⟩

theorem missed_step_safe {mx : Nat} {s : List Pd × List Nat} {i : Nat} (hi : i < s.1.length) (hmx : mx < 2 ^ 31) (ht : s.2.length = mx + 1) (hc : s.1.length ≤ 2 ^ 31)
    (hl : Links s.1) : ∃ s', missedStep mx s i = some s' ∧ s'.1.length = s.1.length ∧ s'.2.length = s.2.length ∧ Links s'.1 := by
  obtain ⟨pd, hpd⟩ : ∃ pd, s.1[i]? = some pd := ⟨_, List.getElem?_eq_getElem hi⟩
  unfold missedStep
  simp only [hpd, Option.bind_eq_bind, Option.bind_some]
  generalize pd.firstChild = r
  have hsame : ∃ s', some s = some s' ∧ s'.1.length = s.1.length ∧ s'.2.length = s.2.length ∧ Links s'.1 := ⟨s, rfl, rfl, rfl, hl⟩
  cases hr : isRef pd with
  | false => simpa using hsame
  | true =>
    simp only [if_true]
    obtain ⟨b, hb⟩ : ∃ b, missing mx s.2 r = some b := by
      unfold missing
      by_cases h1 : r > mx
      · rw [if_pos h1]; exact ⟨_, rfl⟩
      · rw [if_neg h1, if_neg (by omega), List.getElem?_eq_getElem (by omega)]
        exact ⟨_, rfl⟩
    rw [hb]
    simp only [Option.bind_some]
    cases b with
    | false => simpa using hsame
    | true =>
      simp only [if_true]
      by_cases h1 : r < s.1.length
      · rw [if_pos h1, if_neg (by omega), List.getElem?_eq_getElem h1]
        simp only [Option.bind_some]
        by_cases h2 : (s.1[r]).idx = 0
        · rw [if_pos h2, upd_some h1]
          simp only [Option.bind_some]
          have hL : Links (s.1.modify r fun p => { p with idx := r, refd := true }) :=
            links_modify hl fun pd hpd => ⟨rfl, rfl, hl.next r pd hpd, hl.first r pd hpd⟩
          unfold note
          by_cases h3 : r ≤ mx
          · rw [if_pos h3]
            unfold wr
            rw [if_pos (by omega)]
            exact ⟨_, rfl, by simp, by simp, hL⟩
          · rw [if_neg h3]
            exact ⟨_, rfl, by simp, rfl, hL⟩
        · rw [if_neg h2]; exact hsame
      · rw [if_neg h1]; exact hsame

theorem missed_loop_safe {mx : Nat} (hmx : mx < 2 ^ 31) : ∀ (n i : Nat) (s : List Pd × List Nat), i + n ≤ s.1.length → s.2.length = mx + 1 → s.1.length ≤ 2 ^ 31 → Links s.1 →
    ∃ s', missedLoop mx n i s = some s' ∧ s'.1.length = s.1.length ∧ Links s'.1
  | 0, i, s, _, _, _, hl => ⟨s, rfl, rfl, hl⟩
  | n + 1, i, s, hi, ht, hc, hl => by
    obtain ⟨s1, h1, h2, h3, h4⟩ := missed_step_safe (i := i) (by omega) hmx ht hc hl
    obtain ⟨s2, k1, k2, k3⟩ := missed_loop_safe hmx n (i + 1) s1 (by omega) (by omega) (by omega) h4
    unfold missedLoop
    simp only [h1, Option.bind_eq_bind, Option.bind_some]
    exact ⟨s2, k1, by rw [k2, h2], k3⟩

theorem missed_safe {ra : List Pd} (hl : Links ra) (hs : Small ra) (hc : ra.length ≤ 2 ^ 31) : ∃ ra', addMissed ra = some ra' ∧ ra'.length = ra.length ∧ Links ra' := by
  obtain ⟨_, h2, h3⟩ := fold_max (ra.drop 1) 0
  have hmx : maxIdx ra ≤ 2 ^ 31 - 1 := h3 _ (by omega) fun pd hpd => by
    have := hs pd (List.mem_of_mem_drop hpd)
    omega
  have hm : (maxIdx ra + 1) % 2 ^ 32 = maxIdx ra + 1 := Nat.mod_eq_of_lt (by omega)
  obtain ⟨t, k1, k2⟩ := fill_safe (ra.drop 1) 1 (List.replicate (maxIdx ra + 1) 0) (fun pd hpd => by
    have : pd.idx ≤ maxIdx ra := h2 pd hpd
    simp; omega)
  have hpos := hl.pos
  obtain ⟨s, m1, m2, m3⟩ := missed_loop_safe (mx := maxIdx ra) (by omega) (ra.length - 1) 1 (ra, t) (by show _ ≤ ra.length; omega) (by show t.length = _; rw [k2]; simp) hc hl
  unfold addMissed
  rw [hm, k1]
  simp only [Option.bind_eq_bind, Option.bind_some]
  rw [m1]
  exact ⟨_, rfl, m2, m3⟩

end Verif.Lemmas.YamlSafe
