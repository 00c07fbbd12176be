import Verif.Spec.UnionDisc
/-!
# Lemmas about the search for the member of a union
-/
namespace Verif.Lemmas.UnionDisc
open Verif.Model.UnionDisc Verif.Spec.UnionDisc

variable {E : Env}

/-- `r` is an element of the set of the node `o` -/
def In (uds : List (List Nat)) (o r : Nat) : Prop := ∃ l, uds[o]? = some l ∧ r ∈ l

theorem own_some {x : Node} {u : Nat} {d : Option Nat} (h : own E x u = some d) : Decides E x u d := by
  unfold own at h
  cases hs : x.skip <;> simp only [hs, Bool.false_eq_true, if_true, if_false] at h
  · cases ht : x.td <;> simp only [ht] at h
    · cases h
    · rename_i t
      by_cases hh : E.has t u = true
      · rw [if_pos hh] at h
        cases h
        exact ⟨hs, t, ht, hh, rfl⟩
      · rw [if_neg hh] at h; cases h
  · cases h

theorem own_none {x : Node} {u : Nat} (h : own E x u = none) (d : Option Nat) : ¬ Decides E x u d := by
  rintro ⟨hs, t, ht, hh, _⟩
  simp [own, hs, ht, hh] at h

theorem decides_det {x : Node} {u : Nat} {d e : Option Nat} (h1 : Decides E x u d) (h2 : Decides E x u e) : d = e := by
  obtain ⟨_, t, ht, _, h1⟩ := h1
  obtain ⟨_, t', ht', _, h2⟩ := h2
  rw [ht] at ht'; cases ht'
  exact h1.symm.trans h2

theorem inUse_det {tree : List Node} {u p : Nat} {d e : Option Nat} (h1 : InUse E tree u p d) (h2 : InUse E tree u p e) : d = e := by
  induction h1 generalizing e with
  | top =>
    cases h2 with
    | top => rfl
    | here h => exact absurd rfl h
    | up h => exact absurd rfl h
  | here h hx hd =>
    cases h2 with
    | top => exact absurd rfl h
    | here _ hx' hd' =>
      rw [hx] at hx'; cases hx'
      rw [decides_det hd hd']
    | up _ hx' hn =>
      rw [hx] at hx'; cases hx'
      exact absurd hd (hn _)
  | up h hx hn _ ih =>
    cases h2 with
    | top => exact absurd rfl h
    | here _ hx' hd' =>
      rw [hx] at hx'; cases hx'
      exact absurd hd' (hn _)
    | up _ hx' _ hu =>
      rw [hx] at hx'; cases hx'
      exact ih hu

/-- the nodes from `p` up to `stop`, without it -/
inductive Seg (tree : List Node) (stop : Nat) : Nat → List Nat → Prop
  | nil : Seg tree stop stop []
  | cons {p : Nat} {x : Node} {l : List Nat} : p ≠ stop → tree[p]? = some x → Seg tree stop x.parent l → Seg tree stop p (p :: l)

theorem seg_cases {tree : List Node} {stop p : Nat} {l : List Nat} (h : Seg tree stop p l) : l = [] ∧ p = stop ∨ p ∈ l := by
  cases h with
  | nil => exact .inl ⟨rfl, rfl⟩
  | cons => exact .inr (by simp)

/-- what is true between the operations -/
structure Inv (E : Env) (s : St) : Prop where
  len : s.uds.length = s.tree.length
  pos : 0 < s.tree.length
  root : Rooted s.tree
  idx : ∀ o r, In s.uds o r → ∃ u d, s.ud[r]? = some (u, d) ∧ InUse E s.tree u o d
  chain : ∀ (o : Nat) (x : Node) (r u : Nat) (d : Option Nat), s.tree[o]? = some x → In s.uds o r → s.ud[r]? = some (u, d) → (∀ e, ¬ Decides E x u e) →
    x.parent = 0 ∨ ∃ r' d', In s.uds x.parent r' ∧ s.ud[r']? = some (u, d')
  zero : ∀ r, ¬ In s.uds 0 r
  good : ∀ y ∈ s.ud, E.typed y.1 = true ∧ E.known y.1 = true

theorem udFind_ok {ud : List (Nat × Option Nat)} {u : Nat} : ∀ {l : List Nat}, (∀ r ∈ l, ∃ y, ud[r]? = some y) →
    (∃ r d, udFind ud u l = some (some r) ∧ r ∈ l ∧ ud[r]? = some (u, d)) ∨ udFind ud u l = some none ∧ ∀ r ∈ l, ∀ d, ud[r]? ≠ some (u, d)
  | [], _ => .inr ⟨rfl, fun r h => by cases h⟩
  | r :: l, h => by
    obtain ⟨y, hy⟩ := h r (by simp)
    by_cases hu : y.1 = u
    · exact .inl ⟨r, y.2, by simp [udFind, hy, hu], by simp, by rw [hy, ← hu]⟩
    · rcases udFind_ok (l := l) (u := u) (fun k hk => h k (by simp [hk])) with ⟨k, d, h1, h2, h3⟩ | ⟨h1, h2⟩
      · exact .inl ⟨k, d, by simp [udFind, hy, hu, h1], by simp [h2], h3⟩
      · refine .inr ⟨by simp [udFind, hy, hu, h1], fun k hk d e => ?_⟩
        rcases List.mem_cons.1 hk with rfl | hk
        · rw [hy] at e; cases e; exact hu rfl
        · exact h2 k hk d e

theorem Inv.entry {s : St} (I : Inv E s) {o : Nat} {l : List Nat} (h : s.uds[o]? = some l) : ∀ r ∈ l, ∃ y, s.ud[r]? = some y := by
  intro r hr
  obtain ⟨u, d, h1, _⟩ := I.idx o r ⟨l, h, hr⟩
  exact ⟨_, h1⟩

/-- the node behind the last one that is marked -/
def stopOf (s : St) : Nat × Found → Nat
  | (q, .cached _) => q
  | (q, .own _) => ((s.tree[q]?).map Node.parent).getD 0
  | (_, .top) => 0

/-- how the search may end -/
def Ends (E : Env) (s : St) (u q : Nat) (d : Option Nat) : Found → Prop
  | .cached r => q ≠ 0 ∧ In s.uds q r ∧ s.ud[r]? = some (u, d)
  | .own e => q ≠ 0 ∧ ∃ x, s.tree[q]? = some x ∧ Decides E x u e ∧ d = orDefault E u e
  | .top => q = 0 ∧ d = E.dflt u

theorem walk_ok {s : St} (I : Inv E s) (u : Nat) {depth : Nat → Nat}
    (hd : ∀ (p : Nat) (x : Node), p ≠ 0 → s.tree[p]? = some x → x.parent < s.tree.length ∧ depth x.parent < depth p ∧ depth p < s.tree.length) :
    ∀ fuel p, p < s.tree.length → (p ≠ 0 → depth p < fuel) → 0 < fuel → ∃ q out d l, walk E s u fuel p = some (q, out) ∧ InUse E s.tree u p d ∧ Ends E s u q d out ∧
      Seg s.tree (stopOf s (q, out)) p l ∧ (l ≠ [] → depth (stopOf s (q, out)) < depth p ∧ l.length ≤ depth p) ∧ (l = [] → p = 0 ∨ p = q ∧ ∃ r, out = .cached r) ∧
      ∀ o ∈ l, o ≠ 0 ∧ InUse E s.tree u o d ∧ ∃ x, s.tree[o]? = some x ∧
        ((∀ e, ¬ Decides E x u e) → x.parent = 0 ∨ x.parent ∈ l ∨ x.parent = q ∧ ∃ r, out = .cached r) := by
  intro fuel
  induction fuel with
  | zero => intro p _ _ h; omega
  | succ fuel ih =>
    intro p hp hf _
    by_cases h0 : p = 0
    · subst h0
      exact ⟨0, .top, E.dflt u, [], by simp [walk], .top, ⟨rfl, rfl⟩, .nil, (fun h => absurd rfl h), fun _ => .inl rfl, fun o ho => by cases ho⟩
    · have hx : s.tree[p]? = some s.tree[p] := List.getElem?_eq_getElem hp
      obtain ⟨L, hL⟩ : ∃ L, s.uds[p]? = some L := ⟨_, List.getElem?_eq_getElem (by rw [I.len]; exact hp)⟩
      obtain ⟨d1, d2, d3⟩ := hd p _ h0 hx
      generalize s.tree[p] = x at hx d1 d2 d3
      rcases udFind_ok (u := u) (I.entry hL) with ⟨r, d, e1, hr, e2⟩ | ⟨e1, _⟩
      · obtain ⟨u', d', e3, hu⟩ := I.idx p r ⟨L, hL, hr⟩
        rw [e2] at e3; cases e3
        exact ⟨p, .cached r, d, [], by simp [walk, h0, hx, hL, e1], hu, ⟨h0, ⟨L, hL, hr⟩, e2⟩, .nil, (fun h => absurd rfl h), fun _ => .inr ⟨rfl, r, rfl⟩, fun o ho => by cases ho⟩
      · cases ho : own E x u with
        | some e =>
          have hdec := own_some ho
          have hu : InUse E s.tree u p (orDefault E u e) := .here h0 hx hdec
          have hs : stopOf s (p, .own e) = x.parent := by simp [stopOf, hx]
          refine ⟨p, .own e, _, [p], by simp [walk, h0, hx, hL, e1, ho], hu, ⟨h0, x, hx, hdec, rfl⟩, ?_, ?_, (fun h => by cases h), ?_⟩
          · rw [hs]
            exact .cons (by intro h; rw [← h] at d2; omega) hx .nil
          · intro _
            rw [hs]
            exact ⟨d2, by simp; omega⟩
          · intro o hom
            rw [List.mem_singleton.1 hom]
            exact ⟨h0, hu, x, hx, fun hn => absurd hdec (hn e)⟩
        | none =>
          have hnd := own_none ho
          obtain ⟨q, out, d, l, e, hu, hend, hseg, hdep, hnil, hall⟩ := ih x.parent d1 (fun h => by have := hf h0; omega) (by have := hf h0; omega)
          have hup : InUse E s.tree u p d := .up h0 hx hnd hu
          have hlt : depth (stopOf s (q, out)) < depth p := by
            rcases seg_cases hseg with ⟨rfl, h⟩ | h
            · rw [← h]; exact d2
            · have := (hdep (List.ne_nil_of_mem h)).1; omega
          refine ⟨q, out, d, p :: l, by simp [walk, h0, hx, hL, e1, ho, e], hup, hend, .cons (by intro h; rw [← h] at hlt; omega) hx hseg, ?_, (fun h => by cases h), ?_⟩
          · intro _
            refine ⟨hlt, ?_⟩
            cases l with
            | nil => simp; omega
            | cons a l => have := (hdep (by simp)).2; simp at this ⊢; omega
          · intro o hom
            rcases List.mem_cons.1 hom with rfl | hom
            · refine ⟨h0, hup, x, hx, fun _ => ?_⟩
              rcases seg_cases hseg with ⟨hl, _⟩ | h
              · rcases hnil hl with h | ⟨h, h'⟩
                · exact .inl h
                · exact .inr (.inr ⟨h, h'⟩)
              · exact .inr (.inl (by simp [h]))
            · obtain ⟨h1, h2, y, hy, h3⟩ := hall o hom
              refine ⟨h1, h2, y, hy, fun hn => ?_⟩
              rcases h3 hn with h | h | h
              · exact .inl h
              · exact .inr (.inl (by simp [h]))
              · exact .inr (.inr h)

theorem mark_ok {tree : List Node} {ud : List (Nat × Option Nat)} {stop r u : Nat} {d : Option Nat} (hr : ud[r]? = some (u, d)) {p : Nat} {l : List Nat} (hseg : Seg tree stop p l) :
    ∀ (fuel : Nat) (uds : List (List Nat)), l.length < fuel → uds.length = tree.length → (∀ o r', In uds o r' → ∃ y, ud[r']? = some y) →
    ∃ uds', mark tree ud stop r fuel p uds = some uds' ∧ uds'.length = tree.length ∧ (∀ o r', In uds' o r' → In uds o r' ∨ r' = r ∧ o ∈ l) ∧ (∀ o r', In uds o r' → In uds' o r') ∧
      ∀ o ∈ l, ∃ r' d', In uds' o r' ∧ ud[r']? = some (u, d') := by
  induction hseg with
  | nil =>
    intro fuel uds hf hl _
    obtain ⟨fuel, rfl⟩ : ∃ k, fuel = k + 1 := ⟨fuel - 1, by omega⟩
    exact ⟨uds, by simp [mark], hl, fun o r' h => .inl h, fun o r' h => h, fun o h => by cases h⟩
  | @cons p x l hne hx _ ih =>
    intro fuel uds hf hl hv
    obtain ⟨fuel, rfl⟩ : ∃ k, fuel = k + 1 := ⟨fuel - 1, by omega⟩
    have hp : p < uds.length := by
      rw [hl]
      exact (List.getElem?_eq_some_iff.1 hx).1
    obtain ⟨L, hL⟩ : ∃ L, uds[p]? = some L := ⟨_, List.getElem?_eq_getElem hp⟩
    obtain ⟨L', eL, hsub, hnew, hhas⟩ : ∃ L', udAdd ud r L = some L' ∧ (∀ k ∈ L, k ∈ L') ∧ (∀ k ∈ L', k ∈ L ∨ k = r) ∧ ∃ r' d', r' ∈ L' ∧ ud[r']? = some (u, d') := by
      rcases udFind_ok (u := u) (fun k hk => hv p k ⟨L, hL, hk⟩) with ⟨k, e, e1, hk, e2⟩ | ⟨e1, _⟩
      · exact ⟨L, by simp [udAdd, hr, e1], fun _ h => h, fun _ h => .inl h, k, e, hk, e2⟩
      · exact ⟨L ++ [r], by simp [udAdd, hr, e1], fun k h => by simp [h], fun k h => by simpa using h, r, d, by simp, hr⟩
    have hset : ∀ o k, In (uds.set p L') o k ↔ (o = p ∧ k ∈ L') ∨ (o ≠ p ∧ In uds o k) := by
      intro o k
      by_cases ho : p = o
      · subst ho
        simp [In, List.getElem?_set_self hp]
      · simp only [In, List.getElem?_set_ne ho]
        constructor
        · exact fun h => .inr ⟨fun e => ho e.symm, h⟩
        · rintro (⟨h, _⟩ | ⟨_, h⟩)
          · exact absurd h.symm ho
          · exact h
    obtain ⟨uds', e, h1, h2, h3, h4⟩ := ih fuel (uds.set p L') (by simp at hf; omega) (by simp [hl]) (by
      intro o k h
      rcases (hset o k).1 h with ⟨rfl, h6⟩ | ⟨_, h⟩
      · rcases hnew k h6 with h | rfl
        · exact hv _ k ⟨L, hL, h⟩
        · exact ⟨_, hr⟩
      · exact hv o k h)
    refine ⟨uds', by simp [mark, hne, hx, hL, eL, e], h1, ?_, ?_, ?_⟩
    · intro o k h
      rcases h2 o k h with h | ⟨h, h'⟩
      · rcases (hset o k).1 h with ⟨rfl, h6⟩ | ⟨_, h⟩
        · rcases hnew k h6 with h | rfl
          · exact .inl ⟨L, hL, h⟩
          · exact .inr ⟨rfl, by simp⟩
        · exact .inl h
      · exact .inr ⟨h, by simp [h']⟩
    · intro o k h
      refine h3 o k ((hset o k).2 ?_)
      by_cases ho : o = p
      · subst ho
        obtain ⟨L2, h5, h6⟩ := h
        rw [hL] at h5; cases h5
        exact .inl ⟨rfl, hsub k h6⟩
      · exact .inr ⟨ho, h⟩
    · intro o h
      rcases List.mem_cons.1 h with rfl | h
      · obtain ⟨r', d', h5, h6⟩ := hhas
        exact ⟨r', d', h3 _ _ ((hset _ _).2 (.inl ⟨rfl, h5⟩)), h6⟩
      · exact h4 o h

theorem record_ok (ud : List (Nat × Option Nat)) (x : Nat × Option Nat) : ∃ r ud', record ud x = (r, ud') ∧ ud'[r]? = some x ∧ (∀ (k : Nat) y, ud[k]? = some y → ud'[k]? = some y) ∧
    (∀ y ∈ ud', y ∈ ud ∨ y = x) ∧ ud.length ≤ ud'.length := by
  unfold record
  cases h : ud.findIdx? fun y => y == x with
  | none =>
    refine ⟨_, _, rfl, by simp, fun k y hk => ?_, fun y hy => by simpa using hy, by simp⟩
    rw [List.getElem?_append_left (List.getElem?_eq_some_iff.1 hk).1, hk]
  | some r =>
    refine ⟨_, _, rfl, ?_, fun k y hk => hk, fun y hy => .inl hy, Nat.le_refl _⟩
    obtain ⟨hr, he, _⟩ := List.findIdx?_eq_some_iff_getElem.1 h
    rw [List.getElem?_eq_getElem hr]
    simpa using he

/-- the state after the nodes `l` have been marked with the result `r` -/
theorem marked {s : St} (I : Inv E s) {u : Nat} {d : Option Nat} (hty : E.typed u = true) (hkn : E.known u = true) {ud : List (Nat × Option Nat)} {r : Nat} (hr : ud[r]? = some (u, d))
    (hmono : ∀ (k : Nat) y, s.ud[k]? = some y → ud[k]? = some y) (hmem : ∀ y ∈ ud, y ∈ s.ud ∨ y = (u, d)) {p stop : Nat} {l : List Nat} (hseg : Seg s.tree stop p l) {fuel : Nat} (hf : l.length < fuel)
    (hall : ∀ o ∈ l, o ≠ 0 ∧ InUse E s.tree u o d ∧ ∃ x, s.tree[o]? = some x ∧
      ((∀ e, ¬ Decides E x u e) → x.parent = 0 ∨ x.parent ∈ l ∨ ∃ r' d', In s.uds x.parent r' ∧ s.ud[r']? = some (u, d'))) :
    ∃ uds, mark s.tree ud stop r fuel p s.uds = some uds ∧ Inv E { s with uds := uds, ud := ud } ∧ (∀ o k, In uds o k → In s.uds o k ∨ o ∈ l) ∧ (∀ o k, In s.uds o k → In uds o k) ∧
      ∀ o ∈ l, ∃ r' d', In uds o r' ∧ ud[r']? = some (u, d') := by
  have hv : ∀ o r', In s.uds o r' → ∃ y, ud[r']? = some y := by
    intro o k h
    obtain ⟨u', d', h1, _⟩ := I.idx o k h
    exact ⟨_, hmono _ _ h1⟩
  obtain ⟨uds, e, h1, h2, h3, h4⟩ := mark_ok hr hseg fuel s.uds hf I.len hv
  refine ⟨uds, e, ⟨h1, I.pos, I.root, ?_, ?_, ?_, ?_⟩, fun o k h => (h2 o k h).imp_right And.right, h3, h4⟩
  · intro o k h
    rcases h2 o k h with h | ⟨rfl, h⟩
    · obtain ⟨u', d', h5, h6⟩ := I.idx o k h
      exact ⟨u', d', hmono _ _ h5, h6⟩
    · exact ⟨u, d, hr, (hall o h).2.1⟩
  · intro o x k u' d' hx h hk hn
    show x.parent = 0 ∨ ∃ r' d'', In uds x.parent r' ∧ ud[r']? = some (u', d'')
    rcases h2 o k h with h | ⟨rfl, h⟩
    · obtain ⟨u2, d2, h5, _⟩ := I.idx o k h
      have h6 := hmono _ _ h5
      have h7 : some (u2, d2) = some (u', d') := h6.symm.trans hk
      cases h7
      rcases I.chain o x k _ _ hx h h5 hn with h | ⟨r', d'', h7, h8⟩
      · exact .inl h
      · exact .inr ⟨r', d'', h3 _ _ h7, hmono _ _ h8⟩
    · have h7 : some (u, d) = some (u', d') := hr.symm.trans hk
      cases h7
      obtain ⟨_, _, y, hy, h5⟩ := hall o h
      have h8 : some y = some x := hy.symm.trans hx
      cases h8
      rcases h5 hn with h | h | ⟨r', d', h6, h7⟩
      · exact .inl h
      · exact .inr (h4 _ h)
      · exact .inr ⟨r', d', h3 _ _ h6, hmono _ _ h7⟩
  · intro k h
    rcases h2 0 k h with h | ⟨_, h⟩
    · exact I.zero k h
    · exact (hall 0 h).1 rfl
  · intro y hy
    rcases hmem y hy with h | rfl
    · exact I.good y h
    · exact ⟨hty, hkn⟩

/-- what a query does -/
structure Query (E : Env) (s : St) (p u : Nat) (d : Option Nat) (s' : St) : Prop where
  inv : Inv E s'
  tree : s'.tree = s.tree
  ud : ∀ (k : Nat) y, s.ud[k]? = some y → s'.ud[k]? = some y
  uds : ∀ o k, In s.uds o k → In s'.uds o k
  new : ∀ o k, In s'.uds o k → In s.uds o k ∨ ∃ stop l, Seg s.tree stop p l ∧ (∀ a ∈ l, a ≠ 0) ∧ o ∈ l
  value : E.typed u = true → E.known u = true → InUse E s.tree u p d ∧ (p = 0 ∨ ∃ r d', In s'.uds p r ∧ s'.ud[r]? = some (u, d'))

theorem query_ok {s : St} (I : Inv E s) {p u : Nat} (hp : p < s.tree.length) (hlim : s.ud.length < E.limit) : ∃ d s', query E s p u = some (d, s') ∧ Query E s p u d s' ∧ s.ud.length ≤ s'.ud.length := by
  unfold query
  by_cases hty : E.typed u = false
  · rw [if_pos hty]
    exact ⟨none, s, rfl, ⟨I, rfl, fun _ _ h => h, fun _ _ h => h, fun _ _ h => .inl h, fun h => by rw [hty] at h; cases h⟩, Nat.le_refl _⟩
  rw [if_neg hty]
  by_cases hkn : E.known u = false
  · rw [if_pos hkn]
    exact ⟨_, s, rfl, ⟨I, rfl, fun _ _ h => h, fun _ _ h => h, fun _ _ h => .inl h, fun _ h => by rw [hkn] at h; cases h⟩, Nat.le_refl _⟩
  rw [if_neg hkn, if_neg (by omega)]
  have hty : E.typed u = true := by simpa using hty
  have hkn : E.known u = true := by simpa using hkn
  obtain ⟨depth, hd⟩ := I.root
  have hpl : p ≠ 0 → depth p < s.tree.length := fun h => (hd p _ h (List.getElem?_eq_getElem hp)).2.2
  obtain ⟨q, out, d, l, e, hu, hend, hseg, hdep, hnil, hall⟩ := walk_ok I u hd (s.tree.length + 1) p hp (fun h => by have := hpl h; omega) (by omega)
  have hlen : l.length < s.tree.length + 1 := by
    cases l with
    | nil => simp
    | cons a l =>
      have h1 := (hdep (by simp)).2
      have h2 : p ≠ 0 := by
        cases hseg
        exact (hall _ (by simp)).1
      have := hpl h2
      omega
  simp only [e, bind, Option.bind]
  cases out with
  | cached r =>
    obtain ⟨hq, hin, hr⟩ := hend
    obtain ⟨uds, e1, hI, h2, h3, h4⟩ := marked I hty hkn hr (fun _ _ h => h) (fun y h => .inl h) hseg hlen (by
      intro o ho
      obtain ⟨a1, a2, x, a3, a4⟩ := hall o ho
      refine ⟨a1, a2, x, a3, fun hn => ?_⟩
      rcases a4 hn with h | h | ⟨h, _⟩
      · exact .inl h
      · exact .inr (.inl h)
      · exact .inr (.inr ⟨r, d, by rw [h]; exact hin, hr⟩))
    have hst : stopOf s (q, .cached r) = q := rfl
    rw [hst] at e1
    refine ⟨d, { s with uds := uds }, by simp [conclude, hr, e1], ⟨hI, rfl, fun _ _ h => h, h3, ?_, fun _ _ => ⟨hu, ?_⟩⟩, Nat.le_refl _⟩
    · intro o k h
      rcases h2 o k h with h | h
      · exact .inl h
      · exact .inr ⟨_, l, hseg, fun a ha => (hall a ha).1, h⟩
    · rcases seg_cases hseg with ⟨hl, _⟩ | h
      · rcases hnil hl with h | ⟨h, _⟩
        · exact .inl h
        · exact .inr ⟨r, d, by rw [h]; exact h3 _ _ hin, hr⟩
      · exact .inr (h4 p h)
  | own e' =>
    obtain ⟨hq, x, hx, hdec, hdd⟩ := hend
    obtain ⟨r, ud, er, hr, hmono, hmem, hle⟩ := record_ok s.ud (u, d)
    obtain ⟨uds, e1, hI, h2, h3, h4⟩ := marked I hty hkn hr hmono hmem hseg hlen (by
      intro o ho
      obtain ⟨a1, a2, x, a3, a4⟩ := hall o ho
      refine ⟨a1, a2, x, a3, fun hn => ?_⟩
      rcases a4 hn with h | h | ⟨_, r, h⟩
      · exact .inl h
      · exact .inr (.inl h)
      · cases h)
    have hst : stopOf s (q, .own e') = x.parent := by simp [stopOf, hx]
    rw [hst] at e1
    have hval : (if e' = none then E.dflt u else e') = d := by
      rw [hdd]
      cases e' <;> simp [orDefault]
    refine ⟨d, { s with uds := uds, ud := ud }, by simp [conclude, remember, hval, er, hq, hx, e1], ⟨hI, rfl, hmono, h3, ?_, fun _ _ => ⟨hu, ?_⟩⟩, hle⟩
    · intro o k h
      rcases h2 o k h with h | h
      · exact .inl h
      · exact .inr ⟨_, l, hseg, fun a ha => (hall a ha).1, h⟩
    · rcases seg_cases hseg with ⟨hl, _⟩ | h
      · rcases hnil hl with h | ⟨_, _, h⟩
        · exact .inl h
        · cases h
      · exact .inr (h4 p h)
  | top =>
    obtain ⟨hq, hdd⟩ := hend
    obtain ⟨r, ud, er, hr, hmono, hmem, hle⟩ := record_ok s.ud (u, d)
    obtain ⟨uds, e1, hI, h2, h3, h4⟩ := marked I hty hkn hr hmono hmem hseg hlen (by
      intro o ho
      obtain ⟨a1, a2, x, a3, a4⟩ := hall o ho
      refine ⟨a1, a2, x, a3, fun hn => ?_⟩
      rcases a4 hn with h | h | ⟨_, r, h⟩
      · exact .inl h
      · exact .inr (.inl h)
      · cases h)
    have hst : stopOf s (q, .top) = 0 := rfl
    rw [hst] at e1
    refine ⟨d, { s with uds := uds, ud := ud }, by simp [conclude, remember, ← hdd, er, hq, e1], ⟨hI, rfl, hmono, h3, ?_, fun _ _ => ⟨hu, ?_⟩⟩, hle⟩
    · intro o k h
      rcases h2 o k h with h | h
      · exact .inl h
      · exact .inr ⟨_, l, hseg, fun a ha => (hall a ha).1, h⟩
    · rcases seg_cases hseg with ⟨hl, _⟩ | h
      · rcases hnil hl with h | ⟨_, _, h⟩
        · exact .inl h
        · cases h
      · exact .inr (h4 p h)

theorem In.append {uds : List (List Nat)} {o r : Nat} : In (uds ++ [[]]) o r ↔ In uds o r := by
  unfold In
  constructor
  · rintro ⟨l, h, hr⟩
    rcases Nat.lt_trichotomy o uds.length with ho | ho | ho
    · rw [List.getElem?_append_left ho] at h
      exact ⟨l, h, hr⟩
    · subst ho
      rw [List.getElem?_append_right (Nat.le_refl _)] at h
      simp at h
      subst h
      cases hr
    · rw [List.getElem?_eq_none (by simp; omega)] at h
      cases h
  · rintro ⟨l, h, hr⟩
    exact ⟨l, by rw [List.getElem?_append_left (List.getElem?_eq_some_iff.1 h).1, h], hr⟩

theorem inUse_append {tree : List Node} {x : Node} {u p : Nat} {d : Option Nat} (h : InUse E tree u p d) : InUse E (tree ++ [x]) u p d := by
  induction h with
  | top => exact .top
  | here h hx hd => exact .here h (by rw [List.getElem?_append_left (List.getElem?_eq_some_iff.1 hx).1, hx]) hd
  | up h hx hn _ ih => exact .up h (by rw [List.getElem?_append_left (List.getElem?_eq_some_iff.1 hx).1, hx]) hn ih

theorem rooted_append {tree : List Node} {x : Node} (hpos : 0 < tree.length) (hx : x.parent < tree.length) : Rooted tree → Rooted (tree ++ [x]) := by
  rintro ⟨depth, hd⟩
  refine ⟨fun p => if p = 0 then 0 else if p = tree.length then (if x.parent = 0 then 0 else depth x.parent) + 1 else depth p, ?_⟩
  intro p y hp hy
  have hlen : (tree ++ [x]).length = tree.length + 1 := by simp
  by_cases hpl : p = tree.length
  · have hyx : y = x := by
      rw [hpl, List.getElem?_append_right (Nat.le_refl _)] at hy
      simpa using hy.symm
    subst hyx
    have hne : y.parent ≠ tree.length := by omega
    simp only [hp, hpl, hne, if_true, if_false, hlen]
    have h0 : tree.length ≠ 0 := by omega
    simp only [h0, if_false]
    by_cases hz : y.parent = 0
    · simp only [hz, if_true]
      omega
    · have := (hd y.parent _ hz (List.getElem?_eq_getElem hx)).2.2
      simp only [hz, if_false]
      omega
  · have hlt : p < tree.length := by
      have := (List.getElem?_eq_some_iff.1 hy).1
      omega
    rw [List.getElem?_append_left hlt] at hy
    obtain ⟨h1, h2, h3⟩ := hd p y hp hy
    have hne : y.parent ≠ tree.length := by omega
    simp only [hp, hpl, hne, if_false, hlen]
    by_cases hz : y.parent = 0
    · simp only [hz, if_true]
      omega
    · simp only [hz, if_false]
      omega

theorem inv_append {s : St} {x : Node} (I : Inv E s) (hx : x.parent < s.tree.length) : Inv E (append s x) := by
  refine ⟨by simp [append, I.len], by simp [append], rooted_append I.pos hx I.root, ?_, ?_, fun r h => I.zero r (In.append.1 h), I.good⟩
  · intro o r h
    obtain ⟨u, d, h1, h2⟩ := I.idx o r (In.append.1 h)
    exact ⟨u, d, h1, inUse_append h2⟩
  · intro o y r u d hy h hr hn
    have h := In.append.1 h
    have ho : o < s.tree.length := by
      obtain ⟨l, hl, _⟩ := h
      rw [← I.len]
      exact (List.getElem?_eq_some_iff.1 hl).1
    have hy : s.tree[o]? = some y := by
      rw [← hy]
      exact (List.getElem?_append_left ho).symm
    rcases I.chain o y r u d hy h hr hn with h | ⟨r', d', h1, h2⟩
    · exact .inl h
    · exact .inr ⟨r', d', In.append.2 h1, h2⟩

theorem mark_none_len {s s' : St} {p q u : Nat} {d e : Option Nat} (h : remember s p q u d = some (e, s')) : s.ud.length ≤ s'.ud.length := by
  obtain ⟨r, ud, er, _, _, _, hle⟩ := record_ok s.ud (u, d)
  simp only [remember, er] at h
  by_cases hq : q = 0
  · simp only [hq, if_true, Option.bind_eq_bind, Option.bind_some, Option.bind_eq_some_iff] at h
    obtain ⟨_, _, h⟩ := h
    cases h
    exact hle
  · simp only [hq, if_false, Option.bind_eq_bind, Option.bind_eq_some_iff] at h
    obtain ⟨_, _, _, _, h⟩ := h
    cases h
    exact hle

theorem query_len {s s' : St} {p u : Nat} {d : Option Nat} (h : query E s p u = some (d, s')) : s.ud.length ≤ s'.ud.length := by
  unfold query at h
  split at h
  · cases h; exact Nat.le_refl _
  split at h
  · cases h; exact Nat.le_refl _
  split at h
  · cases h; exact Nat.le_refl _
  simp only [bind, Option.bind] at h
  split at h
  · cases h
  · rename_i f _
    obtain ⟨q, out⟩ := f
    cases out with
    | cached r =>
      simp only [conclude, Option.bind_eq_bind, Option.bind_eq_some_iff] at h
      obtain ⟨_, _, _, _, h⟩ := h
      cases h; exact Nat.le_refl _
    | own e => exact mark_none_len h
    | top => exact mark_none_len h

theorem check_len {x : Node} {p : Nat} : ∀ {L : List Nat} {s s' : St} {ok : Bool}, check E x p L s = some (ok, s') → s.ud.length ≤ s'.ud.length
  | [], s, s', ok, h => by simp [check] at h; rw [h.2]; exact Nat.le_refl _
  | r :: L, s, s', ok, h => by
    simp only [check, Option.bind_eq_bind, Option.bind_eq_some_iff] at h
    obtain ⟨y, _, h⟩ := h
    split at h
    · exact check_len h
    · obtain ⟨⟨d, s1⟩, e, h⟩ := Option.bind_eq_some_iff.1 h
      have h1 := query_len e
      simp only at h
      split at h
      · exact Nat.le_trans h1 (check_len h)
      · cases h; exact h1

theorem check_ok {x : Node} {p : Nat} : ∀ {L : List Nat} {s s' : St} {ok : Bool}, Inv E s → p < s.tree.length → (∀ r ∈ L, ∃ y, s.ud[r]? = some y) →
    check E x p L s = some (ok, s') → s'.ud.length < E.limit →
    Inv E s' ∧ s'.tree = s.tree ∧ (∀ (k : Nat) y, s.ud[k]? = some y → s'.ud[k]? = some y) ∧ (∀ o k, In s.uds o k → In s'.uds o k) ∧
    (∀ o k, In s'.uds o k → In s.uds o k ∨ ∃ stop l, Seg s.tree stop p l ∧ (∀ a ∈ l, a ≠ 0) ∧ o ∈ l) ∧
    (ok = true → ∀ r ∈ L, ∀ u d, s.ud[r]? = some (u, d) → (∃ t, x.td = some t ∧ E.has t u = true) ∨ InUse E s.tree u p d ∧ (p = 0 ∨ ∃ r d', In s'.uds p r ∧ s'.ud[r]? = some (u, d')))
  | [], s, s', ok, I, _, _, h, _ => by
    simp [check] at h
    obtain ⟨_, rfl⟩ := h
    exact ⟨I, rfl, fun _ _ h => h, fun _ _ h => h, fun _ _ h => .inl h, fun _ r h => by cases h⟩
  | r :: L, s, s', ok, I, hp, hL, h, hlim => by
    obtain ⟨y, hy⟩ := hL r (by simp)
    have hlen := check_len h
    simp only [check, hy, bind, Option.bind] at h
    split at h
    · rename_i hany
      obtain ⟨h1, h2, h3, h4, h5, h6⟩ := check_ok I hp (fun k hk => hL k (by simp [hk])) h hlim
      refine ⟨h1, h2, h3, h4, h5, fun hok k hk u d hkd => ?_⟩
      rcases List.mem_cons.1 hk with rfl | hk
      · rw [hy] at hkd; cases hkd
        refine .inl ?_
        cases ht : x.td with
        | none => rw [ht] at hany; cases hany
        | some t =>
          rw [ht] at hany
          exact ⟨t, rfl, by simpa using hany⟩
      · exact h6 hok k hk u d hkd
    · obtain ⟨d, s1, e, Q, _⟩ := query_ok (u := y.1) I hp (by omega)
      obtain ⟨g1, g2⟩ := I.good y (List.mem_of_getElem? hy)
      have Qv := Q.value g1 g2
      simp only [e] at h
      split at h
      · rename_i hd
        obtain ⟨h1, h2, h3, h4, h5, h6⟩ := check_ok Q.inv (by rw [Q.tree]; exact hp) (fun k hk => by
          obtain ⟨z, hz⟩ := hL k (by simp [hk])
          exact ⟨z, Q.ud _ _ hz⟩) h hlim
        refine ⟨h1, h2.trans Q.tree, fun k z hz => h3 _ _ (Q.ud _ _ hz), fun o k ho => h4 _ _ (Q.uds _ _ ho), ?_, fun hok k hk u d' hkd => ?_⟩
        · intro o k ho
          rcases h5 o k ho with ho | ⟨stop, l, hs, hz, ho⟩
          · exact Q.new o k ho
          · rw [Q.tree] at hs
            exact .inr ⟨stop, l, hs, hz, ho⟩
        · rcases List.mem_cons.1 hk with rfl | hk
          · rw [hy] at hkd; cases hkd
            obtain ⟨a, b⟩ := Qv
            have hd : d = d' := hd
            rw [hd] at a
            refine .inr ⟨a, b.imp_right ?_⟩
            rintro ⟨r', d'', b1, b2⟩
            exact ⟨r', d'', h4 _ _ b1, h3 _ _ b2⟩
          · have := h6 hok k hk u d' (Q.ud _ _ hkd)
            rw [Q.tree] at this
            exact this
      · simp only [Option.some.injEq, Prod.mk.injEq] at h
        obtain ⟨rfl, rfl⟩ := h
        exact ⟨Q.inv, Q.tree, Q.ud, Q.uds, Q.new, fun h => by cases h⟩

/-- a node above `p` is not deeper than `p` when some other node has been moved -/
theorem seg_depth {tree : List Node} {i : Nat} {x' : Node} {depth : Nat → Nat}
    (hd : ∀ (p : Nat) (x : Node), p ≠ 0 → (tree.set i x')[p]? = some x → x.parent < (tree.set i x').length ∧ depth x.parent < depth p ∧ depth p < (tree.set i x').length) {stop p : Nat} {l : List Nat}
    (hz : ∀ o ∈ l, o ≠ 0) (h : Seg tree stop p l) (hi : i ∈ l) : depth i ≤ depth p := by
  induction h with
  | nil => cases hi
  | @cons p x l _ hx _ ih =>
    by_cases hpi : i = p
    · rw [hpi]; exact Nat.le_refl _
    · have := (hd p x (hz p (by simp)) (by rw [List.getElem?_set_ne hpi, hx])).2.1
      have := ih (fun o ho => hz o (by simp [ho])) (by
        rcases List.mem_cons.1 hi with h | h
        · exact absurd h hpi
        · exact h)
      omega

theorem decides_parent {x : Node} {p u : Nat} {d : Option Nat} : Decides E { x with parent := p } u d ↔ Decides E x u d := Iff.rfl

/-- after the move every result is still right -/
theorem inv_relink {s : St} {i p : Nat} {x : Node} (I : Inv E s) (hx : s.tree[i]? = some x) (hroot : Rooted (s.tree.set i { x with parent := p }))
    (hrec : ∀ r u d, In s.uds i r → s.ud[r]? = some (u, d) → (∀ e, ¬ Decides E x u e) → InUse E s.tree u p d ∧ (p = 0 ∨ ∃ r d', In s.uds p r ∧ s.ud[r]? = some (u, d'))) :
    Inv E { s with tree := s.tree.set i { x with parent := p } } := by
  have hil : i < s.tree.length := (List.getElem?_eq_some_iff.1 hx).1
  obtain ⟨depth, hd⟩ := hroot
  have hself : (s.tree.set i { x with parent := p })[i]? = some { x with parent := p } := List.getElem?_set_self hil
  have hother : ∀ o, o ≠ i → (s.tree.set i { x with parent := p })[o]? = s.tree[o]? := fun o ho => List.getElem?_set_ne (fun h => ho h.symm)
  have key : ∀ n o u d, depth o < n → InUse E s.tree u o d → (o = 0 ∨ ∃ r d', In s.uds o r ∧ s.ud[r]? = some (u, d')) → InUse E (s.tree.set i { x with parent := p }) u o d := by
    intro n
    induction n with
    | zero => intro o u d h; omega
    | succ n ih =>
      intro o u d hn hu hr
      cases hu with
      | top => exact .top
      | here h hy hdec =>
        rename_i y e
        by_cases ho : o = i
        · subst ho
          rw [hx] at hy; cases hy
          exact .here h hself (decides_parent.2 hdec)
        · exact .here h (by rw [hother o ho, hy]) hdec
      | up h hy hnd hu' =>
        rename_i y
        rcases hr with hr | ⟨r, d', hr, hr'⟩
        · exact absurd hr h
        · by_cases ho : o = i
          · subst ho
            rw [hx] at hy; cases hy
            obtain ⟨u2, d2, a1, a2⟩ := I.idx o r hr
            rw [hr'] at a1; cases a1
            have hdd : d' = d := inUse_det a2 (.up h hx hnd hu')
            rw [hdd] at hr'
            obtain ⟨b1, b2⟩ := hrec r u d hr hr' hnd
            have hlt := (hd o _ h hself).2.1
            exact .up h hself (fun e he => hnd e (decides_parent.1 he)) (ih p u d (by simp only at hlt; omega) b1 b2)
          · have hy' : (s.tree.set i { x with parent := p })[o]? = some y := by rw [hother o ho, hy]
            have hlt := (hd o _ h hy').2.1
            exact .up h hy' hnd (ih y.parent u d (by omega) hu' (I.chain o y r u d' hy hr hr' hnd))
  refine ⟨by simp [I.len], by simpa using I.pos, ⟨depth, hd⟩, ?_, ?_, I.zero, I.good⟩
  · intro o r h
    obtain ⟨u, d, h1, h2⟩ := I.idx o r h
    exact ⟨u, d, h1, key _ o u d (Nat.lt_succ_self _) h2 (.inr ⟨r, d, h, h1⟩)⟩
  · intro o y r u d hy h hr hn
    by_cases ho : o = i
    · subst ho
      have hy := hself.symm.trans hy
      cases hy
      exact (hrec r u d h hr (fun e he => hn e (decides_parent.2 he))).2
    · exact I.chain o y r u d (by rw [← hother o ho]; exact hy) h hr hn

theorem inv_move {s s' : St} {i p : Nat} {ok : Bool} (I : Inv E s) (hi : i ≠ 0) (hp : p < s.tree.length)
    (hroot : ∀ x, s.tree[i]? = some x → x.skip = false ∧ Rooted (s.tree.set i { x with parent := p })) (h : move E s i p = some (ok, s')) (hlim : s'.ud.length < E.limit) : Inv E s' := by
  simp only [move, Option.bind_eq_bind, Option.bind_eq_some_iff] at h
  obtain ⟨x, hx, L, hL, ⟨ok', s1⟩, e, h⟩ := h
  obtain ⟨hskip, hroot⟩ := hroot x hx
  cases ok' with
  | false =>
    simp only [Bool.false_eq_true, if_false, Option.some.injEq, Prod.mk.injEq] at h
    rw [h.2] at e
    exact (check_ok I hp (I.entry hL) e hlim).1
  | true =>
    simp only [if_true, Option.bind_eq_some_iff, relink, Option.bind_eq_bind] at h
    obtain ⟨s2, ⟨x2, hx2, h2⟩, h⟩ := h
    cases h2
    cases h
    obtain ⟨I1, ht, hud, huds, hnew, hok⟩ := check_ok I hp (I.entry hL) e hlim
    rw [ht, hx] at hx2; cases hx2
    refine inv_relink I1 (by rw [ht]; exact hx) (by rw [ht]; exact hroot) ?_
    intro r u d hr hrd hnd
    rw [ht]
    have hold : In s.uds i r := by
      rcases hnew i r hr with h | ⟨stop, l, hseg, hz, hmem⟩
      · exact h
      · obtain ⟨depth, hd⟩ := hroot
        have h1 := seg_depth hd hz hseg hmem
        have h2 := (hd i _ hi (List.getElem?_set_self (List.getElem?_eq_some_iff.1 hx).1)).2.1
        simp only at h2
        omega
    obtain ⟨L', hL', hrL⟩ := hold
    rw [hL] at hL'; cases hL'
    obtain ⟨y, hy⟩ := I.entry hL r hrL
    have hy' := hud _ _ hy
    rw [hrd] at hy'; cases hy'
    rcases hok rfl r hrL u d hy with ⟨t, h1, h2⟩ | h
    · exact absurd ⟨hskip, t, h1, h2, rfl⟩ (hnd _)
    · exact h

theorem inv_start : Inv E { tree := [{ parent := 0 }], uds := [[]], ud := [] } := by
  have hin : ∀ o r, ¬ In [[]] o r := by
    rintro o r ⟨l, h, hr⟩
    cases o with
    | zero => simp at h; subst h; cases hr
    | succ o => simp at h
  refine ⟨rfl, by simp, ⟨fun _ => 0, ?_⟩, fun o r h => absurd h (hin o r), fun o x r u d _ h => absurd h (hin o r), fun r => hin 0 r, fun y h => by cases h⟩
  intro p x hp hx
  cases p with
  | zero => exact absurd rfl hp
  | succ p => simp at hx

theorem inv_reached {s : St} (h : Reached E s) : Inv E s := by
  induction h with
  | start => exact inv_start
  | step _ hs ih =>
    cases hs with
    | append hx => exact inv_append ih hx
    | query hp hlim hq =>
      obtain ⟨d, s', e, Q, _⟩ := query_ok ih hp hlim
      rw [hq] at e; cases e
      exact Q.inv
    | move hi hp hroot hm hlim => exact inv_move ih hi hp hroot hm hlim

/-- if no type has the discriminator, the first member of the union is in use everywhere -/
theorem inUse_unknown {tree : List Node} {u : Nat} (hroot : Rooted tree) (hno : ∀ t, E.has t u = false) {p : Nat} (hp : p < tree.length) : InUse E tree u p (E.dflt u) := by
  obtain ⟨depth, hd⟩ := hroot
  have key : ∀ n p, depth p < n → p < tree.length → InUse E tree u p (E.dflt u) := by
    intro n
    induction n with
    | zero => intro p h; omega
    | succ n ih =>
      intro p hn hp
      by_cases h0 : p = 0
      · rw [h0]; exact .top
      · have hx : tree[p]? = some tree[p] := List.getElem?_eq_getElem hp
        obtain ⟨h1, h2, _⟩ := hd p _ h0 hx
        refine .up h0 hx ?_ (ih _ (by omega) h1)
        rintro e ⟨_, t, _, ht, _⟩
        rw [hno t] at ht; cases ht
  exact key _ p (Nat.lt_succ_self _) hp

end Verif.Lemmas.UnionDisc
