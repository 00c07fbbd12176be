import Verif.Spec.Ptrs
/-! Lemmas about the depth-first walk. -/
namespace Verif.Lemmas.Dfs
open Verif.Model Verif.Model.Ptrs Verif.Spec.Ptrs

variable {σ : Type}

/-- links of one descriptor are the same in both arrays -/
def SameAt (a b : List Pd) (j : Nat) : Prop := (a[j]?).map linkPart = (b[j]?).map linkPart

/-- what a visit may change: nothing before the children, after the children the first child of the node
and the links of the nodes `D i` below it -/
def Frame (D : Nat → List Nat) (i : Nat) (o : Order) (a b : List Pd) : Prop :=
  a.length = b.length ∧
  match o with
  | .pre => ∀ j, SameAt a b j
  | .post => (∀ j, j ∉ D i → j ≠ i → SameAt a b j) ∧
      (i ∉ D i → ∀ pd, a[i]? = some pd → ∃ pd', b[i]? = some pd' ∧ pd'.parent = pd.parent ∧ pd'.next = pd.next)

/-- all visits of the list, made one after the other, respect the frame -/
def FrameOK (v : Visitor σ) (D : Nat → List Nat) : List (Nat × Int × Order) → List Pd × σ → Prop
  | [], _ => True
  | (i, l, o) :: es, s => ∀ ok s', v s i l o = some (ok, s') → Frame D i o s.1 s'.1 ∧ (ok = true → FrameOK v D es s')

/-- the nodes below which `D` reaches -/
def Within (D : Nat → List Nat) : Forest → Prop
  | .nil => True
  | .cons i k s => (∀ j ∈ D i, j ∈ k.nodes) ∧ Within D k ∧ Within D s

abbrev Ctx := List (Nat × Forest)

/-- what remains to be visited after a forest below the context -/
def restEv (l : Int) : Ctx → List (Nat × Int × Order)
  | [] => []
  | (i, s) :: c => (i, l - 1, .post) :: (s.events (l - 1) ++ restEv (l - 1) c)

def restN : Ctx → List Nat
  | [] => []
  | (i, s) :: c => i :: (s.nodes ++ restN c)

/-- the nodes of the context still to be visited before their children -/
def cntN : Ctx → Nat
  | [] => 0
  | (_, s) :: c => s.nodes.length + cntN c

def RepCtx (ra : List Pd) (start : Nat) : Nat → Ctx → Prop
  | _, [] => False
  | par, (i, s) :: c => par = i ∧ i ≠ 0 ∧ ∃ pd, ra[i]? = some pd ∧
      (i = start → s = .nil ∧ c = []) ∧
      (i ≠ start → RepCtx ra start pd.parent c ∧ Rep ra pd.parent pd.next s ∧ start ∉ s.nodes)

def DCtx (D : Nat → List Nat) : Ctx → Prop
  | [] => True
  | (i, s) :: c => (∀ j ∈ D i, j ∉ i :: (s.nodes ++ restN c)) ∧ DCtx D c ∧ Within D s

theorem linkPart_eq {a b : Pd} (h : linkPart a = linkPart b) :
    a.parent = b.parent ∧ a.next = b.next ∧ kidsHead a = kidsHead b := by
  unfold linkPart at h
  simp only [Prod.mk.injEq] at h
  exact ⟨h.1, h.2.2, h.2.1⟩

theorem sameAt_some {a b : List Pd} {j : Nat} (h : SameAt a b j) {pd : Pd} (hp : a[j]? = some pd) :
    ∃ pd', b[j]? = some pd' ∧ linkPart pd' = linkPart pd := by
  unfold SameAt at h
  rw [hp] at h
  cases hb : b[j]? with
  | none => rw [hb] at h; simp at h
  | some x => rw [hb] at h; simp at h; exact ⟨x, rfl, h.symm⟩

theorem rep_same {a b : List Pd} {f : Forest} : ∀ {p h : Nat}, Rep a p h f → (∀ j ∈ f.nodes, SameAt a b j) → Rep b p h f := by
  induction f with
  | nil => intro p h hr _; exact hr
  | cons i k s ih1 ih2 =>
    intro p h hr hs
    obtain ⟨h1, h2, pd, h3, h4, h5, h6⟩ := hr
    obtain ⟨pd', h7, h8⟩ := sameAt_some (hs i (by simp [Forest.nodes])) h3
    obtain ⟨e1, e2, e3⟩ := linkPart_eq h8
    refine ⟨h1, h2, pd', h7, by rw [e1, h4], ?_, ?_⟩
    · rw [e3]; exact ih1 h5 fun j hj => hs j (by simp [Forest.nodes, hj])
    · rw [e2]; exact ih2 h6 fun j hj => hs j (by simp [Forest.nodes, hj])

theorem repCtx_same {a b : List Pd} {start : Nat} {c : Ctx} : ∀ {p : Nat}, RepCtx a start p c → (∀ j ∈ restN c, SameAt a b j) →
    RepCtx b start p c := by
  induction c with
  | nil => intro p h _; exact h.elim
  | cons x c ih =>
    obtain ⟨i, s⟩ := x
    intro p hr hs
    obtain ⟨h1, h2, pd, h3, h4, h5⟩ := hr
    obtain ⟨pd', h7, h8⟩ := sameAt_some (hs i (by simp [restN])) h3
    obtain ⟨e1, e2, _⟩ := linkPart_eq h8
    refine ⟨h1, h2, pd', h7, h4, fun hne => ?_⟩
    obtain ⟨h9, h10, h11⟩ := h5 hne
    rw [e1, e2]
    exact ⟨ih h9 fun j hj => hs j (by simp [restN, hj]), rep_same h10 fun j hj => hs j (by simp [restN, hj]), h11⟩

theorem rep_range {ra : List Pd} {f : Forest} : ∀ {p h : Nat}, Rep ra p h f → ∀ j ∈ f.nodes, j < ra.length := by
  induction f with
  | nil => intro p h _ j hj; simp [Forest.nodes] at hj
  | cons i k s ih1 ih2 =>
    intro p h hr j hj
    obtain ⟨h1, h2, pd, h3, h4, h5, h6⟩ := hr
    simp only [Forest.nodes, List.mem_cons, List.mem_append] at hj
    rcases hj with rfl | hj | hj
    · exact (List.getElem?_eq_some_iff.1 h3).1
    · exact ih1 h5 j hj
    · exact ih2 h6 j hj

theorem rep_nil_iff {ra : List Pd} {p h : Nat} {f : Forest} (hr : Rep ra p h f) : h = 0 ↔ f = .nil := by
  cases f with
  | nil => simp only [Rep] at hr; simp [hr]
  | cons i k s => obtain ⟨h1, h2, _⟩ := hr; subst h1; simp [h2]

theorem repCtx_range {ra : List Pd} {start : Nat} {c : Ctx} : ∀ {p : Nat}, RepCtx ra start p c → ∀ j ∈ restN c, j < ra.length := by
  induction c with
  | nil => intro p _ j hj; simp [restN] at hj
  | cons x c ih =>
    obtain ⟨i, s⟩ := x
    intro p hr j hj
    obtain ⟨h1, h2, pd, h3, h4, h5⟩ := hr
    simp only [restN, List.mem_cons, List.mem_append] at hj
    by_cases hs : i = start
    · obtain ⟨rfl, rfl⟩ := h4 hs
      simp [Forest.nodes, restN] at hj
      rw [hj]
      exact (List.getElem?_eq_some_iff.1 h3).1
    · obtain ⟨h9, h10, _⟩ := h5 hs
      rcases hj with rfl | hj | hj
      · exact (List.getElem?_eq_some_iff.1 h3).1
      · exact rep_range h10 j hj
      · exact ih h9 j hj

theorem ctx_le (c : Ctx) : c.length ≤ (restN c).length := by
  induction c with
  | nil => simp
  | cons x c ih => obtain ⟨i, s⟩ := x; simp [restN]; omega

theorem nodup_len {l : List Nat} {n : Nat} (h : l.Nodup) (hr : ∀ x ∈ l, x < n) : l.length ≤ n := by
  have := h.length_le_of_subset (l₂ := List.range n) (fun x hx => List.mem_range.2 (hr x hx))
  simpa using this

/-- what happens after a complete subtree -/
def after (v : Visitor σ) (start fuel g : Nat) (s : List Pd × σ) (idx : Nat) (l : Int) : Option (Bool × (List Pd × σ)) := do
  match ← goUp v start g s idx l with
  | .fail s => some (false, s)
  | .done s => some (true, s)
  | .cont s idx level =>
    let pd ← s.1[idx]?
    dfsLoop v start fuel s pd.next level

theorem events_len (f : Forest) : ∀ l, (f.events l).length = 2 * f.nodes.length := by
  induction f with
  | nil => intro l; rfl
  | cons i k s ih1 ih2 => intro l; simp [Forest.events, Forest.nodes, ih1, ih2]; omega

theorem within_mono {D : Nat → List Nat} {i : Nat} {k s : Forest} (h : Within D (.cons i k s)) :
    (∀ j ∈ D i, j ∈ k.nodes) ∧ Within D k ∧ Within D s := h

def L1 (v : Visitor σ) (D : Nat → List Nat) (start n : Nat) : Prop :=
  ∀ (f : Forest) (c : Ctx) (s : List Pd × σ) (par head fuel : Nat) (l : Int),
    (f.events l ++ restEv l c).length ≤ n → f ≠ .nil →
    Rep s.1 par head f → RepCtx s.1 start par c → start ∉ f.nodes →
    (f.nodes ++ restN c).Nodup →
    Within D f → DCtx D c →
    f.nodes.length + cntN c < fuel →
    FrameOK v D (f.events l ++ restEv l c) s →
    dfsLoop v start fuel s head l = callAll v (f.events l ++ restEv l c) s

def L2 (v : Visitor σ) (D : Nat → List Nat) (start n : Nat) : Prop :=
  ∀ (f : Forest) (c : Ctx) (s : List Pd × σ) (par idx fuel g : Nat) (l : Int) (pd : Pd),
    (f.events l ++ restEv l c).length ≤ n →
    s.1[idx]? = some pd → pd.parent = par →
    Rep s.1 par pd.next f → RepCtx s.1 start par c → start ∉ f.nodes →
    (f.nodes ++ restN c).Nodup →
    Within D f → DCtx D c →
    f.nodes.length + cntN c < fuel → c.length ≤ g →
    FrameOK v D (f.events l ++ restEv l c) s →
    after v start fuel g s idx l = callAll v (f.events l ++ restEv l c) s

theorem l2_of (v : Visitor σ) (D : Nat → List Nat) (start n : Nat) (ih : ∀ m < n, L2 v D start m) (h1 : L1 v D start n) :
    L2 v D start n := by
  intro f c s par idx fuel g l pd hn hpd hpar hf hc hst hnd hw hd hfuel hg hfr
  by_cases hnil : f = .nil
  · subst hnil
    have hnext : pd.next = 0 := hf
    match c, hc with
    | (i, sb) :: c, hc =>
      obtain ⟨e1, e2, pd2, e3, e4, e5⟩ := hc
      subst e1
      match g with
      | 0 => simp at hg
      | g + 1 =>
        have hpn : pd.parent ≠ 0 := by rw [hpar]; exact e2
        unfold after
        rw [goUp]
        simp only [hpd, Option.bind_eq_bind, Option.bind_some, hnext, true_and, hpar, ne_eq, e2, not_false_eq_true, if_true]
        simp only [Forest.events, List.nil_append, restEv, callAll]
        cases hv : v s par (l - 1) .post with
        | none => simp
        | some r =>
          obtain ⟨ok, s'⟩ := r
          simp only [Option.bind_some, Option.bind_eq_bind]
          simp only [Forest.events, List.nil_append, restEv, FrameOK] at hfr
          obtain ⟨hfr1, hfr2⟩ := hfr ok s' hv
          cases ok with
          | false => simp
          | true =>
            simp only [Bool.true_eq_false, if_false]
            by_cases hs : par = start
            · obtain ⟨rfl, rfl⟩ := e4 hs
              rw [if_pos hs]
              simp [Forest.events, restEv, callAll]
            · rw [if_neg hs]
              obtain ⟨e6, e7, e8⟩ := e5 hs
              obtain ⟨d1, d2, d3⟩ := hd
              have hin : par ∉ D par := fun h => d1 _ h (by simp)
              obtain ⟨hlen, hfo, hfi⟩ := hfr1
              obtain ⟨pd', q1, q2, q3⟩ := hfi hin pd2 e3
              simp only [Forest.nodes, restN, List.nil_append, List.nodup_cons] at hnd
              have hsame : ∀ j ∈ sb.nodes ++ restN c, SameAt s.1 s'.1 j := fun j hj =>
                hfo j (fun h => d1 j h (by simp only [List.mem_cons]; exact Or.inr hj)) (fun h => hnd.1 (h ▸ hj))
              have hm : (sb.events (l - 1) ++ restEv (l - 1) c).length < n := by
                simp only [Forest.events, restEv, List.nil_append, List.length_cons] at hn; omega
              have := ih _ hm sb c s' pd2.parent par fuel g (l - 1) pd' (Nat.le_refl _) q1 q2
                (by rw [q3]; exact rep_same e7 fun j hj => hsame j (by simp [hj]))
                (repCtx_same e6 fun j hj => hsame j (by simp [hj])) e8 hnd.2 d3 d2
                (by simp only [Forest.nodes, List.length_nil, cntN] at hfuel; omega)
                (by simp at hg; omega) (hfr2 rfl)
              rw [← this]
              rfl
  · have hnn : ¬pd.next = 0 := fun h => hnil ((rep_nil_iff hf).1 h)
    match g with
    | 0 => 
      match c, hc with
      | (i, sb) :: c, hc => simp at hg
    | g + 1 =>
      unfold after
      rw [goUp]
      simp only [hpd, Option.bind_eq_bind, Option.bind_some, hnn, false_and, if_false]
      exact h1 f c s par pd.next fuel l hn hnil hf hc hst hnd hw hd hfuel hfr

theorem l1_of (v : Visitor σ) (D : Nat → List Nat) (start n : Nat) (ih1 : ∀ m < n, L1 v D start m) (ih : ∀ m < n, L2 v D start m) :
    L1 v D start n := by
  intro f c s par head fuel l hn hne hf hc hst hnd hw hd hfuel hfr
  match f, hne with
  | .cons i k sb, _ =>
    match fuel with
    | 0 => omega
    | fuel + 1 =>
      obtain ⟨rfl, h2, pd, h3, h4, h5, h6⟩ := hf
      have hn' : (k.events (l + 1) ++ restEv (l + 1) ((head, sb) :: c)).length < n := by
        simp only [Forest.events, restEv, List.length_cons, List.length_append, events_len] at hn ⊢
        have : l + 1 - 1 = l := by omega
        rw [this]; omega
      have hev : (Forest.cons head k sb).events l ++ restEv l c = (head, l, Order.pre) :: (k.events (l + 1) ++ restEv (l + 1) ((head, sb) :: c)) := by
        simp [Forest.events, restEv]
      rw [hev] at hfr ⊢
      rw [dfsLoop, if_neg h2]
      simp only [callAll]
      cases hv : v s head l .pre with
      | none => simp
      | some r =>
        obtain ⟨ok, s'⟩ := r
        simp only [Option.bind_some, Option.bind_eq_bind]
        obtain ⟨hfr1, hfr2⟩ := hfr ok s' hv
        cases ok with
        | false => simp
        | true =>
          simp only [Bool.true_eq_false, if_false]
          have hfr3 := hfr2 rfl
          obtain ⟨hlen, hsame⟩ := hfr1
          obtain ⟨pd', q1, q2⟩ := sameAt_some (hsame head) h3
          obtain ⟨q3, q4, q5⟩ := linkPart_eq q2
          simp only [q1, Option.bind_some]
          obtain ⟨w1, w2, w3⟩ := hw
          have hsn : head ≠ start := by
            intro h; apply hst; simp [Forest.nodes, h]
          have hk5 : Rep s'.1 head (kidsHead pd') k := by rw [q5]; exact rep_same h5 fun j _ => hsame j
          have hs6 : Rep s'.1 par pd'.next sb := by rw [q4]; exact rep_same h6 fun j _ => hsame j
          have hc' : RepCtx s'.1 start par c := repCtx_same hc fun j _ => hsame j
          have hcond : (pd'.firstChild ≠ 0 ∧ (pd'.ref || pd'.cref) = false) ↔ kidsHead pd' ≠ 0 := by
            unfold kidsHead
            cases pd'.ref <;> cases pd'.cref <;> simp
          have hnd' := hnd
          simp only [Forest.nodes, List.cons_append, List.append_assoc, List.nodup_cons, List.mem_append, not_or] at hnd'
          obtain ⟨⟨n1, n2, n3⟩, n4⟩ := hnd'
          have n5 := List.nodup_append.1 n4
          have hdj : ∀ j ∈ D head, j ∉ head :: (sb.nodes ++ restN c) := by
            intro j hj hm
            have := w1 j hj
            rcases List.mem_cons.1 hm with rfl | hm
            · exact n1 this
            · exact n5.2.2 j this j hm rfl
          simp only [Forest.nodes, List.length_cons, List.length_append] at hfuel
          have hstk : start ∉ k.nodes := fun h => hst (by simp [Forest.nodes, h])
          have hsts : start ∉ sb.nodes := fun h => hst (by simp [Forest.nodes, h])
          by_cases hkn : k = .nil
          · subst hkn
            rw [if_neg (by rw [hcond, Classical.not_not]; exact hk5)]
            simp only [Forest.events, List.nil_append, restEv, callAll]
            have hl : l + 1 - 1 = l := by omega
            rw [hl]
            simp only [Forest.events, List.nil_append, restEv, hl, FrameOK] at hfr3
            cases hv2 : v s' head l .post with
            | none => simp
            | some r =>
              obtain ⟨ok, s2⟩ := r
              obtain ⟨⟨g0, g1, g2⟩, g3⟩ := hfr3 ok s2 hv2
              cases ok with
              | false => simp
              | true =>
                simp only [Bool.true_eq_false, if_false, Option.bind_some, Option.bind_eq_bind]
                have hin : head ∉ D head := fun h => hdj _ h (by simp)
                obtain ⟨p2, z1, z2, z3⟩ := g2 hin pd' q1
                have hsm : ∀ j ∈ sb.nodes ++ restN c, SameAt s'.1 s2.1 j := fun j hj =>
                  g1 j (fun h => hdj j h (by simp only [List.mem_cons]; exact Or.inr hj)) (fun h => by
                    subst h
                    rcases List.mem_append.1 hj with h | h
                    · exact n2 h
                    · exact n3 h)
                have hc2 : RepCtx s2.1 start par c := repCtx_same hc' fun j hj => hsm j (by simp [hj])
                have hg : c.length ≤ s2.1.length + 1 := by
                  have a1 := ctx_le c
                  have a2 := nodup_len (List.nodup_append.1 n5.2.1).2.1 (repCtx_range hc2)
                  omega
                have hm : (sb.events l ++ restEv l c).length < n := by
                  simp only [Forest.events, restEv, List.nil_append, List.length_cons, hl] at hn'; omega
                have := ih _ hm sb c s2 par head fuel (s2.1.length + 1) l p2 (Nat.le_refl _) z1 (by rw [z2, q3, h4])
                  (by rw [z3]; exact rep_same hs6 fun j hj => hsm j (by simp [hj])) hc2 hsts n5.2.1 w3 hd
                  (by omega) hg (g3 rfl)
                rw [← this]
                rfl
          · rw [if_pos (by rw [hcond]; exact fun h => hkn ((rep_nil_iff hk5).1 h))]
            have hfc : pd'.firstChild = kidsHead pd' := by
              have : kidsHead pd' ≠ 0 := fun h => hkn ((rep_nil_iff hk5).1 h)
              have := hcond.2 this
              unfold kidsHead
              rw [if_neg (by simp [this.2])]
            rw [hfc]
            refine ih1 _ hn' k ((head, sb) :: c) s' head (kidsHead pd') fuel (l + 1) (Nat.le_refl _) hkn hk5 ?_ hstk ?_ w2 ⟨hdj, hd, w3⟩ ?_ hfr3
            · exact ⟨rfl, h2, pd', q1, fun h => absurd h hsn, fun _ => ⟨by rw [q3, h4]; exact hc', by rw [q3, h4]; exact hs6, hsts⟩⟩
            · simp only [restN]
              refine List.nodup_append.2 ⟨n5.1, List.nodup_cons.2 ⟨by simp [n2, n3], n5.2.1⟩, ?_⟩
              intro a ha b hb hab
              subst hab
              rcases List.mem_cons.1 hb with rfl | hb
              · exact n1 ha
              · exact n5.2.2 a ha a hb rfl
            · simp only [cntN]; omega

theorem l12 (v : Visitor σ) (D : Nat → List Nat) (start n : Nat) : L1 v D start n ∧ L2 v D start n := by
  induction n using Nat.strongRecOn with
  | ind n ih =>
    have h1 := l1_of v D start n (fun m hm => (ih m hm).1) (fun m hm => (ih m hm).2)
    exact ⟨h1, l2_of v D start n (fun m hm => (ih m hm).2) h1⟩

/-- the walk from a root or from a node with children -/
theorem dfs_eq (v : Visitor σ) (D : Nat → List Nat) (start : Nat) (s : List Pd × σ) (k : Forest) (pd : Pd)
    (h0 : start ≠ 0) (hpd : s.1[start]? = some pd) (hk : Rep s.1 start (kidsHead pd) k)
    (hroot : k = .nil → pd.parent = 0 ∧ pd.next = 0)
    (hnd : (start :: k.nodes).Nodup) (hw : Within D (.cons start k .nil))
    (hfr : FrameOK v D ((Forest.cons start k .nil).events 0) s) :
    dfs v start s = callAll v ((Forest.cons start k .nil).events 0) s := by
  unfold dfs
  rw [dfsLoop, if_neg h0]
  simp only [Forest.events, callAll]
  simp only [Forest.events, FrameOK] at hfr
  cases hv : v s start 0 .pre with
  | none => simp
  | some r =>
    obtain ⟨ok, s'⟩ := r
    obtain ⟨⟨hlen, hsame⟩, hfr2⟩ := hfr ok s' hv
    cases ok with
    | false => simp
    | true =>
      simp only [Bool.true_eq_false, if_false, Option.bind_some, Option.bind_eq_bind]
      have hfr3 := hfr2 rfl
      obtain ⟨pd', q1, q2⟩ := sameAt_some (hsame start) hpd
      obtain ⟨q3, q4, q5⟩ := linkPart_eq q2
      simp only [q1, Option.bind_some]
      have hk5 : Rep s'.1 start (kidsHead pd') k := by rw [q5]; exact rep_same hk fun j _ => hsame j
      have hcond : (pd'.firstChild ≠ 0 ∧ (pd'.ref || pd'.cref) = false) ↔ kidsHead pd' ≠ 0 := by
        unfold kidsHead
        cases pd'.ref <;> cases pd'.cref <;> simp
      obtain ⟨w1, w2, _⟩ := hw
      obtain ⟨n1, n2⟩ := List.nodup_cons.1 hnd
      by_cases hkn : k = .nil
      · subst hkn
        rw [if_neg (by rw [hcond, Classical.not_not]; exact hk5)]
        simp only [Forest.events, List.nil_append, callAll, FrameOK] at hfr3 ⊢
        cases hv2 : v s' start 0 .post with
        | none => simp
        | some r =>
          obtain ⟨ok, s2⟩ := r
          obtain ⟨⟨g0, g1, g2⟩, g3⟩ := hfr3 ok s2 hv2
          cases ok with
          | false => simp
          | true =>
            simp only [Bool.true_eq_false, if_false, Option.bind_some, Option.bind_eq_bind]
            have hin : start ∉ D start := fun h => by simpa [Forest.nodes] using w1 _ h
            obtain ⟨p2, z1, z2, z3⟩ := g2 hin pd' q1
            obtain ⟨r1, r2⟩ := hroot rfl
            rw [q3, r1] at z2
            rw [q4, r2] at z3
            rw [goUp]
            simp only [z1, Option.bind_some, Option.bind_eq_bind, z2, z3, ne_eq, not_true_eq_false, and_false, if_false]
            have : 0 < s.1.length := by
              have := (List.getElem?_eq_some_iff.1 hpd).1; omega
            obtain ⟨m, hm⟩ : ∃ m, s.1.length = m + 1 := ⟨s.1.length - 1, by omega⟩
            rw [hm, dfsLoop, if_pos rfl]
      · rw [if_pos (by rw [hcond]; exact fun h => hkn ((rep_nil_iff hk5).1 h))]
        have hfc : pd'.firstChild = kidsHead pd' := by
          have : kidsHead pd' ≠ 0 := fun h => hkn ((rep_nil_iff hk5).1 h)
          have := hcond.2 this
          unfold kidsHead
          rw [if_neg (by simp [this.2])]
        rw [hfc]
        have hre : k.events (0 + 1) ++ (start, 0, Order.post) :: Forest.events .nil 0 =
            k.events (0 + 1) ++ restEv (0 + 1) [(start, .nil)] := by
          simp [restEv, Forest.events]
        have hre' : k.events (0 + 1) ++ [(start, 0, Order.post)] =
            k.events (0 + 1) ++ restEv (0 + 1) [(start, .nil)] := by
          simp [restEv, Forest.events]
        rw [hre'] at hfr3 ⊢
        refine (l12 v D start _).1 k [(start, .nil)] s' start (kidsHead pd') _ (0 + 1) (Nat.le_refl _) hkn hk5 ?_ n1 ?_ w2 ?_ ?_ hfr3
        · exact ⟨rfl, h0, pd', q1, fun _ => ⟨rfl, rfl⟩, fun h => absurd rfl h⟩
        · simp only [restN, Forest.nodes, List.append_nil]
          refine List.nodup_append.2 ⟨n2, by simp, ?_⟩
          intro a ha b hb hab
          simp at hb
          subst hab; subst hb; exact n1 ha
        · exact ⟨fun j hj hm => by
            simp [Forest.nodes, restN] at hm
            subst hm
            exact n1 (w1 _ hj), trivial, trivial⟩
        · simp only [cntN, Forest.nodes, List.length_nil]
          have := nodup_len (l := start :: k.nodes) (n := s'.1.length) hnd (by
            intro x hx
            rcases List.mem_cons.1 hx with rfl | hx
            · exact (List.getElem?_eq_some_iff.1 q1).1
            · exact rep_range hk5 x hx)
          simp at this
          omega

end Verif.Lemmas.Dfs
