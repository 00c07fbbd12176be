import Verif.Lemmas.Prune
/-! Lemmas about `mr_reorder_strings`. -/
namespace Verif.Lemmas.Reorder
open Verif.Model Verif.Model.Ptrs Verif.Spec.Ptrs Verif.Lemmas.Dfs Verif.Lemmas.Prune

def LeafStr (P : Nat → Bool) : Forest → Prop
  | .nil => True
  | .cons i k s => (P i = true → k = .nil) ∧ LeafStr P k ∧ LeafStr P s

/-- a visitor that does nothing but at certain leaves handles these in document order -/
theorem leafwise {σ : Type} (v : Visitor σ) (P : Nat → Bool) (S : List Nat) (I : List Nat → List Pd × σ → Prop)
    (hpre : ∀ s i l, v s i l .pre = some (true, s))
    (hno : ∀ p s i l, I p s → P i = false → i ∈ S → v s i l .post = some (true, s))
    (hyes : ∀ p s i l q, I p s → P i = true → S.filter P = p ++ i :: q → i ∈ S →
      ∃ s', v s i l .post = some (true, s') ∧ I (p ++ [i]) s' ∧ Frame (fun _ => []) i .post s.1 s'.1)
    (f : Forest) : ∀ (p q : List Nat) (s : List Pd × σ) (l : Int) (es : List (Nat × Int × Order)),
    I p s → LeafStr P f → (∀ x ∈ f.nodes, x ∈ S) → S.filter P = p ++ f.nodes.filter P ++ q →
    ∃ s', callAll v (f.events l ++ es) s = callAll v es s' ∧ I (p ++ f.nodes.filter P) s' ∧
      (FrameOK v (fun _ => []) es s' → FrameOK v (fun _ => []) (f.events l ++ es) s) := by
  induction f with
  | nil => intro p q s l es h _ _ _; exact ⟨s, rfl, by simpa [Forest.nodes] using h, fun h => h⟩
  | cons i k sb ih1 ih2 =>
    intro p q s l es hI hl hm hS
    obtain ⟨l1, l2, l3⟩ := hl
    have hi : i ∈ S := hm i (by simp [Forest.nodes])
    have hev : (Forest.cons i k sb).events l ++ es = (i, l, Order.pre) :: (k.events (l + 1) ++ (i, l, .post) :: (sb.events l ++ es)) := by
      simp [Forest.events]
    rw [hev]
    cases hP : P i with
    | true =>
      have hk := l1 hP
      subst hk
      have hf : (Forest.cons i .nil sb).nodes.filter P = i :: sb.nodes.filter P := by simp [Forest.nodes, hP]
      rw [hf] at hS ⊢
      obtain ⟨s1, a1, a2, a3⟩ := hyes p s i l (sb.nodes.filter P ++ q) hI hP (by rw [hS]; simp) hi
      obtain ⟨s2, b1, b2, b3⟩ := ih2 (p ++ [i]) q s1 l es a2 l3 (fun x hx => hm x (by simp [Forest.nodes, hx])) (by rw [hS]; simp)
      refine ⟨s2, ?_, by simpa using b2, fun h => ?_⟩
      · simp only [callAll, hpre, Option.bind_eq_bind, Option.bind_some, Bool.true_eq_false, if_false, Forest.events, List.nil_append, a1]
        exact b1
      · intro ok s' hv
        rw [hpre] at hv; cases hv
        refine ⟨⟨rfl, fun _ => rfl⟩, fun _ => ?_⟩
        intro ok s' hv
        rw [a1] at hv; cases hv
        exact ⟨a3, fun _ => b3 h⟩
    | false =>
      have hf : (Forest.cons i k sb).nodes.filter P = k.nodes.filter P ++ sb.nodes.filter P := by simp [Forest.nodes, hP]
      rw [hf] at hS ⊢
      obtain ⟨s1, a1, a2, a3⟩ := ih1 p (sb.nodes.filter P ++ q) s (l + 1) ((i, l, .post) :: (sb.events l ++ es)) hI l2
        (fun x hx => hm x (by simp [Forest.nodes, hx])) (by rw [hS]; simp)
      have hn := hno _ s1 i l a2 hP hi
      obtain ⟨s2, b1, b2, b3⟩ := ih2 (p ++ k.nodes.filter P) q s1 l es a2 l3 (fun x hx => hm x (by simp [Forest.nodes, hx])) (by rw [hS]; simp)
      refine ⟨s2, ?_, by simpa using b2, fun h => ?_⟩
      · simp only [callAll, hpre, Option.bind_eq_bind, Option.bind_some, Bool.true_eq_false, if_false]
        rw [a1]
        simp only [callAll, hn, Option.bind_eq_bind, Option.bind_some, Bool.true_eq_false, if_false]
        exact b1
      · intro ok s' hv
        rw [hpre] at hv; cases hv
        refine ⟨⟨rfl, fun _ => rfl⟩, fun _ => a3 ?_⟩
        intro ok s' hv
        rw [hn] at hv; cases hv
        exact ⟨⟨rfl, fun _ _ _ => rfl, fun _ pd hp => ⟨pd, hp, rfl, rfl⟩⟩, fun _ => b3 h⟩

/-- the part of a descriptor that `mr_reorder_strings` does not touch -/
def rest (pd : Pd) : Nat × Nat × Nat × Bool × MrType := (pd.parent, pd.next, pd.idx, pd.ref, pd.ty)

/-- how the descriptor of a string with the text holder `h`, shared first by `m`, looks after the strings `p` were
visited -/
def Looks (p : List Nat) (h m x : Nat) (pd0 pd : Pd) : Prop :=
  rest pd = rest pd0 ∧ kidsHead pd = 0 ∧
  if m ∈ p then
    if x = m then pd.cref = false
    else pd.cref = true ∧ (x = h → pd.firstChild = m) ∧ (x ≠ h → x ∈ p → pd.firstChild = m) ∧ (x ≠ h → x ∉ p → pd.firstChild = h)
  else pd = pd0

/-- the state after the strings `p` -/
def Inv (ra0 : List Pd) (S : List Nat) (p : List Nat) (s : List Pd × Unit) : Prop :=
  s.1.length = ra0.length ∧
  (∀ x, (x ∉ S ∨ isString ra0 x = false) → s.1[x]? = ra0[x]?) ∧
  (∀ x ∈ S, isString ra0 x = true → ∀ pd0, ra0[x]? = some pd0 →
    ∃ pd, s.1[x]? = some pd ∧ Looks p (holder ra0 x) (firstSharing ra0 S x) x pd0 pd)

theorem isString_some {ra : List Pd} {x : Nat} (h : isString ra x = true) : ∃ pd, ra[x]? = some pd ∧ pd.ty = .string := by
  unfold isString at h
  cases hx : ra[x]? with
  | none => rw [hx] at h; simp at h
  | some pd => rw [hx] at h; exact ⟨pd, rfl, by simpa using h⟩

theorem find_first {ra : List Pd} {S : List Nat} {x : Nat} (hx : x ∈ S) (hs : isString ra x = true) :
    firstSharing ra S x ∈ S ∧ isString ra (firstSharing ra S x) = true ∧ holder ra (firstSharing ra S x) = holder ra x := by
  unfold firstSharing
  cases h : S.find? (fun y => isString ra y && holder ra y == holder ra x) with
  | none =>
    have := List.find?_eq_none.1 h x hx
    simp [hs] at this
  | some m =>
    have h1 := List.find?_some h
    have h2 := List.mem_of_find?_eq_some h
    simp at h1
    exact ⟨h2, h1.1, h1.2⟩

theorem first_congr {ra : List Pd} {S : List Nat} {x y : Nat} (hx : x ∈ S) (hs : isString ra x = true) (h : holder ra x = holder ra y) :
    firstSharing ra S x = firstSharing ra S y := by
  unfold firstSharing
  rw [h]
  cases hf : S.find? (fun z => isString ra z && holder ra z == holder ra y) with
  | none =>
    have := List.find?_eq_none.1 hf x hx
    simp [hs, h] at this
  | some m => rfl

/-- no earlier string shares the text -/
theorem first_first {ra : List Pd} {S p q : List Nat} {x : Nat} (hS : S.filter (isString ra) = p ++ x :: q) (hnd : S.Nodup) :
    (firstSharing ra S x ∈ p ↔ firstSharing ra S x ≠ x) ∧
    (∀ y ∈ p, holder ra y = holder ra x → firstSharing ra S x ∈ p) := by
  have hmem : ∀ y, y ∈ p ++ x :: q → y ∈ S ∧ isString ra y = true := by
    intro y hy; rw [← hS] at hy; simpa using hy
  have hndf : (p ++ x :: q).Nodup := by rw [← hS]; exact hnd.filter _
  have hxp : x ∉ p := fun h => (List.nodup_append.1 hndf).2.2 x h x (by simp) rfl
  have hfe : firstSharing ra S x = ((p ++ x :: q).find? fun y => holder ra y == holder ra x).getD x := by
    unfold firstSharing
    rw [← hS, List.find?_filter]
    congr 2
    funext y
    cases isString ra y <;> cases h : (holder ra y == holder ra x) <;> simp [h]
  cases hp : p.find? (fun y => holder ra y == holder ra x) with
  | some m =>
    have h1 := List.mem_of_find?_eq_some hp
    have : firstSharing ra S x = m := by rw [hfe, List.find?_append, hp]; rfl
    rw [this]
    exact ⟨⟨fun _ h => hxp (h ▸ h1), fun _ => h1⟩, fun _ _ _ => h1⟩
  | none =>
    have hx : firstSharing ra S x = x := by rw [hfe, List.find?_append, hp]; simp
    rw [hx]
    refine ⟨⟨fun h => absurd h hxp, fun h => absurd rfl h⟩, fun y hy he => ?_⟩
    have := List.find?_eq_none.1 hp y hy
    simp [he] at this

theorem holder_facts {ra : List Pd} {S : List Nat} (hs : SharedStrings ra S) {x : Nat} (hx : x ∈ S) (hst : isString ra x = true) :
    ∃ pd h, ra[x]? = some pd ∧ pd.ty = .string ∧ holder ra x = h ∧ h ∈ S ∧ isString ra h = true ∧ holder ra h = h ∧
      (h = x → pd.cref = false) ∧ (h ≠ x → pd.cref = true ∧ pd.firstChild = h) ∧
      (h ≠ x → ∀ ph, ra[h]? = some ph → ph.cref = false ∧ ph.ref = false) := by
  obtain ⟨pd, h1, h2⟩ := isString_some hst
  cases hc : pd.cref with
  | false =>
    have hh : holder ra x = x := by unfold holder; rw [h1]; simp [hc]
    exact ⟨pd, x, h1, h2, hh, hx, hst, hh, fun _ => hc, fun h => absurd rfl h, fun h => absurd rfl h⟩
  | true =>
    have hh : holder ra x = pd.firstChild := by unfold holder; rw [h1]; simp [hc]
    obtain ⟨t1, hp, t2, t3, t4, t5⟩ := hs.target x hx pd h1 (Or.inl h2) hc
    have hne : pd.firstChild ≠ x := by
      intro h
      rw [h, h1] at t2
      cases t2
      rw [hc] at t4; simp at t4
    refine ⟨pd, pd.firstChild, h1, h2, hh, t1, ?_, ?_, fun h => absurd h hne, fun _ => ⟨hc, rfl⟩, fun _ ph hph => ?_⟩
    · unfold isString; rw [t2]; simp [t3]
    · unfold holder; rw [t2]; simp [t4]
    · rw [t2] at hph; cases hph; exact ⟨t4, t5⟩

theorem rest_eq {a b : Pd} (h : rest a = rest b) : a.parent = b.parent ∧ a.next = b.next ∧ a.idx = b.idx ∧ a.ref = b.ref ∧ a.ty = b.ty := by
  unfold rest at h
  simpa using h

theorem inv_init (ra : List Pd) (S : List Nat) (hs : SharedStrings ra S) : Inv ra S [] (ra, ()) := by
  refine ⟨rfl, fun x _ => rfl, fun x hx hst pd0 h0 => ⟨pd0, h0, rfl, ?_, by simp⟩⟩
  obtain ⟨pd, h1, h2⟩ := isString_some hst
  rw [h0] at h1; cases h1
  exact hs.leaf x hx _ h0 h2

theorem looks_same {p : List Nat} {i h m x : Nat} {pd0 pd : Pd} (hm : m ≠ i) (hx : x ≠ i) (hl : Looks p h m x pd0 pd) : Looks (p ++ [i]) h m x pd0 pd := by
  unfold Looks at *
  simpa [hm, hx] using hl

theorem step (ra0 : List Pd) (S : List Nat) (hs : SharedStrings ra0 S) (hnd : S.Nodup) (p : List Nat) (s : List Pd × Unit) (i : Nat) (l : Int) (q : List Nat)
    (hI : Inv ra0 S p s) (hP : isString ra0 i = true) (hS : S.filter (isString ra0) = p ++ i :: q) (hi : i ∈ S) :
    ∃ s', reorderStringsVisitor s i l .post = some (true, s') ∧ Inv ra0 S (p ++ [i]) s' ∧ Frame (fun _ => []) i .post s.1 s'.1 := by
  obtain ⟨I1, I2, I3⟩ := hI
  obtain ⟨pd0, h, e1, e2, e3, e4, e5, e6, e7, e8, e9⟩ := holder_facts hs hi hP
  obtain ⟨f1, f2, f3⟩ := find_first hi hP
  obtain ⟨g1, g2⟩ := first_first hS hnd
  have hndf : (p ++ i :: q).Nodup := by rw [← hS]; exact hnd.filter _
  have hip : i ∉ p := fun h => (List.nodup_append.1 hndf).2.2 i h i (by simp) rfl
  have hord : ∀ a ∈ p ++ i :: q, a ∈ S ∧ isString ra0 a = true := by
    intro y hy; rw [← hS] at hy; simpa using hy
  have hpw : (p ++ i :: q).Pairwise fun x y => ∀ a b, ra0[x]? = some a → ra0[y]? = some b → a.idx < b.idx := by
    rw [← hS]; exact hs.ids.filter _
  obtain ⟨pd, J1, J2, J3, J4⟩ := I3 i hi hP pd0 e1
  obtain ⟨r1, r2, r3, r4, r5⟩ := rest_eq J2
  -- other strings whose first sharer is not i look the same
  have hfi : ∀ y ∈ S, isString ra0 y = true → (firstSharing ra0 S y = i → holder ra0 y = holder ra0 i) := by
    intro y hy hsy he
    obtain ⟨_, _, a⟩ := find_first hy hsy
    rw [he] at a; exact a.symm
  have hty : pd.ty = .string := by rw [r5]; exact e2
  rw [e3] at J4
  by_cases hm : firstSharing ra0 S i ∈ p
  · -- the text was met before
    have hmi := g1.1 hm
    have hnf : ∀ y ∈ S, isString ra0 y = true → firstSharing ra0 S y ≠ i := by
      intro y hy hsy he
      have := first_congr hy hsy (hfi y hy hsy he)
      rw [he] at this
      exact hmi this.symm
    rw [if_pos hm, if_neg (Ne.symm hmi)] at J4
    obtain ⟨J5, J6, J7, J8⟩ := J4
    -- the first sharer
    obtain ⟨pm0, m1, m2⟩ := isString_some f2
    obtain ⟨pm, K1, K2, K3, K4⟩ := I3 _ f1 f2 pm0 m1
    have hfm : firstSharing ra0 S (firstSharing ra0 S i) = firstSharing ra0 S i := first_congr f1 f2 f3
    rw [hfm, if_pos hm, if_pos rfl] at K4
    have hidx : ¬ pd.idx < pm.idx := by
      have := (List.pairwise_append.1 hpw).2.2 _ hm i (by simp) pm0 pd0 m1 e1
      rw [r3, (rest_eq K2).2.2.1]
      omega
    have hnoop : ∀ s', s' = s → Inv ra0 S p s → (i = h ∨ h = firstSharing ra0 S i) →
        Inv ra0 S (p ++ [i]) s' := by
      intro s' hs' _ hor
      subst hs'
      refine ⟨I1, I2, fun y hy hsy py hpy => ?_⟩
      obtain ⟨py', y1, y2⟩ := I3 y hy hsy py hpy
      refine ⟨py', y1, ?_⟩
      by_cases hyi : y = i
      · subst hyi
        rw [J1] at y1; cases y1
        rw [e1] at hpy; cases hpy
        rw [e3]
        refine ⟨J2, J3, ?_⟩
        rw [if_pos (by simp [hm]), if_neg (Ne.symm hmi)]
        refine ⟨J5, J6, fun hne _ => ?_, fun _ hc => absurd (by simp) hc⟩
        rcases hor with h' | h'
        · exact absurd h' hne
        · rw [J8 hne hip, ← h']
      · exact looks_same (hnf y hy hsy) hyi y2
    have hframe0 : Frame (fun _ => []) i .post s.1 s.1 := ⟨rfl, fun _ _ _ => rfl, fun _ pd hp => ⟨pd, hp, rfl, rfl⟩⟩
    unfold reorderStringsVisitor
    simp only [J1, Option.bind_eq_bind, Option.bind_some, hty, J5, and_self, if_true]
    by_cases hih : i = h
    · rw [J6 hih, K1]
      simp only [Option.bind_some, K4, Bool.false_eq_true, if_false, hidx]
      exact ⟨s, rfl, hnoop s rfl ⟨I1, I2, I3⟩ (Or.inl hih), hframe0⟩
    · rw [J8 hih hip]
      by_cases hhm : h = firstSharing ra0 S i
      · rw [hhm, K1]
        simp only [Option.bind_some, K4, Bool.false_eq_true, if_false, hidx]
        exact ⟨s, rfl, hnoop s rfl ⟨I1, I2, I3⟩ (Or.inr hhm), hframe0⟩
      · obtain ⟨ph0, p1, p2⟩ := isString_some e5
        obtain ⟨ph, P1, P2, P3, P4⟩ := I3 h e4 e5 ph0 p1
        have hfh : firstSharing ra0 S h = firstSharing ra0 S i := first_congr e4 e5 (by rw [e6, e3])
        rw [hfh, e6, if_pos hm, if_neg hhm] at P4
        obtain ⟨P5, P6, _⟩ := P4
        rw [P1]
        simp only [Option.bind_some, P5, if_true, P6 rfl]
        obtain ⟨ra1, u1⟩ := upd_some (fun p => { p with firstChild := firstSharing ra0 S i }) J1
        obtain ⟨v1, v2, pd', v3, v4⟩ := upd_get u1
        rw [J1] at v3; cases v3
        rw [u1]
        refine ⟨(ra1, ()), rfl, ⟨by rw [v1]; exact I1, fun x hx => ?_, fun y hy hsy py hpy => ?_⟩, v1.symm, fun j _ hj => ?_, fun _ pd2 hp2 => ?_⟩
        · rw [v2 x ?_]
          · exact I2 x hx
          · rintro rfl
            rcases hx with hx | hx
            · exact hx hi
            · rw [hP] at hx; simp at hx
        · by_cases hyi : y = i
          · subst hyi
            rw [e1] at hpy; cases hpy
            refine ⟨_, v4, J2, ?_, ?_⟩
            · unfold kidsHead; simp [J5]
            · rw [if_pos (by simp [hm]), if_neg (Ne.symm hmi)]
              exact ⟨J5, fun _ => rfl, fun _ _ => rfl, fun _ hc => absurd (by simp) hc⟩
          · obtain ⟨py', y1, y2⟩ := I3 y hy hsy py hpy
            exact ⟨py', by rw [v2 y hyi]; exact y1, looks_same (hnf y hy hsy) hyi y2⟩
        · unfold SameAt; rw [v2 j hj]
        · rw [J1] at hp2; cases hp2
          exact ⟨_, v4, rfl, rfl⟩
  · -- the first string with this text
    have hmi : firstSharing ra0 S i = i := Classical.byContradiction fun hne => hm (g1.2 hne)
    have hpd : pd = pd0 := by rw [if_neg hm] at J4; exact J4
    subst hpd
    by_cases hih : h = i
    · -- it holds the text itself
      have hcf := e7 hih
      unfold reorderStringsVisitor
      simp only [J1, Option.bind_eq_bind, Option.bind_some, hcf, Bool.false_eq_true, and_false, if_false]
      refine ⟨s, rfl, ⟨I1, I2, fun y hy hsy py hpy => ?_⟩, rfl, fun _ _ _ => rfl, fun _ pd hp => ⟨pd, hp, rfl, rfl⟩⟩
      obtain ⟨py', y1, y2⟩ := I3 y hy hsy py hpy
      refine ⟨py', y1, ?_⟩
      by_cases hyi : y = i
      · subst hyi
        rw [J1] at y1; cases y1
        refine ⟨y2.1, J3, ?_⟩
        rw [hmi, if_pos (by simp), if_pos rfl]
        exact hcf
      · by_cases hyf : firstSharing ra0 S y = i
        · have hhy := hfi y hy hsy hyf
          obtain ⟨py0, h', z1, z2, z3, z4, z5, z6, z7, z8, z9⟩ := holder_facts hs hy hsy
          have hh' : h' = i := by rw [← z3, hhy, e3, hih]
          rw [hpy] at z1; cases z1
          have hyp : y ∉ p := fun hc => hm (g2 y hc hhy)
          obtain ⟨y3, y4, y5⟩ := y2
          rw [hyf, if_neg (by exact hip)] at y5
          subst y5
          obtain ⟨zc, zf⟩ := z8 (by rw [hh']; exact Ne.symm hyi)
          refine ⟨rfl, y4, ?_⟩
          rw [hyf, if_pos (by simp), if_neg hyi, z3, hh']
          exact ⟨zc, fun h => absurd h hyi, fun _ _ => by rw [zf, hh'], fun _ _ => by rw [zf, hh']⟩
        · exact looks_same hyf hyi y2
    · -- it takes over the text
      obtain ⟨cc, cf⟩ := e8 hih
      obtain ⟨ph0, p1, p2⟩ := isString_some e5
      obtain ⟨pc, pr⟩ := e9 hih ph0 p1
      have hhp : h ∉ p := fun hc => hm (g2 h hc (by rw [e6, e3]))
      have hfh : firstSharing ra0 S h = i :=
        (first_congr (y := i) e4 e5 (by rw [e6, e3])).trans hmi
      obtain ⟨ph, P1, P2, P3, P4⟩ := I3 h e4 e5 ph0 p1
      rw [hfh, if_neg hip] at P4
      subst P4
      have hhq : h ∈ q := by
        have : h ∈ S.filter (isString ra0) := by simp [e4, e5]
        rw [hS] at this
        rcases List.mem_append.1 this with h' | h'
        · exact absurd h' hhp
        · rcases List.mem_cons.1 h' with h' | h'
          · exact absurd h' hih
          · exact h'
      have hidx : pd.idx < ph.idx :=
        (List.pairwise_cons.1 (List.pairwise_append.1 hpw).2.1).1 h hhq pd ph e1 p1
      unfold reorderStringsVisitor
      simp only [J1, Option.bind_eq_bind, Option.bind_some, hty, cc, and_self, if_true, cf, P1, pc, Bool.false_eq_true, if_false, hidx]
      obtain ⟨ra1, u1⟩ := upd_some (fun p => { p with firstChild := 0, cref := false, refd := true }) J1
      obtain ⟨v1, v2, pd', v3, v4⟩ := upd_get u1
      rw [J1] at v3; cases v3
      have hh1 : ra1[h]? = some ph := by rw [v2 h hih]; exact P1
      obtain ⟨ra2, w1⟩ := upd_some (fun p => { p with firstChild := i, cref := true, refd := false }) hh1
      obtain ⟨x1, x2, ph', x3, x4⟩ := upd_get w1
      rw [hh1] at x3; cases x3
      rw [u1]
      simp only [Option.bind_some, w1]
      have hold : ∀ j, j ≠ i → j ≠ h → ra2[j]? = s.1[j]? := fun j h1 h2 => by rw [x2 j h2, v2 j h1]
      have hi2 : ra2[i]? = some { pd with firstChild := 0, cref := false, refd := true } := by rw [x2 i (Ne.symm hih)]; exact v4
      refine ⟨(ra2, ()), rfl, ⟨by rw [x1, v1]; exact I1, fun x hx => ?_, fun y hy hsy py hpy => ?_⟩, by rw [x1, v1], fun j _ hj => ?_, fun _ pd2 hp2 => ?_⟩
      · have n1 : x ≠ i := by
          rintro rfl
          rcases hx with hx | hx
          · exact hx hi
          · rw [hP] at hx; simp at hx
        have n2 : x ≠ h := by
          rintro rfl
          rcases hx with hx | hx
          · exact hx e4
          · rw [e5] at hx; simp at hx
        rw [hold x n1 n2]; exact I2 x hx
      · by_cases hyi : y = i
        · subst hyi
          rw [e1] at hpy; cases hpy
          have hrefi : kidsHead pd = 0 := J3
          refine ⟨_, hi2, rfl, ?_, ?_⟩
          · unfold kidsHead; simp
          · rw [hmi, if_pos (by simp), if_pos rfl]
        · by_cases hyh : y = h
          · subst hyh
            rw [p1] at hpy; cases hpy
            refine ⟨_, x4, rfl, ?_, ?_⟩
            · unfold kidsHead; simp
            · rw [hfh, if_pos (by simp), if_neg hyi, e6]
              exact ⟨rfl, fun _ => rfl, fun h => absurd rfl h, fun h => absurd rfl h⟩
          · obtain ⟨py', y1, y2⟩ := I3 y hy hsy py hpy
            refine ⟨py', by rw [hold y hyi hyh]; exact y1, ?_⟩
            by_cases hyf : firstSharing ra0 S y = i
            · have hhy := hfi y hy hsy hyf
              obtain ⟨py0, h', z1, z2, z3, z4, z5, z6, z7, z8, z9⟩ := holder_facts hs hy hsy
              have hh' : h' = h := by rw [← z3, hhy, e3]
              rw [hpy] at z1; cases z1
              have hyp : y ∉ p := fun hc => hm (g2 y hc hhy)
              obtain ⟨y3, y4, y5⟩ := y2
              rw [hyf, if_neg hip] at y5
              subst y5
              obtain ⟨zc, zf⟩ := z8 (by rw [hh']; exact Ne.symm hyh)
              refine ⟨rfl, y4, ?_⟩
              rw [hyf, if_pos (by simp), if_neg hyi, z3, hh']
              refine ⟨zc, fun h => absurd h hyh, fun _ hc => ?_, fun _ _ => by rw [zf, hh']⟩
              simp [hyp, hyi] at hc
            · exact looks_same hyf hyi y2
      · by_cases hjh : j = h
        · subst hjh
          unfold SameAt
          rw [x4, P1]
          simp only [Option.map_some, linkPart]
          have : kidsHead ph = 0 := P3
          rw [this]
          have h2 : kidsHead { ph with firstChild := i, cref := true, refd := false } = 0 := by unfold kidsHead; simp
          rw [h2]
        · unfold SameAt; rw [hold j hj hjh]
      · rw [J1] at hp2; cases hp2
        exact ⟨_, hi2, rfl, rfl⟩

end Verif.Lemmas.Reorder
