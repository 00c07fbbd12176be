import Verif.Lemmas.Reorder
import Verif.Props.Dfs
/-!
# C49: `mr_reorder_strings`

Strings with a common text are saved once; the other nodes refer to the node that holds the text.
`holder ra x` is that node, `firstSharing ra l x` the first string of `l` with the text of `x`
(Spec/Ptrs.lean).
-/
namespace Verif.Props.Reorder
open Verif.Model Verif.Model.Ptrs Verif.Spec.Ptrs Verif.Lemmas.Dfs Verif.Lemmas.Prune Verif.Lemmas.Reorder

theorem leafStr_of {ra : List Pd} {S : List Nat} (hs : SharedStrings ra S) (f : Forest) : ∀ {p h : Nat}, Rep ra p h f → (∀ x ∈ f.nodes, x ∈ S) →
    LeafStr (isString ra) f := by
  induction f with
  | nil => intro p h _ _; trivial
  | cons i k s ih1 ih2 =>
    intro p h hr hm
    obtain ⟨_, _, pd, h1, _, h3, h4⟩ := hr
    refine ⟨fun hi => ?_, ih1 h3 fun x hx => hm x (by simp [Forest.nodes, hx]), ih2 h4 fun x hx => hm x (by simp [Forest.nodes, hx])⟩
    obtain ⟨pd', h5, h6⟩ := isString_some hi
    rw [h1] at h5; cases h5
    have := hs.leaf i (hm i (by simp [Forest.nodes])) pd h1 h6
    rw [this] at h3
    exact (rep_nil_iff h3).1 rfl

theorem rep_ne_zero {ra : List Pd} {f : Forest} : ∀ {p h : Nat}, Rep ra p h f → ∀ j ∈ f.nodes, j ≠ 0 := by
  induction f with
  | nil => intro p h _ j hj; simp [Forest.nodes] at hj
  | cons i k s ih1 ih2 =>
    intro p h hr j hj
    obtain ⟨h1, h2, pd, h3, h4, h5, h6⟩ := hr
    simp only [Forest.nodes, List.mem_cons, List.mem_append] at hj
    rcases hj with rfl | hj | hj
    · exact h2
    · exact ih1 h5 j hj
    · exact ih2 h6 j hj

/-- the second loop -/
theorem pointers_ok (n : Nat) : ∀ (ra : List Pd) (i : Nat), i + n ≤ ra.length →
    (∀ (x : Nat) (pd : Pd), i ≤ x → ra[x]? = some pd → pd.ty = .pointer → pd.cref = true → ∃ t : Pd, ra[pd.firstChild]? = some t ∧ t.ty = .string) →
    ∃ ra', reorderPointers n ra i = some ra' ∧ ra'.length = ra.length ∧
      ∀ (x : Nat) (pd : Pd), ra[x]? = some pd → ra'[x]? =
        some (if i ≤ x ∧ x < i + n ∧ pd.ty = .pointer ∧ pd.cref = true then { pd with firstChild := holder ra pd.firstChild } else pd) := by
  induction n with
  | zero =>
    intro ra i _ _
    refine ⟨ra, rfl, rfl, fun x pd hx => ?_⟩
    rw [if_neg (by omega)]; exact hx
  | succ n ih =>
    intro ra i hle ht
    obtain ⟨pd, hpd⟩ : ∃ pd, ra[i]? = some pd := ⟨ra[i], List.getElem?_eq_getElem (by omega)⟩
    rw [reorderPointers]
    simp only [hpd, Option.bind_eq_bind, Option.bind_some]
    have hskip : ¬ (pd.ty = .pointer ∧ pd.cref = true ∧ ∃ t, ra[pd.firstChild]? = some t ∧ t.cref = true) →
        ∃ ra', reorderPointers n ra (i + 1) = some ra' ∧ ra'.length = ra.length ∧
          ∀ (x : Nat) (pd : Pd), ra[x]? = some pd → ra'[x]? =
          some (if i ≤ x ∧ x < i + (n + 1) ∧ pd.ty = .pointer ∧ pd.cref = true then { pd with firstChild := holder ra pd.firstChild } else pd) := by
      intro hno
      obtain ⟨ra', h1, h2, h3⟩ := ih ra (i + 1) (by omega) (fun x p hx => ht x p (by omega))
      refine ⟨ra', h1, h2, fun x p hx => ?_⟩
      rw [h3 x p hx]
      by_cases hxi : x = i
      · subst hxi
        rw [hpd] at hx; cases hx
        rw [if_neg (by omega)]
        by_cases hc : pd.ty = .pointer ∧ pd.cref = true
        · rw [if_pos ⟨by omega, by omega, hc⟩]
          obtain ⟨t, t1, t2⟩ := ht _ pd (Nat.le_refl _) hpd hc.1 hc.2
          have : holder ra pd.firstChild = pd.firstChild := by
            unfold holder
            rw [t1]
            simp only
            rw [if_neg]
            intro hcr
            exact hno ⟨hc.1, hc.2, t, t1, hcr⟩
          rw [this]
        · rw [if_neg (fun h => hc h.2.2)]
      · by_cases hc : i + 1 ≤ x ∧ x < i + 1 + n ∧ p.ty = .pointer ∧ p.cref = true
        · rw [if_pos hc, if_pos ⟨by omega, by omega, hc.2.2⟩]
        · rw [if_neg hc, if_neg (fun h => hc ⟨by omega, by omega, h.2.2⟩)]
    by_cases hc : pd.ty = .pointer ∧ pd.cref = true
    · obtain ⟨t, t1, t2⟩ := ht _ pd (Nat.le_refl _) hpd hc.1 hc.2
      simp only [if_pos hc, t1, Option.bind_some]
      by_cases hcr : t.cref = true
      · rw [if_pos hcr]
        obtain ⟨ra1, u1⟩ := upd_some (fun p => { p with firstChild := t.firstChild }) hpd
        obtain ⟨v1, v2, pd', v3, v4⟩ := upd_get u1
        rw [hpd] at v3; cases v3
        have hne : pd.firstChild ≠ i := by
          intro h
          rw [h, hpd] at t1; cases t1
          rw [hc.1] at t2; cases t2
        -- strings are untouched
        have hstr : ∀ (x : Nat) (p : Pd), ra[x]? = some p → p.ty = MrType.string → ra1[x]? = some p := by
          intro x p hx hp
          rw [v2 x, hx]
          rintro rfl
          rw [hpd] at hx; cases hx
          rw [hc.1] at hp; cases hp
        have hho : ∀ (x : Nat) (p : Pd), ra[x]? = some p → p.ty = MrType.string → holder ra1 x = holder ra x := by
          intro x p hx hp
          unfold holder
          rw [hstr x p hx hp, hx]
        obtain ⟨ra', h1, h2, h3⟩ := ih ra1 (i + 1) (by omega) (by
          intro x p hxi hx hp1 hp2
          rw [v2 x (by omega)] at hx
          obtain ⟨t', w1, w2⟩ := ht x p (by omega) hx hp1 hp2
          exact ⟨t', hstr _ _ w1 w2, w2⟩)
        refine ⟨ra', by rw [u1]; exact h1, by rw [h2, v1], fun x p hx => ?_⟩
        by_cases hxi : x = i
        · subst hxi
          rw [hpd] at hx; cases hx
          rw [h3 _ _ v4, if_neg (by omega), if_pos ⟨by omega, by omega, hc⟩]
          have : holder ra pd.firstChild = t.firstChild := by unfold holder; rw [t1]; simp [hcr]
          rw [this]
        · rw [h3 x p (by rw [v2 x hxi]; exact hx)]
          by_cases hcc : i + 1 ≤ x ∧ x < i + 1 + n ∧ p.ty = .pointer ∧ p.cref = true
          · rw [if_pos hcc, if_pos ⟨by omega, by omega, hcc.2.2⟩]
            obtain ⟨t', w1, w2⟩ := ht x p (by omega) hx hcc.2.2.1 hcc.2.2.2
            rw [hho _ _ w1 w2]
          · rw [if_neg hcc, if_neg (fun h => hcc ⟨by omega, by omega, h.2.2⟩)]
      · rw [if_neg hcr]
        exact hskip (fun h => by
          obtain ⟨_, _, t', w1, w2⟩ := h
          rw [t1] at w1; cases w1
          exact hcr w2)
    · simp only [if_neg hc]
      exact hskip (fun h => hc ⟨h.1, h.2.1⟩)

/-- **C49.** After `mr_reorder_strings` of any saved tree the text of every string is held by the first string
(in document order) that shares it; pointers to the text refer to that string as well.  The shape of the
tree, ids, types and all nodes other than strings and pointers to text are unchanged. -/
theorem C49_first_holds_text (ra : List Pd) (k : Forest) (h : Rep ra 0 1 (.cons 1 k .nil)) (hn : (1 :: k.nodes).Nodup)
    (hs : SharedStrings ra (1 :: k.nodes)) :
    ∃ ra', reorderStrings ra = some ra' ∧ ra'.length = ra.length ∧ Rep ra' 0 1 (.cons 1 k .nil) ∧
      (∀ x ∈ 1 :: k.nodes, isString ra x = true → holder ra' x = firstSharing ra (1 :: k.nodes) x) ∧
      (∀ (x : Nat) (pd : Pd), ra[x]? = some pd → pd.ty = .pointer → pd.cref = true →
        holder ra' x = firstSharing ra (1 :: k.nodes) pd.firstChild) ∧
      (∀ (x : Nat) (pd : Pd), ra[x]? = some pd → ∃ pd', ra'[x]? = some pd' ∧ pd'.parent = pd.parent ∧ pd'.next = pd.next ∧ pd'.idx = pd.idx ∧
        pd'.ref = pd.ref ∧ pd'.ty = pd.ty) ∧
      (∀ (x : Nat) (pd : Pd), ra[x]? = some pd → ¬ (x ∈ 1 :: k.nodes ∧ pd.ty = .string) → ¬ (pd.ty = .pointer ∧ pd.cref = true) → ra'[x]? = some pd) := by
  generalize hS : (1 :: k.nodes) = S at *
  have hnodes : (Forest.cons 1 k .nil).nodes = S := by simp [Forest.nodes, hS]
  have h' := h
  obtain ⟨_, h0, pd1, h1, h2, h3, h4⟩ := h'
  obtain ⟨⟨ra1, u⟩, a1, a2, a3⟩ := leafwise reorderStringsVisitor (isString ra) S (Inv ra S) (fun _ _ _ => rfl)
    (fun p s i l hI hP hi => by
      obtain ⟨I1, I2, I3⟩ := hI
      unfold reorderStringsVisitor
      rw [I2 i (Or.inr hP)]
      have hlt : i < ra.length := rep_range h i (by rw [hnodes]; exact hi)
      have hty : ¬ (ra[i].ty = .string) := by
        intro hc
        unfold isString at hP
        rw [List.getElem?_eq_getElem hlt] at hP
        simp [hc] at hP
      rw [List.getElem?_eq_getElem hlt]
      simp [hty])
    (fun p s i l q hI hP hSS hi => step ra S hs hn p s i l q hI hP hSS hi)
    (.cons 1 k .nil) [] [] (ra, ()) 0 [] (inv_init ra S hs) (leafStr_of hs _ h (fun x hx => by rw [← hnodes]; exact hx))
    (fun x hx => by rw [← hnodes]; exact hx) (by simp [hnodes])
  rw [List.append_nil] at a1 a3
  rw [List.nil_append, hnodes] at a2
  have hd := dfs_eq reorderStringsVisitor (fun _ => []) 1 (ra, ()) k pd1 h0 h1 h3 (fun _ => ⟨h2, h4⟩) (by rw [hS]; exact hn)
    (within_nil _) (a3 trivial)
  rw [a1] at hd
  obtain ⟨I1, I2, I3⟩ := a2
  simp only at I1 I2 I3
  -- strings after the walk
  have hall : ∀ x ∈ S, isString ra x = true → ∀ pd0, ra[x]? = some pd0 → ∃ pd, ra1[x]? = some pd ∧ rest pd = rest pd0 ∧ kidsHead pd = 0 ∧
      (if x = firstSharing ra S x then pd.cref = false else pd.cref = true ∧ pd.firstChild = firstSharing ra S x) := by
    intro x hx hsx pd0 hp0
    obtain ⟨pd, b1, b2, b3, b4⟩ := I3 x hx hsx pd0 hp0
    obtain ⟨f1, f2, f3⟩ := find_first hx hsx
    rw [if_pos (by simp [f1, f2])] at b4
    refine ⟨pd, b1, b2, b3, ?_⟩
    by_cases hxm : x = firstSharing ra S x
    · rw [if_pos hxm] at b4 ⊢; exact b4
    · rw [if_neg hxm] at b4 ⊢
      obtain ⟨c1, c2, c3, c4⟩ := b4
      refine ⟨c1, ?_⟩
      by_cases hxh : x = holder ra x
      · exact c2 hxh
      · exact c3 hxh (by simp [hx, hsx])
  have hhold : ∀ x ∈ S, isString ra x = true → holder ra1 x = firstSharing ra S x := by
    intro x hx hsx
    obtain ⟨pd0, p1, _⟩ := isString_some hsx
    obtain ⟨pd, b1, _, _, b4⟩ := hall x hx hsx pd0 p1
    unfold holder
    rw [b1]
    simp only
    by_cases hxm : x = firstSharing ra S x
    · rw [if_pos hxm] at b4; rw [if_neg (by simp [b4])]; exact hxm
    · rw [if_neg hxm] at b4; rw [if_pos b4.1]; exact b4.2
  have hother : ∀ (x : Nat) (pd : Pd), ra[x]? = some pd → pd.ty ≠ .string → ra1[x]? = some pd := by
    intro x pd hx ht
    rw [I2 x (Or.inr ?_), hx]
    unfold isString; rw [hx]; simpa using ht
  have hrest : ∀ (x : Nat) (pd : Pd), ra[x]? = some pd → ∃ pd', ra1[x]? = some pd' ∧ rest pd' = rest pd := by
    intro x pd hx
    by_cases hxs : x ∈ S ∧ isString ra x = true
    · obtain ⟨pd', b1, b2, _⟩ := hall x hxs.1 hxs.2 pd hx
      exact ⟨pd', b1, b2⟩
    · refine ⟨pd, ?_, rfl⟩
      rw [I2 x ?_, hx]
      by_cases hx1 : x ∈ S
      · right
        cases hb : isString ra x with
        | false => rfl
        | true => exact absurd ⟨hx1, hb⟩ hxs
      · exact Or.inl hx1
  have htarget : ∀ (x : Nat) (pd : Pd), ra1[x]? = some pd → pd.ty = .pointer → pd.cref = true →
      ra[x]? = some pd ∧ pd.firstChild ∈ S ∧ isString ra pd.firstChild = true := by
    intro x pd hx hty hcr
    have hlt : x < ra.length := by
      have := (List.getElem?_eq_some_iff.1 hx).1; omega
    obtain ⟨pd', q1, q2⟩ := hrest x _ (List.getElem?_eq_getElem hlt)
    rw [hx] at q1; cases q1
    have hty0 : ra[x].ty = .pointer := by rw [← (rest_eq q2).2.2.2.2]; exact hty
    have hx0 := hother x _ (List.getElem?_eq_getElem hlt) (by rw [hty0]; simp)
    rw [hx] at hx0
    have hx1 : ra[x]? = some pd := by rw [List.getElem?_eq_getElem hlt]; exact hx0.symm
    have hmem : x ∈ S := Classical.byContradiction fun hc => hs.outside x pd hx1 hc ⟨hty, hcr⟩
    obtain ⟨t1, ht, t2, t3, t4, t5⟩ := hs.target x hmem pd hx1 (Or.inr hty) hcr
    exact ⟨hx1, t1, by unfold isString; rw [t2]; simp [t3]⟩
  have hlen : 0 < ra.length := by
    have := (List.getElem?_eq_some_iff.1 h1).1; omega
  obtain ⟨ra', c1, c2, c3⟩ := pointers_ok (ra1.length - 1) ra1 1 (by omega) (by
    intro x pd _ hx hty hcr
    obtain ⟨_, d2, d3⟩ := htarget x pd hx hty hcr
    obtain ⟨p0, e1, e2⟩ := isString_some d3
    obtain ⟨p', e3, e4, _⟩ := hall _ d2 d3 p0 e1
    exact ⟨p', e3, by rw [(rest_eq e4).2.2.2.2]; exact e2⟩)
  have hstr' : ∀ x ∈ S, isString ra x = true → ra'[x]? = ra1[x]? := by
    intro x hx hsx
    obtain ⟨p0, e1, e2⟩ := isString_some hsx
    obtain ⟨p', e3, e4, _⟩ := hall _ hx hsx p0 e1
    rw [c3 x p' e3, e3, if_neg]
    rw [(rest_eq e4).2.2.2.2, e2]; simp
  refine ⟨ra', ?_, by rw [c2, I1], ?_, ?_, ?_, ?_, ?_⟩
  · unfold reorderStrings
    rw [hd]
    exact c1
  · refine rep_same h fun j hj => ?_
    rw [hnodes] at hj
    have hlt := rep_range h j (by rw [hnodes]; exact hj)
    have hj0 := List.getElem?_eq_getElem hlt
    unfold SameAt
    by_cases hsj : isString ra j = true
    · obtain ⟨p', e3, e4, e5, _⟩ := hall j hj hsj _ hj0
      rw [hstr' j hj hsj, e3, hj0]
      obtain ⟨p0, e1, e2⟩ := isString_some hsj
      rw [hj0] at e1; cases e1
      have := hs.leaf j hj _ hj0 e2
      simp only [Option.map_some, linkPart, (rest_eq e4).1, (rest_eq e4).2.1, e5, this]
    · have : ra[j].ty ≠ .string := by
        intro hc; apply hsj; unfold isString; rw [hj0]; simp [hc]
      rw [c3 j _ (hother j _ hj0 this), hj0]
      split
      · rename_i hc
        simp only [Option.map_some, linkPart, kidsHead, hc.2.2.2, Bool.or_true, if_true]
      · rfl
  · intro x hx hsx
    rw [← hhold x hx hsx]
    unfold holder
    rw [hstr' x hx hsx]
  · intro x pd hx hty hcr
    have hx1 := hother x pd hx (by rw [hty]; simp)
    obtain ⟨_, d2, d3⟩ := htarget x pd hx1 hty hcr
    have hx0 : x ≠ 0 := by
      rintro rfl
      have hm : 0 ∈ S := Classical.byContradiction fun hc => hs.outside 0 pd hx hc ⟨hty, hcr⟩
      rw [← hnodes] at hm
      exact rep_ne_zero h 0 hm rfl
    have hlt := (List.getElem?_eq_some_iff.1 hx1).1
    have := c3 x pd hx1
    rw [if_pos ⟨by omega, by omega, hty, hcr⟩, hhold _ d2 d3] at this
    unfold holder
    rw [this]
    simp [hcr]
  · intro x pd hx
    obtain ⟨pd', q1, q2⟩ := hrest x pd hx
    obtain ⟨r1, r2, r3, r4, r5⟩ := rest_eq q2
    refine ⟨_, c3 x pd' q1, ?_⟩
    split
    · exact ⟨r1, r2, r3, r4, r5⟩
    · exact ⟨r1, r2, r3, r4, r5⟩
  · intro x pd hx hns hnp
    have hx1 : ra1[x]? = some pd := by
      rw [I2 x ?_, hx]
      by_cases hm : x ∈ S
      · right
        unfold isString
        rw [hx]
        simp only [Option.map_some, Option.some.injEq, decide_eq_false_iff_not]
        exact fun hc => hns ⟨hm, hc⟩
      · exact Or.inl hm
    rw [c3 x pd hx1, if_neg (fun h => hnp h.2.2)]

/-- **C49.** So a document that is read from start to end never refers to a text it has not seen yet: the first
sharing string comes before all others. -/
theorem C49_no_forward_reference (ra : List Pd) (l : List Nat) (x : Nat) (hx : x ∈ l) (hst : isString ra x = true)
    (hs : SharedStrings ra l) (a b : Pd) (ha : ra[firstSharing ra l x]? = some a) (hb : ra[x]? = some b) :
    a.idx ≤ b.idx ∧ (firstSharing ra l x ≠ x → a.idx < b.idx) := by
  have hmain : firstSharing ra l x = x ∨ ∃ p q, l = p ++ firstSharing ra l x :: q ∧ x ∈ q := by
    unfold firstSharing
    cases hf : l.find? (fun y => isString ra y && holder ra y == holder ra x) with
    | none =>
      have := List.find?_eq_none.1 hf x hx
      simp [hst] at this
    | some m =>
      obtain ⟨h1, p, q, h2, h3⟩ := List.find?_eq_some_iff_append.1 hf
      simp only [Option.getD_some]
      rw [h2] at hx
      rcases List.mem_append.1 hx with h4 | h4
      · have := h3 x h4
        simp [hst] at this
      · rcases List.mem_cons.1 h4 with h4 | h4
        · exact Or.inl h4.symm
        · exact Or.inr ⟨p, q, h2, h4⟩
  rcases hmain with h | ⟨p, q, h1, h2⟩
  · rw [h, hb] at ha; cases ha
    exact ⟨Nat.le_refl _, fun h' => absurd h h'⟩
  · have hp := hs.ids
    have : a.idx < b.idx := by
      generalize firstSharing ra l x = m at *
      rw [h1] at hp
      exact (List.pairwise_cons.1 (List.pairwise_append.1 hp).2.1).1 x h2 a b ha hb
    exact ⟨by omega, fun _ => this⟩

/-- `struct (2: string, 3: pointer to the text, 4: string that holds the text, 5: pointer to the string 4 itself)` -/
def sample : List Pd :=
  [{}, { firstChild := 2, ty := .struct, idx := 1 }, { parent := 1, next := 3, ty := .string, cref := true, firstChild := 4, idx := 2 },
   { parent := 1, next := 4, ty := .pointer, cref := true, firstChild := 4, idx := 3 },
   { parent := 1, next := 5, ty := .string, refd := true, idx := 4 },
   { parent := 1, ty := .pointer, ref := true, firstChild := 4, idx := 5 }]

/-- **C49, deviation.** The former holder is no more marked as referenced although a pointer to the string
variable itself still refers to it, so it is written without the id that the reference names. -/
theorem C49_deviation_lost_mark :
    (reorderStrings sample).map (fun ra => (ra[4]?.map Pd.refd, ra[5]?.map fun pd => (pd.ref, pd.firstChild))) =
      some (some false, some (true, 4)) := by decide +kernel

/-! non-vacuity -/
example : Rep sample 0 1 (.cons 1 (.cons 2 .nil (.cons 3 .nil (.cons 4 .nil (.cons 5 .nil .nil)))) .nil) := by
  simp [Rep, sample, kidsHead]
example : SharedStrings sample [1, 2, 3, 4, 5] where
  ids := by
    simp [sample]
  leaf := by
    intro x hx pd hp hs
    simp at hx
    rcases hx with rfl | rfl | rfl | rfl | rfl <;> (simp [sample] at hp; subst hp; simp_all [kidsHead])
  target := by
    intro x hx pd hp hs hc
    simp at hx
    rcases hx with rfl | rfl | rfl | rfl | rfl <;> (simp [sample] at hp; subst hp; simp_all [sample])
  outside := by
    intro x pd hp hx
    match x with
    | 0 => simp [sample] at hp; subst hp; simp
    | 1 | 2 | 3 | 4 | 5 => simp at hx
    | x + 6 => simp [sample] at hp
example : firstSharing sample [1, 2, 3, 4, 5] 4 = 2 ∧ holder sample 2 = 4 := by decide

end Verif.Props.Reorder
