import Verif.Lemmas.SaveInv
/-!
The steps of `mr_save` keep the invariant.
-/
namespace Verif.Lemmas.SaveStep
open Verif.Model Verif.Model.Ptrs Verif.Model.Save Verif.Spec.Ptrs Verif.Spec.Save Verif.Lemmas.SaveTree Verif.Lemmas.SaveInv

variable {mem : Mem} {tds : List Td} {U : Prop} {root : Obj} {P : Nat → Pd} {I : Nat → Info} {index : Nat → Nat} {n : Nat}
    {ks : Nat → List Nat} {obj : Nat → Obj} {O : Nat → Option Nat} {S : Nat → Prop}

theorem seen_congr {pd pd' : Pd} {x : Info} {o : Obj} {s : Prop} (h : Seen mem tds pd x o s) (h1 : pd'.ty = pd.ty) (h2 : pd'.cref = pd.cref) (h3 : pd'.parent = pd.parent) :
    Seen mem tds pd' x o s :=
  ⟨h.addr, by rw [h1]; exact h.ty, h.ok, h.norm, h.aux, h.td, h.size, by rw [h2]; exact h.cref, by rw [h3]; exact h.np, h.opq, h.null, h.psize, h.eaux, h.unset⟩

/-- the other members of a node change -/
theorem inv_info (h : InvF mem tds U root P I index n ks obj O S) {i : Nat} {x : Info}
    (hs : Seen mem tds (P i) x (obj i) (S i)) (hn : x.nextUntyped = (I i).nextUntyped) (hz : plain (obj i).ty = true → x.size = (I i).size)
    (hfd : 1 < i → (obj (P i).parent).ty = .struct → x.fd = (I i).fd)
    (hfx : ∀ (p j : Nat) (f : Fd), 1 ≤ p → p < n → (obj p).ty = .struct → (ks p)[j]? = some i → (members tds (obj p))[j]? = some f →
      Fixed f x) (hun : x.unnamed = (I i).unnamed) :
    InvF mem tds U root P (updF I i x) index n ks obj O S := by
  refine ⟨h.pos, h.tree, ?_, h.filled, h.rootObj, ?_, ?_, h.bhead, h.uniq, h.mark, ?_, ?_, ?_, ?_⟩
  · intro j h1 h2
    by_cases hj : j = i
    · subst hj; rw [updF_same]; exact hs
    · rw [updF_ne _ _ hj]; exact h.seen j h1 h2
  · intro c h1 h2 h3 h4
    by_cases hj : c = i
    · subst hj; rw [updF_same, hz h4]; exact h.kidsize c h1 h2 h3 h4
    · rw [updF_ne _ _ hj]; exact h.kidsize c h1 h2 h3 h4
  · intro j h1 h2
    by_cases hj : j = i
    · subst hj; rw [updF_same, hn]; exact h.bnext j h1 h2
    · rw [updF_ne _ _ hj]; exact h.bnext j h1 h2
  · intro j h1 h2 h3 m c h4
    by_cases hj : c = i
    · subst hj
      obtain ⟨_, _, h5, _, h6⟩ := h.tree.own j c (List.mem_of_getElem? h4)
      rw [updF_same, hfd h5 (by rw [h6]; exact h3)]
      exact h.names j h1 h2 h3 m c h4
    · rw [updF_ne _ _ hj]; exact h.names j h1 h2 h3 m c h4
  · intro h1 h2
    by_cases hj : 1 = i
    · subst hj; rw [updF_same, hz h2]; exact h.rsize h1 h2
    · rw [updF_ne _ _ hj]; exact h.rsize h1 h2
  · intro p h1 h2 h3 j c f h4 h5
    by_cases hj : c = i
    · subst hj; rw [updF_same]; exact hfx p j f h1 h2 h3 h4 h5
    · rw [updF_ne _ _ hj]; exact h.fixed p h1 h2 h3 j c f h4 h5
  · intro j h1 h2
    by_cases hj : j = i
    · subst hj; rw [updF_same, hun]; exact h.unnamed j h1 h2
    · rw [updF_ne _ _ hj]; exact h.unnamed j h1 h2

/-- a node is finished -/
theorem inv_stack (h : InvF mem tds U root P I index n ks obj O S) {m : Nat} {S' : Nat → Prop} (hS : ∀ i, i ≠ m → (S' i ↔ S i))
    (hm : Seen mem tds (P m) (I m) (obj m) (S' m)) : InvF mem tds U root P I index n ks obj O S' := by
  refine ⟨h.pos, h.tree, ?_, h.filled, h.rootObj, h.kidsize, h.bnext, h.bhead, h.uniq, h.mark, h.names, h.rsize, h.fixed, h.unnamed⟩
  intro j h1 h2
  by_cases hj : j = m
  · subst hj; exact hm
  · have : S' j = S j := propext (hS j hj)
    rw [this]; exact h.seen j h1 h2

theorem inv_status (h : InvF mem tds U root P I index n ks obj O S) {i : Nat} {k : Option Nat} (hf : Filled mem tds P n ks obj i k) :
    InvF mem tds U root P I index n ks obj (updF O i k) S := by
  refine ⟨h.pos, h.tree, h.seen, ?_, h.rootObj, h.kidsize, h.bnext, h.bhead, h.uniq, h.mark, h.names, h.rsize, h.fixed, h.unnamed⟩
  intro j h1 h2
  by_cases hj : j = i
  · subst hj; rw [updF_same]; exact hf
  · rw [updF_ne _ _ hj]; exact h.filled j h1 h2

/-- a reference leads to a node -/
theorem ref_range (h : InvF mem tds U root P I index n ks obj O S) {i : Nat} (h1 : 1 ≤ i) (h2 : i < n) (hr : (P i).ref = true) :
    1 ≤ (P i).firstChild ∧ (P i).firstChild < n := by
  have hf := h.filled i h1 h2
  unfold Filled at hf
  rw [hr] at hf
  split at hf
  · split at hf
    · exact absurd hf.2.2 (by simp)
    · split at hf
      · exact absurd hf.2 (by simp)
      · exact ⟨hf.1, hf.2.1⟩
  · exact absurd hf.1 (by simp)

/-- a node that is not yet saved completely is no reference -/
theorem open_ref (h : InvF mem tds U root P I index n ks obj O S) {p k : Nat} (h1 : 1 ≤ p) (h2 : p < n) (hO : O p = some k) :
    (P p).ref = false := by
  have := h.filled p h1 h2
  unfold Filled at this
  rw [hO] at this
  split at this
  · exact this.2.2
  · exact this.1

theorem ks_out (h : Tree P n ks) {i : Nat} (hi : n ≤ i) : ks i = [] := by
  cases hk : ks i with
  | nil => rfl
  | cons x l =>
    have := (h.own i x (by rw [hk]; simp)).2.1
    omega

theorem anc_lt {P' : Nat → Pd} {a x : Nat} (hc : Closed P' n) (h : Anc P' a x) (hx : x < n) : a < n := by
  induction h with
  | self => exact hx
  | up h1 _ ih => exact ih (hc _ h1 hx)

theorem dep_congr {P' : Nat → Pd} (hc : Closed P n) (heq : ∀ j, 1 < j → j < n → (P' j).parent = (P j).parent) {x k : Nat} (h : Dep P x k) (hx : x < n) : Dep P' x k := by
  induction h with
  | root => exact Dep.root
  | up h1 _ ih =>
    refine Dep.up h1 ?_
    rw [heq _ h1 hx]
    exact ih (hc _ h1 hx)

theorem anc_congr {P' : Nat → Pd} (hc : Closed P n) (heq : ∀ j, 1 < j → j < n → (P' j).parent = (P j).parent) {a x : Nat} (h : Anc P a x) (hx : x < n) : Anc P' a x := by
  induction h with
  | self => exact Anc.self
  | up h1 _ ih =>
    refine Anc.up h1 ?_
    rw [heq _ h1 hx]
    exact ih (hc _ h1 hx)

/-- a new node before it is linked -/
theorem detached_new (h : Tree P n ks) (hn : 1 < n) {p : Nat} (h1 : 1 ≤ p) (h2 : p < n) (hr : (P p).ref = false) (hcr : (P p).cref = false) {pd : Pd}
    (hp : pd.parent = p) (hk : kidsHead pd = 0) (hnx : pd.next = 0) : Detached (updF P n pd) (n + 1) ks n p := by
  have heq : ∀ j, j < n → updF P n pd j = P j := fun j hj => updF_ne _ _ (by omega)
  have hcl := tree_closed h
  have hdp := fun x k (hx : x < n) (hd : Dep P x k) => dep_congr (P' := updF P n pd) hcl (fun j _ hj => by rw [heq j hj]) hd hx
  refine ⟨?_, ?_, ?_, ?_, h.nodup, ?_, ⟨hn, by omega⟩, ?_, ?_, ?_, ⟨h1, by omega⟩, ?_, by rw [heq 1 hn]; exact h.rnext⟩
  · rw [heq 1 hn]; exact h.root
  · intro i hi1 hi2
    by_cases hi : i = n
    · subst hi
      rw [updF_same, ks_out h (Nat.le_refl _)]
      exact hk
    · rw [heq i (by omega)]
      refine chainF_congr (h.chain i hi1 (by omega)) ?_
      intro c hc
      rw [heq c (h.own i c hc).2.2.2.1]
  · intro i x hx
    obtain ⟨h3, h4, h5, h6, h7⟩ := h.own i x hx
    exact ⟨h3, by omega, h5, by omega, by rw [heq x h6]; exact h7, by omega⟩
  · intro x hx1 hx2 hx3
    rw [heq x (by omega)]
    exact h.mem x hx1 (by omega)
  · intro x hx1 hx2
    by_cases hx : x = n
    · subst hx
      obtain ⟨k, hk⟩ := h.dep p h1 h2
      refine ⟨k + 1, Dep.up hn ?_⟩
      rw [updF_same, hp]
      exact hdp p k h2 hk
    · obtain ⟨k, hk⟩ := h.dep x hx1 (by omega)
      exact ⟨k, hdp x k (by omega) hk⟩
  · rw [updF_same, hp]; omega
  · rw [updF_same]; exact hnx
  · intro ha
    have hcl' : Closed (updF P n pd) n := by
      intro c hc1 hc2
      rw [heq c hc2]
      exact hcl c hc1 hc2
    have := anc_lt hcl' ha h2
    omega
  · rw [heq p h2]; exact ⟨hr, hcr⟩

theorem take_snoc {α : Type} {l : List α} {k : Nat} {x : α} (h : l[k]? = some x) : l.take (k + 1) = l.take k ++ [x] := by
  rw [List.take_succ, h]; rfl

theorem map_updF {l : List Nat} {o : Obj} (hl : ∀ c ∈ l, c < n) : l.map (updF obj n o) = l.map obj := by
  apply List.map_congr_left
  intro c hc
  have := hl c hc
  exact updF_ne _ _ (by omega)

theorem prev_congr {obj' : Nat → Obj} {b hi j : Nat} (h : Prev obj b hi j) (he : ∀ m, m < hi → obj' m = obj m) : Prev obj' b hi j := by
  refine ⟨h.1, ?_, ?_⟩
  · intro hj
    rw [he j h.1]; exact h.2.1 hj
  · intro m h1 h2
    rw [he m h2]; exact h.2.2 m h1 h2

/-- a new node is linked to its parent -/
theorem inv_push (h : InvF mem tds U root P I index n ks obj O S) {p k : Nat} {o : Obj} {x : Info} {pd : Pd} (h1 : 1 ≤ p) (h2 : p < n)
    (hO : O p = some k) (hslot : slot mem tds (obj p) k = some o)
    (hpd : pd = { parent := p, ty := o.ty })
    (hx : Seen mem tds pd x o True) (hnu : x.nextUntyped = index (o.addr / 4))
    (hks : (obj p).ty = .pointer → plain o.ty = true → x.size ≤ elementSize tds o.ty o.td)
    (hu : U → identified o.ty = true → ∀ i, 1 ≤ i → i < n → obj i ≠ o)
    (hnm : (obj p).ty = .struct → x.fd = (members tds (obj p))[k]?)
    (hfx : (obj p).ty = .struct → ∀ f, (members tds (obj p))[k]? = some f → Fixed f x)
    (hun : x.unnamed = false → (obj p).ty = .struct ∨ (obj p).ty = .string) :
    InvF mem tds U root (attached (updF P n pd) ks p n) (updF I n x) (fun b => if b = o.addr / 4 then n else index b) (n + 1)
      (updF ks p (ks p ++ [n])) (updF obj n o) (updF (updF O p (adv (obj p) k)) n (some 0)) (fun j => j = n ∨ S j) := by
  have hcr := (h.seen p h1 h2).cref
  have hr := open_ref h h1 h2 hO
  have hd := detached_new h.tree (by omega) h1 h2 hr hcr (pd := pd) (by rw [hpd]) (by rw [hpd]; rfl) (by rw [hpd])
  have hlt : ∀ i, ∀ c ∈ ks i, c < n := fun i c hc => (h.tree.own i c hc).2.2.2.1
  have hobj : ∀ j, j < n → updF obj n o j = obj j := fun j hj => updF_ne _ _ (by omega)
  have hpar : ∀ j, j < n → (attached (updF P n pd) ks p n j).parent = (P j).parent := by
    intro j hj
    have : j ≠ n := by omega
    simp [attached, updF, this]
  have hparn : (attached (updF P n pd) ks p n n).parent = p := by simp [attached]
  refine ⟨by omega, tree_attached hd, ?_, ?_, ?_, ?_, ?_, ?_, ?_, ?_, ?_, ?_, ?_, ?_⟩
  · intro i hi1 hi2
    by_cases hi : i = n
    · subst hi
      rw [updF_same, updF_same]
      have hs : (i = i ∨ S i) = True := by simp
      rw [hs]
      refine seen_congr hx ?_ ?_ ?_
      · show (updF P i pd i).ty = pd.ty
        rw [updF_same]
      · show (updF P i pd i).cref = pd.cref
        rw [updF_same]
      · rw [hparn, hpd]
    · rw [updF_ne _ _ hi, updF_ne _ _ hi]
      have hs : (i = n ∨ S i) = S i := by simp [hi]
      rw [hs]
      refine seen_congr (h.seen i hi1 (by omega)) ?_ ?_ ?_
      · show (updF P n pd i).ty = (P i).ty
        rw [updF_ne _ _ hi]
      · show (updF P n pd i).cref = (P i).cref
        rw [updF_ne _ _ hi]
      · exact hpar i (by omega)
  · intro i hi1 hi2
    by_cases hi : i = n
    · subst hi
      have hki : updF ks p (ks p ++ [i]) i = [] := by
        rw [updF_ne _ _ (by omega)]
        exact ks_out h.tree (Nat.le_refl _)
      have hip : i ≠ p := by omega
      have hfc : (attached (updF P i pd) ks p i i).firstChild = 0 := by
        simp [attached, updF, hip, hpd]
      have hrf : (attached (updF P i pd) ks p i i).ref = false := by
        simp [attached, updF, hpd]
      unfold Filled
      rw [hki, hfc, hrf, updF_same, updF_same]
      split <;> simp
    · rw [updF_ne _ _ hi]
      have hrf : (attached (updF P n pd) ks p n i).ref = (P i).ref := by simp [attached, updF, hi]
      by_cases hip : i = p
      · subst hip
        rw [updF_same]
        have hf := h.filled i h1 h2
        unfold Filled at hf ⊢
        rw [hO] at hf
        unfold slot at hslot
        unfold adv
        rw [hobj i h2, updF_same, hrf]
        by_cases hpl : ptrLike (obj i).ty = true
        · rw [if_pos hpl] at hf hslot ⊢
          rw [if_pos hpl]
          split at hslot
          · rw [hslot]
            have hch := h.tree.chain i h1 h2
            rw [kidsHead_plain hf.2.2 hcr, hf.2.1] at hch
            have hnil : ks i = [] := by
              cases hk : ks i with
              | nil => rfl
              | cons x l => rw [hk] at hch; exact absurd hch.1.symm hch.2.1
            have hfc : (attached (updF P n pd) ks i n i).firstChild = n := by simp [attached, hnil]
            simp only [hfc]
            refine ⟨by omega, by omega, updF_same _ _ _, Or.inl ⟨hf.2.2, ?_⟩⟩
            rw [hnil]; rfl
          · cases hslot
        · rw [if_neg hpl] at hf hslot ⊢
          rw [if_neg hpl]
          refine ⟨hf.1, ?_⟩
          simp only at hf ⊢
          have hlen := (List.getElem?_eq_some_iff.1 hslot).1
          refine ⟨by omega, ?_⟩
          rw [List.map_append, map_updF (hlt i), hf.2.2, take_snoc hslot]
          simp [updF]
      · have hfc : (attached (updF P n pd) ks p n i).firstChild = (P i).firstChild := by simp [attached, updF, hi, hip]
        rw [updF_ne _ _ hip]
        refine filled_congr (h.filled i hi1 (by omega)) (by omega) hobj (by omega) (updF_ne _ _ hip) (hlt i) hrf hfc ?_
        intro j _ hj
        exact Or.inr (hpar j hj)
  · intro _
    rw [hobj 1 (by omega)]
    exact h.rootObj (by omega)
  · intro c hc1 hc2 hc3 hc4
    by_cases hc : c = n
    · subst hc
      rw [hparn, hobj p h2] at hc3
      rw [updF_same] at hc4
      rw [updF_same, updF_same]
      exact hks hc3 hc4
    · have hcl := tree_closed h.tree c hc1 (by omega)
      rw [hpar c (by omega), hobj _ hcl] at hc3
      rw [hobj c (by omega)] at hc4 ⊢
      rw [updF_ne _ _ hc]
      exact h.kidsize c hc1 (by omega) hc3 hc4
  · intro i hi1 hi2
    by_cases hi : i = n
    · subst hi
      rw [updF_same, updF_same, hnu]
      exact prev_congr (h.bhead _) hobj
    · rw [hobj i (by omega), updF_ne _ _ hi]
      exact prev_congr (h.bnext i hi1 (by omega)) fun m hm => hobj m (by omega)
  · intro b
    by_cases hb : b = o.addr / 4
    · simp only [hb, if_true]
      refine ⟨by omega, ?_, ?_⟩
      · intro _; rw [updF_same]
      · intro m hm1 hm2; omega
    · simp only [hb, if_false]
      obtain ⟨h3, h4, h5⟩ := h.bhead b
      refine ⟨by omega, ?_, ?_⟩
      · intro hj; rw [hobj _ h3]; exact h4 hj
      · intro m hm1 hm2
        by_cases hm : m = n
        · subst hm; rw [updF_same]; exact Ne.symm hb
        · rw [hobj m (by omega)]; exact h5 m hm1 (by omega)
  · intro hU i j hi1 hi2 hj1 hj2 hc he
    by_cases hi : i = n
    · subst hi
      rw [updF_same] at hc
      by_cases hj : j = i
      · exact hj.symm
      · rw [updF_same, hobj j (by omega)] at he
        exact absurd he.symm (hu hU hc j hj1 (by omega))
    · rw [hobj i (by omega)] at hc he
      by_cases hj : j = n
      · subst hj
        rw [updF_same] at he
        rw [he] at hc
        exact absurd he (hu hU hc i hi1 (by omega))
      · rw [hobj j (by omega)] at he
        exact h.uniq hU i j hi1 (by omega) hj1 (by omega) hc he
  · intro i hi1 hi2 href
    have hrf : (attached (updF P n pd) ks p n i).ref = (updF P n pd i).ref := rfl
    rw [hrf] at href
    by_cases hi : i = n
    · subst hi; rw [updF_same, hpd] at href; cases href
    · rw [updF_ne _ _ hi] at href
      have hip : i ≠ p := by
        intro he
        rw [he, hr] at href; cases href
      have hfc : (attached (updF P n pd) ks p n i).firstChild = (P i).firstChild := by simp [attached, updF, hi, hip]
      have hrg := ref_range h hi1 (by omega) href
      rw [hfc]
      show (updF P n pd (P i).firstChild).refd = true
      rw [updF_ne _ _ (by omega)]
      exact h.mark i hi1 (by omega) href
  · intro i hi1 hi2 hi3 j c hc
    by_cases hi : i = n
    · subst hi
      rw [updF_ne _ _ (by omega), ks_out h.tree (Nat.le_refl _)] at hc
      simp at hc
    · rw [hobj i (by omega)] at hi3 ⊢
      by_cases hip : i = p
      · subst hip
        rw [updF_same] at hc
        have hlen : (ks i).length = k := by
          have hf := h.filled i h1 h2
          rw [hO] at hf
          exact filled_length hf (by simp [ptrLike, hi3])
        rw [List.getElem?_append] at hc
        split at hc
        · have := hlt i c (List.mem_of_getElem? hc)
          rw [updF_ne _ _ (by omega)]
          exact h.names i h1 h2 hi3 j c hc
        · have hj : j = k := by
            have := (List.getElem?_eq_some_iff.1 hc).1
            simp at this
            omega
          subst hj
          rw [hlen] at hc
          simp at hc
          rw [← hc, updF_same]
          exact hnm hi3
      · rw [updF_ne _ _ hip] at hc
        have := hlt i c (List.mem_of_getElem? hc)
        rw [updF_ne _ _ (by omega)]
        exact h.names i hi1 (by omega) hi3 j c hc
  · intro _
    rw [hobj 1 (by omega), updF_ne I x (by omega)]
    exact h.rsize (by omega)
  · intro i hi1 hi2 hi3 j c f hc hf
    by_cases hi : i = n
    · subst hi
      rw [updF_ne _ _ (by omega), ks_out h.tree (Nat.le_refl _)] at hc
      simp at hc
    · rw [hobj i (by omega)] at hi3 hf
      by_cases hip : i = p
      · subst hip
        rw [updF_same] at hc
        have hlen : (ks i).length = k := by
          have hf := h.filled i h1 h2
          rw [hO] at hf
          exact filled_length hf (by simp [ptrLike, hi3])
        rw [List.getElem?_append] at hc
        split at hc
        · have := hlt i c (List.mem_of_getElem? hc)
          rw [updF_ne _ _ (by omega)]
          exact h.fixed i h1 h2 hi3 j c f hc hf
        · have hj : j = k := by
            have := (List.getElem?_eq_some_iff.1 hc).1
            simp at this
            omega
          subst hj
          rw [hlen] at hc
          simp at hc
          rw [← hc, updF_same]
          exact hfx hi3 f hf
      · rw [updF_ne _ _ hip] at hc
        have := hlt i c (List.mem_of_getElem? hc)
        rw [updF_ne _ _ (by omega)]
        exact h.fixed i hi1 (by omega) hi3 j c f hc hf
  · intro i hi1 hi2 hi3
    by_cases hi : i = n
    · subst hi
      rw [updF_same] at hi3
      rw [hparn, hobj p h2]
      exact ⟨by omega, hun hi3⟩
    · rw [updF_ne _ _ hi] at hi3
      have hi4 := h.unnamed i hi1 (by omega) hi3
      rw [hpar i (by omega), hobj _ (tree_closed h.tree i hi4.1 (by omega))]
      exact hi4

/-- a node whose pointer is not yet followed has no children -/
theorem open_ptr (h : InvF mem tds U root P I index n ks obj O S) {p k : Nat} (h1 : 1 ≤ p) (h2 : p < n) (hO : O p = some k)
    (hpl : ptrLike (obj p).ty = true) : k = 0 ∧ (P p).firstChild = 0 ∧ (P p).ref = false ∧ ks p = [] := by
  have hf := h.filled p h1 h2
  have hch := h.tree.chain p h1 h2
  unfold Filled at hf
  rw [if_pos hpl, hO] at hf
  rw [kidsHead_plain hf.2.2 (h.seen p h1 h2).cref, hf.2.1] at hch
  refine ⟨hf.1, hf.2.1, hf.2.2, ?_⟩
  cases hk : ks p with
  | nil => rfl
  | cons x l => rw [hk] at hch; exact absurd hch.1.symm hch.2.1

/-- a pointer becomes a reference -/
theorem inv_ref (h : InvF mem tds U root P I index n ks obj O S) {p k r : Nat} {P' : Nat → Pd} (h1 : 1 ≤ p) (h2 : p < n)
    (hO : O p = some k) (hpl : ptrLike (obj p).ty = true) (hr1 : 1 ≤ r) (hr2 : r < n) (ht : target mem tds (obj p) = some (obj r))
    (hP : ∀ j, (P' j).parent = (P j).parent ∧ (P' j).next = (P j).next ∧ (P' j).ty = (P j).ty ∧ (P' j).cref = (P j).cref)
    (hP2 : ∀ j, j ≠ p → (P' j).ref = (P j).ref ∧ (P' j).firstChild = (P j).firstChild)
    (hP3 : (P' p).ref = true ∧ (P' p).firstChild = r)
    (hP5 : (P' r).refd = true ∧ ∀ j, (P j).refd = true → (P' j).refd = true) :
    InvF mem tds U root P' I index n ks obj (updF O p none) S := by
  obtain ⟨_, _, _, hnil⟩ := open_ptr h h1 h2 hO hpl
  have hcl := tree_closed h.tree
  refine ⟨h.pos, ⟨?_, ?_, ?_, ?_, h.tree.nodup, ?_, by rw [(hP 1).2.1]; exact h.tree.rnext⟩, ?_, ?_, h.rootObj, ?_, h.bnext, h.bhead, h.uniq, ?_, h.names, h.rsize, h.fixed,
    fun i h1 h2 h3 => by rw [(hP i).1]; exact h.unnamed i h1 h2 h3⟩
  · rw [(hP 1).1]; exact h.tree.root
  · intro i hi1 hi2
    by_cases hi : i = p
    · subst hi
      rw [hnil]
      show kidsHead (P' i) = 0
      simp [kidsHead, hP3.1]
    · have : kidsHead (P' i) = kidsHead (P i) := by
        unfold kidsHead
        rw [(hP2 i hi).1, (hP2 i hi).2, (hP i).2.2.2]
      rw [this]
      exact chainF_congr (h.tree.chain i hi1 hi2) fun c _ => (hP c).2.1
  · intro i c hc
    rw [(hP c).1]
    exact h.tree.own i c hc
  · intro c hc1 hc2
    rw [(hP c).1]
    exact h.tree.mem c hc1 hc2
  · intro c hc1 hc2
    obtain ⟨k, hk⟩ := h.tree.dep c hc1 hc2
    exact ⟨k, dep_congr hcl (fun j _ _ => (hP j).1) hk hc2⟩
  · intro i hi1 hi2
    exact seen_congr (h.seen i hi1 hi2) (hP i).2.2.1 (hP i).2.2.2 (hP i).1
  · intro i hi1 hi2
    by_cases hi : i = p
    · subst hi
      rw [updF_same]
      unfold Filled
      rw [if_pos hpl, ht]
      simp only [hP3.1, hP3.2]
      refine ⟨hr1, hr2, trivial, Or.inr ⟨trivial, hnil, ?_⟩⟩
      rw [(hP r).1]
      intro he
      by_cases hr : r = 1
      · subst hr
        rw [h.tree.root] at he
        omega
      · have := h.tree.mem r (by omega) hr2
        rw [he, hnil] at this
        cases this
    · rw [updF_ne _ _ hi]
      exact filled_congr (h.filled i hi1 hi2) (Nat.le_refl _) (fun _ _ => rfl) hi2 rfl (fun c hc => (h.tree.own i c hc).2.2.2.1)
        (hP2 i hi).1 (hP2 i hi).2 fun j _ _ => Or.inr (hP j).1
  · intro c hc1 hc2
    rw [(hP c).1]
    exact h.kidsize c hc1 hc2
  · intro i hi1 hi2 href
    by_cases hi : i = p
    · subst hi; rw [hP3.2]; exact hP5.1
    · rw [(hP2 i hi).1] at href
      rw [(hP2 i hi).2]
      exact hP5.2 _ (h.mark i hi1 hi2 href)

/-- the tree without the node that is moved -/
theorem detached_move (h : InvF mem tds U root P I index n ks obj O S) {p k r q : Nat} {P1 : Nat → Pd} (h1 : 1 ≤ p) (h2 : p < n)
    (hO : O p = some k) (hpl : ptrLike (obj p).ty = false) (hr1 : 1 < r) (hr2 : r < n) (hq : (P r).parent = q) (hql : ptrLike (obj q).ty = true)
    (hab : ¬ Anc P r p)
    (hP : ∀ j, (P1 j).parent = (P j).parent ∧ (P1 j).next = (P j).next ∧ (P1 j).cref = (P j).cref)
    (hP2 : ∀ j, j ≠ q → (P1 j).ref = (P j).ref ∧ (P1 j).firstChild = (P j).firstChild)
    (hP3 : (P1 q).ref = true) :
    Detached P1 n (updF ks q []) r p := by
  have hcl := tree_closed h.tree
  have hpq : p ≠ q := by
    intro he
    rw [he, hql] at hpl
    cases hpl
  have hkq : ks q = [r] := by
    rcases edge h hr1 hr2 with ⟨_, _, h3, _⟩ | ⟨h3, _⟩
    · rw [hq] at h3; exact h3
    · rw [hq, hql] at h3; cases h3
  have hq1 := (h.tree.own _ _ (h.tree.mem r hr1 hr2))
  rw [hq] at hq1
  have hqc := h.tree.chain q hq1.1 hq1.2.1
  refine ⟨?_, ?_, ?_, ?_, ?_, ?_, ⟨hr1, hr2⟩, ?_, ?_, ?_, ⟨h1, h2⟩, ?_, by rw [(hP 1).2.1]; exact h.tree.rnext⟩
  · rw [(hP 1).1]; exact h.tree.root
  · intro i hi1 hi2
    by_cases hi : i = q
    · subst hi
      rw [updF_same]
      show kidsHead (P1 i) = 0
      simp [kidsHead, hP3]
    · rw [updF_ne _ _ hi]
      have : kidsHead (P1 i) = kidsHead (P i) := by
        unfold kidsHead
        rw [(hP2 i hi).1, (hP2 i hi).2, (hP i).2.2]
      rw [this]
      exact chainF_congr (h.tree.chain i hi1 hi2) fun c _ => (hP c).2.1
  · intro i x hx
    by_cases hi : i = q
    · subst hi; rw [updF_same] at hx; cases hx
    · rw [updF_ne _ _ hi] at hx
      obtain ⟨h3, h4, h5, h6, h7⟩ := h.tree.own i x hx
      refine ⟨h3, h4, h5, h6, by rw [(hP x).1]; exact h7, ?_⟩
      intro hxr
      rw [hxr, hq] at h7
      exact hi h7.symm
  · intro x hx1 hx2 hx3
    have hm := h.tree.mem x hx1 hx2
    rw [(hP x).1]
    by_cases hi : (P x).parent = q
    · rw [hi, hkq] at hm
      simp at hm
      exact absurd hm hx3
    · rw [updF_ne _ _ hi]; exact hm
  · intro i
    unfold updF
    split
    · simp
    · exact h.tree.nodup i
  · intro c hc1 hc2
    obtain ⟨k, hk⟩ := h.tree.dep c hc1 hc2
    exact ⟨k, dep_congr hcl (fun j _ _ => (hP j).1) hk hc2⟩
  · rw [(hP r).1]; exact hcl r hr1 hr2
  · rw [(hP r).2.1]
    rw [hkq] at hqc
    exact hqc.2.2
  · intro ha
    apply hab
    have hcl1 : Closed P1 n := fun c hc1 hc2 => by rw [(hP c).1]; exact hcl c hc1 hc2
    exact anc_congr hcl1 (fun j _ _ => ((hP j).1).symm) ha h2
  · rw [(hP2 p hpq).1, (hP p).2.2]
    exact ⟨open_ref h h1 h2 hO, (h.seen p h1 h2).cref⟩

/-- the content of a pointer or string moves to the structure or array it is a component of -/
theorem inv_move (h : InvF mem tds U root P I index n ks obj O S) {p k r q : Nat} {P1 : Nat → Pd} {x : Info} (h1 : 1 ≤ p) (h2 : p < n)
    (hO : O p = some k) (hpl : ptrLike (obj p).ty = false) (hr1 : 1 < r) (hr2 : r < n) (hq : (P r).parent = q) (hql : ptrLike (obj q).ty = true)
    (hab : ¬ Anc P r p) (hslot : (components tds (obj p))[k]? = some (obj r))
    (hP : ∀ j, (P1 j).parent = (P j).parent ∧ (P1 j).next = (P j).next ∧ (P1 j).cref = (P j).cref)
    (hPt : ∀ j, (P1 j).ty = (P j).ty)
    (hP2 : ∀ j, j ≠ q → (P1 j).ref = (P j).ref ∧ (P1 j).firstChild = (P j).firstChild)
    (hP3 : (P1 q).ref = true) (hP4 : (P1 q).firstChild = r)
    (hx : Seen mem tds { P r with parent := p } x (obj r) (S r)) (hxn : x.nextUntyped = (I r).nextUntyped)
    (hP5 : (P1 r).refd = true ∧ ∀ j, (P j).refd = true → (P1 j).refd = true)
    (hnm : (obj p).ty = .struct → x.fd = (members tds (obj p))[k]?)
    (hfx : (obj p).ty = .struct → ∀ f, (members tds (obj p))[k]? = some f → Fixed f x)
    (hun : x.unnamed = false → (obj p).ty = .struct ∨ (obj p).ty = .string) :
    InvF mem tds U root (attached P1 (updF ks q []) p r) (updF I r x) index n (updF (updF ks q []) p (ks p ++ [r])) obj (updF O p (some (k + 1))) S := by
  have hd := detached_move h h1 h2 hO hpl hr1 hr2 hq hql hab hP hP2 hP3
  have hta := tree_attached hd
  have hpq : p ≠ q := by
    intro he
    rw [he, hql] at hpl
    cases hpl
  have hkp : updF ks q [] p = ks p := updF_ne _ _ hpq
  rw [hkp] at hta
  have hrp : r ≠ p := fun he => hab (he ▸ Anc.self)
  have hq1 := (h.tree.own _ _ (h.tree.mem r hr1 hr2))
  rw [hq] at hq1
  have hedge : target mem tds (obj q) = some (obj r) ∧ ks q = [r] ∧ (P q).firstChild = r := by
    rcases edge h hr1 hr2 with ⟨_, h3, h4, h5, _⟩ | ⟨h3, _⟩
    · rw [hq] at h3 h4 h5; exact ⟨h3, h4, h5⟩
    · rw [hq, hql] at h3; cases h3
  have hpar : ∀ j, j ≠ r → (attached P1 (updF ks q []) p r j).parent = (P j).parent := by
    intro j hj
    simp [attached, hj, (hP j).1]
  have hparr : (attached P1 (updF ks q []) p r r).parent = p := by simp [attached]
  have hatt : ∀ j, (attached P1 (updF ks q []) p r j).ty = (P j).ty ∧ (attached P1 (updF ks q []) p r j).cref = (P j).cref ∧
      (attached P1 (updF ks q []) p r j).ref = (P1 j).ref := by
    intro j
    exact ⟨hPt j, (hP j).2.2, rfl⟩
  have hlt : ∀ i, ∀ c ∈ ks i, c < n := fun i c hc => (h.tree.own i c hc).2.2.2.1
  refine ⟨h.pos, hta, ?_, ?_, h.rootObj, ?_, ?_, h.bhead, h.uniq, ?_, ?_, ?_, ?_, ?_⟩
  · intro i hi1 hi2
    by_cases hi : i = r
    · subst hi
      rw [updF_same]
      exact seen_congr hx (hatt i).1 (hatt i).2.1 hparr
    · rw [updF_ne _ _ hi]
      exact seen_congr (h.seen i hi1 hi2) (hatt i).1 (hatt i).2.1 (hpar i hi)
  · intro i hi1 hi2
    by_cases hip : i = p
    · subst hip
      rw [updF_same]
      have hf := h.filled i h1 h2
      unfold Filled at hf ⊢
      rw [hO, if_neg (by simp [hpl])] at hf
      rw [if_neg (by simp [hpl]), (hatt i).2.2, (hP2 i hpq).1, updF_same]
      refine ⟨hf.1, ?_⟩
      simp only at hf ⊢
      have hlen := (List.getElem?_eq_some_iff.1 hslot).1
      refine ⟨by omega, ?_⟩
      rw [List.map_append, hf.2.2, take_snoc hslot]
      simp
    · rw [updF_ne _ _ hip]
      by_cases hiq : i = q
      · subst hiq
        have hOq : O i = none := by
          cases hoq : O i with
          | none => rfl
          | some j =>
            have := open_ptr h hi1 hi2 hoq hql
            rw [hedge.2.1] at this
            simp at this
        rw [hOq]
        unfold Filled
        have hfc : (attached P1 (updF ks i []) p r i).firstChild = r := by
          rw [← hP4]
          simp [attached, hip]
        have hk' : updF (updF ks i []) p (ks p ++ [r]) i = [] := by
          rw [updF_ne _ _ hip, updF_same]
        rw [if_pos hql, hedge.1]
        simp only [hfc, hk', (hatt i).2.2, hP3, hparr]
        exact ⟨by omega, hr2, trivial, Or.inr ⟨trivial, trivial, Ne.symm hip⟩⟩
      · have hk' : updF (updF ks q []) p (ks p ++ [r]) i = ks i := by
          rw [updF_ne _ _ hip, updF_ne _ _ hiq]
        have hfc : (attached P1 (updF ks q []) p r i).firstChild = (P i).firstChild := by
          simp [attached, hip, (hP2 i hiq).2]
        refine filled_congr (h.filled i hi1 hi2) (Nat.le_refl _) (fun _ _ => rfl) hi2 hk' (hlt i) ?_ hfc ?_
        · rw [(hatt i).2.2]; exact (hP2 i hiq).1
        · intro j _ _
          by_cases hj : j = r
          · subst hj; rw [hparr]; exact Or.inl (Ne.symm hip)
          · exact Or.inr (hpar j hj)
  · intro c hc1 hc2 hc3 hc4
    by_cases hc : c = r
    · subst hc
      rw [hparr] at hc3
      simp [ptrLike, hc3] at hpl
    · rw [hpar c hc] at hc3
      rw [updF_ne _ _ hc]
      exact h.kidsize c hc1 hc2 hc3 hc4
  · intro i hi1 hi2
    by_cases hi : i = r
    · subst hi; rw [updF_same, hxn]; exact h.bnext i hi1 hi2
    · rw [updF_ne _ _ hi]; exact h.bnext i hi1 hi2
  · intro i hi1 hi2 href
    rw [(hatt i).2.2] at href
    have hip : i ≠ p := by
      intro he
      rw [he, (hP2 p hpq).1, open_ref h h1 h2 hO] at href; cases href
    have hfc : (attached P1 (updF ks q []) p r i).firstChild = (P1 i).firstChild := by simp [attached, hip]
    rw [hfc]
    show (P1 (P1 i).firstChild).refd = true
    by_cases hiq : i = q
    · subst hiq; rw [hP4]; exact hP5.1
    · rw [(hP2 i hiq).1] at href
      rw [(hP2 i hiq).2]
      exact hP5.2 _ (h.mark i hi1 hi2 href)
  · intro i hi1 hi2 hi3 j c hc
    have hcr : i ≠ p → c ≠ r := by
      intro hip he
      by_cases hiq : i = q
      · subst hiq; rw [updF_ne _ _ hip, updF_same] at hc; simp at hc
      · rw [updF_ne _ _ hip, updF_ne _ _ hiq] at hc
        have := (h.tree.own i c (List.mem_of_getElem? hc)).2.2.2.2
        rw [he, hq] at this
        exact hiq this.symm
    by_cases hip : i = p
    · subst hip
      rw [updF_same] at hc
      have hlen : (ks i).length = k := by
        have hf := h.filled i h1 h2
        rw [hO] at hf
        exact filled_length hf hpl
      rw [List.getElem?_append] at hc
      split at hc
      · have hcr' : c ≠ r := by
          intro he
          have := (h.tree.own i c (List.mem_of_getElem? hc)).2.2.2.2
          rw [he, hq] at this
          exact hpq this.symm
        rw [updF_ne _ _ hcr']
        exact h.names i h1 h2 hi3 j c hc
      · have hj : j = k := by
          have := (List.getElem?_eq_some_iff.1 hc).1
          simp at this
          omega
        subst hj
        rw [hlen] at hc
        simp at hc
        rw [← hc, updF_same]
        exact hnm hi3
    · rw [updF_ne _ _ (hcr hip)]
      by_cases hiq : i = q
      · subst hiq; rw [updF_ne _ _ hip, updF_same] at hc; simp at hc
      · rw [updF_ne _ _ hip, updF_ne _ _ hiq] at hc
        exact h.names i hi1 hi2 hi3 j c hc
  · intro h3
    rw [updF_ne I x (by omega)]
    exact h.rsize h3
  · intro i hi1 hi2 hi3 j c f hc hf
    have hcr : i ≠ p → c ≠ r := by
      intro hip he
      by_cases hiq : i = q
      · subst hiq; rw [updF_ne _ _ hip, updF_same] at hc; simp at hc
      · rw [updF_ne _ _ hip, updF_ne _ _ hiq] at hc
        have := (h.tree.own i c (List.mem_of_getElem? hc)).2.2.2.2
        rw [he, hq] at this
        exact hiq this.symm
    by_cases hip : i = p
    · subst hip
      rw [updF_same] at hc
      have hlen : (ks i).length = k := by
        have hf := h.filled i h1 h2
        rw [hO] at hf
        exact filled_length hf hpl
      rw [List.getElem?_append] at hc
      split at hc
      · have hcr' : c ≠ r := by
          intro he
          have := (h.tree.own i c (List.mem_of_getElem? hc)).2.2.2.2
          rw [he, hq] at this
          exact hpq this.symm
        rw [updF_ne _ _ hcr']
        exact h.fixed i h1 h2 hi3 j c f hc hf
      · have hj : j = k := by
          have := (List.getElem?_eq_some_iff.1 hc).1
          simp at this
          omega
        subst hj
        rw [hlen] at hc
        simp at hc
        rw [← hc, updF_same]
        exact hfx hi3 f hf
    · rw [updF_ne _ _ (hcr hip)]
      by_cases hiq : i = q
      · subst hiq; rw [updF_ne _ _ hip, updF_same] at hc; simp at hc
      · rw [updF_ne _ _ hip, updF_ne _ _ hiq] at hc
        exact h.fixed i hi1 hi2 hi3 j c f hc hf
  · intro i hi1 hi2 hi3
    by_cases hi : i = r
    · subst hi
      rw [updF_same] at hi3
      rw [hparr]
      exact ⟨hr1, hun hi3⟩
    · rw [updF_ne _ _ hi] at hi3
      rw [hpar i hi]
      exact h.unnamed i hi1 hi2 hi3

/-- the object of a member of a structure -/
theorem member_obj (h : InvF mem tds U root P I index n ks obj O S) {p j c : Nat} {f : Fd} (h1 : 1 ≤ p) (h2 : p < n) (hty : (obj p).ty = .struct)
    (hc : (ks p)[j]? = some c) (hf : (members tds (obj p))[j]? = some f) : obj c = ofFd ((obj p).addr + f.offset) f := by
  have hfl := h.filled p h1 h2
  unfold Filled at hfl
  rw [if_neg (by simp [ptrLike, hty])] at hfl
  have key : (components tds (obj p))[j]? = some (obj c) := by
    have hm : ((ks p).map obj)[j]? = some (obj c) := by rw [List.getElem?_map, hc]; rfl
    cases hO : O p with
    | none => rw [hO] at hfl; rw [← hfl.2]; exact hm
    | some k =>
      rw [hO] at hfl
      simp only at hfl
      rw [hfl.2.2, List.getElem?_take] at hm
      split at hm
      · exact hm
      · cases hm
  unfold components at key
  unfold members at hf
  rw [hty] at key
  simp only at key
  cases ht : (obj p).td.bind (tds[·]?) with
  | none => rw [ht] at key; simp at key
  | some d =>
    rw [ht] at key hf
    simp only [Option.map_some, Option.getD_some, List.getElem?_map] at key hf
    rw [hf] at key
    exact (Option.some.inj key).symm

end Verif.Lemmas.SaveStep
