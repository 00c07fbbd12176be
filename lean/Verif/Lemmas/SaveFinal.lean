import Verif.Lemmas.SavePost
import Verif.Lemmas.SaveIdx
import Verif.Props.Dfs
import Verif.Spec.Final
/-!
The state after `mr_save` meets the specification `Final`.
-/
namespace Verif.Lemmas.SaveFinal
open Verif.Model Verif.Model.Ptrs Verif.Model.Save Verif.Spec.Ptrs Verif.Spec.Save Verif.Lemmas.SaveTree Verif.Lemmas.SaveInv Verif.Lemmas.SavePost
  Verif.Lemmas.SaveDone

/-- the forest without what is below strings -/
def dropKids (P : Nat → Pd) : Forest → Forest
  | .nil => .nil
  | .cons i k s => .cons i (if (P i).ty = .string then .nil else dropKids P k) (dropKids P s)

theorem drop_sublist (P : Nat → Pd) (f : Forest) : (dropKids P f).nodes.Sublist f.nodes := by
  induction f with
  | nil => exact List.Sublist.refl _
  | cons i k s ihk ihs =>
    unfold dropKids
    simp only [Forest.nodes]
    refine List.Sublist.cons_cons i (List.Sublist.append ?_ ihs)
    split
    · exact List.nil_sublist _
    · exact ihk

theorem rep_drop {ra ra' : List Pd} (hl : ra'.length = ra.length)
    (hs : ∀ i, (nd ra' i).parent = (nd ra i).parent ∧ (nd ra' i).next = (nd ra i).next)
    (f : Forest) : ∀ {par head : Nat}, (∀ i ∈ f.nodes, kidsHead (nd ra' i) = if (nd ra i).ty = .string then 0 else kidsHead (nd ra i)) →
      Rep ra par head f → Rep ra' par head (dropKids (nd ra) f) := by
  induction f with
  | nil => intro _ _ _ h; exact h
  | cons i k s ihk ihs =>
    intro par head hk h
    obtain ⟨h1, h2, pd, h3, h4, h5, h6⟩ := h
    obtain ⟨e1, e2⟩ := get_nd h3
    have hki := hk i (by simp [Forest.nodes])
    subst e1
    refine ⟨h1, h2, nd ra' i, nd_get (by omega), by rw [(hs i).1]; exact h4, ?_, ?_⟩
    · rw [hki]
      split
      · rfl
      · exact ihk (fun j hj => hk j (by simp [Forest.nodes, hj])) h5
    · rw [(hs i).2]
      exact ihs (fun j hj => hk j (by simp [Forest.nodes, hj])) h6

theorem nodes_drop {ra : List Pd} (hleaf : ∀ i, i ≠ 0 → Text (nd ra) i → kidsHead (nd ra i) = 0) (f : Forest) :
    ∀ {par head : Nat}, (par ≠ 0 → (nd ra par).ty ≠ .string) → Rep ra par head f →
      ∀ x, x ∈ (dropKids (nd ra) f).nodes ↔ x ∈ f.nodes ∧ ¬ Text (nd ra) x := by
  induction f with
  | nil => intro _ _ _ _ x; simp [dropKids, Forest.nodes]
  | cons i k s ihk ihs =>
    intro par head hp h x
    obtain ⟨h1, h2, pd, h3, h4, h5, h6⟩ := h
    obtain ⟨e1, e2⟩ := get_nd h3
    subst e1
    have hti : ¬ Text (nd ra) i := by
      rintro ⟨a, b⟩
      rw [h4] at a b
      exact hp a b
    have hs := ihs hp h6 x
    have hk : (x ∈ (if (nd ra i).ty = .string then Forest.nil else dropKids (nd ra) k).nodes ↔ x ∈ k.nodes ∧ ¬ Text (nd ra) x) := by
      split
      · rename_i hty
        simp only [Forest.nodes, List.not_mem_nil, false_iff, not_and, Classical.not_not]
        -- all nodes below a string are texts
        suffices ∀ (k : Forest) (hd : Nat), Rep ra i hd k → ∀ x ∈ k.nodes, Text (nd ra) x from this k _ h5 x
        intro k
        induction k with
        | nil => intro _ _ x hx; cases hx
        | cons j k' s' _ ihs' =>
          intro hd hr x hx
          obtain ⟨_, g2, pd', g3, g4, g5, g6⟩ := hr
          obtain ⟨e1', e2'⟩ := get_nd g3
          subst e1'
          have htj : Text (nd ra) j := ⟨by rw [g4]; exact h2, by rw [g4]; exact hty⟩
          simp only [Forest.nodes, List.mem_cons, List.mem_append] at hx
          rcases hx with rfl | hx | hx
          · exact htj
          · rw [hleaf j g2 htj] at g5
            cases k' with
            | nil => cases hx
            | cons a b c => exact absurd g5.1.symm g5.2.1
          · exact ihs' _ g6 x hx
      · rename_i hty
        exact ihk (fun _ => hty) h5 x
    unfold dropKids
    simp only [Forest.nodes, List.mem_cons, List.mem_append, hk, hs]
    constructor
    · rintro (rfl | ⟨a, b⟩ | ⟨a, b⟩)
      · exact ⟨Or.inl rfl, hti⟩
      · exact ⟨Or.inr (Or.inl a), b⟩
      · exact ⟨Or.inr (Or.inr a), b⟩
    · rintro ⟨rfl | a | a, b⟩
      · exact Or.inl rfl
      · exact Or.inr (Or.inl ⟨a, b⟩)
      · exact Or.inr (Or.inr ⟨a, b⟩)

variable {mem : Mem} {tds : List Td} {root : Obj} {U : Prop} {P0 : Nat → Pd} {I0 : Nat → Info} {index : Nat → Nat} {n : Nat} {ks : Nat → List Nat} {obj : Nat → Obj} {O : Nat → Option Nat}

/-- the text of a string before the post-processing -/
theorem text_ok (h : InvF mem tds U root P0 I0 index n ks obj O (fun _ => False)) {r : Nat} (h1 : 1 ≤ r) (h2 : r < n) (ht : Text P0 r) :
    1 < r ∧ 1 ≤ (P0 r).parent ∧ (P0 r).parent < n ∧ (obj (P0 r).parent).ty = .string ∧ target mem tds (obj (P0 r).parent) = some (obj r) ∧
      (P0 (P0 r).parent).ref = false ∧ (obj r).ty = .charArray ∧ kidsHead (P0 r) = 0 ∧ (P0 (P0 r).parent).firstChild = r := by
  have hr : 1 < r := by
    by_cases hr : r = 1
    · rw [hr] at ht; exact absurd h.tree.root ht.1
    · omega
  have hm := h.tree.mem r hr h2
  obtain ⟨o1, o2, _⟩ := h.tree.own _ _ hm
  have hty : (obj (P0 r).parent).ty = .string := by rw [← (h.seen _ o1 o2).ty]; exact ht.2
  rcases edge h hr h2 with ⟨_, e2, _, e4, e5⟩ | ⟨e1, _⟩
  · have hch : (obj r).ty = .charArray := by
      unfold target at e2
      rw [hty] at e2
      simp only at e2
      split at e2
      · cases e2
      · rw [Option.some.inj e2.symm]
    refine ⟨hr, o1, o2, hty, e2, e5, hch, ?_, e4⟩
    have hf := h.filled r h1 h2
    have hc := h.tree.chain r h1 h2
    unfold Filled at hf
    rw [if_neg (by rw [hch]; decide)] at hf
    have hcomp : components tds (obj r) = [] := by unfold components; rw [hch]
    have hks : ks r = [] := by
      have := hf.2
      cases ho : O r with
      | none => rw [ho] at this; simp only [hcomp] at this; exact List.map_eq_nil_iff.1 this
      | some k =>
        rw [ho] at this
        simp only [hcomp, List.take_nil] at this
        exact List.map_eq_nil_iff.1 this.2
    rw [hks] at hc
    exact hc
  · rw [hty] at e1; cases e1

theorem not_text_string (h : InvF mem tds U root P0 I0 index n ks obj O (fun _ => False)) {r : Nat} (h1 : 1 ≤ r) (h2 : r < n) (ht : (obj r).ty ≠ .charArray) : ¬ Text P0 r :=
  fun h' => ht (text_ok h h1 h2 h').2.2.2.2.2.2.1

/-- the state after the post-processing -/
structure K (mem : Mem) (P0 : Nat → Pd) (I0 : Nat → Info) (n : Nat) (obj : Nat → Obj) (st : St) : Prop where
  len : st.ptrs.ra.length = n
  leni : st.info.length = n
  same : ∀ j, (nd st.ptrs.ra j).parent = (P0 j).parent ∧ (nd st.ptrs.ra j).next = (P0 j).next ∧ (nd st.ptrs.ra j).ty = (P0 j).ty
  addr : ∀ j, (ni st.info j).addr = (I0 j).addr
  fd : ∀ j, (ni st.info j).fd = (I0 j).fd
  aux : ∀ j, (ni st.info j).aux = (I0 j).aux
  opq : ∀ j, ((ni st.info j).opq, (ni st.info j).unnamed) = ((I0 j).opq, (I0 j).unnamed)
  size : ∀ j, SavePost.Sized P0 j → (ni st.info j).size = (I0 j).size
  refd : ∀ j, (P0 j).refd = true → (nd st.ptrs.ra j).refd = true
  done : ∀ j, 1 ≤ j → j < n → Out mem P0 I0 n obj j (lk (nd st.ptrs.ra j)) ∧ (ni st.info j).null = nullAfter I0 obj j ∧
    (((nd st.ptrs.ra j).ref || (nd st.ptrs.ra j).cref) = true → (nd st.ptrs.ra (nd st.ptrs.ra j).firstChild).refd = true)

/-- where the children start after the post-processing -/
theorem kidsHead_after (h : InvF mem tds U root P0 I0 index n ks obj O (fun _ => False)) (hO : ∀ j, 1 ≤ j → j < n → O j = none) {pd : Pd} {i : Nat} (h1 : 1 ≤ i) (h2 : i < n)
    (ho : Out mem P0 I0 n obj i (lk pd)) : kidsHead pd = if (P0 i).ty = .string then 0 else kidsHead (P0 i) := by
  have haim : ∀ r, lk pd = aim P0 r → kidsHead pd = 0 := by
    intro r hr
    unfold aim at hr
    unfold kidsHead
    split at hr <;> simp only [lk, Prod.mk.injEq] at hr <;> simp [hr.2.1, hr.2.2]
  have hs := h.seen i h1 h2
  have hcr := hs.cref
  rw [hs.ty]
  unfold Out at ho
  split at ho
  · rename_i hu
    rw [hu.1, if_neg (by simp)]
    have hl := untyped_ok h hO h1 h2 hu
    simp only [lk, Prod.mk.injEq] at hl
    have h0 : kidsHead (P0 i) = 0 := by unfold kidsHead; simp [hl.1]
    rw [h0]
    rcases ho with ⟨ho, _⟩ | ⟨r, _, _, _, ho⟩
    · simp only [lk, Prod.mk.injEq] at ho
      unfold kidsHead; simp [ho.1]
    · exact haim r ho
  · split at ho
    · rename_i hr
      rw [haim _ ho]
      have h0 : kidsHead (P0 i) = 0 := by unfold kidsHead; simp [hr]
      rw [h0]; split <;> rfl
    · split at ho
      · rename_i hty
        rw [if_pos hty]
        simp only [lk, Prod.mk.injEq] at ho
        unfold kidsHead; simp [ho.1]
      · rename_i hty
        rw [if_neg hty]
        simp only [lk, Prod.mk.injEq] at ho
        unfold kidsHead; rw [ho.1, ho.2.1, ho.2.2]

theorem post_ok {st : St} (h : Inv mem tds U root st ks obj O (fun _ => False)) (hO : ∀ j, 1 ≤ j → j < st.ptrs.ra.length → O j = none)
    (hn : 1 < st.ptrs.ra.length) (hz : SaveIdx.Z st.ptrs.ra) :
    ∃ st' k, postProcess mem st = some st' ∧ K mem (nd st.ptrs.ra) (ni st.info) st.ptrs.ra.length obj st' ∧ Rep st'.ptrs.ra 0 1 (.cons 1 k .nil) ∧
      (1 :: k.nodes).Nodup ∧ (∀ x, x ∈ 1 :: k.nodes ↔ (1 ≤ x ∧ x < st.ptrs.ra.length) ∧ ¬ Text (nd st.ptrs.ra) x) ∧
      (∀ j x : Nat, (1 :: k.nodes)[j]? = some x → (nd st'.ptrs.ra x).idx = j + 1) ∧ (∀ x, x ∉ 1 :: k.nodes → (nd st'.ptrs.ra x).idx = 0) ∧
      (nd st'.ptrs.ra 0).cref = false ∧ ∃ s1, postLoop mem (st.ptrs.ra.length - 1) st 1 = some s1 ∧ ∀ j, lk (nd st'.ptrs.ra j) = lk (nd s1.ptrs.ra j) := by
  have hI := h.inv
  obtain ⟨k, k1, k2, k3⟩ := SaveForest.rep_of_tree rfl hn hI.tree
  obtain ⟨s1, a1, a2⟩ := postLoop_ok hI hO (st.ptrs.ra.length - 1) (Nat.le_refl 1) (by omega) (j_start h)
  have hrange : ∀ x, x ∈ (Forest.cons 1 k .nil).nodes → 1 ≤ x ∧ x < st.ptrs.ra.length := by
    intro x hx
    exact (k3 x).1 (by simpa [Forest.nodes] using hx)
  have hrep := rep_drop (ra := st.ptrs.ra) (ra' := s1.ptrs.ra) a2.len (fun i => ⟨(a2.same i).1, (a2.same i).2.1⟩) (.cons 1 k .nil)
    (fun i hi => kidsHead_after hI hO (hrange i hi).1 (hrange i hi).2 (a2.done i (hrange i hi).1 (hrange i hi).2).1) k1
  have hleaf : ∀ i, i ≠ 0 → Text (nd st.ptrs.ra) i → kidsHead (nd st.ptrs.ra i) = 0 := by
    intro i h0 hi
    by_cases hr : i < st.ptrs.ra.length
    · exact (text_ok hI (by omega) hr hi).2.2.2.2.2.2.2.1
    · have : nd st.ptrs.ra i = {} := by unfold nd; rw [List.getElem?_eq_none (by omega)]; rfl
      rw [this]; rfl
  have hnodes := nodes_drop hleaf (.cons 1 k .nil) (fun h => absurd rfl h) k1
  have hdrop : dropKids (nd st.ptrs.ra) (.cons 1 k .nil) = .cons 1 (if (nd st.ptrs.ra 1).ty = .string then .nil else dropKids (nd st.ptrs.ra) k) .nil := rfl
  generalize hk' : (if (nd st.ptrs.ra 1).ty = .string then Forest.nil else dropKids (nd st.ptrs.ra) k) = k' at hdrop
  rw [hdrop] at hrep hnodes
  have hcons : ∀ f : Forest, (Forest.cons 1 f .nil).nodes = 1 :: f.nodes := fun f => by simp [Forest.nodes]
  have hnd : (1 :: k'.nodes).Nodup := by
    have := (drop_sublist (nd st.ptrs.ra) (.cons 1 k .nil)).nodup (by rw [hcons]; exact k2)
    rw [hdrop, hcons] at this
    exact this
  have hmem : ∀ x, x ∈ 1 :: k'.nodes ↔ (1 ≤ x ∧ x < st.ptrs.ra.length) ∧ ¬ Text (nd st.ptrs.ra) x := by
    intro x
    rw [← hcons, hnodes, hcons, k3]
  obtain ⟨ra2, b1, b2, b3, b4⟩ := Props.Dfs.C29_dense s1.ptrs.ra k' hrep hnd
  -- the numbering changes the ids only
  have hra : ∀ x, ∃ m, nd ra2 x = { nd s1.ptrs.ra x with idx := m } ∧ (x ∉ 1 :: k'.nodes → m = (nd s1.ptrs.ra x).idx) := by
    intro x
    by_cases hx : x ∈ 1 :: k'.nodes
    · obtain ⟨j, hj⟩ := List.mem_iff_getElem?.1 hx
      refine ⟨j + 1, ?_, fun h => absurd hx h⟩
      have hl := ((hmem x).1 hx).1.2
      have hg : s1.ptrs.ra[x]? = some (nd s1.ptrs.ra x) := nd_get (by rw [a2.len]; exact hl)
      have := b3 j x hj
      rw [hg] at this
      show (ra2[x]?).getD {} = _
      rw [this]; rfl
    · refine ⟨(nd s1.ptrs.ra x).idx, ?_, fun _ => rfl⟩
      unfold nd
      rw [b4 x hx]
  refine ⟨{ s1 with ptrs := { s1.ptrs with ra := ra2 } }, k', ?_, ?_, ?_, hnd, hmem, ?_, ?_, ?_, s1, a1, fun j => by
    obtain ⟨m, e, _⟩ := hra j
    show lk (nd ra2 j) = _
    rw [e]; rfl⟩
  · unfold postProcess
    rw [a1]
    simp only [Option.bind_eq_bind, Option.bind_some]
    rw [b1]
    rfl
  · refine ⟨by show ra2.length = _; rw [b2, a2.len], a2.leni, ?_, a2.addr, a2.fd, a2.aux, a2.opq, a2.size, ?_, ?_⟩
    · intro j
      obtain ⟨m, e, _⟩ := hra j
      show (nd ra2 j).parent = _ ∧ (nd ra2 j).next = _ ∧ (nd ra2 j).ty = _
      rw [e]
      exact ⟨(a2.same j).1, (a2.same j).2.1, (a2.same j).2.2.1⟩
    · intro j hj
      obtain ⟨m, e, _⟩ := hra j
      show (nd ra2 j).refd = true
      rw [e]
      exact a2.refd j hj
    · intro j h1 h2
      obtain ⟨m, e, _⟩ := hra j
      obtain ⟨d1, d2, d3⟩ := a2.done j h1 h2
      refine ⟨?_, d2, ?_⟩
      · show Out _ _ _ _ _ _ (lk (nd ra2 j))
        rw [e]; exact d1
      · show ((nd ra2 j).ref || (nd ra2 j).cref) = true → (nd ra2 (nd ra2 j).firstChild).refd = true
        rw [e]
        intro hr
        obtain ⟨m', e', _⟩ := hra (nd s1.ptrs.ra j).firstChild
        show (nd ra2 (nd s1.ptrs.ra j).firstChild).refd = true
        rw [e']
        exact d3 hr
  · refine Dfs.rep_same hrep fun j hj => ?_
    have hl := Dfs.rep_range hrep j hj
    obtain ⟨m, e, _⟩ := hra j
    show (s1.ptrs.ra[j]?).map linkPart = (ra2[j]?).map linkPart
    rw [nd_get hl, nd_get (by rw [b2]; exact hl), e]
    rfl
  · intro j x hj
    have hl := ((hmem x).1 (List.mem_of_getElem? hj)).1.2
    have hg : s1.ptrs.ra[x]? = some (nd s1.ptrs.ra x) := nd_get (by rw [a2.len]; exact hl)
    have := b3 j x hj
    rw [hg] at this
    show ((ra2[x]?).getD {}).idx = j + 1
    rw [this]; rfl
  · intro x hx
    obtain ⟨m, e, e'⟩ := hra x
    show (nd ra2 x).idx = 0
    rw [e]
    show m = 0
    rw [e' hx, (a2.same x).2.2.2]
    by_cases hl : x < st.ptrs.ra.length
    · exact (hz _ (List.mem_of_getElem? (nd_get hl))).1
    · unfold nd; rw [List.getElem?_eq_none (by omega)]; rfl
  · obtain ⟨m, e, _⟩ := hra 0
    show (nd ra2 0).cref = false
    rw [e]
    have h0 := a2.zero
    simp only [lk, Prod.mk.injEq] at h0
    show (nd s1.ptrs.ra 0).cref = false
    rw [h0.2.2]
    exact (hz _ (List.mem_of_getElem? (nd_get (by omega)))).2

theorem object_ty (a : Nat) (ty aux : MrType) (td : Option Nat) (c s : Nat) : (object a ty aux td c s).ty = ty := by
  unfold object
  split <;> try rfl
  split <;> rfl

theorem object_addr (a : Nat) (ty aux : MrType) (td : Option Nat) (c s : Nat) : (object a ty aux td c s).addr = a := by
  unfold object
  split <;> try rfl
  split <;> rfl

theorem target_addr {o c : Obj} (h : target mem tds o = some c) : c.addr = mem.ptr o.addr := by
  unfold target at h
  split at h
  · split at h
    · cases h
    · cases h; exact object_addr _ _ _ _ _ _
  · split at h
    · cases h
    · cases h; rfl
  · cases h

/-- what a typed pointer leads to is not a text -/
theorem pointer_target {o c : Obj} (hok : ObjOK tds o) (hp : o.ty = .pointer) (h : target mem tds o = some c) : c.ty ≠ .charArray := by
  unfold target at h
  rw [hp] at h
  simp only at h
  split at h
  · cases h
  · rename_i hu
    simp only [Bool.or_eq_true, not_or] at hu
    cases h
    rw [object_ty]
    simp only [ObjOK, hp] at hok
    rcases hok with hok | ⟨b, _, hb⟩
    · exact absurd hok hu.1
    · rcases hb with ⟨h1, h2⟩ | ⟨h1, _⟩
      · rw [h1]; rintro rfl; cases h2
      · rw [h1]; simp

theorem final_of_k {st : St} (h : InvF mem tds U root P0 I0 index n ks obj O (fun _ => False)) (hO : ∀ j, 1 ≤ j → j < n → O j = none) (hn : 1 < n)
    (hK : K mem P0 I0 n obj st) {k : Forest} (hrep : Rep st.ptrs.ra 0 1 (.cons 1 k .nil)) (hnd : (1 :: k.nodes).Nodup)
    (hmem : ∀ x, x ∈ 1 :: k.nodes ↔ (1 ≤ x ∧ x < n) ∧ ¬ Text P0 x) (hids : ∀ j x : Nat, (1 :: k.nodes)[j]? = some x → (nd st.ptrs.ra x).idx = j + 1)
    (hoff : ∀ x, x ∉ 1 :: k.nodes → (nd st.ptrs.ra x).idx = 0) (h0 : (nd st.ptrs.ra 0).cref = false) : Final mem tds root st k obj := by
  have hget : ∀ {i : Nat} {pd : Pd}, st.ptrs.ra[i]? = some pd → nd st.ptrs.ra i = pd ∧ i < n := by
    intro i pd hi
    obtain ⟨e1, e2⟩ := get_nd hi
    exact ⟨e1, by rw [← hK.len]; exact e2⟩
  have hstr : ∀ {i : Nat}, 1 ≤ i → i < n → (obj i).ty = .string → i ∈ 1 :: k.nodes := fun h1 h2 h3 =>
    (hmem _).2 ⟨⟨h1, h2⟩, not_text_string h h1 h2 (by rw [h3]; simp)⟩
  have hown : ∀ {s : Nat}, 1 ≤ s → s < n → (obj s).ty = .string → (P0 s).ref = false → lk (nd st.ptrs.ra s) = (0, false, false) := by
    intro s h1 h2 h3 h4
    have := (hK.done s h1 h2).1
    unfold Out at this
    rw [if_neg (by rw [h3]; rintro ⟨h, _⟩; cases h), if_neg (by rw [h4]; simp), if_pos h3] at this
    exact this
  -- a string whose text is referred to
  have hcref : ∀ {i r : Nat}, 1 ≤ i → i < n → 1 ≤ r → r < n → Text P0 r → lk (nd st.ptrs.ra i) = aim P0 r →
      (nd st.ptrs.ra i).ref = false ∧ (nd st.ptrs.ra i).cref = true ∧ (nd st.ptrs.ra i).firstChild ∈ 1 :: k.nodes ∧
      (obj (nd st.ptrs.ra i).firstChild).ty = .string ∧ target mem tds (obj (nd st.ptrs.ra i).firstChild) = some (obj r) ∧
      ∃ s : Pd, st.ptrs.ra[(nd st.ptrs.ra i).firstChild]? = some s ∧ s.ty = .string ∧ s.ref = false ∧ s.cref = false ∧ s.refd = true := by
    intro i r h1 h2 h3 h4 ht hl
    obtain ⟨_, t2, t3, t4, t5, t6, _⟩ := text_ok h h3 h4 ht
    have hd := (hK.done i h1 h2).2.2
    unfold aim at hl
    rw [if_pos ht] at hl
    simp only [lk, Prod.mk.injEq] at hl
    obtain ⟨l1, l2, l3⟩ := hl
    rw [l1, l2, l3] at hd
    have ho := hown t2 t3 t4 t6
    simp only [lk, Prod.mk.injEq] at ho
    rw [l1, l2, l3]
    refine ⟨rfl, rfl, hstr t2 t3 t4, t4, t5, _, nd_get (by rw [hK.len]; exact t3), ?_, ho.2.1, ho.2.2, hd rfl⟩
    rw [(hK.same _).2.2, (h.seen _ t2 t3).ty]
    exact t4
  have href : ∀ {i r : Nat}, 1 ≤ i → i < n → 1 ≤ r → r < n → ¬ Text P0 r → lk (nd st.ptrs.ra i) = aim P0 r →
      (nd st.ptrs.ra i).ref = true ∧ (nd st.ptrs.ra i).cref = false ∧ (nd st.ptrs.ra i).firstChild = r ∧ r ∈ 1 :: k.nodes ∧
      st.ptrs.ra[r]? = some (nd st.ptrs.ra r) ∧ (nd st.ptrs.ra r).refd = true := by
    intro i r h1 h2 h3 h4 ht hl
    have hd := (hK.done i h1 h2).2.2
    unfold aim at hl
    rw [if_neg ht] at hl
    simp only [lk, Prod.mk.injEq] at hl
    obtain ⟨l1, l2, l3⟩ := hl
    rw [l1, l2, l3] at hd
    exact ⟨l2, l3, l1, (hmem r).2 ⟨⟨h3, h4⟩, ht⟩, nd_get (by rw [hK.len]; exact h4), hd rfl⟩
  refine ⟨by rw [hK.leni, hK.len], fun pd hpd => by rw [← (hget hpd).1]; exact h0, hrep, hnd, ?_, ?_, h.rootObj hn, ?_, ?_, ?_, ?_, ?_, ?_⟩
  · intro j x hj
    have hl := ((hmem x).1 (List.mem_of_getElem? hj)).1.2
    rw [nd_get (by rw [hK.len]; exact hl)]
    simp [hids j x hj]
  · intro i pd h1 hi hx
    obtain ⟨e1, e2⟩ := hget hi
    have ht : Text P0 i := Classical.byContradiction fun ht => hx ((hmem i).2 ⟨⟨h1, e2⟩, ht⟩)
    obtain ⟨_, t2, t3, t4, t5, t6, t7, _⟩ := text_ok h h1 e2 ht
    have ho := hown t2 t3 t4 t6
    simp only [lk, Prod.mk.injEq] at ho
    have hpar : pd.parent = (P0 i).parent := by rw [← e1]; exact (hK.same i).1
    rw [hpar]
    refine ⟨by rw [← e1]; exact hoff i hx, hstr t2 t3 t4, t7, _, nd_get (by rw [hK.len]; exact t3), ?_, ho.2.1, ho.2.2, t5⟩
    rw [(hK.same _).2.2, (h.seen _ t2 t3).ty]
    exact t4
  · intro i pd h1 hi
    obtain ⟨e1, e2⟩ := hget hi
    have hs := h.seen i h1 e2
    refine ⟨ni st.info i, ni_get (by rw [hK.leni]; exact e2), by rw [hK.addr]; exact hs.addr, by rw [← e1, (hK.same i).2.2]; exact hs.ty, ?_, fun hp => by rw [hK.aux]; exact hs.aux hp⟩
    intro hty
    obtain ⟨g, g1, g2, _⟩ := hs.td (by unfold needsTd; rcases hty with h | h <;> rw [h])
    rw [hK.fd, g1]; exact g2
  · intro i pd hx hi t1 t2
    have h1 := ((hmem i).1 hx).1.1
    obtain ⟨e1, e2⟩ := hget hi
    have hs := h.seen i h1 e2
    have hf := h.filled i h1 e2
    have hty : pd.ty = (obj i).ty := by rw [← e1, (hK.same i).2.2]; exact hs.ty
    unfold Filled at hf
    rw [if_neg (by rw [← hty]; simp [ptrLike, t1, t2]), hO i h1 e2] at hf
    have ho := (hK.done i h1 e2).1
    unfold Out at ho
    rw [if_neg (by rw [← hty]; rintro ⟨h, _⟩; exact t1 h), if_neg (by rw [hf.1]; simp), if_neg (by rw [← hty]; exact t2), e1] at ho
    simp only [lk, Prod.mk.injEq] at ho
    refine ⟨by rw [ho.2.1]; exact hf.1, by rw [ho.2.2]; exact hs.cref, ks i, ?_, hf.2, ?_⟩
    · rw [ho.1]
      have hc := h.tree.chain i h1 e2
      rw [kidsHead_plain hf.1 hs.cref] at hc
      refine chain_of (fun c hc => by rw [hK.len]; exact (h.tree.own i c hc).2.2.2.1) ?_
      revert hc
      generalize (P0 i).firstChild = hd
      generalize ks i = L
      induction L generalizing hd with
      | nil => intro hc; exact hc
      | cons c L ih =>
        intro hc
        obtain ⟨c1, c2, c3⟩ := hc
        exact ⟨c1, c2, by rw [(hK.same c).2.1]; exact ih _ c3⟩
    · intro hst
      have hst' : (obj i).ty = .struct := by rw [← hty]; exact hst
      have hlen := congrArg List.length hf.2
      rw [List.length_map, components_members hst'] at hlen
      apply List.ext_getElem?
      intro j
      rw [List.getElem?_map, List.getElem?_map]
      cases hj : (ks i)[j]? with
      | none =>
        rw [List.getElem?_eq_none (by have := List.getElem?_eq_none_iff.1 hj; omega)]
        rfl
      | some c =>
        have hc := h.names i h1 e2 hst' j c hj
        have hlt : j < (members tds (obj i)).length := by have := (List.getElem?_eq_some_iff.1 hj).1; omega
        have hcl := (h.tree.own i c (List.mem_of_getElem? hj)).2.2.2.1
        simp only [Option.map_some]
        rw [ni_get (by rw [hK.leni]; exact hcl)]
        simp only [Option.bind_some]
        rw [hK.fd, hc, List.getElem?_eq_getElem hlt]
        rfl
  · intro i pd hx hi t1 t2
    have h1 := ((hmem i).1 hx).1.1
    obtain ⟨e1, e2⟩ := hget hi
    have hs := h.seen i h1 e2
    have hf := h.filled i h1 e2
    have hty : (obj i).ty = .pointer := by rw [← hs.ty, ← (hK.same i).2.2, e1]; exact t1
    unfold Filled at hf
    rw [if_pos (by simp [ptrLike, hty]), hO i h1 e2] at hf
    simp only at hf
    have ho := (hK.done i h1 e2).1
    unfold Out at ho
    rw [if_neg (by rw [t2]; simp), if_neg (c := (obj i).ty = .string) (by rw [hty]; simp)] at ho
    cases ht : target mem tds (obj i) with
    | none =>
      rw [ht] at hf
      rw [if_neg (by rw [hf.2]; simp), e1] at ho
      simp only [lk, Prod.mk.injEq] at ho
      exact ⟨by rw [ho.2.2]; exact hs.cref, by rw [ho.1]; exact hf.1, by rw [ho.2.1]; exact hf.2⟩
    | some o =>
      rw [ht] at hf
      obtain ⟨f1, f2, f3, f4⟩ := hf
      have hnt : ¬ Text P0 (P0 i).firstChild := not_text_string h f1 f2 (by rw [f3]; exact pointer_target hs.ok hty ht)
      rcases f4 with ⟨f4, f5⟩ | ⟨f4, _, f5⟩
      · rw [if_neg (by rw [f4]; simp), e1] at ho
        simp only [lk, Prod.mk.injEq] at ho
        refine ⟨by rw [ho.2.2]; exact hs.cref, by rw [ho.1]; exact (hmem _).2 ⟨⟨f1, f2⟩, hnt⟩, by rw [ho.1]; exact f3, nd st.ptrs.ra pd.firstChild, by rw [ho.1]; exact nd_get (by rw [hK.len]; exact f2), ?_, ?_⟩
        · intro _
          rw [ho.1, (hK.same _).1, (hK.same _).2.1]
          have hc := h.tree.chain i h1 e2
          rw [f5] at hc
          obtain ⟨_, _, hc⟩ := hc
          exact ⟨(h.tree.own i _ (by rw [f5]; simp)).2.2.2.2, hc⟩
        · intro hr; rw [ho.2.1, f4] at hr; cases hr
      · rw [if_pos f4] at ho
        obtain ⟨r1, r2, r3, r4, r5, r6⟩ := href h1 e2 f1 f2 hnt ho
        rw [e1] at r1 r2 r3
        refine ⟨r2, by rw [r3]; exact r4, by rw [r3]; exact f3, _, by rw [r3]; exact r5, ?_, ?_⟩
        · intro hr; rw [r1] at hr; cases hr
        · intro _
          exact ⟨by rw [(hK.same _).1]; exact f5, r6⟩
  · intro i pd hx hi t1
    have h1 := ((hmem i).1 hx).1.1
    obtain ⟨e1, e2⟩ := hget hi
    have hs := h.seen i h1 e2
    have hf := h.filled i h1 e2
    have hty : (obj i).ty = .string := by rw [← hs.ty, ← (hK.same i).2.2, e1]; exact t1
    unfold Filled at hf
    rw [if_pos (by simp [ptrLike, hty]), hO i h1 e2] at hf
    simp only at hf
    have ho := (hK.done i h1 e2).1
    unfold Out at ho
    rw [if_neg (by rw [hty]; rintro ⟨h, _⟩; cases h), if_pos (c := (obj i).ty = .string) hty] at ho
    cases ht : target mem tds (obj i) with
    | none =>
      rw [ht] at hf
      rw [if_neg (by rw [hf.2]; simp), e1] at ho
      simp only [lk, Prod.mk.injEq] at ho
      exact ho
    | some o =>
      rw [ht] at hf
      obtain ⟨f1, f2, f3, f4⟩ := hf
      rcases f4 with ⟨f4, f5⟩ | ⟨f4, _, f5⟩
      · rw [if_neg (by rw [f4]; simp), e1] at ho
        simp only [lk, Prod.mk.injEq] at ho
        left
        have hpar := (h.tree.own i _ (by rw [f5]; exact List.mem_singleton.2 rfl)).2.2.2.2
        have htx : Text P0 (P0 i).firstChild := ⟨by rw [hpar]; omega, by rw [hpar, hs.ty]; exact hty⟩
        refine ⟨ho.2.1, ho.2.2, ho.1, (P0 i).firstChild, _, f1, nd_get (by rw [hK.len]; exact f2), ?_, by rw [(hK.same _).1]; exact hpar, f3⟩
        intro hm
        exact ((hmem _).1 hm).2 htx
      · rw [if_pos f4] at ho
        right
        by_cases htx : Text P0 (P0 i).firstChild
        · right
          obtain ⟨r1, r2, r3, _, r5, r6⟩ := hcref h1 e2 f1 f2 htx ho
          rw [e1] at r1 r2 r3 r5 r6
          exact ⟨r1, r2, r3, by rw [r5, f3], r6⟩
        · left
          obtain ⟨r1, r2, r3, r4, r5, r6⟩ := href h1 e2 f1 f2 htx ho
          rw [e1] at r1 r2 r3
          exact ⟨r1, r2, by rw [r3]; exact r4, by rw [r3]; exact f3, _, by rw [r3]; exact r5, r6⟩
  · intro i pd hx hi t1 t2
    have h1 := ((hmem i).1 hx).1.1
    obtain ⟨e1, e2⟩ := hget hi
    have hs := h.seen i h1 e2
    have hty : (obj i).ty = .pointer := by rw [← hs.ty, ← (hK.same i).2.2, e1]; exact t1
    have ho := (hK.done i h1 e2).1
    unfold Out at ho
    rw [if_pos ⟨hty, t2⟩] at ho
    rcases ho with ⟨ho, hc⟩ | ⟨r, r1, r2, r3, ho⟩
    · left
      rw [e1] at ho
      simp only [lk, Prod.mk.injEq] at ho
      refine ⟨ho.2.1, ho.2.2, ho.1, fun hv h0 j j1 j2 => ?_⟩
      rcases hc with hc | hc
      · exact absurd ((hs.null (fun h => h) (Or.inl (Or.inr ⟨hty, by rw [hv]; simp⟩))).1 hc) h0
      · exact hc j j1 (by rw [← hK.len]; exact j2)
    · right
      by_cases htx : Text P0 r
      · right
        obtain ⟨q1, q2, q3, q4, q5, s, s1, _, s3⟩ := hcref h1 e2 r1 r2 htx ho
        rw [e1] at q1 q2 q3 q4 q5 s1
        exact ⟨q1, q2, q3, q4, ⟨_, q5, r3⟩, s, s1, s3⟩
      · left
        obtain ⟨q1, q2, q3, q4, q5, q6⟩ := href h1 e2 r1 r2 htx ho
        rw [e1] at q1 q2 q3
        exact ⟨q1, q2, by rw [q3]; exact q4, by rw [q3]; exact r3, _, by rw [q3]; exact q5, q6⟩
  · intro i pd x h1 hi hxi hp
    obtain ⟨e1, e2⟩ := hget hi
    have hs := h.seen i h1 e2
    have hni : ni st.info i = x := by simp [ni, hxi]
    have hty : pd.ty = (obj i).ty := by rw [← e1, (hK.same i).2.2]; exact hs.ty
    have hnull := (hK.done i h1 e2).2.1
    rw [hni] at hnull
    rw [hnull]
    unfold nullAfter
    rw [hty] at hp ⊢
    by_cases hu : (obj i).ty = .pointer ∧ untyped (obj i).aux = true
    · rw [if_pos hu]
      exact ⟨fun _ => Or.inl hu, fun _ => rfl⟩
    · rw [if_neg hu, hs.null (fun h => h) (by
        refine Or.inl ?_
        rcases hp with hp | hp
        · exact Or.inl hp
        · refine Or.inr ⟨hp, fun ha => hu ⟨hp, by rw [ha]; rfl⟩⟩)]
      exact ⟨Or.inr, fun h => h.resolve_left hu⟩

/-- everything `mr_save` gives -/
theorem final_ok (hT : Types tds) {data : Nat} {fd : Fd} (hok : FdOK tds fd) (hfin : Finite mem tds (ofFd data fd)) :
    ∃ N, ∀ fuel, N ≤ fuel → ∃ st0 st ks obj O k, mrSave mem tds fuel data fd = some (st, 1) ∧
      Inv mem tds (Single mem tds (ofFd data fd)) (ofFd data fd) st0 ks obj O (fun _ => False) ∧
      (∀ j, 1 ≤ j → j < st0.ptrs.ra.length → O j = none) ∧ 1 < st0.ptrs.ra.length ∧
      K mem (nd st0.ptrs.ra) (ni st0.info) st0.ptrs.ra.length obj st ∧ Final mem tds (ofFd data fd) st k obj ∧
      (∀ x, x ∈ 1 :: k.nodes ↔ (1 ≤ x ∧ x < st0.ptrs.ra.length) ∧ ¬ Text (nd st0.ptrs.ra) x) ∧ saveGraph mem tds fuel data fd = some (st0, 1) := by
  obtain ⟨Kl, hK⟩ := hfin
  obtain ⟨N, hN⟩ := SaveGraph.graph_ok hT hok hK
  refine ⟨N, fun fuel hf => ?_⟩
  obtain ⟨st, ks, obj, O, e1, e2, e3, e4⟩ := hN fuel hf
  obtain ⟨st', k, a1, a2, a3, a4, a5, a6, a7, a8, _⟩ := post_ok e2 e3 e4 (SaveIdx.saveGraph_z e1)
  refine ⟨st, st', ks, obj, O, k, ?_, e2, e3, e4, a2, final_of_k e2.inv e3 e4 a2 a3 a4 a5 a6 a7 a8, a5, e1⟩
  unfold mrSave
  rw [e1]
  simp [a1]

end Verif.Lemmas.SaveFinal
