import Verif.Model.SavePost
import Verif.Lemmas.SaveDone
/-!
The loop of the post-processing: what happens to every node.
-/
namespace Verif.Lemmas.SavePost
open Verif.Model Verif.Model.Ptrs Verif.Model.Save Verif.Spec.Ptrs Verif.Spec.Save Verif.Lemmas.SaveTree Verif.Lemmas.SaveInv

/-- the links of a node that the post-processing may change -/
def lk (pd : Pd) : Nat × Bool × Bool := (pd.firstChild, pd.ref, pd.cref)

/-- the node is the text of a string -/
def Text (P : Nat → Pd) (r : Nat) : Prop := (P r).parent ≠ 0 ∧ (P (P r).parent).ty = .string

instance (P : Nat → Pd) (r : Nat) : Decidable (Text P r) := inferInstanceAs (Decidable (_ ∧ _))

/-- a reference to `r` after the texts were replaced by their strings -/
def aim (P : Nat → Pd) (r : Nat) : Nat × Bool × Bool := if Text P r then ((P r).parent, false, true) else (r, true, false)

/-- members that do not change -/
def Same (P P' : Nat → Pd) : Prop := ∀ j, (P' j).parent = (P j).parent ∧ (P' j).next = (P j).next ∧ (P' j).ty = (P j).ty ∧ (P' j).idx = (P j).idx

theorem Same.refl (P : Nat → Pd) : Same P P := fun _ => ⟨rfl, rfl, rfl, rfl⟩
theorem Same.trans {P P' P'' : Nat → Pd} (h : Same P P') (h' : Same P' P'') : Same P P'' := fun j =>
  ⟨(h' j).1.trans (h j).1, (h' j).2.1.trans (h j).2.1, (h' j).2.2.1.trans (h j).2.2.1, (h' j).2.2.2.trans (h j).2.2.2⟩

theorem Same.text {P P' : Nat → Pd} (h : Same P P') (r : Nat) : Text P' r ↔ Text P r := by
  unfold Text
  rw [(h r).1, (h _).2.2.1]

theorem Same.aim {P P' : Nat → Pd} (h : Same P P') (r : Nat) : aim P' r = aim P r := by
  unfold SavePost.aim
  rw [(h r).1]
  by_cases ht : Text P r
  · rw [if_pos ht, if_pos ((h.text r).2 ht)]
  · rw [if_neg ht, if_neg (fun h' => ht ((h.text r).1 h'))]

/-- nodes whose size does not change -/
def Sized (P : Nat → Pd) (j : Nat) : Prop := (P j).ty ≠ .charArray ∨ (P (P j).parent).ty = .struct

theorem Same.sized {P P' : Nat → Pd} (h : Same P P') {j : Nat} (hs : Sized P j) : Sized P' j := by
  unfold Sized
  rw [(h j).2.2.1, (h j).1, (h (P j).parent).2.2.1]
  exact hs

/-- what changes outside of node `i` in one step -/
structure Step (st st' : St) (i : Nat) : Prop where
  len : st'.ptrs.ra.length = st.ptrs.ra.length
  leni : st'.info.length = st.info.length
  index : st'.index = st.index
  same : Same (nd st.ptrs.ra) (nd st'.ptrs.ra)
  addr : ∀ j, (ni st'.info j).addr = (ni st.info j).addr
  fd : ∀ j, (ni st'.info j).fd = (ni st.info j).fd
  aux : ∀ j, (ni st'.info j).aux = (ni st.info j).aux
  opq : ∀ j, ((ni st'.info j).opq, (ni st'.info j).unnamed) = ((ni st.info j).opq, (ni st.info j).unnamed)
  nextU : ∀ j, (ni st'.info j).nextUntyped = (ni st.info j).nextUntyped
  size : ∀ j, Sized (nd st.ptrs.ra) j → (ni st'.info j).size = (ni st.info j).size
  refd : ∀ j, (nd st.ptrs.ra j).refd = true → (nd st'.ptrs.ra j).refd = true
  other : ∀ j, j ≠ i → lk (nd st'.ptrs.ra j) = lk (nd st.ptrs.ra j) ∧ (ni st'.info j).null = (ni st.info j).null

theorem Step.refl (st : St) (i : Nat) : Step st st i :=
  ⟨rfl, rfl, rfl, Same.refl _, fun _ => rfl, fun _ => rfl, fun _ => rfl, fun _ => rfl, fun _ => rfl, fun _ _ => rfl, fun _ h => h, fun _ _ => ⟨rfl, rfl⟩⟩

theorem Step.trans {st st' st'' : St} {i : Nat} (h : Step st st' i) (h' : Step st' st'' i) : Step st st'' i :=
  ⟨h'.len.trans h.len, h'.leni.trans h.leni, h'.index.trans h.index, h.same.trans h'.same, fun j => (h'.addr j).trans (h.addr j),
   fun j => (h'.fd j).trans (h.fd j), fun j => (h'.aux j).trans (h.aux j), fun j => (h'.opq j).trans (h.opq j), fun j => (h'.nextU j).trans (h.nextU j),
   fun j hj => (h'.size j (h.same.sized hj)).trans (h.size j hj), fun j hj => h'.refd j (h.refd j hj),
   fun j hj => ⟨(h'.other j hj).1.trans (h.other j hj).1, (h'.other j hj).2.trans (h.other j hj).2⟩⟩

/-- an update of the links of node `i` -/
theorem step_links (st : St) (i : Nat) (f : Pd → Pd) (h : i < st.ptrs.ra.length)
    (hf : ∀ pd, (f pd).parent = pd.parent ∧ (f pd).next = pd.next ∧ (f pd).ty = pd.ty ∧ (f pd).idx = pd.idx ∧ (f pd).refd = pd.refd) :
    ∃ st', updPd st i f = some st' ∧ Step st st' i ∧ nd st'.ptrs.ra i = f (nd st.ptrs.ra i) ∧ st'.info = st.info := by
  obtain ⟨st', e, e1, e2, e3, _, e4⟩ := updPd_ok st i f h
  have hf' := hf (nd st.ptrs.ra i)
  refine ⟨st', e, ⟨e3, by rw [e1], e2, ?_, fun j => by rw [e1], fun j => by rw [e1], fun j => by rw [e1], fun j => by rw [e1], fun j => by rw [e1], fun j _ => by rw [e1], ?_, ?_⟩, by rw [e4, updF_same], e1⟩
  · intro j
    rw [e4]
    by_cases hj : j = i
    · subst hj; rw [updF_same]; exact ⟨hf'.1, hf'.2.1, hf'.2.2.1, hf'.2.2.2.1⟩
    · rw [updF_ne _ _ hj]; exact ⟨rfl, rfl, rfl, rfl⟩
  · intro j hr
    rw [e4]
    by_cases hj : j = i
    · subst hj; rw [updF_same, hf'.2.2.2.2]; exact hr
    · rw [updF_ne _ _ hj]; exact hr
  · intro j hj
    rw [e4, updF_ne _ _ hj, e1]
    exact ⟨rfl, rfl⟩

/-- marking node `r` -/
theorem step_mark (st : St) (i r : Nat) (h : r < st.ptrs.ra.length) :
    ∃ st', updPd st r (fun pd => { pd with refd := true }) = some st' ∧ Step st st' i ∧ lk (nd st'.ptrs.ra i) = lk (nd st.ptrs.ra i) ∧
      (nd st'.ptrs.ra r).refd = true ∧ st'.info = st.info := by
  obtain ⟨st', e, e1, e2, e3, _, e4⟩ := updPd_ok st r (fun pd => { pd with refd := true }) h
  have hlk : ∀ j, lk (nd st'.ptrs.ra j) = lk (nd st.ptrs.ra j) := by
    intro j
    rw [e4]
    by_cases hj : j = r
    · subst hj; rw [updF_same]; rfl
    · rw [updF_ne _ _ hj]
  refine ⟨st', e, ⟨e3, by rw [e1], e2, ?_, fun j => by rw [e1], fun j => by rw [e1], fun j => by rw [e1], fun j => by rw [e1], fun j => by rw [e1], fun j _ => by rw [e1], ?_, ?_⟩, hlk i, by rw [e4, updF_same], e1⟩
  · intro j
    rw [e4]
    by_cases hj : j = r
    · subst hj; rw [updF_same]; exact ⟨rfl, rfl, rfl, rfl⟩
    · rw [updF_ne _ _ hj]; exact ⟨rfl, rfl, rfl, rfl⟩
  · intro j hr
    rw [e4]
    by_cases hj : j = r
    · subst hj; rw [updF_same]
    · rw [updF_ne _ _ hj]; exact hr
  · intro j _
    exact ⟨hlk j, by rw [e1]⟩

/-- an update of the flag or the size of node `i` -/
theorem step_info (st : St) (i : Nat) (f : Info → Info) (h : i < st.info.length)
    (hf : ∀ x, (f x).addr = x.addr ∧ (f x).fd = x.fd ∧ (f x).aux = x.aux ∧ ((f x).opq, (f x).unnamed) = (x.opq, x.unnamed) ∧ (f x).nextUntyped = x.nextUntyped)
    (hs : Sized (nd st.ptrs.ra) i → ∀ x, (f x).size = x.size) :
    ∃ st', updInfo st i f = some st' ∧ Step st st' i ∧ st'.ptrs = st.ptrs ∧ ni st'.info i = f (ni st.info i) := by
  obtain ⟨st', e, e1, e2, e3, e4⟩ := updInfo_ok st i f h
  have hf' := hf (ni st.info i)
  have key : ∀ j, (ni st'.info j).addr = (ni st.info j).addr ∧ (ni st'.info j).fd = (ni st.info j).fd ∧ (ni st'.info j).aux = (ni st.info j).aux ∧
      ((ni st'.info j).opq, (ni st'.info j).unnamed) = ((ni st.info j).opq, (ni st.info j).unnamed) ∧ (ni st'.info j).nextUntyped = (ni st.info j).nextUntyped := by
    intro j
    rw [e4]
    by_cases hj : j = i
    · subst hj; rw [updF_same]; exact hf'
    · rw [updF_ne _ _ hj]; exact ⟨rfl, rfl, rfl, rfl, rfl⟩
  refine ⟨st', e, ⟨by rw [e1], e3, e2, by rw [e1]; exact Same.refl _, fun j => (key j).1, fun j => (key j).2.1, fun j => (key j).2.2.1, fun j => (key j).2.2.2.1,
    fun j => (key j).2.2.2.2, ?_, fun j h => by rw [e1]; exact h, ?_⟩, e1, by rw [e4, updF_same]⟩
  · intro j hj
    rw [e4]
    by_cases hji : j = i
    · subst hji; rw [updF_same]; exact hs hj _
    · rw [updF_ne _ _ hji]
  · intro j hj
    rw [e1, e4, updF_ne _ _ hj]
    exact ⟨rfl, rfl⟩

/-! ### the search for a node at an address -/

theorem bestMatch_ok {obj : Nat → Obj} {st : St} {n a : Nat} (hl : st.info.length = n) (ha : ∀ j, 1 ≤ j → j < n → (ni st.info j).addr = (obj j).addr)
    (hn : ∀ j, 1 ≤ j → j < n → Prev obj ((obj j).addr / 4) j (ni st.info j).nextUntyped) (fuel : Nat) :
    ∀ hi node best, hi ≤ n → Prev obj (a / 4) hi node → node < fuel → (best ≠ 0 → best < n ∧ (obj best).addr = a) →
      ∃ b, bestMatch st a fuel node best = some b ∧ (b ≠ 0 → b < n ∧ (obj b).addr = a) ∧
        (b = 0 → best = 0 ∧ ∀ m, 1 ≤ m → m < hi → (obj m).addr ≠ a) := by
  induction fuel with
  | zero => intro hi node best _ _ h; omega
  | succ fuel ih =>
    intro hi node best hhi hp hf hb
    unfold bestMatch
    by_cases h0 : node = 0
    · rw [if_pos h0]
      refine ⟨best, rfl, hb, fun h => ⟨h, fun m h1 h2 h3 => hp.2.2 m (by omega) h2 (by rw [h3])⟩⟩
    · rw [if_neg h0]
      have hlt : node < n := by have := hp.1; omega
      rw [ni_get (by omega : node < st.info.length)]
      simp only [Option.bind_eq_bind, Option.bind_some]
      have hpn := hn node (by omega) hlt
      have hadr := hp.2.1 h0
      rw [hadr] at hpn
      have hnx := hpn.1
      rw [ha node (by omega) hlt]
      by_cases hm : (obj node).addr = a
      · rw [if_pos hm]
        by_cases hb0 : best = 0
        · rw [if_pos hb0]
          obtain ⟨b, b1, b2, b3⟩ := ih node _ node (by omega) hpn (by omega) (fun _ => ⟨hlt, hm⟩)
          exact ⟨b, b1, b2, fun h => absurd (b3 h).1 h0⟩
        · rw [if_neg hb0, ni_get (by have := (hb hb0).1; omega : best < st.info.length)]
          simp only [Option.bind_some]
          split
          · obtain ⟨b, b1, b2, b3⟩ := ih node _ node (by omega) hpn (by omega) (fun _ => ⟨hlt, hm⟩)
            exact ⟨b, b1, b2, fun h => absurd (b3 h).1 h0⟩
          · obtain ⟨b, b1, b2, b3⟩ := ih node _ best (by omega) hpn (by omega) hb
            exact ⟨b, b1, b2, fun h => absurd (b3 h).1 hb0⟩
      · rw [if_neg hm]
        obtain ⟨b, b1, b2, b3⟩ := ih node _ best (by omega) hpn (by omega) hb
        refine ⟨b, b1, b2, fun h => ⟨(b3 h).1, fun m h1 h2 => ?_⟩⟩
        rcases Nat.lt_trichotomy m node with h4 | h4 | h4
        · exact (b3 h).2 m h1 h4
        · rw [h4]; exact hm
        · intro h5
          exact hp.2.2 m h4 h2 (by rw [h5])

variable {mem : Mem} {tds : List Td} {root : Obj} {U : Prop} {P0 : Nat → Pd} {I0 : Nat → Info} {index : Nat → Nat} {n : Nat} {ks : Nat → List Nat} {obj : Nat → Obj} {O : Nat → Option Nat}

/-- the links of node `j` after the post-processing -/
def Out (mem : Mem) (P0 : Nat → Pd) (I0 : Nat → Info) (n : Nat) (obj : Nat → Obj) (j : Nat) (l : Nat × Bool × Bool) : Prop :=
  if (obj j).ty = .pointer ∧ untyped (obj j).aux = true then
    (l = (0, false, false) ∧ ((I0 j).null = true ∨ ∀ m, 1 ≤ m → m < n → (obj m).addr ≠ mem.ptr (obj j).addr)) ∨
    ∃ r, 1 ≤ r ∧ r < n ∧ (obj r).addr = mem.ptr (obj j).addr ∧ l = aim P0 r
  else if (P0 j).ref = true then l = aim P0 (P0 j).firstChild
  else if (obj j).ty = .string then l = (0, false, false)
  else l = lk (P0 j)

def nullAfter (I0 : Nat → Info) (obj : Nat → Obj) (j : Nat) : Bool := if (obj j).ty = .pointer ∧ untyped (obj j).aux = true then true else (I0 j).null

/-- nodes before `i` are processed -/
structure J (mem : Mem) (P0 : Nat → Pd) (I0 : Nat → Info) (index : Nat → Nat) (n : Nat) (obj : Nat → Obj) (i : Nat) (st : St) : Prop where
  len : st.ptrs.ra.length = n
  leni : st.info.length = n
  index : st.index = index
  same : Same P0 (nd st.ptrs.ra)
  addr : ∀ j, (ni st.info j).addr = (I0 j).addr
  fd : ∀ j, (ni st.info j).fd = (I0 j).fd
  aux : ∀ j, (ni st.info j).aux = (I0 j).aux
  opq : ∀ j, ((ni st.info j).opq, (ni st.info j).unnamed) = ((I0 j).opq, (I0 j).unnamed)
  nextU : ∀ j, (ni st.info j).nextUntyped = (I0 j).nextUntyped
  size : ∀ j, Sized P0 j → (ni st.info j).size = (I0 j).size
  refd : ∀ j, (P0 j).refd = true → (nd st.ptrs.ra j).refd = true
  zero : lk (nd st.ptrs.ra 0) = lk (P0 0)
  todo : ∀ j, i ≤ j → lk (nd st.ptrs.ra j) = lk (P0 j) ∧ (ni st.info j).null = (I0 j).null
  done : ∀ j, 1 ≤ j → j < i → Out mem P0 I0 n obj j (lk (nd st.ptrs.ra j)) ∧ (ni st.info j).null = nullAfter I0 obj j ∧
    (((nd st.ptrs.ra j).ref || (nd st.ptrs.ra j).cref) = true → (nd st.ptrs.ra (nd st.ptrs.ra j).firstChild).refd = true)

/-- a reference is in range before the post-processing -/
theorem ref_ok (h : InvF mem tds U root P0 I0 index n ks obj O (fun _ => False)) (hO : ∀ j, 1 ≤ j → j < n → O j = none) {i : Nat} (h1 : 1 ≤ i) (h2 : i < n)
    (hr : (P0 i).ref = true) : 1 ≤ (P0 i).firstChild ∧ (P0 i).firstChild < n ∧ ptrLike (obj i).ty = true ∧ target mem tds (obj i) = some (obj (P0 i).firstChild) ∧
      (P0 (P0 i).firstChild).parent ≠ i := by
  have hf := h.filled i h1 h2
  unfold Filled at hf
  split at hf
  · rename_i hpl
    rw [hO i h1 h2] at hf
    simp only at hf
    cases ht : target mem tds (obj i) with
    | none => rw [ht] at hf; rw [hf.2] at hr; cases hr
    | some o =>
      rw [ht] at hf
      obtain ⟨a, b, c, d⟩ := hf
      refine ⟨a, b, hpl, by rw [c], ?_⟩
      rcases d with ⟨d, _⟩ | ⟨_, _, d⟩
      · rw [d] at hr; cases hr
      · exact d
  · rw [hf.1] at hr; cases hr

/-- a pointer without a type has no content -/
theorem untyped_ok (h : InvF mem tds U root P0 I0 index n ks obj O (fun _ => False)) (hO : ∀ j, 1 ≤ j → j < n → O j = none) {i : Nat} (h1 : 1 ≤ i) (h2 : i < n)
    (hu : (obj i).ty = .pointer ∧ untyped (obj i).aux = true) : lk (P0 i) = (0, false, false) := by
  have hf := h.filled i h1 h2
  have hc := (h.seen i h1 h2).cref
  unfold Filled at hf
  rw [if_pos (by simp [ptrLike, hu.1]), hO i h1 h2] at hf
  have ht : target mem tds (obj i) = none := by unfold target; rw [hu.1]; simp [hu.2]
  simp only [ht] at hf
  unfold lk
  rw [hf.1, hf.2, hc]

/-- after the switch -/
structure Mid (mem : Mem) (P0 : Nat → Pd) (I0 : Nat → Info) (n : Nat) (obj : Nat → Obj) (i : Nat) (st : St) : Prop where
  cref : (nd st.ptrs.ra i).cref = false
  ref : (nd st.ptrs.ra i).ref = true → 1 ≤ (nd st.ptrs.ra i).firstChild ∧ (nd st.ptrs.ra i).firstChild < n ∧ (nd st.ptrs.ra (nd st.ptrs.ra i).firstChild).refd = true
  out : Out mem P0 I0 n obj i (if (nd st.ptrs.ra i).ref = true then aim P0 (nd st.ptrs.ra i).firstChild else lk (nd st.ptrs.ra i))
  null : (ni st.info i).null = nullAfter I0 obj i

theorem resolveByType_ok (h : InvF mem tds U root P0 I0 index n ks obj O (fun _ => False)) (hO : ∀ j, 1 ≤ j → j < n → O j = none) {i : Nat} {st : St} (h1 : 1 ≤ i) (h2 : i < n)
    (hj : J mem P0 I0 index n obj i st) : ∃ st', resolveByType mem st i = some st' ∧ Step st st' i ∧ Mid mem P0 I0 n obj i st' := by
  have hs := h.seen i h1 h2
  have htd := hj.todo i (Nat.le_refl i)
  have hty : (nd st.ptrs.ra i).ty = (obj i).ty := by rw [(hj.same i).2.2.1, hs.ty]
  have haddr : (ni st.info i).addr = (obj i).addr := by rw [hj.addr, hs.addr]
  simp only [lk, Prod.mk.injEq] at htd
  obtain ⟨⟨tf, tr, tc⟩, tn⟩ := htd
  have hcr := hs.cref
  -- when nothing changes
  have hkeep : ¬ ((obj i).ty = .pointer ∧ untyped (obj i).aux = true) → ((obj i).ty = .string → (P0 i).ref = true) →
      ∀ st', Step st st' i → (nd st'.ptrs.ra i) = (nd st.ptrs.ra i) → (ni st'.info i).null = (ni st.info i).null → Mid mem P0 I0 n obj i st' := by
    intro hnu hstr st' hst hnd hnn
    have hlk : lk (nd st'.ptrs.ra i) = lk (P0 i) := by rw [hnd]; unfold lk; rw [tf, tr, tc]
    refine ⟨by rw [hnd, tc]; exact hcr, ?_, ?_, ?_⟩
    · intro hr
      rw [hnd, tr] at hr
      obtain ⟨r1, r2, _⟩ := ref_ok h hO h1 h2 hr
      rw [hnd, tf]
      exact ⟨r1, r2, hst.refd _ (hj.refd _ (h.mark i h1 h2 hr))⟩
    · unfold Out
      rw [if_neg hnu, hnd, tr, tf]
      by_cases hr : (P0 i).ref = true
      · rw [if_pos hr, if_pos hr]
      · rw [if_neg hr, if_neg hr, if_neg (fun h => hr (hstr h)), ← hlk, hnd]
    · rw [hnn, tn]; unfold nullAfter; rw [if_neg hnu]
  unfold resolveByType
  rw [nd_get (by rw [hj.len]; exact h2), ni_get (by rw [hj.leni]; exact h2)]
  simp only [Option.bind_eq_bind, Option.bind_some]
  split
  · rename_i hp
    rw [hty] at hp
    have haux : (ni st.info i).aux = (obj i).aux := by rw [hj.aux]; exact hs.aux hp
    split
    · rename_i hc
      rw [haux] at hc
      have hu : (obj i).ty = .pointer ∧ untyped (obj i).aux = true := ⟨hp, by unfold untyped; rcases hc.1 with h | h <;> rw [h] <;> rfl⟩
      have hl0 := untyped_ok h hO h1 h2 hu
      simp only [lk, Prod.mk.injEq] at hl0
      unfold resolveVoid
      obtain ⟨s1, a1, a2, a3, a4⟩ := step_info st i (fun n => { n with null := true }) (by rw [hj.leni]; exact h2) (fun _ => ⟨rfl, rfl, rfl, rfl, rfl⟩) (fun _ _ => rfl)
      rw [a1]
      simp only [Option.bind_eq_bind, Option.bind_some]
      obtain ⟨b, b1, b2, b3⟩ := bestMatch_ok (obj := obj) (st := s1) (n := n) (a := mem.ptr (obj i).addr) (by rw [a2.leni, hj.leni])
        (fun j h3 h4 => by rw [a2.addr, hj.addr]; exact (h.seen j h3 h4).addr) (fun j h3 h4 => by rw [a2.nextU, hj.nextU]; exact h.bnext j h3 h4)
        (n + 1) n _ 0 (Nat.le_refl n) (h.bhead _) (by have := (h.bhead (mem.ptr (obj i).addr / 4)).1; omega) (fun h => absurd rfl h)
      rw [a2.len, hj.len, haddr, a2.index, hj.index, b1]
      simp only [Option.bind_some]
      by_cases hb : b = 0
      · rw [if_pos hb]
        refine ⟨s1, rfl, a2, by rw [a3, tc]; exact hcr, ?_, ?_, by rw [a4]; unfold nullAfter; rw [if_pos hu]⟩
        · intro hr; rw [a3, tr, hl0.2.1] at hr; cases hr
        · unfold Out
          rw [if_pos hu, a3, tr, hl0.2.1, if_neg (by simp)]
          left
          refine ⟨by unfold lk; rw [tf, tr, tc, hl0.1, hl0.2.1, hl0.2.2], Or.inr (b3 hb).2⟩
      · rw [if_neg hb]
        obtain ⟨c1, c2⟩ := b2 hb
        unfold setReference
        obtain ⟨s2, d1, d2, d3, d4⟩ := step_links s1 i (fun pd => { pd with firstChild := b, ref := true }) (by rw [a2.len, hj.len]; exact h2) (fun _ => ⟨rfl, rfl, rfl, rfl, rfl⟩)
        obtain ⟨s3, e1, e2, e3, e4, e5⟩ := step_mark s2 i b (by rw [d2.len, a2.len, hj.len]; exact c1)
        rw [d1]
        simp only [Option.bind_eq_bind, Option.bind_some]
        rw [e1]
        simp only [d3, a3, lk, Prod.mk.injEq] at e3
        refine ⟨s3, rfl, a2.trans (d2.trans e2), by rw [e3.2.2, tc]; exact hcr, ?_, ?_, by rw [e5, d4, a4]; unfold nullAfter; rw [if_pos hu]⟩
        · intro _
          rw [e3.1]
          exact ⟨by omega, c1, e4⟩
        · unfold Out
          rw [if_pos hu, e3.2.1, e3.1, if_pos rfl]
          right
          exact ⟨b, by omega, c1, c2, rfl⟩
    · rename_i hc
      rw [haux] at hc
      by_cases hu : (obj i).ty = .pointer ∧ untyped (obj i).aux = true
      · have hl0 := untyped_ok h hO h1 h2 hu
        simp only [lk, Prod.mk.injEq] at hl0
        have hnull : (ni st.info i).null = true := by
          have : (obj i).aux = .none ∨ (obj i).aux = .void := by
            have := hu.2; unfold untyped at this; simp at this; exact this.symm
          cases hh : (ni st.info i).null
          · exact absurd ⟨this, hh⟩ hc
          · rfl
        refine ⟨st, rfl, Step.refl _ _, by rw [tc]; exact hcr, ?_, ?_, by rw [hnull]; unfold nullAfter; rw [if_pos hu]⟩
        · intro hr; rw [tr, hl0.2.1] at hr; cases hr
        · unfold Out
          rw [if_pos hu, tr, hl0.2.1, if_neg (by simp)]
          left
          exact ⟨by unfold lk; rw [tf, tr, tc, hl0.1, hl0.2.1, hl0.2.2], Or.inl (by rw [← tn]; exact hnull)⟩
      · exact ⟨st, rfl, Step.refl _ _, hkeep hu (by rw [hp]; intro h; cases h) st (Step.refl _ _) rfl rfl⟩
  · rename_i hp
    rw [hty] at hp
    have hnu : ¬ ((obj i).ty = .pointer ∧ untyped (obj i).aux = true) := by rw [hp]; rintro ⟨h, _⟩; cases h
    rw [tr, tc, hcr, Bool.or_false]
    split
    · rename_i hr
      obtain ⟨s1, a1, a2, a3, a4⟩ := step_links st i (fun p => { p with firstChild := 0 }) (by rw [hj.len]; exact h2) (fun _ => ⟨rfl, rfl, rfl, rfl, rfl⟩)
      refine ⟨s1, a1, a2, by rw [a3]; show (nd st.ptrs.ra i).cref = false; rw [tc]; exact hcr, ?_, ?_, by rw [a4, tn]; unfold nullAfter; rw [if_neg hnu]⟩
      · rw [a3]
        intro h3
        have : (nd st.ptrs.ra i).ref = true := h3
        rw [tr, hr] at this; cases this
      · unfold Out
        rw [if_neg hnu, if_neg (by rw [hr]; simp), if_pos hp, a3, if_neg (by show ¬ (nd st.ptrs.ra i).ref = true; rw [tr, hr]; simp)]
        show (0, (nd st.ptrs.ra i).ref, (nd st.ptrs.ra i).cref) = _
        rw [tr, tc, hr, hcr]
    · rename_i hr
      exact ⟨st, rfl, Step.refl _ _, hkeep hnu (fun _ => by simpa using hr) st (Step.refl _ _) rfl rfl⟩
  · rename_i hp
    have hp' := hp
    rw [hty] at hp
    have hnu : ¬ ((obj i).ty = .pointer ∧ untyped (obj i).aux = true) := by rw [hp]; rintro ⟨h, _⟩; cases h
    have hns : (obj i).ty = .string → (P0 i).ref = true := by rw [hp]; intro h; cases h
    unfold charSize
    split
    · exact ⟨st, rfl, Step.refl _ _, hkeep hnu hns st (Step.refl _ _) rfl rfl⟩
    · rename_i hpar
      rw [(hj.same i).1] at hpar ⊢
      have hpl : (P0 i).parent < n := by
        by_cases hi1 : i = 1
        · rw [hi1, h.tree.root] at hpar; exact absurd rfl hpar
        · exact tree_closed h.tree i (by omega) h2
      rw [nd_get (by rw [hj.len]; exact hpl)]
      simp only [Option.bind_eq_bind, Option.bind_some]
      split
      · rename_i hv
        rw [(hj.same i).2.1] at hv ⊢
        have hnx : (P0 i).next < n := by
          by_cases hi1 : i = 1
          · rw [hi1, h.tree.rnext]; omega
          · have hm := h.tree.mem i (by omega) h2
            have hch := h.tree.chain (P0 i).parent (h.tree.own _ _ hm).1 hpl
            have hown : ∀ c ∈ ks (P0 i).parent, c < n := fun c hc => (h.tree.own _ _ hc).2.2.2.1
            revert hch
            generalize kidsHead (P0 (P0 i).parent) = hd
            generalize hL : ks (P0 i).parent = L at hm hown
            clear hL
            induction L generalizing hd with
            | nil => cases hm
            | cons c L ih =>
              intro hch
              obtain ⟨_, _, h5⟩ := hch
              rcases List.mem_cons.1 hm with rfl | hm
              · cases L with
                | nil => have h5' : (P0 i).next = 0 := h5; omega
                | cons d L => have := h5.1; rw [this]; exact hown d (by simp)
              · exact ih _ hm (fun c hc => hown c (by simp [hc])) h5
        rw [ni_get (by rw [hj.leni]; exact hnx)]
        simp only [Option.bind_some]
        obtain ⟨s1, a1, a2, a3, a4⟩ := step_info st i (fun x => { x with size := x.size - (ni st.info (P0 i).next).size }) (by rw [hj.leni]; exact h2) (fun _ => ⟨rfl, rfl, rfl, rfl, rfl⟩)
          (fun hne => by
            rcases hne with hne | hne
            · exact absurd hp' hne
            · rw [(hj.same i).1] at hne
              rw [hne] at hv
              rcases hv with ⟨hv | hv, _⟩ <;> cases hv)
        exact ⟨s1, a1, a2, hkeep hnu hns s1 a2 (by rw [a3]) (by rw [a4])⟩
      · exact ⟨st, rfl, Step.refl _ _, hkeep hnu hns st (Step.refl _ _) rfl rfl⟩
  · rename_i h3 h4 h5
    rw [hty] at h3 h4
    exact ⟨st, rfl, Step.refl _ _, hkeep (fun h => h3 h.1) (fun h => absurd h h4) st (Step.refl _ _) rfl rfl⟩

theorem redirect_ok (h : InvF mem tds U root P0 I0 index n ks obj O (fun _ => False)) {i : Nat} {st : St} (h1 : 1 ≤ i) (h2 : i < n) (hlen : st.ptrs.ra.length = n)
    (hsame : Same P0 (nd st.ptrs.ra)) (hm : Mid mem P0 I0 n obj i st) :
    ∃ st', redirect st i = some st' ∧ Step st st' i ∧ Out mem P0 I0 n obj i (lk (nd st'.ptrs.ra i)) ∧ (ni st'.info i).null = nullAfter I0 obj i ∧
      (((nd st'.ptrs.ra i).ref || (nd st'.ptrs.ra i).cref) = true → (nd st'.ptrs.ra (nd st'.ptrs.ra i).firstChild).refd = true) := by
  have hout := hm.out
  unfold redirect
  rw [nd_get (by omega : i < st.ptrs.ra.length)]
  simp only [Option.bind_eq_bind, Option.bind_some]
  by_cases hr : (nd st.ptrs.ra i).ref = true
  · rw [if_pos hr] at hout ⊢
    obtain ⟨r1, r2, r3⟩ := hm.ref hr
    generalize hf : (nd st.ptrs.ra i).firstChild = f at *
    rw [nd_get (by omega : f < st.ptrs.ra.length)]
    simp only [Option.bind_some]
    have hst : ¬ Text P0 f → ∃ st', some st = some st' ∧ Step st st' i ∧ Out mem P0 I0 n obj i (lk (nd st'.ptrs.ra i)) ∧ (ni st'.info i).null = nullAfter I0 obj i ∧
      (((nd st'.ptrs.ra i).ref || (nd st'.ptrs.ra i).cref) = true → (nd st'.ptrs.ra (nd st'.ptrs.ra i).firstChild).refd = true) := by
      intro ht
      refine ⟨st, rfl, Step.refl _ _, ?_, hm.null, fun _ => by rw [hf]; exact r3⟩
      unfold aim at hout
      rw [if_neg ht] at hout
      unfold lk
      rw [hf, hr, hm.cref]
      exact hout
    by_cases hp : (nd st.ptrs.ra f).parent = 0
    · rw [if_pos hp]
      exact hst (fun h => h.1 (by rw [← (hsame f).1]; exact hp))
    · rw [if_neg hp]
      have hpl : (P0 f).parent < n := by
        rw [(hsame f).1] at hp
        by_cases hi1 : f = 1
        · rw [hi1, h.tree.root] at hp; exact absurd rfl hp
        · exact tree_closed h.tree f (by omega) r2
      rw [(hsame f).1] at hp ⊢
      rw [nd_get (by omega : (P0 f).parent < st.ptrs.ra.length)]
      simp only [Option.bind_some]
      rw [(hsame _).2.2.1]
      by_cases ht : (P0 (P0 f).parent).ty = .string
      · rw [if_pos ht]
        obtain ⟨s2, d1, d2, d3, d4⟩ := step_links st i (fun q => { q with firstChild := (P0 f).parent, ref := false, cref := true }) (by omega) (fun _ => ⟨rfl, rfl, rfl, rfl, rfl⟩)
        obtain ⟨s3, e1, e2, e3, e4, e5⟩ := step_mark s2 i (P0 f).parent (by rw [d2.len]; omega)
        rw [d1]
        simp only [Option.bind_some]
        rw [e1]
        have e3' := e3
        simp only [d3, lk, Prod.mk.injEq] at e3'
        refine ⟨s3, rfl, d2.trans e2, ?_, by rw [e5, d4]; exact hm.null, fun _ => by rw [e3'.1]; exact e4⟩
        rw [e3, d3]
        unfold aim at hout
        rw [if_pos ⟨hp, ht⟩] at hout
        exact hout
      · rw [if_neg ht]
        exact hst (fun h => ht h.2)
  · rw [if_neg hr] at hout ⊢
    refine ⟨st, rfl, Step.refl _ _, hout, hm.null, fun h => ?_⟩
    rw [hm.cref] at h
    simp at h
    exact absurd h hr

theorem resolve_ok (h : InvF mem tds U root P0 I0 index n ks obj O (fun _ => False)) (hO : ∀ j, 1 ≤ j → j < n → O j = none) {i : Nat} {st : St} (h1 : 1 ≤ i) (h2 : i < n)
    (hj : J mem P0 I0 index n obj i st) : ∃ st', resolveVoidAndStrings mem st i = some st' ∧ Step st st' i ∧ J mem P0 I0 index n obj (i + 1) st' := by
  obtain ⟨s1, a1, a2, a3⟩ := resolveByType_ok h hO h1 h2 hj
  obtain ⟨s2, b1, b2, b3, b4, b5⟩ := redirect_ok h h1 h2 (by rw [a2.len, hj.len]) (hj.same.trans a2.same) a3
  refine ⟨s2, by unfold resolveVoidAndStrings; rw [a1]; exact b1, a2.trans b2, ?_⟩
  have c := a2.trans b2
  refine ⟨by rw [c.len, hj.len], by rw [c.leni, hj.leni], by rw [c.index, hj.index], hj.same.trans c.same, fun j => by rw [c.addr, hj.addr], fun j => by rw [c.fd, hj.fd],
    fun j => by rw [c.aux, hj.aux], fun j => by rw [c.opq, hj.opq], fun j => by rw [c.nextU, hj.nextU], ?_, fun j hr => c.refd j (hj.refd j hr), (c.other 0 (by omega)).1.trans hj.zero, ?_, ?_⟩
  · intro j hne
    rw [c.size j (hj.same.sized hne), hj.size j hne]
  · intro j hij
    obtain ⟨e1, e2⟩ := c.other j (by omega)
    obtain ⟨f1, f2⟩ := hj.todo j (by omega)
    exact ⟨e1.trans f1, e2.trans f2⟩
  · intro j hj1 hj2
    by_cases hji : j = i
    · subst hji; exact ⟨b3, b4, b5⟩
    · obtain ⟨e1, e2⟩ := c.other j hji
      obtain ⟨f1, f2, f3⟩ := hj.done j hj1 (by omega)
      refine ⟨by rw [e1]; exact f1, by rw [e2]; exact f2, ?_⟩
      simp only [lk, Prod.mk.injEq] at e1
      rw [e1.1, e1.2.1, e1.2.2]
      exact fun hr => c.refd _ (f3 hr)

theorem postLoop_ok (h : InvF mem tds U root P0 I0 index n ks obj O (fun _ => False)) (hO : ∀ j, 1 ≤ j → j < n → O j = none) (m : Nat) :
    ∀ {i : Nat} {st : St}, 1 ≤ i → i + m = n → J mem P0 I0 index n obj i st → ∃ st', postLoop mem m st i = some st' ∧ J mem P0 I0 index n obj n st' := by
  induction m with
  | zero =>
    intro i st _ h2 hj
    have : i = n := by omega
    subst this
    exact ⟨st, rfl, hj⟩
  | succ m ih =>
    intro i st h1 h2 hj
    obtain ⟨s1, a1, _, a2⟩ := resolve_ok h hO h1 (by omega) hj
    obtain ⟨s2, b1, b2⟩ := ih (by omega) (by omega) a2
    exact ⟨s2, by unfold postLoop; rw [a1]; exact b1, b2⟩

theorem j_start {st : St} (h : Inv mem tds U root st ks obj O (fun _ => False)) :
    J mem (nd st.ptrs.ra) (ni st.info) st.index st.ptrs.ra.length obj 1 st :=
  ⟨rfl, h.len, rfl, Same.refl _, fun _ => rfl, fun _ => rfl, fun _ => rfl, fun _ => rfl, fun _ => rfl, fun _ _ => rfl, fun _ h => h, rfl, fun _ _ => ⟨rfl, rfl⟩,
    fun j h1 h2 => by omega⟩

end Verif.Lemmas.SavePost
