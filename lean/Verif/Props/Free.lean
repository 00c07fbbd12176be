import Verif.Props.SaveFinal
import Verif.Spec.Free
/-!
# C31: recursive free

`Outer` and `Owned` are in Spec/Free.lean.
-/
namespace Verif.Props.Free
open Verif.Model Verif.Model.Ptrs Verif.Model.Save Verif.Spec.Ptrs Verif.Spec.Save Verif.Lemmas.SaveTree Verif.Lemmas.SaveInv Verif.Lemmas.SavePost
  Verif.Lemmas.SaveFinal Verif.Lemmas.SaveDone

variable {mem : Mem} {tds : List Td}

theorem freeBlocks_ok (as : List Nat) : ∀ (live : List Nat), live.Nodup → (∀ a ∈ as, a ≠ 0 → a ∈ live) →
    (∀ (i j : Nat) (a : Nat), as[i]? = some a → as[j]? = some a → a ≠ 0 → i = j) →
    ∃ left, freeBlocks as live = some left ∧ left.Nodup ∧ ∀ a, a ∈ left ↔ a ∈ live ∧ ¬ (a ≠ 0 ∧ a ∈ as) := by
  induction as with
  | nil => intro live h _ _; exact ⟨live, rfl, h, fun a => by simp⟩
  | cons b as ih =>
    intro live hn hl hi
    have hi' : ∀ (i j : Nat) (a : Nat), as[i]? = some a → as[j]? = some a → a ≠ 0 → i = j := by
      intro i j a h1 h2 h3
      have := hi (i + 1) (j + 1) a (by simpa using h1) (by simpa using h2) h3
      omega
    unfold freeBlocks
    by_cases hb : b = 0
    · rw [if_pos hb]
      obtain ⟨left, e1, e2, e3⟩ := ih live hn (fun a ha => hl a (by simp [ha])) hi'
      refine ⟨left, e1, e2, fun a => ?_⟩
      rw [e3]
      subst hb
      constructor
      · rintro ⟨h1, h2⟩
        exact ⟨h1, fun ⟨h3, h4⟩ => h2 ⟨h3, (List.mem_cons.1 h4).resolve_left h3⟩⟩
      · rintro ⟨h1, h2⟩
        exact ⟨h1, fun ⟨h3, h4⟩ => h2 ⟨h3, by simp [h4]⟩⟩
    · rw [if_neg hb, if_pos (hl b (by simp) hb)]
      have hne : ∀ a ∈ as, a ≠ 0 → a ≠ b := by
        rintro a ha h0 rfl
        obtain ⟨j, hj⟩ := List.mem_iff_getElem?.1 ha
        have := hi 0 (j + 1) a (by simp) (by simpa using hj) h0
        omega
      obtain ⟨left, e1, e2, e3⟩ := ih (live.erase b) (hn.erase b) (fun a ha h0 => (hn.mem_erase_iff).2 ⟨hne a ha h0, hl a (by simp [ha]) h0⟩) hi'
      refine ⟨left, e1, e2, fun a => ?_⟩
      rw [e3, hn.mem_erase_iff]
      constructor
      · rintro ⟨⟨h1, h2⟩, h3⟩
        exact ⟨h2, fun ⟨h4, h5⟩ => h3 ⟨h4, (List.mem_cons.1 h5).resolve_left h1⟩⟩
      · rintro ⟨h1, h2⟩
        exact ⟨⟨fun h => h2 ⟨by rw [h]; exact hb, by simp [h]⟩, h1⟩, fun ⟨h4, h5⟩ => h2 ⟨h4, by simp [h5]⟩⟩

/-- the address that the first loop notes for a node, 0 if it owns nothing -/
def noted (mem : Mem) (pd : Pd) (x : Info) : Nat := if owns pd x && x.addr != 0 then mem.ptr x.addr else 0

theorem collect_get (pds : List Pd) : ∀ (xs : List Info), pds.length = xs.length → ∀ (j : Nat) (pd : Pd) (x : Info), pds[j]? = some pd → xs[j]? = some x →
    (collect mem pds xs)[j]? = some (noted mem pd x) := by
  induction pds with
  | nil => intro xs _ j pd x h; cases h
  | cons p pds ih =>
    intro xs hl j pd x h1 h2
    cases xs with
    | nil => cases hl
    | cons y xs =>
      unfold collect
      cases j with
      | zero => cases h1; cases h2; rfl
      | succ j => exact ih xs (by simpa using hl) j pd x h1 h2

theorem collect_len (pds : List Pd) : ∀ (xs : List Info), pds.length = xs.length → (collect mem pds xs).length = pds.length := by
  induction pds with
  | nil => intro xs h; rfl
  | cons p pds ih =>
    intro xs hl
    cases xs with
    | nil => cases hl
    | cons y xs => unfold collect; simp [ih xs (by simpa using hl)]

theorem nullOwner_false (pds : List Pd) : ∀ (xs : List Info), (∀ x ∈ xs, x.addr ≠ 0) → nullOwner pds xs = false := by
  induction pds with
  | nil => intro xs _; rfl
  | cons p pds ih =>
    intro xs h
    cases xs with
    | nil => rfl
    | cons y xs =>
      unfold nullOwner
      rw [ih xs (fun x hx => h x (by simp [hx]))]
      simp [h y (by simp)]

/-- **C31, part.** MR_FREE_RECURSIVELY succeeds on every object graph, with any sharing and cycles, whose memory is
organised as `Owned` says: it frees exactly the blocks of the objects that were allocated separately, each once
(freeing something twice, or something that is no allocated block, is undefined in the model), and not the object
itself.  Missing: unions, arrays whose number of elements is in a size field, arrays with more than one
dimension, opaque data, pointers to pointers. -/
theorem C31_free_partial (hT : Types tds) {data : Nat} {fd : Fd} (hok : FdOK tds fd) (hfin : Finite mem tds (ofFd data fd))
    {live : List Nat} (hlive : live.Nodup) (hown : Owned mem tds (ofFd data fd) live) :
    ∃ N, ∀ fuel, N ≤ fuel → ∃ st left, mrSave mem tds fuel data fd = some (st, 1) ∧ freeRecursively mem st live = some (true, left) ∧
      left.Nodup ∧ (∀ a, a ∈ left ↔ a ∈ live ∧ ¬ ∃ o, Outer mem tds (ofFd data fd) o ∧ o.addr = a) ∧
      (data ∈ live → data ∈ left) := by
  obtain ⟨N, hN⟩ := final_ok hT hok hfin
  refine ⟨N, fun fuel hf => ?_⟩
  obtain ⟨st0, st, ks, obj, O, k, e1, e2, e3, e4, hK, hF, hmem, _⟩ := hN fuel hf
  obtain ⟨k0, hs⟩ := saved_of_inv e2 e3 e4
  have hI := e2.inv
  have huniq := hI.uniq hown.single
  generalize hn : st0.ptrs.ra.length = n at *
  generalize nd st0.ptrs.ra = P0 at *
  generalize ni st0.info = I0 at *
  have hreach : ∀ i, 1 ≤ i → i < n → Reach mem tds (ofFd data fd) (obj i) := fun i h1 h2 => reach_root hI h1 h2
  have hcomp : ∀ o, Reach mem tds (ofFd data fd) o → ∃ i, 1 ≤ i ∧ i < n ∧ obj i = o := by
    intro o ho
    obtain ⟨i, hi, hio⟩ := Save.C42_saved_complete hs ho
    have := (hs.every i).1 hi
    rw [hn] at this
    exact ⟨i, this.1, this.2, hio⟩
  have hget : ∀ i, i < n → st.ptrs.ra[i]? = some (nd st.ptrs.ra i) ∧ st.info[i]? = some (ni st.info i) := fun i hi =>
    ⟨nd_get (by rw [hK.len]; exact hi), ni_get (by rw [hK.leni]; exact hi)⟩
  have haddr : ∀ i, 1 ≤ i → i < n → (ni st.info i).addr = (obj i).addr := fun i h1 h2 => by rw [hK.addr]; exact (hI.seen i h1 h2).addr
  have hty : ∀ i, 1 ≤ i → i < n → (nd st.ptrs.ra i).ty = (obj i).ty := fun i h1 h2 => by rw [(hK.same i).2.2]; exact (hI.seen i h1 h2).ty
  -- a separately allocated object with a node below the owner
  have houter : ∀ c, 1 < c → c < n → ptrLike (obj (P0 c).parent).ty = true → target mem tds (obj (P0 c).parent) = some (obj c) →
      Outer mem tds (ofFd data fd) (obj c) := by
    intro c c1 c2 hpl ht
    obtain ⟨p1, p2, _⟩ := hI.tree.own _ _ (hI.tree.mem c c1 c2)
    have hid := hown.cells _ _ (hreach _ p1 p2) ht
    refine ⟨⟨_, hreach _ p1 p2, ht⟩, ?_, ?_⟩
    · intro h
      have := huniq c 1 (by omega) c2 (by omega) (by omega) hid (by rw [h, hI.rootObj (by omega)])
      omega
    · intro y hy hc
      obtain ⟨i, i1, i2, hiy⟩ := hcomp y hy
      have hnp : ptrLike (obj i).ty = false := by
        rw [hiy]
        cases hh : ptrLike y.ty with
        | false => rfl
        | true =>
          unfold components at hc
          unfold ptrLike at hh
          simp only [Bool.or_eq_true, beq_iff_eq] at hh
          rcases hh with hh | hh <;> rw [hh] at hc <;> cases hc
      have hfl := hI.filled i i1 i2
      unfold Filled at hfl
      rw [if_neg (by rw [hnp]; simp), e3 i i1 i2] at hfl
      rw [← hiy, ← hfl.2] at hc
      obtain ⟨c', hc', hcc⟩ := List.mem_map.1 hc
      obtain ⟨_, _, g3, g4, g5⟩ := hI.tree.own _ _ hc'
      have := huniq c c' (by omega) c2 (by omega) g4 hid hcc.symm
      subst this
      rw [g5, hnp] at hpl
      cases hpl
  -- what an owner notes
  have hA : ∀ i, 1 ≤ i → i < n → noted mem (nd st.ptrs.ra i) (ni st.info i) ≠ 0 →
      ∃ c, 1 < c ∧ c < n ∧ (P0 c).parent = i ∧ noted mem (nd st.ptrs.ra i) (ni st.info i) = (obj c).addr ∧ Outer mem tds (ofFd data fd) (obj c) := by
    intro i i1 i2 hne
    unfold noted at hne ⊢
    split at hne
    · rename_i ho
      rw [if_pos ho, haddr i i1 i2]
      simp only [owns, Bool.and_eq_true, Bool.or_eq_true, Bool.not_eq_true', bne_iff_ne, beq_iff_eq, Bool.or_eq_false_iff] at ho
      obtain ⟨⟨⟨o1, ⟨o2, o3⟩, o4⟩, o5⟩, _⟩ := ho
      have hint : i ∈ 1 :: k.nodes := Classical.byContradiction fun hni => o1 (hF.off i _ i1 (hget i i2).1 hni).1
      have hnull := hF.null i _ _ i1 (hget i i2).1 (hget i i2).2 (o5.symm)
      rw [o2] at hnull
      simp only [Bool.false_eq_true, false_iff, not_or, not_and] at hnull
      have hpl : ptrLike (obj i).ty = true := by
        rw [← hty i i1 i2]
        rcases o5 with h | h <;> rw [h] <;> rfl
      suffices hh : ∃ c, 1 ≤ c ∧ c < n ∧ (P0 c).parent = i ∧ target mem tds (obj i) = some (obj c) by
        obtain ⟨c, c1, c2, c3, c4⟩ := hh
        have hc1 : 1 < c := by
          by_cases h : c = 1
          · rw [h, hI.tree.root] at c3; omega
          · omega
        exact ⟨c, hc1, c2, c3, (target_addr c4).symm, houter c hc1 c2 (by rw [c3]; exact hpl) (by rw [c3]; exact c4)⟩
      rcases o5 with hp | hp
      · have hu : untyped (obj i).aux = false := by
          have := hnull.1 hp
          cases h : untyped (obj i).aux
          · rfl
          · exact absurd h this
        obtain ⟨_, hq⟩ := hF.pointer i _ hint (hget i i2).1 hp hu
        cases ht : target mem tds (obj i) with
        | none =>
          unfold target at ht
          rw [← hty i i1 i2, hp] at ht
          simp only [hu, Bool.false_or] at ht
          split at ht
          · rename_i h0; exact absurd (by simpa using h0) hnull.2
          · cases ht
        | some o =>
          rw [ht] at hq
          obtain ⟨q1, q2, t, q3, q4, _⟩ := hq
          have hr := ((hmem _).1 q1).1
          refine ⟨_, hr.1, hr.2, ?_, by rw [q2]⟩
          rw [← (hK.same _).1]
          have := (get_nd q3).1
          rw [this]
          exact (q4 o3).1
      · have hq := hF.string i _ hint (hget i i2).1 hp
        cases ht : target mem tds (obj i) with
        | none =>
          unfold target at ht
          rw [← hty i i1 i2, hp] at ht
          simp only at ht
          split at ht
          · rename_i h0; exact absurd h0 hnull.2
          · cases ht
        | some o =>
          rw [ht] at hq
          rcases hq with ⟨_, _, _, t, tp, t1, t2, _, t4, t5⟩ | ⟨q1, _⟩ | ⟨_, q2, _⟩
          · obtain ⟨g1, g2⟩ := get_nd t2
            refine ⟨t, t1, by rw [← hK.len]; exact g2, ?_, by rw [t5]⟩
            rw [← (hK.same _).1, g1]
            exact t4
          · rw [q1] at o3; cases o3
          · rw [q2] at o4; cases o4
    · exact absurd rfl hne
  have hB : ∀ o, Outer mem tds (ofFd data fd) o → ∃ i, 1 ≤ i ∧ i < n ∧ noted mem (nd st.ptrs.ra i) (ni st.info i) = o.addr := by
    intro o ho
    obtain ⟨x, hx, hxo⟩ := ho.lead
    obtain ⟨c, c1, c2, hc⟩ := hcomp o (.lead hx hxo)
    have hc1 : 1 < c := by
      by_cases h : c = 1
      · rw [h, hI.rootObj (by omega)] at hc
        exact absurd hc.symm ho.notRoot
      · omega
    obtain ⟨p1, p2, _⟩ := hI.tree.own _ _ (hI.tree.mem c hc1 c2)
    rcases edge hI hc1 c2 with ⟨h1, h2, _, _, h5⟩ | ⟨_, j, _, h4⟩
    · generalize hp : (P0 c).parent = i at *
      refine ⟨i, p1, p2, ?_⟩
      have hpl : (obj i).ty = .pointer ∨ (obj i).ty = .string := by simpa [ptrLike] using h1
      have hint : i ∈ 1 :: k.nodes := (hmem i).2 ⟨⟨p1, p2⟩, not_text_string hI p1 p2 (by rcases hpl with h | h <;> rw [h] <;> simp)⟩
      have hidx : (nd st.ptrs.ra i).idx ≠ 0 := by
        obtain ⟨j, hj⟩ := List.mem_iff_getElem?.1 hint
        have := hF.ids j i hj
        rw [(hget i p2).1] at this
        simp at this
        omega
      have hptr : mem.ptr (obj i).addr ≠ 0 := by
        intro h0
        unfold target at h2
        rcases hpl with h | h <;> rw [h] at h2 <;> simp [h0] at h2
      have hnu : ¬ ((obj i).ty = .pointer ∧ untyped (obj i).aux = true) := by
        rintro ⟨h, h'⟩
        unfold target at h2
        rw [h] at h2
        simp [h'] at h2
      have hnull := hF.null i _ _ p1 (hget i p2).1 (hget i p2).2 (by rw [hty i p1 p2]; exact hpl.symm)
      rw [hty i p1 p2] at hnull
      have hnn : (ni st.info i).null = false := by
        cases h : (ni st.info i).null with
        | false => rfl
        | true => exact absurd (hnull.1 h) (fun h => h.elim hnu hptr)
      have hout := (hK.done i p1 p2).1
      unfold Out at hout
      rw [if_neg hnu, if_neg (by rw [h5]; simp)] at hout
      have hrc : (nd st.ptrs.ra i).ref = false ∧ (nd st.ptrs.ra i).cref = false := by
        split at hout
        · simp only [lk, Prod.mk.injEq] at hout; exact hout.2
        · simp only [lk, Prod.mk.injEq] at hout
          rw [hout.2.1, hout.2.2]
          exact ⟨h5, (hI.seen i p1 p2).cref⟩
      have how : owns (nd st.ptrs.ra i) (ni st.info i) = true := by
        unfold owns
        rw [hnn, hrc.1, hrc.2, hty i p1 p2]
        simp [hidx, hpl]
      unfold noted
      rw [how, haddr i p1 p2, if_pos (by simp [hown.addr _ (hreach i p1 p2)]), ← hc]
      exact (target_addr h2).symm
    · exact absurd (by rw [← hc]; exact List.mem_of_getElem? h4) (ho.notPart _ (hreach _ p1 p2))
  have hlen : (st.ptrs.ra.drop 1).length = (st.info.drop 1).length := by simp [hK.len, hK.leni]
  have hcol : ∀ (j a : Nat), (collect mem (st.ptrs.ra.drop 1) (st.info.drop 1))[j]? = some a ↔ j + 1 < n ∧ a = noted mem (nd st.ptrs.ra (j + 1)) (ni st.info (j + 1)) := by
    intro j a
    constructor
    · intro hj
      have hlt := (List.getElem?_eq_some_iff.1 hj).1
      rw [collect_len _ _ hlen] at hlt
      simp [hK.len] at hlt
      have hg := hget (j + 1) (by omega)
      have := collect_get (mem := mem) _ _ hlen j _ _ (by rw [List.getElem?_drop, Nat.add_comm]; exact hg.1) (by rw [List.getElem?_drop, Nat.add_comm]; exact hg.2)
      rw [hj] at this
      exact ⟨by omega, Option.some.inj this⟩
    · rintro ⟨h1, rfl⟩
      have hg := hget (j + 1) h1
      exact collect_get (mem := mem) _ _ hlen j _ _ (by rw [List.getElem?_drop, Nat.add_comm]; exact hg.1) (by rw [List.getElem?_drop, Nat.add_comm]; exact hg.2)
  obtain ⟨left, l1, l2, l3⟩ := freeBlocks_ok (collect mem (st.ptrs.ra.drop 1) (st.info.drop 1)) live hlive (by
    intro a ha h0
    obtain ⟨j, hj⟩ := List.mem_iff_getElem?.1 ha
    obtain ⟨j1, rfl⟩ := (hcol j a).1 hj
    obtain ⟨c, _, _, _, c4, c5⟩ := hA (j + 1) (by omega) j1 h0
    rw [c4]
    exact hown.block _ c5) (by
    intro i j a hi hj h0
    obtain ⟨i1, hi⟩ := (hcol i a).1 hi
    obtain ⟨j1, hj⟩ := (hcol j a).1 hj
    obtain ⟨c, a1, a2, a3, a4, a5⟩ := hA (i + 1) (by omega) i1 (by rw [← hi]; exact h0)
    obtain ⟨d, b1, b2, b3, b4, b5⟩ := hA (j + 1) (by omega) j1 (by rw [← hj]; exact h0)
    have hcd := hown.apart _ _ a5 b5 (by rw [← a4, ← b4, ← hi, ← hj])
    obtain ⟨x, hx, hxo⟩ := a5.lead
    have := huniq c d (by omega) a2 (by omega) b2 (hown.cells _ _ hx hxo) hcd
    subst this
    omega)
  have hleft : ∀ a, a ∈ left ↔ a ∈ live ∧ ¬ ∃ o, Outer mem tds (ofFd data fd) o ∧ o.addr = a := by
    intro a
    rw [l3]
    refine and_congr_right fun _ => not_congr ?_
    constructor
    · rintro ⟨h0, ha⟩
      obtain ⟨j, hj⟩ := List.mem_iff_getElem?.1 ha
      obtain ⟨j1, rfl⟩ := (hcol j a).1 hj
      obtain ⟨c, _, _, _, c4, c5⟩ := hA (j + 1) (by omega) j1 h0
      exact ⟨_, c5, c4.symm⟩
    · rintro ⟨o, ho, rfl⟩
      obtain ⟨x, hx, hxo⟩ := ho.lead
      obtain ⟨i, i1, i2, hi⟩ := hB o ho
      refine ⟨hown.addr o (.lead hx hxo), List.mem_of_getElem? ((hcol (i - 1) _).2 ⟨by omega, ?_⟩)⟩
      rw [show i - 1 + 1 = i from by omega]
      exact hi.symm
  refine ⟨st, left, e1, ?_, l2, hleft, fun hd => (hleft data).2 ⟨hd, ?_⟩⟩
  · unfold freeRecursively
    rw [l1]
    simp only [Option.bind_eq_bind, Option.bind_some]
    rw [nullOwner_false]
    · rfl
    · intro x hx
      obtain ⟨j, hj⟩ := List.mem_iff_getElem?.1 hx
      rw [List.getElem?_drop] at hj
      have hlt := (List.getElem?_eq_some_iff.1 hj).1
      rw [hK.leni] at hlt
      rw [(hget (1 + j) hlt).2] at hj
      cases hj
      rw [haddr (1 + j) (by omega) hlt]
      exact hown.addr _ (hreach _ (by omega) hlt)
  · rintro ⟨o, ho, hd'⟩
    refine hown.top o ho ?_
    rw [hd']
    exact (object_addr _ _ _ _ _ _).symm

namespace Example
open Save.Example

def item : Obj := { addr := 2000, ty := .struct, td := some 2 }
def text : Obj := { addr := 3000, ty := .charArray }

theorem outer {o : Obj} (h : Outer heap sample (ofFd 1000 (rootFd 3 32)) o) : o ∈ [item, text] := by
  obtain ⟨x, hx, hxo⟩ := h.lead
  have hall : ∀ x ∈ objs, ∀ o ∈ (target heap sample x).toList, o ∈ [item, text] ∨ o ∈ components sample item := by decide +kernel
  refine (hall x (reach_objs x hx) o (by rw [hxo]; simp)).resolve_right (h.notPart item ?_)
  have hq : Reach heap sample (ofFd 1000 (rootFd 3 32)) { addr := 1008, ty := .pointer, aux := .struct, td := some 2 } := .part .self (by decide +kernel)
  exact .lead hq (by decide +kernel)

/-- the cyclic graph of Props/Save.lean with the item and its name in blocks of their own; the pair itself and
something else are allocated, too -/
theorem owned : Owned heap sample (ofFd 1000 (rootFd 3 32)) [5000, 3000, 1000, 2000] where
  addr o h := by
    have : ∀ o ∈ objs, o.addr ≠ 0 := by decide +kernel
    exact this o (reach_objs o h)
  single := single
  block o h := by
    have : ∀ o ∈ [item, text], o.addr ∈ [5000, 3000, 1000, 2000] := by decide +kernel
    exact this o (outer h)
  top o h := by
    have : ∀ o ∈ [item, text], o.addr ≠ (ofFd 1000 (rootFd 3 32)).addr := by decide +kernel
    exact this o (outer h)
  apart a b ha hb := by
    have : ∀ a ∈ [item, text], ∀ b ∈ [item, text], a.addr = b.addr → a = b := by decide +kernel
    exact this a (outer ha) b (outer hb)
  cells x o hx ho := by
    have : ∀ x ∈ objs, ∀ o ∈ (target heap sample x).toList, identified o.ty = true := by decide +kernel
    exact this x (reach_objs x hx) o (by rw [ho]; simp)

example := C31_free_partial types root_ok finite (by decide) owned

example : ((mrSave heap sample 40 1000 (rootFd 3 32)).bind fun r => freeRecursively heap r.1 [5000, 3000, 1000, 2000]) = some (true, [5000, 1000]) := by
  decide +kernel

end Example

/-! ### where the claim fails -/

open Save.Example Save.Deviation in
/-- `struct pp { int * p; int ** q; }` with `q = &p`: the pointer `q` has a node of its own for `p` below it, so the
address of `p`, which is in the middle of the structure, is freed. -/
theorem C31_deviation_pointer_cell :
    ((mrSave mem3 [tInt, tPp] 40 1000 (rootFd 1 16)).map fun r => collect mem3 (r.1.ptrs.ra.drop 1) (r.1.info.drop 1)) = some [0, 2000, 1000, 0, 0] ∧
    ((mrSave mem3 [tInt, tPp] 40 1000 (rootFd 1 16)).bind fun r => freeRecursively mem3 r.1 [2000]) = none := by decide +kernel

namespace Deviation
open Save.Example

/-- `struct two { int ** p; int ** q; }` with both leading to the cell at 2000 -/
def tTwo : Td := { ty := .struct, size := 16, fields := [{ ty := .pointer, aux := .pointer, base := .int32, td := some 0, size := 8, offset := 0 }, { ty := .pointer, aux := .pointer, base := .int32, td := some 0, size := 8, offset := 8 }] }
def mem4 : Mem := { ptr := fun a => if a = 1000 ∨ a = 1008 then 2000 else if a = 2000 then 3000 else 0, int := fun _ => 0 }

/-- `struct views { int * p; float * q; }` with both leading to 2000 -/
def tFloat : Td := { ty := .float, size := 4 }
def tViews : Td := { ty := .struct, size := 16, fields := [ptrField 0 .int32 0, ptrField 8 .float 1] }
def mem5 : Mem := { ptr := fun a => if a = 1000 ∨ a = 1008 then 2000 else 0, int := fun _ => 0 }

end Deviation

open Save.Example Deviation in
/-- Two pointers to the same pointer are not recognised as such: its block is freed twice. -/
theorem C31_deviation_shared_cell :
    ((mrSave mem4 [tInt, tTwo] 40 1000 (rootFd 1 16)).map fun r => (collect mem4 (r.1.ptrs.ra.drop 1) (r.1.info.drop 1)).count 2000) = some 2 ∧
    ((mrSave mem4 [tInt, tTwo] 40 1000 (rootFd 1 16)).bind fun r => freeRecursively mem4 r.1 [2000, 3000]) = none := by decide +kernel

open Save.Example Deviation in
/-- A block to which pointers of different types lead is freed twice. -/
theorem C31_deviation_views :
    ((mrSave mem5 [tInt, tFloat, tViews] 40 1000 (rootFd 2 16)).map fun r => (collect mem5 (r.1.ptrs.ra.drop 1) (r.1.info.drop 1)).count 2000) = some 2 ∧
    ((mrSave mem5 [tInt, tFloat, tViews] 40 1000 (rootFd 2 16)).bind fun r => freeRecursively mem5 r.1 [2000]) = none := by decide +kernel

end Verif.Props.Free
