import Verif.Lemmas.SaveFinal
import Verif.Props.Save
/-!
# C42: what `mr_save` returns

`Final` is in Spec/Final.lean.
-/
namespace Verif.Props.SaveFinal
open Verif.Model Verif.Model.Ptrs Verif.Model.Save Verif.Spec.Ptrs Verif.Spec.Save Verif.Lemmas.SaveTree Verif.Lemmas.SaveInv Verif.Lemmas.SavePost
  Verif.Lemmas.SaveFinal Verif.Lemmas.SaveDone

variable {mem : Mem} {tds : List Td} {root : Obj} {st : St} {k : Forest} {obj : Nat → Obj}

/-- **C42, part.** `mr_save` ends and returns the whole graph: the nodes of the tree are numbered in document
order, texts are found through their strings, pointers without a type refer to what is at their address.
Missing: unions, arrays whose number of elements is in a size field, arrays with more than one dimension, opaque
data. -/
theorem C42_result_partial (hT : Types tds) {data : Nat} {fd : Fd} (hok : FdOK tds fd) (hfin : Finite mem tds (ofFd data fd)) :
    ∃ N, ∀ fuel, N ≤ fuel → ∃ st k obj, mrSave mem tds fuel data fd = some (st, 1) ∧ Final mem tds (ofFd data fd) st k obj ∧
      (∀ o, Reach mem tds (ofFd data fd) o → ∃ i, 1 ≤ i ∧ i < st.ptrs.ra.length ∧ obj i = o) ∧
      (∀ i, 1 ≤ i → i < st.ptrs.ra.length → Reach mem tds (ofFd data fd) (obj i)) ∧
      (Single mem tds (ofFd data fd) → ∀ i j, 1 ≤ i → i < st.ptrs.ra.length → 1 ≤ j → j < st.ptrs.ra.length →
        identified (obj i).ty = true → obj i = obj j → i = j) := by
  obtain ⟨N, hN⟩ := final_ok hT hok hfin
  refine ⟨N, fun fuel hf => ?_⟩
  obtain ⟨st0, st, ks, obj, O, k, e1, e2, e3, e4, e5, e6, e7⟩ := hN fuel hf
  obtain ⟨k0, hs⟩ := saved_of_inv e2 e3 e4
  have hlen := e5.len
  refine ⟨st, k, obj, e1, e6, ?_, ?_, ?_⟩
  · intro o ho
    obtain ⟨i, hi, hio⟩ := Save.C42_saved_complete hs ho
    have := (hs.every i).1 hi
    rw [← hlen] at this
    exact ⟨i, this.1, this.2, hio⟩
  · intro i h1 h2
    exact Save.C42_saved_sound hs ((hs.every i).2 ⟨h1, by rw [← hlen]; exact h2⟩)
  · intro hsg
    have := e2.inv.uniq hsg
    rw [← hlen] at this
    exact this

/-- What `mr_save` returns meets the hypotheses of the theorems about strings that share their text (C49). -/
theorem C42_shared_strings (h : Final mem tds root st k obj) : SharedStrings st.ptrs.ra (1 :: k.nodes) := by
  have hty : ∀ {i : Nat} {pd : Pd}, 1 ≤ i → st.ptrs.ra[i]? = some pd → pd.ty = (obj i).ty := fun h1 h2 => by
    obtain ⟨_, _, _, h, _⟩ := h.node _ _ h1 h2; exact h
  have hpos : ∀ x, x ∈ 1 :: k.nodes → 1 ≤ x := by
    intro x hx
    have := h.tree
    have hne : ∀ (f : Forest) (p hd : Nat), Rep st.ptrs.ra p hd f → ∀ x ∈ f.nodes, x ≠ 0 := by
      intro f
      induction f with
      | nil => intro _ _ _ x hx; cases hx
      | cons i k s ihk ihs =>
        intro p hd hr x hx
        obtain ⟨_, h2, pd, _, _, h5, h6⟩ := hr
        simp only [Forest.nodes, List.mem_cons, List.mem_append] at hx
        rcases hx with rfl | hx | hx
        · exact h2
        · exact ihk _ _ h5 x hx
        · exact ihs _ _ h6 x hx
    have := hne _ _ _ this x (by simpa [Forest.nodes] using hx)
    omega
  refine ⟨?_, ?_, ?_, ?_⟩
  · rw [List.pairwise_iff_getElem]
    intro i j hi hj hij a b ha hb
    have h1 := h.ids i _ (List.getElem?_eq_getElem hi)
    have h2 := h.ids j _ (List.getElem?_eq_getElem hj)
    rw [ha] at h1
    rw [hb] at h2
    simp only [Option.map_some, Option.some.injEq] at h1 h2
    omega
  · intro x hx pd hpd hst
    have := h.string x pd hx hpd hst
    unfold kidsHead
    cases ht : target mem tds (obj x) with
    | none => rw [ht] at this; simp [this.1]
    | some o =>
      rw [ht] at this
      rcases this with ⟨_, _, h3, _⟩ | ⟨h1, _⟩ | ⟨_, h2, _⟩
      · simp [h3]
      · simp [h1]
      · simp [h2]
  · intro x hx pd hpd ht hc
    rcases ht with ht | ht
    · have := h.string x pd hx hpd ht
      cases htt : target mem tds (obj x) with
      | none => rw [htt] at this; rw [this.2.2] at hc; cases hc
      | some o =>
        rw [htt] at this
        rcases this with ⟨_, h2, _⟩ | ⟨_, h2, _⟩ | ⟨_, _, h3, _, s, h4, h5, h6, h7, _⟩
        · rw [h2] at hc; cases hc
        · rw [h2] at hc; cases hc
        · exact ⟨h3, s, h4, h5, h7, h6⟩
    · cases hu : untyped (obj x).aux with
      | false => rw [(h.pointer x pd hx hpd ht hu).1] at hc; cases hc
      | true =>
        rcases h.void x pd hx hpd ht hu with ⟨_, h2, _⟩ | ⟨_, h2, _⟩ | ⟨_, _, h3, h4, _, s, h5, h6, h7, _⟩
        · rw [h2] at hc; cases hc
        · rw [h2] at hc; cases hc
        · exact ⟨h3, s, h5, by rw [hty (hpos _ h3) h5]; exact h4, h7, h6⟩
  · intro x pd hpd hx ⟨ht, hc⟩
    by_cases h0 : x = 0
    · subst h0; rw [h.dummy pd hpd] at hc; cases hc
    · have := (h.off x pd (by omega) hpd hx).2.2.1
      rw [← hty (by omega) hpd, ht] at this
      cases this

namespace Example
open Save.Example

/-- the cyclic graph of Props/Save.lean meets the hypotheses -/
example := C42_result_partial types root_ok finite

/-- the text of the name has left the tree; the nodes are numbered in document order -/
example : (mrSave heap sample 40 1000 (rootFd 3 32)).map (fun r => (r.2, r.1.ptrs.ra.map fun pd => (pd.parent, pd.firstChild, pd.next, pd.idx))) = some
    (1, [(0, 0, 0, 0), (0, 2, 0, 1), (1, 8, 3, 2), (1, 11, 4, 3), (1, 5, 7, 10), (4, 0, 6, 11), (4, 0, 0, 12), (1, 8, 0, 13), (11, 9, 13, 6),
      (8, 8, 10, 7), (8, 0, 0, 8), (3, 12, 0, 4), (11, 0, 8, 5), (11, 0, 0, 9), (13, 0, 0, 0)]) := by decide +kernel

/-- `struct three { char * a; char * b; void * v; int x; void * w; }` -/
def tThree : Td := { ty := .struct, size := 40, fields := [{ ty := .string, base := .string, size := 8, offset := 0 }, { ty := .string, base := .string, size := 8, offset := 8 }, { ty := .pointer, aux := .void, base := .void, size := 8, offset := 16 }, intField 24, { ty := .pointer, aux := .void, base := .void, size := 8, offset := 32 }] }

/-- two strings and a `void *` with the same text, and a `void *` to `x` -/
def heap3 : Mem := { ptr := fun a => if a = 1000 ∨ a = 1008 ∨ a = 1016 then 2000 else if a = 1032 then 1024 else 0, int := fun _ => 0 }

/-- nodes 4 and 5 refer to the content of the string of node 2 (node 3 is its text), node 7 refers to node 6 -/
example : (mrSave heap3 [tInt, tThree] 40 1000 (rootFd 1 40)).map (fun r => r.1.ptrs.ra.map fun pd => (pd.firstChild, pd.ref, pd.cref, pd.refd)) = some
    [(0, false, false, false), (2, false, false, false), (0, false, false, true), (0, false, false, true), (2, false, true, false), (2, false, true, false),
     (0, false, false, true), (6, true, false, false)] := by decide +kernel

end Example

end Verif.Props.SaveFinal
