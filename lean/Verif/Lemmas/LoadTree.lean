import Verif.Lemmas.LoadTold
/-!
Loading a tree of nodes: what is stored is what the nodes say.  A node with everything inside.
-/
namespace Verif.Lemmas.LoadTree
open Verif.Model Verif.Model.Ptrs Verif.Model.Save Verif.Model.Copy Verif.Model.Load Verif.Spec Verif.Spec.Save Verif.Spec.Load Verif.Spec.LoadSays
  Verif.Lemmas.XdrMem Verif.Lemmas.CopyMem Verif.Lemmas.LoadSafe Verif.Lemmas.LoadInv Verif.Lemmas.LoadStep Verif.Lemmas.LoadRow Verif.Lemmas.LoadOpen Verif.Lemmas.LoadEnd
  Verif.Lemmas.LoadSays Verif.Lemmas.LoadTold
open Verif.Model.XdrGraph (put peek bytesAt bitBytes toBits ofBits bytesWord tdAt tdType wordBytes)
open Verif.Spec.Copy (Apart Layout span Allocator Grown)
open Verif.Spec.XdrGraph (bitAt)
open Verif.Lemmas.XdrSafe (home home_mono home_live not_home)

section
variable {E : Env} {dst ext : Nat} {live0 : Blocks} {m0 : Bytes} (S : Setup E dst ext live0)
include S

theorem load_told (hB : BitsApart E.tds) : ∀ (fuel cur i0 : Nat), i0 < E.ra.length → E.ra.length < fuel + (i0 + 1) →
    ∀ s i a f s', Inv E dst ext live0 m0 cur s → i0 < i → Slot (E := E) (dst := dst) (ext := ext) (live0 := live0) cur s i a f → mrLoad E fuel s (i, a, f) = some (true, s') →
      Told E live0 s s' i a f := by
  intro fuel
  induction fuel with
  | zero => intro cur i0 h1 h2; omega
  | succ fuel ih =>
    intro cur i0 h1 h2 s i a f s' h hi0 hsl e
    unfold mrLoad at e
    by_cases hz : a = 0 ∨ i = 0 ∨ i ≥ s.nodes.length
    · rw [if_pos hz] at e; simp at e
    rw [if_neg hz] at e
    simp only [not_or, Nat.not_le] at hz
    have hid : i < E.data.length := by rw [S.data]; exact hsl.index
    simp only [List.getElem?_eq_getElem hid, Option.bind_eq_bind, Option.bind_some] at e
    by_cases hrf : refused s i a f (E.data[i]'hid) = true
    · rw [if_pos hrf] at e; simp at e
    rw [if_neg hrf] at e
    obtain ⟨s1, e1⟩ := setNode_ok (F := fun x => { x with addr := a, ty := f.ty, aux := f.aux, td := f.td, sized := f.sizeField.isSome, fd := f }) (show i < s.nodes.length by omega)
    rw [e1] at e
    simp only [Option.bind_some] at e
    have hst := (enter h hsl hz.1 hz.2.1 e1).1
    have H := entered S h hsl hz.1 hz.2.1 e1
    obtain ⟨x0, hx0, em, el, hx, ho, _⟩ := setNode_get e1
    have hpl := h.bare i x0 hx0 (hsl.blank x0 hx0)
    have B : Begun s1 i a f { x0 with addr := a, ty := f.ty, aux := f.aux, td := f.td, sized := f.sizeField.isSome, fd := f } :=
      ⟨hx, rfl, rfl, ⟨rfl, rfl, rfl⟩, hpl⟩
    generalize hxn : ({ x0 with addr := a, ty := f.ty, aux := f.aux, td := f.td, sized := f.sizeField.isSome, fd := f } : Node) = x at B hx
    obtain ⟨ok, s2, items, e2, hs2, hrow⟩ := open_ok S hst.inv H (List.getElem_mem hid)
    rw [e2] at e
    simp only [Option.bind_some] at e
    cases ok with
    | false => simp at e
    | true =>
      simp only [if_true] at e
      obtain ⟨O, hO1, hO2⟩ := open_told S hst.inv B H e2
      obtain ⟨y, o1, o2, o3, o4, o5, o6, o7⟩ := O.node
      rw [B.addr] at o2
      rw [B.fd] at o3
      rw [B.own.1] at o4
      rw [B.own.2.1] at o5
      rw [B.own.2.2] at o6
      have hdat : E.data[i]? = some (E.data[i]'hid) := List.getElem?_eq_getElem hid
      have hnamed : ∀ d, E.data[i]? = some d → (∀ n, d.name = some n → f.unnamed = false → f.name ≠ [] → n = f.name) ∧ ∀ t, d.typed = some t → t = f.td := by
        intro d hd
        rw [hdat] at hd; cases hd
        unfold refused at hrf
        simp only [Bool.or_eq_true, not_or, Bool.not_eq_true] at hrf
        obtain ⟨⟨_, r1⟩, r2⟩ := hrf
        constructor
        · intro n hn h1 h2
          rw [hn, h1] at r2
          simp only [Bool.not_false, Bool.true_and] at r2
          refine Classical.byContradiction fun hne => ?_
          simp [h2, hne] at r2
        · intro t ht
          rw [ht] at r1
          simpa using r1
      by_cases hcp : compound f.ty
      · have hs12 := O.comp hcp
        subst hs12
        obtain ⟨i1, i2, i3, _, _⟩ := loadAll_told S hB (i0 := i) (a0 := a) (n0 := room E.tds f) (load_works S fuel cur i hsl.index (by omega)) (ih cur i hsl.index (by omega)) items s2 s' hs2.inv hrow e
        obtain ⟨ok, s3, e3, hs3⟩ := loadAll_ok S (i0 := i) (a0 := a) (n0 := room E.tds f) (load_works S fuel cur i hsl.index (by omega)) items s2 hs2.inv hrow
        rw [e] at e3
        simp only [Option.some.injEq, Prod.mk.injEq] at e3
        obtain ⟨rfl, rfl⟩ := e3
        obtain ⟨z, z1, z2, z3, z4, _⟩ := hs3.keep i y o1 (by rw [o2]; exact hz.1)
        have hnb : f.ty ≠ .bitfield := by rcases hcp with hcp | hcp <;> rw [hcp] <;> simp
        refine ⟨⟨z, z1, z2.trans o2, hz.1, z4.trans o3⟩, fun q w hw hw0 => ?_, fun hb => absurd hb hnb, fun hb => absurd hb hnb, fun p hp => ?_⟩
        · rcases i2 q w hw hw0 with ⟨w1, k1, k2⟩ | k1
          · by_cases hq : q = i
            · subst hq
              rw [z1] at hw; cases hw
              right
              refine ⟨⟨⟨by rw [z3, z4, o4, o3], fun hn => absurd (by rw [z4, o3]; exact hcp) hn⟩, ⟨_, hdat, ?_⟩, fun hn => absurd (by rw [z4, o3]; exact hcp) hn, by rw [z4, o3]; exact hnamed⟩, ?_, ?_, ?_⟩
              · unfold Vals
                rw [z4, o3, z2, o2]
                rcases hcp with hcp | hcp
                · rw [hcp]; exact ⟨items, loadStruct_state (hO1 hcp), i1⟩
                · rw [hcp]; exact ⟨items, loadArray_state (hO2 hcp), i1⟩
              · rw [z2, o2]; exact Nat.le_refl _
              · rw [z2, o2, z4, o3]; exact Nat.le_refl _
              · rw [z4, o3]; exact hsl.good
            · rw [ho q hq] at k1
              exact .inl ⟨w1, k1, k2⟩
          · exact .inr k1
        · rcases i3 p (by rw [em]; exact hp) with k1 | k1
          · exact .inl k1
          · rw [el] at k1; exact .inr k1
      · have hit := O.leaf hcp
        subst hit
        simp only [loadAll, Option.some.injEq, Prod.mk.injEq, true_and] at e
        subst e
        have hothers : ∀ (q : Nat) (w : Node), s2.nodes[q]? = some w → q ≠ i → s.nodes[q]? = some w := fun q w hw hq => by
          rw [O.others q hq, ho q hq] at hw; exact hw
        refine ⟨⟨y, o1, o2, hz.1, o3⟩, fun q w hw hw0 => ?_, fun hb q w hw hw0 => ?_, fun hb p hp => ?_, fun p hp => ?_⟩
        · by_cases hq : q = i
          · subst hq
            rw [o1] at hw; cases hw
            right
            refine ⟨⟨⟨by rw [o4, o3], fun _ => by rw [o5, o6, o3]; exact ⟨rfl, rfl⟩⟩, ⟨_, hdat, o7 hcp⟩, fun _ k w hk hw hc => ?_, by rw [o3]; exact hnamed⟩, ?_, ?_, ?_⟩
            · rw [o2, o3]
              rw [O.others k hk] at hw
              exact H.away k w hk hw hc
            · rw [o2]; exact Nat.le_refl _
            · rw [o2, o3]; exact Nat.le_refl _
            · rw [o3]; exact hsl.good
          · exact .inl ⟨w, hothers q w hw hq, hw0⟩
        · by_cases hq : q = i
          · exact .inr hq
          · exact .inl ⟨w, hothers q w hw hq, hw0⟩
        · rw [O.bits hb p (by rw [B.addr]; exact hp), em]
        · by_cases hb : f.ty = .bitfield
          · left
            refine ⟨i, y, o1, by rw [o2]; exact hz.1, by rw [o3]; exact hcp, ?_⟩
            rw [o2, o3]
            unfold lowBit highBit
            rw [if_pos hb, if_pos hb]
            refine Classical.byContradiction fun hn => hp ?_
            rw [O.bits hb p (by rw [B.addr]; omega), em]
          · by_cases hc : covered (s2.live.drop s.live.length) (p / 8) 1 = true
            · exact .inr hc
            left
            refine ⟨i, y, o1, by rw [o2]; exact hz.1, by rw [o3]; exact hcp, ?_⟩
            rw [o2, o3]
            unfold lowBit highBit
            rw [if_neg hb, if_neg hb]
            refine Classical.byContradiction fun hn => hp ?_
            rw [← em]
            unfold bitAt
            rw [hs2.mem (p / 8) (by omega) (by rw [el]; simpa using hc)]

end
end Verif.Lemmas.LoadTree
