import Verif.Lemmas.JsonTells
import Verif.Lemmas.GraphFits
/-!
The document of a saved graph fits the types.
-/
namespace Verif.Lemmas.JsonGraph
open Verif.Model Verif.Model.Ptrs Verif.Model.Save Verif.Spec.Ptrs Verif.Spec.Save Verif.Spec.SaveJson Verif.Spec.Json Verif.Model.SaveJson
  Verif.Lemmas.SaveTree Verif.Lemmas.SaveFinal Verif.Lemmas.SaveInv Verif.Lemmas.CopyLayout Verif.Lemmas.CopyView Verif.Lemmas.CopyMem Verif.Lemmas.CopyPlace Verif.Lemmas.XdrSeg Verif.Lemmas.XdrPlan Verif.Lemmas.XdrFit
  Verif.Lemmas.XdrMem Verif.Lemmas.JsonValue Verif.Lemmas.JsonPruned Verif.Lemmas.JsonNode
open Verif.Lemmas.XdrNode (refers cell_cases src)
open Verif.Model.Copy (Bytes Blocks covered)
open Verif.Spec.Copy (isCell Text extent span Needs)
open Verif.Spec.XdrGraph (bitAt valueByte integer enumType)
open Verif.Spec.Load (Fields Unrepeated Tree)
open Verif.Spec.LoadSays (numberSize converted valueBytes valueBit)
open Verif.Lemmas.LoadGraph (fdL fdL_fields fdL_ty Listed Tells nodup_at value_in)
open Verif.Lemmas.GraphFits (Easy)
open Verif.Model.XdrGraph (bytesAt)

variable {P : Plan} {K : Codec} {known : List Nat → Bool} {ra' : List Pd} {k' : Forest} {ptrs : Ptrs} {data : List Json.Loaded} {alloc : Blocks → Nat → Nat} {table : Bool}

/-- what is needed besides what the document tells (Lemmas/GraphFits.lean) -/
theorem Read.easy (H : P.Core) (hF : Fields P.tds) (hP : Printable known P.tds) (hR : Restored K P.ld P.m P.mem P.tds P.root) (hld : P.ld ≤ 16) (hmax : P.max ≤ P.fuel)
    (R : Pruned P ra' k') (hs : (1 :: k'.nodes).length < 2 ^ 32) (D : Read K P ra' k' ptrs data) (hA : Accepted K P.m P.mem P.tds P.root) {size : Nat}
    (hsz : ∀ o n, Outer P.mem P.tds P.root o → Needs P.m P.tds o n → n ≤ size) :
    Easy P (1 :: k'.nodes) (LoadJson.env P.tds ptrs data (conv K data) alloc table) size := by
  have get : ∀ (j i : Nat) (d : Load.Doc), (1 :: k'.nodes)[j]? = some i → (data.map LoadJson.doc)[j + 1]? = some d →
      ∃ pd y, d = LoadJson.doc y ∧ data[j + 1]? = some y ∧ i ∈ P.N ∧ (1 ≤ i ∧ i < P.n) ∧ ra'[i]? = some pd ∧ Same (nd P.st.ptrs.ra i) pd ∧ (pd.ref || pd.cref) = refers P i ∧ pd.ty = (P.obj i).ty ∧
        SameNode ra' pd (SaveJson.info K (src P) (nd P.st.ptrs.ra i) (ni P.st.info i)) y := by
    intro j i d hj hd
    obtain ⟨pd, q, y, g1, hS, g3, g4, g5, g6⟩ := D.same H R hj
    rw [List.getElem?_map, g5] at hd
    have hi := R.sub i (List.mem_of_getElem? hj)
    have hr := H.range hi
    exact ⟨pd, y, (Option.some.inj hd).symm, g5, hi, hr, g1, hS, by rw [hS.ref, hS.cref]; rfl, by rw [hS.ty, H.C.V.ty hr.1 hr.2], g6⟩
  have leaf' : ∀ (i : Nat) (pd : Pd) (y : Json.Loaded), i ∈ P.N → (pd.ref || pd.cref) = refers P i → pd.ty = (P.obj i).ty →
      SameNode ra' pd (SaveJson.info K (src P) (nd P.st.ptrs.ra i) (ni P.st.info i)) y → refers P i = false → (ni P.st.info i).null = false → compound (P.obj i).ty = false →
      ∃ lf, Fine K P i lf ∧ ReadAs lf y.null y.value := by
    intro i pd y hi h1 h2 h3 hrf hn hc
    obtain ⟨lf, F⟩ := fine (K := K) H hF hP hR hld hmax hi hc hrf hn
    have := h3.leaf (by rw [h1]; exact hrf) hn (by rw [h2]; exact hc)
    have this : ReadAs ((leaf K (src P) (nd P.st.ptrs.ra i) (ni P.st.info i)).getD .undefined) y.null y.value := this
    rw [F.eq] at this
    exact ⟨lf, F, this⟩
  have noref : ∀ i ∈ P.N, isCell (P.obj i) = false → refers P i = false := by
    intro i hi h
    cases e : refers P i with
    | false => rfl
    | true => rw [(marked H hi e).1] at h; cases h
  have conv_eq : ∀ (j i : Nat) (y : Json.Loaded), data[j + 1]? = some y → conv K data (fdL P i) (j + 1) = convert K (fdL P i) y := by
    intro j i y hy
    unfold conv
    rw [hy]
  refine ⟨?_, ?_, fun i hi => (kind H hP hi).2, ?_, ?_, hsz⟩
  · intro j i d hj hd
    obtain ⟨pd, y, rfl, _⟩ := get j i d hj hd
    rfl
  · intro j i d hj hd h
    obtain ⟨pd, y, rfl, _, hi, hr, _, hS, _, _, g6⟩ := get j i d hj hd
    refine g6.name.2 fun hm => ?_
    obtain ⟨h1, h2⟩ := (member_iff H R hi hS).1 hm
    rcases h with h | h
    · exact h1 h
    · exact h h2
  · intro j i d hj hd hv
    obtain ⟨pd, y, rfl, hy, hi, hr, _, hS, hpr, hpt, g6⟩ := get j i d hj hd
    have hcell : isCell (P.obj i) = false := by
      cases hty : (P.obj i).ty <;> rw [hty] at hv <;> first | (simp [isCell, hty]; done) | cases hv
    have h1 : (P.obj i).ty ≠ .string := fun e => by simp [isCell, e] at hcell
    have h2 : (P.obj i).ty ≠ .pointer := fun e => by simp [isCell, e] at hcell
    have hcomp : compound (P.obj i).ty = false := by
      cases hty : (P.obj i).ty <;> rw [hty] at hv <;> first | rfl | cases hv
    have hrf := noref i hi hcell
    have hty := fdL_ty H hi
    unfold valueBytes
    rw [hty]
    cases hn : (ni P.st.info i).null with
    | true =>
      obtain ⟨u1, u2⟩ := H.C.V.unset i hr.1 hr.2 h1 h2 hn
      have hdn : (LoadJson.doc y).null = true := (g6.null (by rw [hpr]; exact hrf) hn).1
      rcases u1 with u1 | u1 <;> rw [u1] <;> simp only [hdn, if_true] <;> exact fun h => by cases h
    | false =>
      obtain ⟨lf, F, hra⟩ := leaf' i pd y hi hpr hpt g6 hrf hn hcomp
      by_cases hch : (P.obj i).ty = .charArray
      · rw [hch]
        have e := F.chars hch
        rw [e] at hra
        unfold LoadJson.doc
        generalize y.value = v, y.null = u at hra
        cases hra
        exact fun h => by cases h
      · have key : convert K (fdL P i) y ≠ .fail := by
          by_cases hf : foreign (P.obj i).ty = true
          · have hc : convert K (fdL P i) y = K.load (fdL P i) y := by
              unfold convert
              rw [hty]
              generalize (P.obj i).ty = t at hf
              cases t <;> first | (simp [foreign] at hf; done) | rfl
            rw [hc]
            refine hA _ (H.C.V.reach i hr.1 hr.2) hf ?_ _ _ hty (by rw [← F.print hf]; exact hra)
            intro h h0
            have := (H.C.V.fnull i hr.1 hr.2 h).2 h0
            rw [hn] at this
            cases this
          · have hvb : valueByte P.ld P.tds (P.obj i) 0 := by
              unfold valueByte
              by_cases he : (P.obj i).ty = .enum
              · rw [he]
                have hok := H.C.V.ok i hr.1 hr.2
                unfold ObjOK at hok
                rw [he] at hok
                obtain ⟨t, d, g1, g2, g3⟩ := hok
                have := hP.enums t d g2 g3
                simp only [enumType, g1, Option.bind_some, g2, Option.map_some, Option.getD_some]
                cases e : d.effective <;> rw [e] at this <;> simp [integer, typeSize] at this ⊢
              · cases e : (P.obj i).ty <;> rw [e] at hv he hf hch <;> first | (cases hv; done) | exact absurd rfl he | exact absurd rfl hch | exact absurd rfl hf | (simp [typeSize]; done)
            rcases F.value (fdL P i) y hty hra 0 hvb with ⟨e, _⟩ | ⟨b, e, _⟩
            · exact absurd e hf
            · rw [e]; exact fun h => by cases h
        have hconv : converted (LoadJson.env P.tds ptrs data (conv K data) alloc table) (fdL P i) (j + 1) ≠ none := by
          unfold converted
          rw [show (LoadJson.env P.tds ptrs data (conv K data) alloc table).conv (fdL P i) (j + 1) = convert K (fdL P i) y from conv_eq j i y hy]
          cases e : convert K (fdL P i) y with
          | fail => exact absurd e key
          | keep => exact fun h => by cases h
          | store b => exact fun h => by cases h
        cases e : (P.obj i).ty <;> rw [e] at hch <;> first | exact hconv | exact absurd rfl hch | (simp only; split <;> first | exact hconv | exact fun h => by cases h)
  · intro j i hj hty
    obtain ⟨pd, q, y, g1, hS, g3, g4, g5, g6⟩ := D.same H R hj
    have hi := R.sub i (List.mem_of_getElem? hj)
    have hr := H.range hi
    have hrf := noref i hi (by simp [isCell, hty])
    have hn : (ni P.st.info i).null = false := by
      cases e : (ni P.st.info i).null with
      | false => rfl
      | true =>
        obtain ⟨u | u, _⟩ := H.C.V.unset i hr.1 hr.2 (by rw [hty]; exact fun h => by cases h) (by rw [hty]; exact fun h => by cases h) e <;> rw [hty] at u <;> cases u
    obtain ⟨lf, F, hra⟩ := leaf' i pd y hi (by rw [hS.ref, hS.cref]; rfl) (by rw [hS.ty, H.C.V.ty hr.1 hr.2]) g6 hrf hn (by rw [hty]; rfl)
    rw [show (LoadJson.env P.tds ptrs data (conv K data) alloc table).conv (fdL P i) (j + 1) = convert K (fdL P i) y from conv_eq j i y g5]
    obtain ⟨b, e, _⟩ := F.bits hty _ y (by rw [fdL_ty H hi]; exact hty) hra
    rw [e]
    exact fun h => by cases h

end Verif.Lemmas.JsonGraph
