import Verif.Lemmas.JsonPruned
import Verif.Lemmas.JsonValue
import Verif.Lemmas.Bitfield
/-!
The values of the nodes of a saved graph, as they are written in JSON and read again.
-/
namespace Verif.Lemmas.JsonNode
open Verif.Model Verif.Model.Ptrs Verif.Model.Save Verif.Spec.Ptrs Verif.Spec.Save Verif.Spec.SaveJson Verif.Spec.Json Verif.Model.SaveJson
  Verif.Lemmas.SaveTree Verif.Lemmas.SaveFinal Verif.Lemmas.SaveInv Verif.Lemmas.CopyLayout Verif.Lemmas.CopyView Verif.Lemmas.CopyMem Verif.Lemmas.CopyPlace Verif.Lemmas.XdrSeg Verif.Lemmas.XdrPlan Verif.Lemmas.XdrFit
  Verif.Lemmas.XdrMem Verif.Lemmas.JsonValue
open Verif.Lemmas.XdrNode (refers cell_cases src readable room_member)
open Verif.Model.Copy (Bytes Blocks covered)
open Verif.Spec.Copy (isCell Text extent span)
open Verif.Spec.XdrGraph (bitAt valueByte integer enumType)
open Verif.Spec.LoadSays (valueBit)
open Verif.Spec.Load (Fields)
open Verif.Model.XdrGraph (tdAt bytesAt wordBytes peek toBits bitBytes bitType signedInt)

variable {P : Plan} {K : Codec} {known : List Nat → Bool}

/-- what is known about the value that is written for node `i` -/
structure Fine (K : Codec) (P : Plan) (i : Nat) (lf : Json.Leaf) : Prop where
  eq : leaf K (src P) (nd P.st.ptrs.ra i) (ni P.st.info i) = some lf
  ok : LeafOK lf
  num : ∀ null x, ReadAs lf null (.int x) → x ≠ 2 ^ 127
  null : (P.obj i).ty = .func ∨ (P.obj i).ty = .funcType → ∀ null v, ReadAs lf null v → null = false
  value : ∀ (f : Fd) (y : Json.Loaded), f.ty = (P.obj i).ty → ReadAs lf y.null y.value → ∀ k, valueByte P.ld P.tds (P.obj i) k →
    (foreign (P.obj i).ty = true ∧ convert K f y = .fail) ∨ ∃ b, convert K f y = .store b ∧ b k = P.m ((P.obj i).addr + k)
  bits : (P.obj i).ty = .bitfield → ∀ (f : Fd) (y : Json.Loaded), f.ty = .bitfield → ReadAs lf y.null y.value →
    ∃ b, convert K f y = .store b ∧ ∀ q, q < (fdOf P i).width → valueBit b q = bitAt P.m (8 * (P.obj i).addr + ((fdOf P i).shift + q))
  chars : (P.obj i).ty = .charArray → lf = .text ((bytesAt P.m (P.obj i).addr (fdOf P i).size).takeWhile (· ≠ 0))
  str : (P.obj i).ty = .string → ∀ t, P.own i = some t → ∃ l, Text P.m (P.obj t).addr l ∧ lf = .text (bytesAt P.m (P.obj t).addr l)
  print : foreign (P.obj i).ty = true → lf = K.print (P.obj i).ty (bytesAt P.m (P.obj i).addr (typeSize (P.obj i).ty))

/-- types that are not in documents do not occur -/
theorem kind (H : P.Core) (hP : Printable known P.tds) {i : Nat} (hi : i ∈ P.N) : (P.obj i).ty ≠ .none ∧ (P.obj i).ty ≠ .endAnonUnion ∧ (P.obj i).ty ≠ .last := by
  have hpl : plain (P.obj i).ty = true ∨ (P.obj i).ty = .pointer → (P.obj i).ty ≠ .none ∧ (P.obj i).ty ≠ .endAnonUnion ∧ (P.obj i).ty ≠ .last := by
    intro h
    refine ⟨?_, ?_, ?_⟩ <;> intro e <;> rw [e] at h <;> rcases h with h | h <;> cases h
  by_cases h1 : i = 1
  · subst h1
    rw [H.C.V.F.top] at hpl ⊢
    exact hpl (Or.inl H.C.S.base.1)
  · have hr := H.range hi
    rcases parent_kind H hi h1 with h | h | ⟨_, _, h, _⟩
    · obtain ⟨l, j, t, d, f, M⟩ := member_of H.C (by omega : 1 < i) hr.2 h
      rw [M.ty]
      exact hP.kinds t d f M.dd M.dty M.inFields
    · exact hpl (array_kid H.C (by omega : 1 < i) hr.2 h)
    · exact hpl (Or.inl h)

/-- types of numbers -/
def numeric (t : MrType) : Bool := bitBase t || t = .char || foreign t

theorem printed_le (H : P.Core) {i : Nat} (hi : i ∈ P.N) (hn : numeric (P.obj i).ty = true) : printed P.tds (P.obj i).ty (P.obj i).td ≤ extent P.tds (P.obj i) := by
  have hr := H.range hi
  have hok := H.C.V.ok i hr.1 hr.2
  unfold ObjOK at hok
  by_cases he : (P.obj i).ty = .enum
  · rw [he] at hok
    obtain ⟨t, d, h1, h2, h3⟩ := hok
    have := H.C.T.enums t d h2 h3
    simp [printed, extent, he, h1, h2, tdAt, plain, elementSize, typeSize]
    exact this
  · cases hty : (P.obj i).ty <;> rw [hty] at hn he <;>
      first
      | exact absurd rfl he
      | (simp [numeric, bitBase, foreign, integer] at hn; done)
      | simp [printed, extent, hty, plain, elementSize, typeSize]

theorem leaf_num (H : P.Core) {i : Nat} (hi : i ∈ P.N) (hn : numeric (P.obj i).ty = true) :
    leaf K (src P) (nd P.st.ptrs.ra i) (ni P.st.info i) = some (leafOf K P.tds (P.obj i).ty (P.obj i).td (bytesAt P.m (P.obj i).addr (printed P.tds (P.obj i).ty (P.obj i).td))) := by
  have hr := H.range hi
  have hp := peek_ok (m := P.m) (readable H hi (x := printed P.tds (P.obj i).ty (P.obj i).td) (by
    have h1 := node_range H.C hr.1 hr.2
    have h2 := printed_le H hi hn
    have : P.need (P.top i) = CopyPlace.need P.m P.tds (P.obj (P.top i)) := rfl
    omega))
  have htd : (P.obj i).ty = .enum → tdOf (ni P.st.info i).fd = (P.obj i).td := by
    intro he
    obtain ⟨x, x1, _, _, x4, _⟩ := H.C.V.F.node i _ hr.1 (H.C.V.get hr.2).1
    rw [(H.C.V.get hr.2).2] at x1
    cases x1
    exact x4 (Or.inr he)
  have e1 : printed P.tds (P.obj i).ty (tdOf (ni P.st.info i).fd) = printed P.tds (P.obj i).ty (P.obj i).td := by
    by_cases he : (P.obj i).ty = .enum
    · rw [htd he]
    · generalize (P.obj i).ty = t at he
      cases t <;> first | rfl | exact absurd rfl he
  have e2 : leafOf K P.tds (P.obj i).ty (tdOf (ni P.st.info i).fd) = leafOf K P.tds (P.obj i).ty (P.obj i).td := by
    by_cases he : (P.obj i).ty = .enum
    · rw [htd he]
    · generalize (P.obj i).ty = t at he
      cases t <;> first | rfl | exact absurd rfl he
  have hgen : leaf K (src P) (nd P.st.ptrs.ra i) (ni P.st.info i) = (do
      some (leafOf K P.tds (P.obj i).ty (tdOf (ni P.st.info i).fd) (← peek P.live P.m (P.obj i).addr (printed P.tds (P.obj i).ty (tdOf (ni P.st.info i).fd))))) := by
    unfold leaf
    rw [H.C.V.ty hr.1 hr.2, H.C.V.addr hr.1 hr.2]
    cases hty : (P.obj i).ty <;> rw [hty] at hn <;> first | rfl | (simp [numeric, bitBase, foreign, integer] at hn; done)
  rw [hgen, e1, e2, hp]
  rfl

theorem wordByte_toNat (w : BitVec 128) (k : Nat) : (wordByte w k).toNat = w.toNat / 256 ^ k % 256 := by
  unfold wordByte
  rw [UInt8.toNat_ofNat']
  omega

theorem bytes_getD (m : Bytes) {a n k : Nat} (h : k < n) : (bytesAt m a n).getD k 0 = (m (a + k)).toNat := by
  rw [List.getD_eq_getElem?_getD, bytesAt_get m h]
  rfl

theorem value_printed {ld : Nat} {tds : List Td} {o : Obj} (hb : bitBase o.ty = true) (he : o.ty = .enum → HasTd tds o.td .enum) {k : Nat} (h : valueByte ld tds o k) : k < printed tds o.ty o.td := by
  unfold valueByte at h
  rcases bitBase_cases hb with e | e | e | e | e | e
  · rw [e] at h ⊢; exact h
  · obtain ⟨t, d, h1, h2, _⟩ := he e
    rw [e] at h ⊢
    simpa [printed, enumType, tdAt, h1, h2] using h
  · rw [e] at h ⊢; exact h
  · rw [e] at h ⊢; exact h
  · rcases e with e | e | e | e <;> rw [e] at h ⊢ <;> exact h
  · rcases e with e | e | e | e <;> rw [e] at h ⊢ <;> exact h

theorem convert_base {ty : MrType} (hb : bitBase ty = true) (hn : ty ≠ .bool) {f : Fd} (hf : f.ty = ty) (y : Json.Loaded) : convert K f y = loadInteger K y := by
  unfold convert
  rw [hf]
  rcases bitBase_cases hb with e | e | e | e | e | e
  · exact absurd e hn
  · rw [e]
  · rw [e]
  · rw [e]
  · rcases e with e | e | e | e <;> rw [e]
  · rcases e with e | e | e | e <;> rw [e]

theorem fine_base (H : P.Core) (hR : Restored K P.ld P.m P.mem P.tds P.root) {i : Nat} (hi : i ∈ P.N) (hb : bitBase (P.obj i).ty = true) : ∃ lf, Fine K P i lf := by
  have hr := H.range hi
  have hre := H.C.V.reach i hr.1 hr.2
  have hnn : numeric (P.obj i).ty = true := by simp [numeric, hb]
  have hok := H.C.V.ok i hr.1 hr.2
  have hne : ∀ t, bitBase t = false → (P.obj i).ty ≠ t := fun t h e => by rw [e, h] at hb; cases hb
  have hen : (P.obj i).ty = .enum → HasTd P.tds (P.obj i).td .enum := by
    intro e
    unfold ObjOK at hok
    rw [e] at hok
    exact hok
  have hlen : (bytesAt P.m (P.obj i).addr (printed P.tds (P.obj i).ty (P.obj i).td)).length = printed P.tds (P.obj i).ty (P.obj i).td := bytesAt_length _ _ _
  have hlt := bytesAt_lt P.m (P.obj i).addr (printed P.tds (P.obj i).ty (P.obj i).td)
  obtain ⟨b1, b2⟩ := base_ok (K := K) (tds := P.tds) (td := (P.obj i).td) hb hlen hlt (by
      intro e
      have : bytesAt P.m (P.obj i).addr (printed P.tds (P.obj i).ty (P.obj i).td) = [(P.m (P.obj i).addr).toNat] := by
        rw [e]; simp [printed, typeSize, bytesAt]
      rw [this]
      simp only [leNat, Nat.mul_zero, Nat.add_zero]
      rcases hR.bools _ hre e with h | h <;> rw [h]
      · exact Or.inl rfl
      · exact Or.inr rfl) (by
      intro e he
      refine hR.wide _ hre e fun k hk => ?_
      have hpr : printed P.tds (P.obj i).ty (P.obj i).td = 16 := by rcases e with e | e <;> rw [e] <;> rfl
      have h1 := leNat_byte _ hlt k
      rw [he, bytes_getD P.m (by omega)] at h1
      apply UInt8.toNat.inj
      rw [← h1]
      have : k = 0 ∨ k = 1 ∨ k = 2 ∨ k = 3 ∨ k = 4 ∨ k = 5 ∨ k = 6 ∨ k = 7 ∨ k = 8 ∨ k = 9 ∨ k = 10 ∨ k = 11 ∨ k = 12 ∨ k = 13 ∨ k = 14 ∨ k = 15 := by omega
      rcases this with h | h | h | h | h | h | h | h | h | h | h | h | h | h | h | h <;> subst h <;> rfl) (by
      intro e
      obtain ⟨t, d, h1, h2, _⟩ := hen e
      have := hR.enums _ hre e
      rw [e]
      simpa [printed, enumType, tdAt, h1, h2] using this)
  refine ⟨_, leaf_num H hi hnn, b1, fun null x h => ((b2 null _ h).2.1 x rfl).2, ?_, ?_, fun e => absurd e (hne _ rfl), fun e => absurd e (hne _ rfl), fun e => absurd e (hne _ rfl), fun e => by
    generalize (P.obj i).ty = t at hb e
    cases t <;> first | (simp [foreign] at e; done) | (simp [bitBase, integer] at hb; done)⟩
  · rintro (e | e)
    · exact absurd e (hne _ rfl)
    · exact absurd e (hne _ rfl)
  · intro f y hf hy k hk
    right
    obtain ⟨_, _, w, w1, w2, w3⟩ := b2 _ _ hy
    have hkp := value_printed hb hen hk
    have hw2 := w2 k (by rw [hlen]; exact hkp)
    rw [bytes_getD P.m hkp] at hw2
    by_cases e : (P.obj i).ty = .bool
    · refine ⟨fun _ => if w = 0 then 0 else 1, ?_, ?_⟩
      · unfold convert
        rw [hf, e]
        simp only [w1]
      · have hk0 : k = 0 := by
          unfold valueByte at hk
          rw [e] at hk
          simp only [typeSize] at hk
          omega
        subst hk0
        have hw3 := w3 e
        have : bytesAt P.m (P.obj i).addr (printed P.tds (P.obj i).ty (P.obj i).td) = [(P.m (P.obj i).addr).toNat] := by
          rw [e]; simp [printed, typeSize, bytesAt]
        rw [this] at hw3
        simp only [leNat, Nat.mul_zero, Nat.add_zero] at hw3
        rw [Nat.add_zero]
        rcases hR.bools _ hre e with h | h
        · rw [h] at hw3 ⊢
          have : w = 0 := by apply BitVec.eq_of_toNat_eq; simpa using hw3
          rw [if_pos this]
        · rw [h] at hw3 ⊢
          have : w ≠ 0 := by intro h0; rw [h0] at hw3; simp at hw3
          rw [if_neg this]
    · refine ⟨wordByte w, ?_, ?_⟩
      · rw [convert_base hb e hf]
        unfold loadInteger
        rw [w1]
      · apply UInt8.toNat.inj
        rw [wordByte_toNat, hw2]

theorem fine_char (H : P.Core) (hR : Restored K P.ld P.m P.mem P.tds P.root) {i : Nat} (hi : i ∈ P.N) (hb : (P.obj i).ty = .char) : ∃ lf, Fine K P i lf := by
  have hr := H.range hi
  have hre := H.C.V.reach i hr.1 hr.2
  have hl := leaf_num (K := K) H hi (by simp [numeric, hb])
  have e : leafOf K P.tds (P.obj i).ty (P.obj i).td (bytesAt P.m (P.obj i).addr (printed P.tds (P.obj i).ty (P.obj i).td)) = .text [(P.m (P.obj i).addr).toNat] := by
    rw [hb]
    simp [printed, typeSize, bytesAt, leafOf]
  rw [e] at hl
  refine ⟨_, hl, ?_, ?_, ?_, ?_, ?_, ?_, ?_, ?_⟩
  · intro c hc
    rw [List.mem_singleton] at hc
    subst hc
    refine ⟨?_, (P.m (P.obj i).addr).toNat_lt⟩
    apply Nat.pos_of_ne_zero
    intro h
    exact hR.chars _ hre hb (UInt8.toNat.inj h)
  · intro null x h; cases h
  · rintro (e | e) <;> rw [hb] at e <;> cases e
  · intro f y hf hy k hk
    right
    rw [hb] at hf
    have hv : y.value = .string [(P.m (P.obj i).addr).toNat] := by
      generalize y.value = v, y.null = u at hy
      cases hy
      rfl
    refine ⟨fun _ => P.m (P.obj i).addr, ?_, ?_⟩
    · unfold convert
      rw [hf, hv]
      simp
    · unfold valueByte at hk
      rw [hb] at hk
      simp only [typeSize] at hk
      rw [show k = 0 from by omega]
      rfl
  all_goals intro e; rw [hb] at e; cases e

theorem fine_foreign (H : P.Core) (hR : Restored K P.ld P.m P.mem P.tds P.root) (hld : P.ld ≤ 16) {i : Nat} (hi : i ∈ P.N) (hb : foreign (P.obj i).ty = true)
    (hn : (ni P.st.info i).null = false) : ∃ lf, Fine K P i lf := by
  have hr := H.range hi
  have hre := H.C.V.reach i hr.1 hr.2
  have hl := leaf_num (K := K) H hi (by simp [numeric, hb])
  have hne : ∀ t, foreign t = false → (P.obj i).ty ≠ t := fun t h e => by rw [e, h] at hb; cases hb
  have hpr : printed P.tds (P.obj i).ty (P.obj i).td = typeSize (P.obj i).ty := by
    have := hne .enum rfl
    generalize (P.obj i).ty = t at this
    cases t <;> first | rfl | exact absurd rfl this
  have e : ∀ l, leafOf K P.tds (P.obj i).ty (P.obj i).td l = K.print (P.obj i).ty l := by
    intro l
    generalize (P.obj i).ty = t at hb
    cases t <;> first | (simp [foreign] at hb; done) | rfl
  rw [e, hpr] at hl
  obtain ⟨r1, r2, r3⟩ := hR.others _ hre hb (by
    intro h h0
    have := (H.C.V.fnull i hr.1 hr.2 h).2 h0
    rw [hn] at this
    cases this)
  refine ⟨_, hl, r1, fun null x h e => (r2 null _ h).2 (by rw [e]), fun _ null v h => (r2 null v h).1, ?_, fun e => absurd e (hne _ rfl), fun e => absurd e (hne _ rfl), fun e => absurd e (hne _ rfl), fun _ => rfl⟩
  intro f y hf hy k hk
  have hc : convert K f y = K.load f y := by
    unfold convert
    rw [hf]
    generalize (P.obj i).ty = t at hb
    cases t <;> first | (simp [foreign] at hb; done) | rfl
  rw [hc]
  rcases r3 f y hf hy with h | ⟨b, h1, h2⟩
  · exact Or.inl ⟨hb, h⟩
  · refine Or.inr ⟨b, h1, ?_⟩
    apply UInt8.toNat.inj
    rw [h2 k hk, bytes_getD]
    unfold valueByte at hk
    generalize (P.obj i).ty = t at hb hk
    cases t <;> first | (simp [foreign] at hb; done) | exact hk | (simp only [typeSize] at hk ⊢; omega)

theorem fine_void (H : P.Core) {i : Nat} (hi : i ∈ P.N) (hb : (P.obj i).ty = .void) : ∃ lf, Fine K P i lf := by
  have hr := H.range hi
  refine ⟨.void (K.void (ni P.st.info i).fd), ?_, trivial, ?_, ?_, ?_, ?_, ?_, ?_, ?_⟩
  · unfold leaf
    rw [H.C.V.ty hr.1 hr.2, hb]
  · intro null x h
    generalize K.void (ni P.st.info i).fd = v at h
    cases h <;> decide
  · rintro (e | e) <;> rw [hb] at e <;> cases e
  · intro f y _ _ k hk
    unfold valueByte at hk
    rw [hb] at hk
    exact hk.elim
  all_goals intro e; rw [hb] at e; cases e

theorem mem_takeWhile_pos : ∀ {l : List Nat}, (∀ b ∈ l, b < 256) → ∀ c ∈ l.takeWhile (· ≠ 0), 0 < c ∧ c < 256 := by
  intro l
  induction l with
  | nil => intro _ c hc; cases hc
  | cons b l ih =>
    intro h c hc
    rw [List.takeWhile_cons] at hc
    split at hc
    · rename_i hb
      rcases List.mem_cons.1 hc with rfl | hc
      · exact ⟨by simp at hb; omega, h _ (by simp)⟩
      · exact ih (fun x hx => h x (by simp [hx])) c hc
    · cases hc

theorem fine_chars (H : P.Core) {i : Nat} (hi : i ∈ P.N) (hty : (P.obj i).ty = .charArray) : ∃ lf, Fine K P i lf := by
  have hr := H.range hi
  have hft := fits_ty H hi
  rw [hty] at hft
  obtain ⟨l, q, t, d, M⟩ := (fits H hi).2.2 (Or.inr (Or.inl hty))
  have hsz : (ni P.st.info i).size = (fdOf P i).size := H.C.V.fsize i M.i1 hr.2 M.str _ M.fd (Or.inr hft)
  have hin := (H.C.L.inside t d _ M.dd M.dty M.inFields).2
  have hsp : span (fdOf P i) = (fdOf P i).size := by simp [span, hft]
  rw [hsp] at hin
  have hp := peek_ok (m := P.m) (readable H hi (room_member H hi M hin))
  refine ⟨.text ((bytesAt P.m (P.obj i).addr (fdOf P i).size).takeWhile (· ≠ 0)), ?_, mem_takeWhile_pos (bytesAt_lt _ _ _), ?_, ?_, ?_, ?_, fun _ => rfl, ?_, ?_⟩
  · unfold leaf
    rw [H.C.V.ty hr.1 hr.2, H.C.V.addr hr.1 hr.2, hty, hsz]
    simp only [src, hp, Option.bind_eq_bind, Option.bind_some]
  · intro null x h; cases h
  · rintro (e | e) <;> rw [hty] at e <;> cases e
  · intro f y _ _ k hk
    unfold valueByte at hk
    rw [hty] at hk
    simp only [typeSize] at hk
    omega
  all_goals intro e; rw [hty] at e; cases e

theorem fine_string (H : P.Core) (hmax : P.max ≤ P.fuel) {i : Nat} (hi : i ∈ P.N) (hty : (P.obj i).ty = .string) (hrf : refers P i = false)
    (hn : (ni P.st.info i).null = false) : ∃ lf, Fine K P i lf := by
  have hr := H.range hi
  have hc : isCell (P.obj i) = true := by simp [isCell, hty]
  rcases cell_cases H hi hc with ⟨t, ho, _, _⟩ | ⟨_, h, _⟩ | ⟨_, _, h⟩
  · obtain ⟨h1, h2, h3, h4⟩ := H.own_iff.1 ho
    have hlead := H.C.V.lead t h1 h2 (by rw [h3]; exact h4)
    rw [h3] at hlead
    obtain ⟨l, l1, l2, l3⟩ := H.C.S.ends _ _ (H.C.V.reach i hr.1 hr.2) hty hlead
    have haddr : (P.obj t).addr = Copy.word P.m (P.obj i).addr := by
      unfold target at hlead
      rw [hty] at hlead
      simp only at hlead
      split at hlead
      · cases hlead
      · rw [← H.C.S.ptr, ← Option.some.inj hlead]
    have hsl := strlen_text (live := P.live) l l2 l3 (fuel := P.fuel) (by omega)
    have hread : covered P.live (P.obj i).addr 8 = true := by
      have h1 := node_range H.C hr.1 hr.2
      have h2 : extent P.tds (P.obj i) = 8 := by simp [extent, hty, plain, elementSize, typeSize]
      rw [h2] at h1
      exact readable H hi h1.2.1
    refine ⟨.text (bytesAt P.m (P.obj t).addr l), ?_, ?_, ?_, ?_, ?_, ?_, ?_, ?_, (fun e => by rw [hty] at e; cases e)⟩
    · unfold leaf
      rw [H.C.V.ty hr.1 hr.2, hty]
      simp only
      rw [H.C.V.addr hr.1 hr.2]
      simp only [XdrGraph.Src.ptr, src, hread, if_true, Option.bind_eq_bind, Option.bind_some, XdrGraph.Src.text, ← haddr, hsl, peek_ok (covered_part l3 (Nat.le_refl _) (by omega : _ + l ≤ _))]
    · intro c hcm
      obtain ⟨k, hk, rfl⟩ := List.mem_map.1 hcm
      refine ⟨?_, (P.m ((P.obj t).addr + k)).toNat_lt⟩
      apply Nat.pos_of_ne_zero
      intro h
      exact l2.2 k (by simpa using hk) (UInt8.toNat.inj h)
    · intro null x h; cases h
    · rintro (e | e) <;> rw [hty] at e <;> cases e
    · intro f y _ _ k hk
      unfold valueByte at hk
      rw [hty] at hk
      exact hk.elim
    · intro e; rw [hty] at e; cases e
    · intro e; rw [hty] at e; cases e
    · intro _ t' ht'
      rw [ho] at ht'
      cases ht'
      exact ⟨l, l2, rfl⟩
  · rw [hrf] at h; cases h
  · rw [hn] at h; cases h

theorem bytes_ext {l l' : List Nat} (hl : l.length = l'.length) (h : ∀ k, k < l.length → l.getD k 0 = l'.getD k 0) : l = l' := by
  apply List.ext_getElem? fun k => ?_
  by_cases hk : k < l.length
  · have := h k hk
    rw [List.getD_eq_getElem?_getD, List.getD_eq_getElem?_getD, List.getElem?_eq_getElem hk, List.getElem?_eq_getElem (by omega)] at this
    rw [List.getElem?_eq_getElem hk, List.getElem?_eq_getElem (by omega)]
    exact congrArg some this
  · rw [List.getElem?_eq_none (by omega), List.getElem?_eq_none (by omega)]

theorem fine_bits (H : P.Core) (hF : Fields P.tds) (hP : Printable known P.tds) (hR : Restored K P.ld P.m P.mem P.tds P.root) {i : Nat} (hi : i ∈ P.N) (hty : (P.obj i).ty = .bitfield) :
    ∃ lf, Fine K P i lf := by
  have hr := H.range hi
  have hft := fits_ty H hi
  rw [hty] at hft
  obtain ⟨l, q, t, d, M⟩ := (fits H hi).2.2 (Or.inl hty)
  have hpa := H.C.V.reach _ M.p.1 M.p.2
  obtain ⟨b1, b2, b3⟩ := hF.bits t d _ M.dd M.dty M.inFields hft
  obtain ⟨c1, c2, c3, c4⟩ := hP.bits t d _ M.dd M.dty M.inFields hft
  have haux := H.C.V.baux i M.i1 hr.2 M.str _ M.fd hft
  have hin := (H.C.L.inside t d _ M.dd M.dty M.inFields).2
  have hmem : fdOf P i ∈ members P.tds (P.obj (pa P.st i)) := by
    simp only [members, M.td, Option.bind_some, M.dd, Option.map_some, Option.getD_some]
    exact M.inFields
  have hbb : bitBytes (fdOf P i) = span (fdOf P i) := by
    simp only [bitBytes, span, hft, if_true]
    exact Nat.max_eq_right (by omega)
  rw [← hbb] at hin
  have hp := peek_ok (m := P.m) (readable H hi (room_member H hi M hin))
  have hlen : 8 * bitBytes (fdOf P i) ≥ (fdOf P i).shift + (fdOf P i).width := by
    rw [hbb]
    simp only [span, hft, if_true]
    omega
  have haddr := M.addr
  generalize hf : fdOf P i = f at *
  obtain ⟨v, hv, hbit⟩ := Bitfield.save_ok (toBits (bytesAt P.m (P.obj i).addr (bitBytes f))) f.shift f.width
    (signedInt (bitType P.tds f.aux f.td)) b1 b2 (by omega) (by simp only [toBits, List.length_map, bytesAt_length]; omega)
  -- the type of the value
  have hpr : printed P.tds f.aux f.td = typeSize (Verif.Spec.XdrGraph.valueType P.tds f) := by
    unfold Verif.Spec.XdrGraph.valueType
    by_cases he : f.aux = .enum
    · obtain ⟨t', d', h1, h2, _⟩ := c4 he
      simp [he, printed, enumType, tdAt, h1, h2]
    · rw [if_neg he]
      generalize f.aux = t at he
      cases t <;> first | rfl | exact absurd rfl he
  have hsg : signedInt (bitType P.tds f.aux f.td) = signedType (Verif.Spec.XdrGraph.valueType P.tds f) := by
    have hs : ∀ t, signedInt t = signedType t := fun t => by cases t <;> rfl
    unfold Verif.Spec.XdrGraph.valueType
    by_cases he : f.aux = .enum
    · obtain ⟨t', d', h1, h2, _⟩ := c4 he
      simp [he, bitType, enumType, tdAt, h1, h2, hs]
    · rw [if_neg he, ← hs]
      unfold bitType
      generalize f.aux = t at he
      cases t <;> first | rfl | exact absurd rfl he
  have hp16 : printed P.tds f.aux f.td ≤ 16 := by
    by_cases he : f.aux = .enum
    · obtain ⟨t', d', h1, h2, h3⟩ := c4 he
      have := hP.enums t' d' h2 h3
      simp only [he, printed, tdAt, h1, Option.bind_some, h2]
      generalize d'.effective = t at this
      cases t <;> simp [integer, typeSize] at this ⊢
    · generalize f.aux = t at he c1
      cases t <;> first | (simp [bitBase, integer] at c1; done) | exact absurd rfl he | simp [printed, typeSize]
  have hl16 : ((wordBytes v).take (printed P.tds f.aux f.td)).length = printed P.tds f.aux f.td := by
    rw [List.length_take, wordBytes_length]
    omega
  have hlt : ∀ b ∈ (wordBytes v).take (printed P.tds f.aux f.td), b < 256 := fun b hb => wordBytes_lt v b (List.mem_of_mem_take hb)
  have hget : ∀ k, k < printed P.tds f.aux f.td → ((wordBytes v).take (printed P.tds f.aux f.td)).getD k 0 = (wordBytes v).getD k 0 := by
    intro k hk
    rw [List.getD_eq_getElem?_getD, List.getD_eq_getElem?_getD, List.getElem?_take_of_lt hk]
  have hbt : ∀ q, q < 8 * printed P.tds f.aux f.td → bit ((wordBytes v).take (printed P.tds f.aux f.td)) q = v.getLsbD q := by
    intro q hq
    unfold bit
    rw [hget _ (by omega), wordBytes_bit v (by omega) (by omega), show 8 * (q / 8) + q % 8 = q from by omega]
  have hmb : ∀ q, q < f.width → v.getLsbD q = bitAt P.m (8 * (P.obj i).addr + (f.shift + q)) := by
    intro q hq
    rw [hbit q (by omega), if_pos hq, memBit_bytes (by omega)]
  have hFV : FieldValue P.m (P.obj i).addr f (signedType (Verif.Spec.XdrGraph.valueType P.tds f)) ((wordBytes v).take (printed P.tds f.aux f.td)) := by
    refine ⟨hlt, ?_, ?_⟩
    · intro q h1 h2
      rw [hl16] at h2
      rw [hbt q h2, hmb q h1]
    · intro q h1 h2
      rw [hl16] at h2
      rw [hbt q h2, hbit q (by omega), if_neg (by omega), hsg, memBit_bytes (by omega)]
  obtain ⟨g1, g2⟩ := base_ok (K := K) (tds := P.tds) (td := f.td) c1 hl16 hlt (by
      intro e
      have hp1 : printed P.tds f.aux f.td = 1 := by rw [e]; rfl
      have hw := c3 e
      have hl1 : ((wordBytes v).take (printed P.tds f.aux f.td)) = [(wordBytes v).getD 0 0] := by
        apply bytes_ext
        · rw [hl16, hp1]; rfl
        · intro k hk
          rw [hl16] at hk
          rw [hget k hk, show k = 0 from by omega]
          rfl
      rw [hl1]
      simp only [leNat, Nat.mul_zero, Nat.add_zero]
      have hz : ∀ x, 1 ≤ x → x < 8 → ((wordBytes v).getD 0 0).testBit x = false := by
        intro x h1 h2
        rw [wordBytes_bit v (by omega) h2, hbit _ (by omega), if_neg (by omega)]
        have : signedInt (bitType P.tds f.aux f.td) = false := by rw [e]; rfl
        rw [this]
        rfl
      have h256 : (wordBytes v).getD 0 0 < 256 := by
        rw [List.getD_eq_getElem?_getD, wordBytes_get v (by omega)]
        exact Nat.mod_lt _ (by omega)
      generalize (wordBytes v).getD 0 0 = x at hz h256
      have : x / 2 = 0 := by
        apply Nat.eq_of_testBit_eq
        intro y
        rw [Nat.testBit_div_two, Nat.zero_testBit]
        by_cases hy : y + 1 < 8
        · exact hz _ (by omega) hy
        · apply Nat.testBit_lt_two_pow
          exact Nat.lt_of_lt_of_le h256 (Nat.le_trans (by decide : 256 ≤ 2 ^ 8) (Nat.pow_le_pow_right (by omega) (by omega)))
      omega) (by
      intro e he
      have hp1 : printed P.tds f.aux f.td = 16 := by rcases e with e | e <;> rw [e] <;> rfl
      have hval : Verif.Spec.XdrGraph.valueType P.tds f = f.aux := by
        unfold Verif.Spec.XdrGraph.valueType
        rw [if_neg]
        intro h
        rcases e with e | e <;> rw [e] at h <;> cases h
      refine hR.bitWide _ hpa M.str f hmem hft e ?_
      rw [hval] at hFV
      rw [← haddr]
      have hb := leNat_byte _ hlt
      rw [he] at hb
      have : ((wordBytes v).take (printed P.tds f.aux f.td)) = [0, 0, 0, 0, 0, 0, 0, 0, 0, 0, 0, 0, 0, 0, 0, 128] := by
        apply bytes_ext
        · rw [hl16, hp1]; rfl
        · intro k hk
          rw [hl16, hp1] at hk
          rw [← hb k]
          have : k = 0 ∨ k = 1 ∨ k = 2 ∨ k = 3 ∨ k = 4 ∨ k = 5 ∨ k = 6 ∨ k = 7 ∨ k = 8 ∨ k = 9 ∨ k = 10 ∨ k = 11 ∨ k = 12 ∨ k = 13 ∨ k = 14 ∨ k = 15 := by omega
          rcases this with h | h | h | h | h | h | h | h | h | h | h | h | h | h | h | h <;> subst h <;> rfl
      rw [this] at hFV
      exact hFV) (by
      intro e
      have hval : Verif.Spec.XdrGraph.valueType P.tds f = enumType P.tds f.td := by
        unfold Verif.Spec.XdrGraph.valueType
        rw [if_pos e]
      rw [hval] at hFV hpr
      exact hR.bitEnums _ hpa M.str f hmem hft e _ (by rw [hl16, hpr]) (by rw [← haddr]; exact hFV))
  refine ⟨leafOf K P.tds f.aux f.td ((wordBytes v).take (printed P.tds f.aux f.td)), ?_, g1, fun null x h => ((g2 null _ h).2.1 x rfl).2, ?_, ?_, ?_, ?_, ?_, ?_⟩
  · unfold leaf
    rw [H.C.V.ty hr.1 hr.2, hty, H.C.V.addr hr.1 hr.2, M.fd, haux]
    have hbp : bitPrinted f.aux = true := by
      generalize f.aux = t at c1
      cases t <;> first | rfl | (simp [bitBase, integer] at c1; done)
    simp only [src, Option.bind_eq_bind, Option.bind_some, hp, hv, hbp, if_true]
  · rintro (e | e) <;> rw [hty] at e <;> cases e
  · intro f' y _ _ k hk
    unfold valueByte at hk
    rw [hty] at hk
    simp only [typeSize] at hk
    omega
  · intro _ f' y hf' hy
    obtain ⟨_, _, w, w1, w2, _⟩ := g2 _ _ hy
    refine ⟨wordByte w, ?_, ?_⟩
    · unfold convert
      rw [hf']
      simp only [loadInteger, w1]
    · intro q hq
      rw [hf] at hq ⊢
      have hq8 : q < 8 * printed P.tds f.aux f.td := by rw [hpr]; omega
      unfold valueBit
      rw [wordByte_toNat, w2 _ (by rw [hl16]; omega), ← hmb q hq, ← hbt q hq8]
      rfl
  all_goals intro e; rw [hty] at e; cases e

/-- what is written for a node that is neither a reference nor NULL nor a list -/
theorem fine (H : P.Core) (hF : Fields P.tds) (hP : Printable known P.tds) (hR : Restored K P.ld P.m P.mem P.tds P.root) (hld : P.ld ≤ 16) (hmax : P.max ≤ P.fuel) {i : Nat} (hi : i ∈ P.N)
    (hc : compound (P.obj i).ty = false) (hrf : refers P i = false) (hn : (ni P.st.info i).null = false) : ∃ lf, Fine K P i lf := by
  have hk := kind H hP hi
  by_cases h1 : bitBase (P.obj i).ty = true
  · exact fine_base H hR hi h1
  by_cases h2 : foreign (P.obj i).ty = true
  · exact fine_foreign H hR hld hi h2 hn
  cases hty : (P.obj i).ty <;> rw [hty] at h1 h2 hk hc <;>
    first
    | exact absurd rfl hk.1
    | exact absurd rfl hk.2.1
    | exact absurd rfl hk.2.2
    | (simp [compound, structLike] at hc; done)
    | exact absurd rfl h1
    | exact absurd rfl h2
    | exact fine_char H hR hi hty
    | exact fine_void H hi hty
    | exact fine_chars H hi hty
    | exact fine_string H hmax hi hty hrf hn
    | exact fine_bits H hF hP hR hi hty

end Verif.Lemmas.JsonNode
