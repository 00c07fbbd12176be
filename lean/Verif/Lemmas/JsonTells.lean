import Verif.Lemmas.JsonGraph
/-!
The document of a saved graph tells the content of the graph.
-/
namespace Verif.Lemmas.JsonGraph
open Verif.Model Verif.Model.Ptrs Verif.Model.Save Verif.Spec.Ptrs Verif.Spec.Save Verif.Spec.SaveJson Verif.Spec.Json Verif.Model.SaveJson
  Verif.Lemmas.SaveTree Verif.Lemmas.SaveFinal Verif.Lemmas.SaveInv Verif.Lemmas.CopyLayout Verif.Lemmas.CopyView Verif.Lemmas.CopyMem Verif.Lemmas.CopyPlace Verif.Lemmas.XdrSeg Verif.Lemmas.XdrPlan Verif.Lemmas.XdrFit
  Verif.Lemmas.XdrMem Verif.Lemmas.JsonValue Verif.Lemmas.JsonPruned Verif.Lemmas.JsonNode
open Verif.Lemmas.XdrNode (refers cell_cases src)
open Verif.Model.Copy (Bytes Blocks covered)
open Verif.Spec.Copy (isCell Text extent span)
open Verif.Spec.XdrGraph (bitAt valueByte integer enumType)
open Verif.Spec.Load (Fields Unrepeated Tree)
open Verif.Spec.LoadSays (numberSize converted valueBytes valueBit)
open Verif.Lemmas.LoadGraph (fdL fdL_fields fdL_ty Listed Tells nodup_at value_in)
open Verif.Model.XdrGraph (bytesAt)

variable {P : Plan} {K : Codec} {known : List Nat → Bool} {ra' : List Pd} {k' : Forest} {ptrs : Ptrs} {data : List Json.Loaded} {alloc : Blocks → Nat → Nat} {table : Bool}

theorem kids_bare {ra : List Pd} (hT : Tree ra) {j : Nat} {q : Pd} (h : ra[j]? = some q) : kidsHead (nd ra j) = q.firstChild := by
  rw [(SaveDone.get_nd h).1]
  unfold kidsHead
  have := hT.bare q (List.mem_of_getElem? h)
  rw [this.1, this.2.1]
  rfl

theorem Read.listed (H : P.Core) (R : Pruned P ra' k') (hs : (1 :: k'.nodes).length < 2 ^ 32) (D : Read K P ra' k' ptrs data) (hT : Tree ptrs.ra)
    (conv : Fd → Nat → Load.Conv) : Listed P (1 :: k'.nodes) (LoadJson.env P.tds ptrs data conv alloc table) := by
  have hN : (Forest.cons 1 k' .nil).nodes = 1 :: k'.nodes := by simp [Forest.nodes]
  have hlen := D.lenR
  refine ⟨rfl, R.sub, R.nodup, ?_, ?_, ?_, ?_, fun i h1 h2 => (R.gone i h1 h2).1, ?_, ?_⟩
  · show ptrs.ra.length = _
    rw [hlen]; omega
  · intro j q h0 h
    have h : ptrs.ra[j]? = some q := h
    obtain ⟨j0, i, rfl, hi⟩ := D.at h h0
    obtain ⟨_, _, q', _, _, _, g3, g4, _⟩ := D.node j0 i hi
    rw [h] at g3
    cases g3
    exact g4
  · intro q h
    have h : ptrs.ra[0]? = some q := h
    rw [D.zero] at h
    cases h
    rfl
  · show ptrs.ra.length ≤ 2 ^ 32
    rw [hlen]; omega
  · intro j i hj h1
    obtain ⟨jp, l, l2, q, a1, a2, _, a4, a5, a6, a7, a8⟩ := D.parent H R hj h1
    obtain ⟨_, _, q', _, _, _, g3, _⟩ := D.node jp _ a2
    rw [Nat.add_comm 1 jp, kids_bare hT g3] at a5
    rw [Nat.add_comm 1 j] at a7
    exact ⟨jp, q, q', l, l2, a1, a2, g3, DocWalk.chain_siblings a5, a7, a4, a6, a8⟩
  · intro j p hj
    have hi := R.sub p (List.mem_of_getElem? hj)
    have hr := H.range hi
    have hrep := D.rep
    rw [← R.without] at hrep
    obtain ⟨l, l2, a1, a2, a3⟩ := DocWalk.down _ _ _ _ _ _ _ H.C.V.F.tree hrep j p (by rw [R.without, hN]; exact hj)
    obtain ⟨_, _, q', _, _, _, g3, _⟩ := D.node j _ hj
    rw [Nat.add_comm 1 j, kids_bare hT g3] at a2
    refine ⟨q', l, l2, g3, a1, DocWalk.chain_siblings a2, fun h => ?_⟩
    obtain ⟨b1, b2⟩ := a3 (by
      unfold isStruct
      rw [(H.C.V.get hr.2).1]
      simp only
      rw [H.C.V.ty hr.1 hr.2]
      cases e : structLike (P.obj p).ty with
      | false => rfl
      | true => exact absurd ((struct_like H hr.1 hr.2).1 e) h)
    refine ⟨b1, fun q c hq => ?_⟩
    obtain ⟨jc, c1, c2⟩ := b2 q c hq
    rw [R.without, hN] at c1
    exact ⟨jc, c1, by rw [c2, Nat.add_comm]⟩

theorem takeWhile_getD {m : Bytes} {a n k : Nat} (hk : k < n) (h : ∀ x, x < k → m (a + x) ≠ 0) : UInt8.ofNat (((bytesAt m a n).takeWhile (· ≠ 0)).getD k 0) = m (a + k) := by
  have key : ∀ (l : List Nat) (k : Nat), (∀ x, x < k → l.getD x 0 ≠ 0) → (l.takeWhile (· ≠ 0)).getD k 0 = l.getD k 0 := by
    intro l
    induction l with
    | nil => intro k _; rfl
    | cons b l ih =>
      intro k h
      by_cases hb : b = 0
      · subst hb
        cases k with
        | zero => rfl
        | succ k => exact absurd rfl (h 0 (by omega))
      · rw [List.takeWhile_cons_of_pos (by simpa using hb)]
        cases k with
        | zero => rfl
        | succ k =>
          simp only [List.getD_cons_succ]
          exact ih k fun x hx => by simpa using h (x + 1) (by omega)
  rw [key, bytes_getD m hk]
  · exact UInt8.ofNat_toNat
  · intro x hx e
    rw [bytes_getD m (by omega)] at e
    exact h x hx (UInt8.toNat.inj e)

theorem number_size (H : P.Core) (hP : Printable known P.tds) (hld : P.ld ≤ 16) {i k : Nat} (hi : i ∈ P.N) (h : valueByte P.ld P.tds (P.obj i) k) : k < numberSize (fdL P i) := by
  have hr := H.range hi
  have h1 := value_in H hld hi h
  have hok := H.C.V.ok i hr.1 hr.2
  unfold numberSize
  rw [fdL_ty H hi] at h1 ⊢
  unfold valueByte at h
  unfold ObjOK at hok
  by_cases he : (P.obj i).ty = .enum
  · rw [if_pos he]
    rw [he] at h hok
    obtain ⟨t, d, g1, g2, g3⟩ := hok
    have := hP.enums t d g2 g3
    have h' : k < typeSize (enumType P.tds (P.obj i).td) := h
    unfold enumType at h'
    rw [g1] at h'
    simp only [Option.bind_some, g2, Option.map_some, Option.getD_some] at h'
    have h16 : typeSize d.effective ≤ 16 := by
      revert this
      cases d.effective <;> simp [integer, typeSize]
    exact Nat.lt_min.2 ⟨h1.1, by omega⟩
  · rw [if_neg he]
    cases hty : (P.obj i).ty <;> rw [hty] at h he <;> simp only [typeSize] at h ⊢ <;> first | exact h | exact absurd rfl he | omega

theorem Read.tells (H : P.Core) (hF : Fields P.tds) (hP : Printable known P.tds) (hR : Restored K P.ld P.m P.mem P.tds P.root) (hld : P.ld ≤ 16) (hmax : P.max ≤ P.fuel)
    (R : Pruned P ra' k') (hs : (1 :: k'.nodes).length < 2 ^ 32) (D : Read K P ra' k' ptrs data) (hT : Tree ptrs.ra) :
    Tells P (1 :: k'.nodes) (LoadJson.env P.tds ptrs data (conv K data) alloc table) := by
  have get : ∀ (j i : Nat) (d : Load.Doc), (1 :: k'.nodes)[j]? = some i → (data.map LoadJson.doc)[j + 1]? = some d →
      ∃ pd y, d = LoadJson.doc y ∧ data[j + 1]? = some y ∧ i ∈ P.N ∧ (1 ≤ i ∧ i < P.n) ∧ ra'[i]? = some pd ∧ Same (nd P.st.ptrs.ra i) pd ∧ (pd.ref || pd.cref) = refers P i ∧ pd.ty = (P.obj i).ty ∧
        SameNode ra' pd (SaveJson.info K (src P) (nd P.st.ptrs.ra i) (ni P.st.info i)) y := by
    intro j i d hj hd
    obtain ⟨pd, q, y, g1, hS, g3, g4, g5, g6⟩ := D.same H R hj
    rw [List.getElem?_map, g5] at hd
    have hi := R.sub i (List.mem_of_getElem? hj)
    have hr := H.range hi
    exact ⟨pd, y, (Option.some.inj hd).symm, g5, hi, hr, g1, hS, by rw [hS.ref, hS.cref]; rfl, by rw [hS.ty, H.C.V.ty hr.1 hr.2], g6⟩
  have leaf' : ∀ (j i : Nat) (pd : Pd) (y : Json.Loaded), i ∈ P.N → (pd.ref || pd.cref) = refers P i → pd.ty = (P.obj i).ty →
      SameNode ra' pd (SaveJson.info K (src P) (nd P.st.ptrs.ra i) (ni P.st.info i)) y → refers P i = false → (ni P.st.info i).null = false → compound (P.obj i).ty = false →
      ∃ lf, Fine K P i lf ∧ ReadAs lf y.null y.value := by
    intro j i pd y hi h1 h2 h3 hrf hn hc
    obtain ⟨lf, F⟩ := fine (K := K) H hF hP hR hld hmax hi hc hrf hn
    have := h3.leaf (by rw [h1]; exact hrf) hn (by rw [h2]; exact hc)
    have this : ReadAs ((leaf K (src P) (nd P.st.ptrs.ra i) (ni P.st.info i)).getD .undefined) y.null y.value := this
    rw [F.eq] at this
    exact ⟨lf, F, this⟩
  have noref : ∀ i ∈ P.N, isCell (P.obj i) = false → refers P i = false := by
    intro i hi h
    cases e : refers P i with
    | false => rfl
    | true => rw [(marked H hi e).1] at h; cases h
  refine ⟨D.listed H R hs hT _, rfl, ?_, ?_, ?_, ?_, ?_, ?_, ?_, ?_, ?_⟩
  · intro j i hj
    obtain ⟨_, _, _, y, _, _, _, _, g5, _⟩ := D.node j i hj
    refine ⟨LoadJson.doc y, ?_⟩
    show (data.map LoadJson.doc)[j + 1]? = _
    rw [List.getElem?_map, g5]
    rfl
  · intro j i d hj hd h1 h2
    obtain ⟨pd, y, rfl, _, hi, hr, _, hS, _, _, g6⟩ := get j i d hj hd
    have := g6.name.1 ((member_iff H R hi hS).2 ⟨h1, h2⟩)
    obtain ⟨l, q, t, d, f, M⟩ := member_of H.C (by omega : 1 < i) hr.2 h2
    show y.name = _
    rw [this]
    unfold fdOf
    rw [if_neg h1, h2]
    simp only [SaveJson.info, M.fd, Option.map_some, Option.getD_some]
  · intro j i d hj hd hc hrf
    obtain ⟨pd, y, rfl, _, hi, hr, _, hS, hpr, _, g6⟩ := get j i d hj hd
    obtain ⟨t, t1, t2, t3⟩ := g6.ref (by rw [hpr]; exact hrf)
    rw [hS.first (by rw [hS.ref, hS.cref] at hpr; rw [hpr]; exact hrf)] at t1
    obtain ⟨jt, hjt⟩ := List.mem_iff_getElem?.1 (R.kept H hi hrf)
    have := R.ids jt _ hjt
    rw [t1] at this
    have hti : t.idx = jt + 1 := Option.some.inj this
    have hjl := (List.getElem?_eq_some_iff.1 hjt).1
    refine ⟨jt, hjt, t2, ?_⟩
    show (LoadJson.doc y).val = _
    unfold LoadJson.doc
    simp only [t3, hti]
    congr 1
    unfold LoadGraph.number
    rw [hS.cref]
    cases (nd P.st.ptrs.ra i).cref
    · rw [if_neg (by simp), if_neg (by simp), word_pos (by omega)]
    · rw [if_pos rfl, if_pos rfl, word_neg (by omega) (by omega)]
      apply BitVec.eq_of_toNat_eq
      rw [BitVec.toNat_neg, BitVec.toNat_ofNat, BitVec.toNat_ofNat]
      omega
  · intro j i d hj hd hc hrf hn
    obtain ⟨pd, y, rfl, _, hi, hr, _, hS, hpr, _, g6⟩ := get j i d hj hd
    exact (g6.null (by rw [hpr]; exact hrf) hn).1
  · intro j i t d hj hd hty ho
    obtain ⟨pd, y, rfl, _, hi, hr, _, hS, hpr, hpt, g6⟩ := get j i d hj hd
    have hc : isCell (P.obj i) = true := by simp [isCell, hty]
    rcases cell_cases H hi hc with ⟨_, _, h1, h2⟩ | ⟨h, _⟩ | ⟨h, _⟩
    · obtain ⟨n1, n2⟩ := g6.list (by rw [hpr]; exact h1) h2 (by rw [hpt, hty]; rfl)
      refine ⟨n1, fun v => ?_⟩
      unfold LoadJson.doc
      simp only [n2]
      exact fun h => by cases h
    · rw [ho] at h; cases h
    · rw [ho] at h; cases h
  · intro j i t d hj hd hty ho
    obtain ⟨pd, y, rfl, _, hi, hr, _, hS, hpr, hpt, g6⟩ := get j i d hj hd
    have hc : isCell (P.obj i) = true := by simp [isCell, hty]
    rcases cell_cases H hi hc with ⟨_, _, h1, h2⟩ | ⟨h, _⟩ | ⟨h, _⟩
    · obtain ⟨lf, F, hra⟩ := leaf' j i pd y hi hpr hpt g6 h1 h2 (by rw [hty]; rfl)
      obtain ⟨l, f1, f2⟩ := F.str hty t ho
      rw [f2] at hra
      unfold LoadJson.doc
      generalize y.value = v, y.null = u at hra
      cases hra
      refine ⟨rfl, _, rfl, by rw [bytesAt_length]; exact f1, ?_⟩
      intro k hk
      rw [bytesAt_length] at hk
      rw [bytes_getD _ hk]
      exact UInt8.ofNat_toNat
    · rw [ho] at h; cases h
    · rw [ho] at h; cases h
  · intro j i d b hj hd hb k hk
    obtain ⟨pd, y, rfl, hy, hi, hr, _, hS, hpr, hpt, g6⟩ := get j i d hj hd
    have hcomp : compound (P.obj i).ty = false := by
      unfold valueByte at hk
      cases hty : (P.obj i).ty <;> rw [hty] at hk <;> simp only [typeSize] at hk <;> first | rfl | exact hk.elim | omega
    have hcell : isCell (P.obj i) = false := by
      unfold valueByte at hk
      cases hty : (P.obj i).ty <;> rw [hty] at hk <;> simp [isCell, hty] <;> exact hk.elim
    have h1 : (P.obj i).ty ≠ .string := fun e => by simp [isCell, e] at hcell
    have h2 : (P.obj i).ty ≠ .pointer := fun e => by simp [isCell, e] at hcell
    have hch : (P.obj i).ty ≠ .charArray := fun e => by
      unfold valueByte at hk
      rw [e] at hk
      simp only [typeSize] at hk
      omega
    have hrf := noref i hi hcell
    have hty := fdL_ty H hi
    unfold valueBytes at hb
    cases hn : (ni P.st.info i).null with
    | true =>
      obtain ⟨u1, u2⟩ := H.C.V.unset i hr.1 hr.2 h1 h2 hn
      have hdn := (g6.null (by rw [hpr]; exact hrf) hn).1
      have hb0 : b = fun _ => 0 := by
        rw [hty] at hb
        have hdn : (LoadJson.doc y).null = true := hdn
        rcases u1 with u1 | u1 <;> rw [u1] at hb <;> simp only [hdn, if_true] at hb <;> exact (Option.some.inj hb).symm
      rw [hb0, H.C.S.ptr] at *
      have hk8 : k < 8 := by
        unfold valueByte at hk
        rcases u1 with u1 | u1 <;> rw [u1] at hk <;> exact hk
      exact (LoadSafe.number_zero 8 _ u2 k hk8).symm
    | false =>
      obtain ⟨lf, F, hra⟩ := leaf' j i pd y hi hpr hpt g6 hrf hn hcomp
      have hconv : converted (LoadJson.env P.tds ptrs data (conv K data) alloc table) (fdL P i) (j + 1) = some b := by
        by_cases hf : (P.obj i).ty = .func ∨ (P.obj i).ty = .funcType
        · have hnn : (LoadJson.doc y).null = false := F.null hf _ _ hra
          rw [hty] at hb
          rcases hf with hf | hf <;> rw [hf] at hb <;> simp only [hnn] at hb <;> exact hb
        · rw [hty] at hb
          cases e : (P.obj i).ty <;> rw [e] at hb hf hch <;> first | exact hb | exact absurd (Or.inl rfl) hf | exact absurd (Or.inr rfl) hf | exact absurd rfl hch
      have hc2 : (LoadJson.env P.tds ptrs data (conv K data) alloc table).conv (fdL P i) (j + 1) = convert K (fdL P i) y := by
        show conv K data (fdL P i) (j + 1) = _
        unfold conv
        rw [hy]
      unfold converted at hconv
      rw [hc2] at hconv
      rcases F.value _ y hty hra k hk with ⟨_, e⟩ | ⟨b', e, e'⟩
      · rw [e] at hconv; cases hconv
      · rw [e] at hconv
        simp only at hconv
        rw [← Option.some.inj hconv]
        simp only
        rw [if_pos (number_size H hP hld hi hk), e']
  · intro j i hj hty
    obtain ⟨pd, q, y, g1, hS, g3, g4, g5, g6⟩ := D.same H R hj
    have hi := R.sub i (List.mem_of_getElem? hj)
    have hr := H.range hi
    have hrf := noref i hi (by simp [isCell, hty])
    have hn : (ni P.st.info i).null = false := by
      cases e : (ni P.st.info i).null with
      | false => rfl
      | true =>
        obtain ⟨u | u, _⟩ := H.C.V.unset i hr.1 hr.2 (by rw [hty]; exact fun h => by cases h) (by rw [hty]; exact fun h => by cases h) e <;> rw [hty] at u <;> cases u
    obtain ⟨lf, F, hra⟩ := leaf' j i pd y hi (by rw [hS.ref, hS.cref]; rfl) (by rw [hS.ty, H.C.V.ty hr.1 hr.2]) g6 hrf hn (by rw [hty]; rfl)
    have hc2 : (LoadJson.env P.tds ptrs data (conv K data) alloc table).conv (fdL P i) (j + 1) = convert K (fdL P i) y := by
      show conv K data (fdL P i) (j + 1) = _
      unfold conv
      rw [g5]
    rw [hc2, (fdL_fields H hi).2.2.2.2.2.1, (fdL_fields H hi).2.2.2.2.2.2]
    exact .inr <| F.bits hty _ y (by rw [fdL_ty H hi]; exact hty) hra
  · intro j i d tx hj hd hty htx k hk hz
    obtain ⟨pd, y, rfl, hy, hi, hr, _, hS, hpr, hpt, g6⟩ := get j i d hj hd
    have hrf := noref i hi (by simp [isCell, hty])
    have hn : (ni P.st.info i).null = false := by
      cases e : (ni P.st.info i).null with
      | false => rfl
      | true =>
        obtain ⟨u | u, _⟩ := H.C.V.unset i hr.1 hr.2 (by rw [hty]; exact fun h => by cases h) (by rw [hty]; exact fun h => by cases h) e <;> rw [hty] at u <;> cases u
    obtain ⟨lf, F, hra⟩ := leaf' j i pd y hi hpr hpt g6 hrf hn (by rw [hty]; rfl)
    rw [F.chars hty] at hra
    unfold LoadJson.doc at htx
    generalize y.value = v, y.null = u at hra htx
    cases hra
    simp only at htx
    injection htx with htx
    rw [← htx]
    rw [(fdL_fields H hi).2.2.2.1] at hk
    exact takeWhile_getD hk hz

end Verif.Lemmas.JsonGraph
