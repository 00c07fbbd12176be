import Verif.Lemmas.XdrFit
/-!
Saving and loading of one node.
-/
namespace Verif.Lemmas.XdrNode
open Verif.Model Verif.Model.Ptrs Verif.Model.Save Verif.Model.Copy Verif.Model.Xdr Verif.Model.XdrGraph Verif.Spec.Ptrs Verif.Spec.Save Verif.Spec.Copy Verif.Spec.XdrGraph
  Verif.Lemmas.SaveTree Verif.Lemmas.SaveFinal Verif.Lemmas.SaveInv Verif.Lemmas.CopyLayout Verif.Lemmas.CopyView Verif.Lemmas.CopyTops Verif.Lemmas.CopyMem Verif.Lemmas.CopyPlace Verif.Lemmas.CopyDone Verif.Lemmas.XdrSeg Verif.Lemmas.XdrPlan Verif.Lemmas.XdrStep Verif.Lemmas.XdrFit Verif.Lemmas.XdrMem Verif.Lemmas.Xdr

/-! ### flags -/

theorem flags_ok (pd : Pd) (x : Info) : flagsOf pd x < 256 ∧ isRef (flagsOf pd x) = (pd.ref || pd.cref) ∧ isNull (flagsOf pd x) = x.null ∧
    (flagsOf pd x).testBit 3 = pd.cref ∧ (flagsOf pd x).testBit 4 = x.opq := by
  unfold flagsOf isRef isNull
  cases x.null <;> cases pd.ref <;> cases pd.refd <;> cases pd.cref <;> cases x.opq <;> cases x.unnamed <;> decide

/-! ### the numbers -/

theorem nodeBytes_scalar {S : Src} {ra : List Pd} {pd : Pd} {x : Info} {k : Sc} (h : scalar S.ld S.tds pd.ty (tdOf x.fd) = some k) {bs out : List Nat}
    (hp : peek S.live S.m x.addr k.size = some bs) (he : enc k bs = some out) : nodeBytes S ra pd x = some (some out) := by
  unfold nodeBytes
  cases hty : pd.ty <;> rw [hty] at h <;> simp only [] <;> first | (simp [scalar, intSc] at h; done) | (rw [h]; simp [hp, he])

theorem openNode_scalar {E : Env} {parent data : Nat} {s : LSt} {f : Fd} {k : Sc} (h : scalar E.ld E.tds f.ty f.td = some k) :
    openNode E parent s data f = loadScalar E { s with nodes := s.nodes ++ [{ addr := data, ty := f.ty, parent := parent }] } data (some k) := by
  unfold openNode
  cases hty : f.ty <;> rw [hty] at h <;> simp only [] <;> first | (simp [scalar, intSc] at h; done) | (rw [h])

theorem value_scalar {ld : Nat} {tds : List Td} {o : Obj} {k : Sc} (h : scalar ld tds o.ty o.td = some k) {x : Nat} (hx : valueByte ld tds o x) :
    Spec.covered k x = true := by
  by_cases he : o.ty = .enum
  · rw [he] at h
    unfold valueByte at hx
    rw [he] at hx
    simp only [scalar, tdAt] at h
    obtain ⟨d, h1, h2⟩ := Option.bind_eq_some_iff.1 h
    simp only [enumType, h1, Option.map_some, Option.getD_some] at hx
    generalize d.effective = t at h2 hx
    cases t <;> simp [intSc] at h2 <;> subst h2 <;> simp [typeSize] at hx <;> exact decide_eq_true (by simp only [Sc.size]; omega)
  · have e1 : ∀ i, Spec.covered .w32 i = decide (i < 4) := fun _ => rfl
    have e2 : ∀ i, Spec.covered .w64 i = decide (i < 8) := fun _ => rfl
    have e3 : ∀ i, Spec.covered (.raw ld) i = decide (i < ld) := fun _ => rfl
    have e4 : ∀ p n i, Spec.covered (.complex p n) i = (Spec.covered p i || (decide (n ≤ i) && Spec.covered p (i - n))) := fun _ _ _ => rfl
    unfold valueByte at hx
    cases hty : o.ty <;> rw [hty] at h he hx <;> simp [scalar, intSc] at h he <;> subst h <;> simp [typeSize] at hx <;>
      first
      | exact decide_eq_true (by simp only [Sc.size]; omega)
      | (rw [e4]; simp only [e1, e2, e3, Bool.or_eq_true, Bool.and_eq_true, decide_eq_true_eq]; omega)

theorem value_none {ld : Nat} {tds : List Td} {o : Obj} (he : o.ty = .enum → integer (enumType tds o.td) = true) (h : scalar ld tds o.ty o.td = none) {x : Nat}
    (hx : valueByte ld tds o x) : False := by
  by_cases hh : o.ty = .enum
  · rw [hh] at h
    have he := he hh
    simp only [scalar, tdAt] at h
    unfold enumType at he
    cases hd : o.td.bind (tds[·]?) with
    | none => rw [hd] at he; cases he
    | some d =>
      rw [hd] at he h
      simp at he h
      obtain ⟨k, hk⟩ := intSc_some he
      rw [hk] at h; cases h
  · unfold valueByte at hx
    cases hty : o.ty <;> rw [hty] at h hx hh <;> simp [scalar, intSc, typeSize] at h hx hh

/-- what is saved and loaded -/
def src (P : Plan) : Src := ⟨P.ld, P.tds, P.live, P.m, P.fuel⟩
def env (P : Plan) (buf : List Nat) : Env := ⟨P.ld, P.tds, buf, P.alloc, P.junk⟩

/-- a pointer or string that refers to another node -/
def refers (P : Plan) (i : Nat) : Bool := (nd P.st.ptrs.ra i).ref || (nd P.st.ptrs.ra i).cref

/-- the bits of a node -/
abbrev sg (P : Plan) (i : Nat) : Nat × Nat := seg P.ld P.tds (P.obj i) (ni P.st.info i).fd

/-- the loaded node -/
noncomputable def rec (P : Plan) (i : Nat) : LNode where
  addr := P.A i
  ty := (P.obj i).ty
  parent := if i = 1 then 0 else P.idx (pa P.st i)
  flags := if isCell (P.obj i) then flagsOf (nd P.st.ptrs.ra i) (ni P.st.info i) else 0
  first := if isCell (P.obj i) && refers P i then P.idx (nd P.st.ptrs.ra i).firstChild else 0

noncomputable def nodesAt (P : Plan) (j : Nat) : List LNode := {} :: (P.N.take j).map (rec P)

/-- the node was loaded, but for references -/
structure Good (P : Plan) (i : Nat) (m' : Bytes) : Prop where
  own : ∀ t, P.own i = some t → word m' (P.A i) = P.b t
  null : isCell (P.obj i) = true → P.own i = none → refers P i = false → word m' (P.A i) = 0
  text : ∀ t, P.own i = some t → (P.obj i).ty = .string → ∀ x, x < P.need t → m' (P.b t + x) = P.m ((P.obj t).addr + x)
  data : ∀ x, valueByte P.ld P.tds (P.obj i) x → m' (P.A i + x) = P.m ((P.obj i).addr + x)
  bits : (P.obj i).ty = .bitfield → ∀ q, (sg P i).1 ≤ q → q < (sg P i).2 → bitAt m' (8 * P.A i + q) = bitAt P.m (8 * (P.obj i).addr + q)
  chars : (P.obj i).ty = .charArray → ∀ x, 8 * x < (sg P i).2 → (∀ y, y < x → P.m ((P.obj i).addr + y) ≠ 0) → m' (P.A i + x) = P.m ((P.obj i).addr + x)

/-- the effect of loading a node -/
structure Eff (P : Plan) (i : Nat) (m m' : Bytes) : Prop where
  good : Good P i m'
  kept : ∀ p, ¬ (8 * P.A i + (sg P i).1 ≤ p ∧ p < 8 * P.A i + (sg P i).2) → (∀ t, P.own i = some t → ¬ (8 * P.b t ≤ p ∧ p < 8 * (P.b t + P.need t))) →
    bitAt m' p = bitAt m p

/-- saving and loading of node `i`, number `j` of the document -/
def Works (P : Plan) (i j : Nat) (ks : List Nat) : Prop :=
  ∃ out, nodeBytes (src P) P.st.ptrs.ra (nd P.st.ptrs.ra i) (ni P.st.info i) = some (some out) ∧
    ∀ buf p p' m, Doc buf p out p' → ∃ m', openNode (env P buf) (rec P i).parent ⟨m, P.liveAt j, nodesAt P j, p⟩ (P.A i) (fdOf P i) =
      some (true, ⟨m', P.liveAt (j + 1), nodesAt P (j + 1), p'⟩, ks.map (item P)) ∧ Eff P i m m'

theorem nodes_succ {P : Plan} {i j : Nat} (hj : P.N[j]? = some i) : nodesAt P (j + 1) = nodesAt P j ++ [rec P i] := by
  unfold nodesAt
  rw [List.take_add_one, hj]
  simp

theorem nodes_get {P : Plan} {x p j : Nat} (hp : P.N[p]? = some x) (h : p < j) : (nodesAt P j)[p + 1]? = some (rec P x) := by
  unfold nodesAt
  rw [List.getElem?_cons_succ, List.getElem?_map, List.getElem?_take, if_pos h, hp]
  rfl

variable {P : Plan} (H : P.OK)
include H

theorem value_seg {i : Nat} (hi : i ∈ P.N) {x : Nat} (hx : valueByte P.ld P.tds (P.obj i) x) :
    ∃ k, scalar P.ld P.tds (P.obj i).ty (P.obj i).td = some k ∧ sg P i = (0, 8 * k.size) ∧ x < k.size := by
  have hr := H.range hi
  have hok := H.C.V.ok i hr.1 hr.2
  cases hs : scalar P.ld P.tds (P.obj i).ty (P.obj i).td with
  | none =>
    exfalso
    refine value_none (fun he => ?_) hs hx
    unfold ObjOK at hok
    rw [he] at hok
    obtain ⟨t, d, h1, h2, h3⟩ := hok
    simpa [enumType, h1, h2] using H.S.enums t d h2 h3
  | some k =>
    refine ⟨k, rfl, ?_, covered_lt _ _ (value_scalar hs hx)⟩
    unfold sg seg
    cases hty : (P.obj i).ty <;> rw [hty] at hs <;> first | (simp [scalar, intSc] at hs; done) | simp [hs]

/-- the range of a node -/
theorem seg_in {i : Nat} (hi : i ∈ P.N) : 8 * (P.obj i).addr + (sg P i).2 ≤ 8 * ((P.obj (P.top i)).addr + P.need (P.top i)) := by
  have hr := H.range hi
  by_cases hty : (P.obj i).ty = .bitfield ∨ (P.obj i).ty = .charArray
  · obtain ⟨l, j, t, d, f, M⟩ := member_ok H.C hi (by rcases hty with h | h <;> simp [h])
    have hsp := member_span H.C H.S (ld := P.ld) M hty
    have hn := node_range H.C M.p.1 M.p.2
    have ha := M.addr
    have ht := H.C.tops.up i M.i1 hr.2 (by simp [isCell, M.str])
    rw [← ht] at hn
    have : P.need (P.top i) = CopyPlace.need P.m P.tds (P.obj (P.top i)) := rfl
    unfold sg
    omega
  · have := seg_solid H.C H.S H.ld hr.1 hr.2 hty
    have hn := node_range H.C hr.1 hr.2
    have : P.need (P.top i) = CopyPlace.need P.m P.tds (P.obj (P.top i)) := rfl
    unfold sg
    omega

omit H in
theorem readable (H : P.Core) {i x : Nat} (hi : i ∈ P.N) (hx : (P.obj i).addr + x ≤ (P.obj (P.top i)).addr + P.need (P.top i)) : covered P.live (P.obj i).addr x = true := by
  have hr := H.range hi
  have hs := top_start H.C.V H.C.tops i hr.1 hr.2
  have hn := node_range H.C hr.1 hr.2
  exact covered_part (start_need H.C hs).2.2.1 hn.1 hx

theorem good_congr {i : Nat} (hi : i ∈ P.N) {m m' : Bytes} (hg : Good P i m)
    (h1 : ∀ p, 8 * P.A i + (sg P i).1 ≤ p → p < 8 * P.A i + (sg P i).2 → bitAt m' p = bitAt m p)
    (h2 : ∀ t, P.own i = some t → (P.obj i).ty = .string → ∀ p, 8 * P.b t ≤ p → p < 8 * (P.b t + P.need t) → bitAt m' p = bitAt m p) : Good P i m' := by
  have hbyte : (sg P i).1 = 0 → ∀ x, 8 * (x + 1) ≤ (sg P i).2 → m' (P.A i + x) = m (P.A i + x) := by
    intro h0 x hx
    apply byte_of_bits
    intro q hq
    apply h1 <;> omega
  have hcell : isCell (P.obj i) = true → sg P i = (0, 64) := by
    intro hc
    have hpl : (P.obj i).ty = .pointer ∨ (P.obj i).ty = .string := by simpa [isCell] using hc
    rcases hpl with h | h <;> simp [sg, seg, h]
  have hword : isCell (P.obj i) = true → word m' (P.A i) = word m (P.A i) := by
    intro hc
    apply word_congr
    intro k hk
    apply hbyte
    · rw [hcell hc]
    · rw [hcell hc]; simp only; omega
  constructor
  · intro t ht
    rw [hword (H.own_iff.1 ht).2.2.2]
    exact hg.own t ht
  · intro hc h3 h4
    rw [hword hc]
    exact hg.null hc h3 h4
  · intro t ht hty x hx
    rw [← hg.text t ht hty x hx]
    apply byte_of_bits
    intro q hq
    apply h2 t ht hty <;> omega
  · intro x hx
    obtain ⟨k, _, e, hk⟩ := value_seg H hi hx
    rw [hbyte (by rw [e]) x (by rw [e]; simp only; omega)]
    exact hg.data x hx
  · intro hty q q1 q2
    rw [h1 _ (by omega) (by omega)]
    exact hg.bits hty q q1 q2
  · intro hty x hx hz
    have e : sg P i = (0, 8 * ((ni P.st.info i).fd.getD {}).size) := by simp [sg, seg, hty]
    rw [hbyte (by rw [e]) x (by rw [e] at hx ⊢; simp only at hx ⊢; omega)]
    exact hg.chars hty x hx hz

/-- nodes that are no pointers or strings have no block of their own -/
theorem own_cell {i : Nat} (h : isCell (P.obj i) = false) : P.own i = none := by
  unfold Plan.own
  rw [if_neg (by rw [h]; simp)]

theorem rec_plain {i : Nat} (hi : i ∈ P.N) (h : isCell (P.obj i) = false) :
    rec P i = { addr := P.A i, ty := (fdOf P i).ty, parent := (rec P i).parent } := by
  simp [rec, h, fits_ty H hi]

/-- nodes without an own part -/
theorem works_none {i j : Nat} {ks : List Nat} (hj : P.N[j]? = some i) (hk : Chain P.st.ptrs.ra (kidsHead (nd P.st.ptrs.ra i)) ks)
    (hty : (P.obj i).ty = .none ∨ (P.obj i).ty = .void) : Works P i j ks := by
  have hi := List.mem_of_getElem? hj
  have hr := H.range hi
  have hc : isCell (P.obj i) = false := by rcases hty with h | h <;> simp [isCell, h]
  have hks := kids_none H hi hc (by rcases hty with h | h <;> simp [components, h]) hk
  have hpt := H.C.V.ty hr.1 hr.2
  refine ⟨[], ?_, ?_⟩
  · unfold nodeBytes
    rw [hpt]
    rcases hty with h | h <;> rw [h]
  · intro buf p p' m hD
    refine ⟨m, ?_, ?_, fun _ _ _ => rfl⟩
    · rw [hD.nil, hks, H.step_none hj (own_cell H hc), nodes_succ hj, rec_plain H hi hc]
      unfold openNode
      have := fits_ty H hi
      rcases hty with h | h <;> rw [h] at this <;> simp only [this, finished, List.map_nil]
    · refine ⟨?_, ?_, ?_, ?_, ?_, ?_⟩
      · intro t ht; rw [own_cell H hc] at ht; cases ht
      · intro h; rw [hc] at h; cases h
      · intro t ht; rw [own_cell H hc] at ht; cases ht
      · intro x hx
        unfold valueByte at hx
        rcases hty with h | h <;> rw [h] at hx <;> simp [typeSize] at hx
      · intro h; rcases hty with h' | h' <;> rw [h'] at h <;> cases h
      · intro h; rcases hty with h' | h' <;> rw [h'] at h <;> cases h

/-- nothing to be done for structures and arrays -/
theorem good_none {i : Nat} (hty : (P.obj i).ty = .struct ∨ (P.obj i).ty = .array) (m : Bytes) : Good P i m := by
  have hc : isCell (P.obj i) = false := by rcases hty with h | h <;> simp [isCell, h]
  refine ⟨?_, ?_, ?_, ?_, ?_, ?_⟩
  · intro t ht; rw [own_cell H hc] at ht; cases ht
  · intro h; rw [hc] at h; cases h
  · intro t ht; rw [own_cell H hc] at ht; cases ht
  · intro x hx
    unfold valueByte at hx
    rcases hty with h | h <;> rw [h] at hx <;> simp [typeSize] at hx
  · intro h; rcases hty with h' | h' <;> rw [h'] at h <;> cases h
  · intro h; rcases hty with h' | h' <;> rw [h'] at h <;> cases h

theorem works_struct {i j : Nat} {ks : List Nat} (hj : P.N[j]? = some i) (hk : Chain P.st.ptrs.ra (kidsHead (nd P.st.ptrs.ra i)) ks)
    (hty : (P.obj i).ty = .struct) : Works P i j ks := by
  have hi := List.mem_of_getElem? hj
  have hr := H.range hi
  have hc : isCell (P.obj i) = false := by simp [isCell, hty]
  obtain ⟨d, d1, d2⟩ := kids_struct H hi hty hk
  refine ⟨[], ?_, ?_⟩
  · unfold nodeBytes
    rw [H.C.V.ty hr.1 hr.2, hty]
  · intro buf p p' m hD
    refine ⟨m, ?_, good_none H (Or.inl hty) m, fun _ _ _ => rfl⟩
    rw [hD.nil, H.step_none hj (own_cell H hc), nodes_succ hj, rec_plain H hi hc]
    unfold openNode loadStruct
    have := fits_ty H hi
    rw [hty] at this
    simp only [this, env, d1, d2]

theorem works_array {i j : Nat} {ks : List Nat} (hj : P.N[j]? = some i) (hk : Chain P.st.ptrs.ra (kidsHead (nd P.st.ptrs.ra i)) ks)
    (hty : (P.obj i).ty = .array) : Works P i j ks := by
  have hi := List.mem_of_getElem? hj
  have hr := H.range hi
  have hc : isCell (P.obj i) = false := by simp [isCell, hty]
  have hk := kids_array H hi hty hk
  obtain ⟨f1, f2, f3⟩ := fits H hi
  obtain ⟨l, q, t, d, M⟩ := f3 (Or.inr (Or.inr hty))
  have hft := fits_ty H hi
  rw [hty] at hft
  have hnp := (H.C.T.fields t d M.dd M.dty _ M.inFields).2
  obtain ⟨_, a1, a2, a3, a4, _⟩ := array_fd f1 hty
  have hsz : (ni P.st.info i).size = (fdOf P i).size := H.C.V.fsize i M.i1 hr.2 M.str _ M.fd (Or.inl hft)
  have hdims : (fdOf P i).dims.length = 1 ∧ (fdOf P i).size < 2 ^ 32 := by
    have := (H.C.T.fields t d M.dd M.dty _ M.inFields).1.2.2.2
    rw [hft] at this
    obtain ⟨b, c, _, _, _, h, _⟩ := this
    have hin := (H.C.L.inside t d _ M.dd M.dty M.inFields).2
    have hsp : span (fdOf P i) = (fdOf P i).size := by simp [span, hft]
    have := H.S.sizes t d M.dd
    exact ⟨by rw [h]; rfl, by omega⟩
  have hcnt : (fdOf P i).dims.headD 0 ≠ 0 → 0 < (fdOf P i).size / (fdOf P i).dims.headD 0 ∧
      (fdOf P i).size / ((fdOf P i).size / (fdOf P i).dims.headD 0) = (fdOf P i).dims.headD 0 := by
    intro h0
    have hpos := (extent_element H.C.T (H.C.V.ok i hr.1 hr.2) hty (by rw [a3]; exact h0) 0).2
    rw [a4] at hpos
    refine ⟨hpos, ?_⟩
    have := (H.C.T.fields t d M.dd M.dty _ M.inFields).1.2.2.2
    rw [hft] at this
    obtain ⟨b, c, _, _, _, h, h'⟩ := this
    rw [h] at hpos h0 ⊢
    simp only [List.headD_cons] at hpos h0 ⊢
    rw [h'] at hpos ⊢
    rw [Nat.mul_div_cancel_left _ (by omega)] at hpos ⊢
    exact Nat.mul_div_cancel _ hpos
  refine ⟨if (fdOf P i).dims.headD 0 ≠ 0 then be32 (u32 (fdOf P i).size) else [], ?_, ?_⟩
  · unfold nodeBytes
    rw [H.C.V.ty hr.1 hr.2, hty]
    simp only [M.fd, Option.bind_eq_bind, Option.bind_some, hnp, hdims.1, hsz, true_and]
    split <;> rfl
  · intro buf p p' m hD
    refine ⟨m, ?_, good_none H (Or.inr hty) m, fun _ _ _ => rfl⟩
    rw [H.step_none hj (own_cell H hc), nodes_succ hj, rec_plain H hi hc]
    unfold openNode
    simp only [hft]
    have := step_array (E := env P buf) (s := ⟨m, P.liveAt j, nodesAt P j ++ [({ addr := P.A i, ty := .array, parent := (rec P i).parent } : LNode)], p⟩)
      (p' := p') (data := P.A i) hnp hdims.1 f2 hcnt hdims.2 hD
    rw [this, ← hk]
    rfl

/-- what is not a pointer or a string -/
theorem good_data {i : Nat} {m' : Bytes} (hc : isCell (P.obj i) = false) (h1 : ∀ x, valueByte P.ld P.tds (P.obj i) x → m' (P.A i + x) = P.m ((P.obj i).addr + x))
    (h2 : (P.obj i).ty = .bitfield → ∀ q, (sg P i).1 ≤ q → q < (sg P i).2 → bitAt m' (8 * P.A i + q) = bitAt P.m (8 * (P.obj i).addr + q))
    (h3 : (P.obj i).ty = .charArray → ∀ x, 8 * x < (sg P i).2 → (∀ y, y < x → P.m ((P.obj i).addr + y) ≠ 0) → m' (P.A i + x) = P.m ((P.obj i).addr + x)) :
    Good P i m' := by
  refine ⟨?_, ?_, ?_, h1, h2, h3⟩
  · intro t ht; rw [own_cell H hc] at ht; cases ht
  · intro h; rw [hc] at h; cases h
  · intro t ht; rw [own_cell H hc] at ht; cases ht

theorem works_scalar {i j : Nat} {ks : List Nat} (hj : P.N[j]? = some i) (hk : Chain P.st.ptrs.ra (kidsHead (nd P.st.ptrs.ra i)) ks)
    {k : Sc} (hs : scalar P.ld P.tds (P.obj i).ty (P.obj i).td = some k) : Works P i j ks := by
  have hi := List.mem_of_getElem? hj
  have hr := H.range hi
  have hok := H.C.V.ok i hr.1 hr.2
  obtain ⟨g1, g2, g3, hc, g5⟩ := scalar_fits H.C.T H.ld hok hs
  have hks := kids_none H hi hc g3 hk
  have hpt := H.C.V.ty hr.1 hr.2
  have hft := fits_ty H hi
  have hn := node_range H.C hr.1 hr.2
  have hneed : P.need (P.top i) = CopyPlace.need P.m P.tds (P.obj (P.top i)) := rfl
  have hroom : (P.obj i).addr + k.size ≤ (P.obj (P.top i)).addr + P.need (P.top i) := by omega
  -- the type
  have htd : ∀ td, ((P.obj i).ty = .enum → td = (P.obj i).td) → scalar P.ld P.tds (P.obj i).ty td = some k := by
    intro td h
    by_cases he : (P.obj i).ty = .enum
    · rw [h he]; exact hs
    · cases hty : (P.obj i).ty <;> rw [hty] at hs he <;> first | exact hs | exact absurd rfl he
  have h1 : scalar P.ld P.tds (nd P.st.ptrs.ra i).ty (tdOf (ni P.st.info i).fd) = some k := by
    rw [hpt]
    apply htd
    intro he
    obtain ⟨x, x1, _, _, x4, _⟩ := H.C.V.F.node i _ hr.1 (H.C.V.get hr.2).1
    rw [(H.C.V.get hr.2).2] at x1
    cases x1
    exact x4 (Or.inr he)
  have h2 : scalar P.ld P.tds (fdOf P i).ty (fdOf P i).td = some k := by
    rw [hft]
    apply htd
    intro he
    have hf := (fits H hi).1
    rw [he] at hft
    rw [hf]
    unfold ofFd object
    rw [hft]
  obtain ⟨out, hE⟩ := enc_ok k g2 (bytesAt_lt P.m (P.obj i).addr k.size) (by rw [bytesAt_length]; omega)
  refine ⟨out, nodeBytes_scalar (S := src P) h1 ?_ hE.enc, ?_⟩
  · rw [H.C.V.addr hr.1 hr.2]
    exact peek_ok (readable H hi hroom)
  · intro buf p p' m hD
    rw [openNode_scalar (E := env P buf) h2]
    obtain ⟨m', e1, e2, e3⟩ := step_scalar (E := env P buf) (s := ⟨m, P.liveAt j, nodesAt P j ++ [({ addr := P.A i, ty := (fdOf P i).ty, parent := (rec P i).parent } : LNode)], p⟩)
      (data := P.A i) (p' := p') hD hE (H.access hj hroom)
    refine ⟨m', ?_, ?_⟩
    · rw [e1, hks, H.step_none hj (own_cell H hc), nodes_succ hj]
      rw [rec_plain H hi hc]
      rfl
    · have hsg : sg P i = (0, 8 * k.size) := by
        unfold sg seg
        cases hty : (P.obj i).ty <;> rw [hty] at hs <;> first | (simp [scalar, intSc] at hs; done) | simp [hs]
      refine ⟨good_data H hc ?_ ?_ ?_, ?_⟩
      · intro x hx
        have hcov := value_scalar hs hx
        rw [e3 x _ hcov (bytesAt_get _ (covered_lt _ _ hcov)), ofNat_toNat]
      · intro h; rw [h] at hs; simp [scalar, intSc] at hs
      · intro h; rw [h] at hs; simp [scalar, intSc] at hs
      · intro q hq _
        rw [hsg] at hq
        exact e2 q (by simp only at hq; omega)

omit H in
theorem room_member (H : P.Core) {i l x : Nat} {L : List Nat} {t : Nat} {d : Td} {f : Fd} (hi : i ∈ P.N) (M : Member P.tds P.st P.n P.obj i L l t d f) (hx : f.offset + x ≤ d.size) :
    (P.obj i).addr + x ≤ (P.obj (P.top i)).addr + P.need (P.top i) := by
  have hr := H.range hi
  have hn := node_range H.C M.p.1 M.p.2
  have ha := M.addr
  have ht := H.C.tops.up i M.i1 hr.2 (by simp [isCell, M.str])
  rw [← ht] at hn
  have : P.need (P.top i) = CopyPlace.need P.m P.tds (P.obj (P.top i)) := rfl
  have := (struct_td (H.C.V.ok _ M.p.1 M.p.2) M.str M.td M.dd).2
  omega

theorem works_chars {i j : Nat} {ks : List Nat} (hj : P.N[j]? = some i) (hk : Chain P.st.ptrs.ra (kidsHead (nd P.st.ptrs.ra i)) ks)
    (hty : (P.obj i).ty = .charArray) : Works P i j ks := by
  have hi := List.mem_of_getElem? hj
  have hr := H.range hi
  have hc : isCell (P.obj i) = false := by simp [isCell, hty]
  have hks := kids_none H hi hc (by simp [components, hty]) hk
  have hft := fits_ty H hi
  rw [hty] at hft
  obtain ⟨l, q, t, d, M⟩ := (fits H hi).2.2 (Or.inr (Or.inl hty))
  have hsz : (ni P.st.info i).size = (fdOf P i).size := H.C.V.fsize i M.i1 hr.2 M.str _ M.fd (Or.inr hft)
  have hin := (H.C.L.inside t d _ M.dd M.dty M.inFields).2
  have hsp : span (fdOf P i) = (fdOf P i).size := by simp [span, hft]
  rw [hsp] at hin
  have hsl : (fdOf P i).size < 2 ^ 32 := by have := H.S.sizes t d M.dd; omega
  have hroom := room_member H hi M hin
  obtain ⟨p0, hp0, hpN⟩ := H.before hj (by have := M.i1; omega)
  have hpr := H.range (List.mem_of_getElem? hpN)
  have hpar : (rec P i).parent = p0 + 1 := by
    have : i ≠ 1 := by have := M.i1; omega
    simp [rec, this, H.idx_at hpN]
  obtain ⟨len, out, _, ho, _⟩ := charArray_ok (mem := bytesAt P.m (P.obj i).addr (fdOf P i).size) (mem0 := bytesAt P.m (P.obj i).addr (fdOf P i).size)
    (size := (fdOf P i).size) (by rw [bytesAt_length]; omega) (by rw [bytesAt_length]; omega) hsl
  refine ⟨out, ?_, ?_⟩
  · unfold nodeBytes
    rw [H.C.V.ty hr.1 hr.2, hty, H.C.V.addr hr.1 hr.2, hsz]
    simp only
    have hg : P.st.ptrs.ra[(nd P.st.ptrs.ra i).parent]? = some (nd P.st.ptrs.ra (pa P.st i)) := (H.C.V.get hpr.2).1
    have hne : (nd P.st.ptrs.ra (pa P.st i)).ty ≠ .pointer := by rw [H.C.V.ty hpr.1 hpr.2, M.str]; simp
    simp only [hg, Option.bind_eq_bind, Option.bind_some]
    rw [if_neg (fun h => hne h.2)]
    simp only [src, peek_ok (readable H hi hroom), Option.bind_some, ho]
  · intro buf p p' m hD
    obtain ⟨m', e1, e2, e3⟩ := step_chars (E := env P buf) (s := ⟨m, P.liveAt j, nodesAt P j ++ [({ addr := P.A i, ty := (fdOf P i).ty, parent := (rec P i).parent } : LNode)], p⟩)
      (data := P.A i) (parent := (rec P i).parent) (p' := p') (p := rec P (pa P.st i)) (size := (fdOf P i).size) (by
        have := nodes_get hpN hp0
        rw [hpar]
        exact (List.getElem?_append_left (List.getElem?_eq_some_iff.1 this).1).trans this) (by
        show (P.obj (pa P.st i)).ty ≠ .pointer
        rw [M.str]; simp) (by rw [bytesAt_length]) hsl ho hD (H.access hj hroom)
    refine ⟨m', ?_, ?_⟩
    · unfold openNode
      simp only [hft] at e1 ⊢
      rw [e1, hks, H.step_none hj (own_cell H hc), nodes_succ hj]
      rw [rec_plain H hi hc, hft]
      rfl
    · have hsg : sg P i = (0, 8 * (fdOf P i).size) := by simp [sg, seg, hty, M.fd]
      refine ⟨good_data H hc ?_ ?_ ?_, ?_⟩
      · intro x hx
        simp [valueByte, hty, typeSize] at hx
      · intro h; rw [hty] at h; cases h
      · intro _ x hx hz
        rw [hsg] at hx
        simp only at hx
        rw [e3 x _ (by omega) ?_ (bytesAt_get _ (by omega)), ofNat_toNat]
        intro y hy
        rw [bytesAt_get _ (by omega)]
        intro h
        apply hz y hy
        have := Option.some.inj h
        exact UInt8.toNat.inj this
      · intro q hq _
        rw [hsg] at hq
        exact e2 q (by simp only at hq; omega)

omit H in
theorem bits_scalar {tds : List Td} {ld : Nat} {f : Fd} (h : integer (valueType tds f) = true ∨ f.aux = .bool ∨ f.aux = .char ∨ f.aux = .int128 ∨ f.aux = .uint128) :
    ∃ k, scalar ld tds f.aux f.td = some k ∧ k.size = typeSize (valueType tds f) ∧ k.size ≤ 16 ∧ Spec.scOk k ∧ ∀ i, i < k.size → Spec.covered k i = true := by
  have hint : ∀ {t k}, intSc t = some k → k.size = typeSize t ∧ k.size ≤ 16 ∧ Spec.scOk k ∧ ∀ i, i < k.size → Spec.covered k i = true := by
    intro t k h
    cases t <;> simp [intSc] at h <;> subst h <;> exact ⟨rfl, by decide, trivial, fun i hi => decide_eq_true hi⟩
  rcases h with h | h | h | h | h
  · by_cases he : f.aux = .enum
    · have hv : valueType tds f = enumType tds f.td := by simp [valueType, he]
      rw [hv] at h ⊢
      unfold enumType at h ⊢
      cases hd : f.td.bind (tds[·]?) with
      | none => rw [hd] at h; cases h
      | some d =>
        rw [hd] at h
        simp only [Option.map_some, Option.getD_some] at h ⊢
        obtain ⟨k, hk⟩ := intSc_some h
        refine ⟨k, ?_, hint hk⟩
        simp [scalar, he, tdAt, hd, hk]
    · have hv : valueType tds f = f.aux := by simp [valueType, he]
      rw [hv] at h ⊢
      obtain ⟨k, hk⟩ := intSc_some h
      refine ⟨k, ?_, hint hk⟩
      generalize f.aux = t at h hk
      cases t <;> simp [integer] at h <;> exact hk
  all_goals
    have hv : valueType tds f = f.aux := by simp [valueType, h]
    rw [hv, h]
    exact ⟨_, rfl, rfl, by decide, trivial, fun i hi => decide_eq_true hi⟩

theorem works_bits {i j : Nat} {ks : List Nat} (hj : P.N[j]? = some i) (hk : Chain P.st.ptrs.ra (kidsHead (nd P.st.ptrs.ra i)) ks)
    (hty : (P.obj i).ty = .bitfield) : Works P i j ks := by
  have hi := List.mem_of_getElem? hj
  have hr := H.range hi
  have hc : isCell (P.obj i) = false := by simp [isCell, hty]
  have hks := kids_none H hi hc (by simp [components, hty]) hk
  have hft := fits_ty H hi
  rw [hty] at hft
  obtain ⟨l, q, t, d, M⟩ := (fits H hi).2.2 (Or.inl hty)
  obtain ⟨b1, b2, b3, b4⟩ := H.S.bits t d _ M.dd M.dty M.inFields hft
  obtain ⟨k, k1, k2, k3, k4, k5⟩ := bits_scalar (ld := P.ld) b4
  have hin := (H.C.L.inside t d _ M.dd M.dty M.inFields).2
  have hbb : bitBytes (fdOf P i) = span (fdOf P i) := by
    simp only [bitBytes, span, hft, if_true]
    exact Nat.max_eq_right (by omega)
  rw [← hbb] at hin
  have hroom := room_member H hi M hin
  have hlen : 8 * bitBytes (fdOf P i) ≥ (fdOf P i).shift + (fdOf P i).width := by
    rw [hbb]
    simp only [span, hft, if_true]
    omega
  obtain ⟨v, hv, _⟩ := Bitfield.save_ok (toBits (bytesAt P.m (P.obj i).addr (bitBytes (fdOf P i)))) (fdOf P i).shift (fdOf P i).width
    (signedInt (bitType P.tds (ni P.st.info i).aux (fdOf P i).td)) b1 b2 (by omega) (by simp only [toBits, List.length_map, bytesAt_length]; omega)
  obtain ⟨out, hE⟩ := enc_ok k k4 (wordBytes_lt v) (by rw [wordBytes_length]; omega)
  refine ⟨out, ?_, ?_⟩
  · unfold nodeBytes
    rw [H.C.V.ty hr.1 hr.2, hty, H.C.V.addr hr.1 hr.2, M.fd]
    simp only [src, Option.bind_eq_bind, Option.bind_some, peek_ok (readable H hi hroom), hv, k1, hE.enc]
  · intro buf p p' m hD
    obtain ⟨m', e1, e2, e3⟩ := step_bits (E := env P buf) (s := ⟨m, P.liveAt j, nodesAt P j ++ [({ addr := P.A i, ty := (fdOf P i).ty, parent := (rec P i).parent } : LNode)], p⟩)
      (data := P.A i) (idx := (nodesAt P j).length) (p' := p') k1 k3 k5 b1 b2 (by omega) hv hD hE (H.access hj hroom)
    refine ⟨m', ?_, ?_⟩
    · unfold openNode
      simp only [hft] at e1 ⊢
      rw [e1, hks, H.step_none hj (own_cell H hc), nodes_succ hj]
      rw [rec_plain H hi hc, hft]
      rfl
    · have hsg : sg P i = ((fdOf P i).shift, (fdOf P i).shift + (fdOf P i).width) := by simp [sg, seg, hty, M.fd]
      refine ⟨good_data H hc ?_ ?_ ?_, ?_⟩
      · intro x hx
        simp [valueByte, hty, typeSize] at hx
      · intro _ x h1 h2
        rw [hsg] at h1 h2
        exact e3 x h1 h2
      · intro h; rw [hty] at h; cases h
      · intro q hq _
        rw [hsg] at hq
        exact e2 q (by simp only at hq; omega)

end Verif.Lemmas.XdrNode
