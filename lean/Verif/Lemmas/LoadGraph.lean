import Verif.Lemmas.LoadedOf
import Verif.Spec.LoadSays
import Verif.Lemmas.LoadSafe
/-!
A document that lists the nodes of a saved graph, and the object that is loaded from it.
-/
namespace Verif.Lemmas.LoadGraph
open Verif.Model Verif.Model.Ptrs Verif.Model.Save Verif.Model.Copy Verif.Model.Load Verif.Spec.Ptrs Verif.Spec.Save Verif.Spec.Load Verif.Spec.LoadSays
  Verif.Lemmas.SaveTree Verif.Lemmas.SaveFinal Verif.Lemmas.SaveInv Verif.Lemmas.CopyLayout Verif.Lemmas.CopyView Verif.Lemmas.CopyTops Verif.Lemmas.CopyMem Verif.Lemmas.CopyPlace Verif.Lemmas.CopyDone Verif.Lemmas.XdrSeg Verif.Lemmas.XdrPlan Verif.Lemmas.XdrFit Verif.Lemmas.XdrLink Verif.Lemmas.LoadedOf
open Verif.Lemmas.XdrNode (refers cell_cases)
open Verif.Spec.Copy (isCell Apart Layout span Allocator Grown Text Needs extent)
open Verif.Spec.XdrGraph (bitAt valueByte)
open Verif.Model.XdrGraph (tdType tdAt)

/-- the type as which the loader fills the object of node `c` -/
def fdL (P : Plan) (c : Nat) : Fd :=
  if c ≠ 1 ∧ (P.obj (pa P.st c)).ty = .array then Spec.LoadSays.element P.tds (fdOf P (pa P.st c)) else fdOf P c

/-- The document `E` lists the nodes `N'` of the saved graph, with the same links. -/
structure Listed (P : Plan) (N' : List Nat) (E : Env) : Prop where
  top : N'[0]? = some 1
  sub : ∀ i ∈ N', i ∈ P.N
  nodup : N'.Nodup
  len : E.ra.length = N'.length + 1
  idx : ∀ (j : Nat) (q : Pd), j ≠ 0 → E.ra[j]? = some q → q.idx = j
  first : ∀ q : Pd, E.ra[0]? = some q → q.idx = 0
  small : E.ra.length ≤ 2 ^ 32
  gone : ∀ i ∈ P.N, i ∉ N' → container (P.obj i).ty = true
  up : ∀ j i : Nat, N'[j]? = some i → i ≠ 1 → ∃ (jp q : Nat) (pd : Pd) (l l2 : List Nat), jp < j ∧ N'[jp]? = some (pa P.st i) ∧ E.ra[jp + 1]? = some pd ∧
    Siblings E.ra pd.firstChild l2 ∧ l2[q]? = some (j + 1) ∧ Chain P.st.ptrs.ra (kidsHead (nd P.st.ptrs.ra (pa P.st i))) l ∧ i ∈ l ∧
    ((P.obj (pa P.st i)).ty ≠ .struct → l[q]? = some i)
  down : ∀ j p : Nat, N'[j]? = some p → ∃ (pd : Pd) (l l2 : List Nat), E.ra[j + 1]? = some pd ∧ Chain P.st.ptrs.ra (kidsHead (nd P.st.ptrs.ra p)) l ∧
    Siblings E.ra pd.firstChild l2 ∧ ((P.obj p).ty ≠ .struct → l.length = l2.length ∧ ∀ q c : Nat, l[q]? = some c → ∃ jc, N'[jc]? = some c ∧ l2[q]? = some (jc + 1))

/-- the number that stands for a reference to the node at place `jt` of the document -/
def number (cref : Bool) (jt : Nat) : BitVec 128 := if cref then -BitVec.ofNat 128 (jt + 1) else BitVec.ofNat 128 (jt + 1)

/-- The document tells the content of the nodes that it lists. -/
structure Tells (P : Plan) (N' : List Nat) (E : Env) : Prop extends Listed P N' E where
  tds : E.tds = P.tds
  data : ∀ (j i : Nat), N'[j]? = some i → ∃ d, E.data[j + 1]? = some d
  name : ∀ (j i : Nat) (d : Doc), N'[j]? = some i → E.data[j + 1]? = some d → i ≠ 1 → (P.obj (pa P.st i)).ty = .struct → d.name = some (fdOf P i).name
  ref : ∀ (j i : Nat) (d : Doc), N'[j]? = some i → E.data[j + 1]? = some d → isCell (P.obj i) = true → refers P i = true →
    ∃ jt, N'[jt]? = some (nd P.st.ptrs.ra i).firstChild ∧ d.null = false ∧ d.val = .int (number (nd P.st.ptrs.ra i).cref jt)
  null : ∀ (j i : Nat) (d : Doc), N'[j]? = some i → E.data[j + 1]? = some d → isCell (P.obj i) = true → refers P i = false → (ni P.st.info i).null = true → d.null = true
  ptr : ∀ (j i t : Nat) (d : Doc), N'[j]? = some i → E.data[j + 1]? = some d → (P.obj i).ty = .pointer → P.own i = some t → d.null = false ∧ ∀ v, d.val ≠ .int v
  str : ∀ (j i t : Nat) (d : Doc), N'[j]? = some i → E.data[j + 1]? = some d → (P.obj i).ty = .string → P.own i = some t →
    d.null = false ∧ ∃ tx, d.val = .text tx ∧ Text P.m (P.obj t).addr tx.length ∧ ∀ k, k < tx.length → UInt8.ofNat (tx.getD k 0) = P.m ((P.obj t).addr + k)
  value : ∀ (j i : Nat) (d : Doc) (b : Nat → UInt8), N'[j]? = some i → E.data[j + 1]? = some d → valueBytes E (fdL P i) (j + 1) d = some b →
    ∀ k, valueByte P.ld P.tds (P.obj i) k → b k = P.m ((P.obj i).addr + k)
  bits : ∀ (j i : Nat), N'[j]? = some i → (P.obj i).ty = .bitfield → E.conv (fdL P i) (j + 1) = .fail ∨
    ∃ b, E.conv (fdL P i) (j + 1) = .store b ∧ ∀ q, q < (fdL P i).width → valueBit b q = bitAt P.m (8 * (P.obj i).addr + ((fdL P i).shift + q))
  chars : ∀ (j i : Nat) (d : Doc) (tx : List Nat), N'[j]? = some i → E.data[j + 1]? = some d → (P.obj i).ty = .charArray → d.val = .text tx →
    ∀ k, k < (fdL P i).size → (∀ x, x < k → P.m ((P.obj i).addr + x) ≠ 0) → UInt8.ofNat (tx.getD k 0) = P.m ((P.obj i).addr + k)

variable {P : Plan}

/-! ### types -/

theorem fdL_not {c : Nat} (h : c = 1 ∨ (P.obj (pa P.st c)).ty ≠ .array) : fdL P c = fdOf P c := by
  unfold fdL
  rw [if_neg]
  rintro ⟨h1, h2⟩
  rcases h with h | h
  · exact h1 h
  · exact h h2

theorem fdL_fields (H : P.Core) {c : Nat} (hc : c ∈ P.N) : (fdL P c).ty = (fdOf P c).ty ∧ (fdL P c).aux = (fdOf P c).aux ∧ (fdL P c).td = (fdOf P c).td ∧
    (fdL P c).size = (fdOf P c).size ∧ (fdL P c).dims = (fdOf P c).dims ∧ (fdL P c).shift = (fdOf P c).shift ∧ (fdL P c).width = (fdOf P c).width := by
  by_cases h : c ≠ 1 ∧ (P.obj (pa P.st c)).ty = .array
  · have hp := parent_tree H hc h.1
    obtain ⟨l, j, t, d, M⟩ := (fits H hp).2.2 (Or.inr (Or.inr h.2))
    have h1 : fdL P c = Spec.LoadSays.element P.tds (fdOf P (pa P.st c)) := by unfold fdL; rw [if_pos h]
    have h2 : fdOf P c = XdrStep.element P.tds (fdOf P (pa P.st c)) := by
      conv => lhs; unfold fdOf
      rw [if_neg h.1, h.2]
      simp only
      rw [M.fd]
      rfl
    rw [h1, h2]
    exact ⟨rfl, rfl, rfl, rfl, rfl, rfl, rfl⟩
  · have h1 : fdL P c = fdOf P c := by unfold fdL; rw [if_neg h]
    rw [h1]
    exact ⟨rfl, rfl, rfl, rfl, rfl, rfl, rfl⟩

theorem fdL_ty (H : P.Core) {c : Nat} (hc : c ∈ P.N) : (fdL P c).ty = (P.obj c).ty := (fdL_fields H hc).1.trans (fits_ty H hc)

theorem fdL_td (H : P.Core) {c : Nat} (hc : c ∈ P.N) (hty : (P.obj c).ty = .struct) : (fdL P c).td = (P.obj c).td := by
  rw [(fdL_fields H hc).2.2.1]
  have h1 := (fits H hc).1
  have h2 := fits_ty H hc
  rw [hty] at h2
  rw [h1]
  unfold ofFd
  rw [h2]
  rfl

/-- the type of the target of a pointer -/
theorem fdL_target (H : P.Core) {i t : Nat} (hi : i ∈ P.N) (hty : (P.obj i).ty = .pointer) (ht : P.own i = some t) :
    fdL P t = Spec.LoadSays.target P.tds (fdL P i) := by
  obtain ⟨h1, h2, h3, h4⟩ := H.own_iff.1 ht
  have ho := H.C.V.owner H.C.S.cells h1 h2 (by rw [h3]; exact h4)
  rw [h3] at ho
  have hu := (ho.2.2.2.1 hty).1
  have hf := (fits H hi).1
  have hft := fits_ty H hi
  have hu' : untyped (fdOf P i).aux = false := by
    rw [hf] at hu
    unfold ofFd object at hu
    rw [hft, hty] at hu
    simp only at hu
    split at hu
    · assumption
    · rename_i h; simpa using h
  have hat : (P.obj i).aux = (fdOf P i).aux ∧ (P.obj i).td = (fdOf P i).td := by
    rw [hf]
    unfold ofFd object
    rw [hft, hty]
    simp [hu']
  have e1 : fdL P t = fdOf P t := fdL_not (Or.inr (by rw [h3, hty]; intro h; cases h))
  have e2 : fdOf P t = XdrStep.pointee P.tds { aux := (P.obj i).aux, td := (P.obj i).td } := by
    conv => lhs; unfold fdOf
    rw [if_neg (by omega), h3, hty]
  rw [e1, e2, hat.1, hat.2]
  unfold Spec.LoadSays.target XdrStep.pointee
  rw [(fdL_fields H hi).2.1, (fdL_fields H hi).2.2.1]

/-- the only child of a pointer with a target of its own -/
theorem kids_one (H : P.Core) {i t : Nat} (hty : (P.obj i).ty = .pointer) (ht : P.own i = some t) {ks : List Nat}
    (hk : Chain P.st.ptrs.ra (kidsHead (nd P.st.ptrs.ra i)) ks) : ks = [t] := by
  obtain ⟨h1, h2, h3, h4⟩ := H.own_iff.1 ht
  obtain ⟨_, o2, o3, o4, _⟩ := H.C.V.owner H.C.S.cells h1 h2 (by rw [h3]; exact h4)
  rw [h3] at o2 o3 o4
  obtain ⟨p1, p2, p3⟩ := o4 hty
  have hkh : kidsHead (nd P.st.ptrs.ra i) = t := by simp [kidsHead, o2, o3, p2]
  rw [hkh] at hk
  exact chain_fun _ _ _ hk ⟨rfl, by omega, _, (H.C.V.get h2).1, p3⟩

variable {N' : List Nat} {E : Env} {dst : Nat} {place : Nat → Nat} {type : Nat → Fd}

theorem nodup_at {α : Type} {l : List α} (h : l.Nodup) {i j : Nat} {x : α} (hi : l[i]? = some x) (hj : l[j]? = some x) : i = j :=
  (List.getElem?_inj (List.getElem?_eq_some_iff.1 hi).1 h).1 (hi.trans hj.symm)

theorem Listed.one (L : Listed P N' E) {j : Nat} (h : N'[j]? = some 1) : j = 0 := by
  have h0 := L.top
  exact nodup_at L.nodup h h0

theorem Listed.inj (L : Listed P N' E) {j j' i : Nat} (h : N'[j]? = some i) (h' : N'[j']? = some i) : j = j' := by
  exact nodup_at L.nodup h h'

/-- a node and its parent -/
theorem step (H : P.Core) (hF : Fields P.tds) (T : Tells P N' E) (hS : Shape E dst P.fd place type) {j i : Nat} (hj : N'[j]? = some i) (h1 : i ≠ 1)
    (ih : ∀ j' i', j' < j → N'[j']? = some i' → place (j' + 1) ≠ 0 ∧ type (j' + 1) = fdL P i') :
    ∃ jp, jp < j ∧ N'[jp]? = some (pa P.st i) ∧ place (j + 1) ≠ 0 ∧ type (j + 1) = fdL P i ∧
      (isCell (P.obj (pa P.st i)) = false → place (j + 1) = place (jp + 1) + ((P.obj i).addr - (P.obj (pa P.st i)).addr)) := by
  have hi := T.sub i (List.mem_of_getElem? hj)
  have hr := H.range hi
  have hi1 : 1 < i := by omega
  have hpN := parent_tree H hi h1
  obtain ⟨jp, q, pd, l, l2, u1, u2, u3, u4, u5, u6, u7, u8⟩ := T.up j i hj h1
  obtain ⟨p1, p2⟩ := ih jp _ u1 u2
  refine ⟨jp, u1, u2, ?_⟩
  have hpty := fdL_ty H hpN
  rcases parent_kind H hi h1 with hk | hk | ⟨hk, hcell, _⟩
  · obtain ⟨t, m1, m2⟩ := hS.members (jp + 1) pd l2 p1 (by rw [p2, hpty]; exact hk) u3 u4
    obtain ⟨c1, c2, kk, d, c3, c4, c5, _⟩ := m2 q _ u5
    obtain ⟨l', j', t', d', f', M⟩ := member_of H.C hi1 hr.2 hk
    have hf : fdOf P i = f' := by simp [fdOf, h1, hk, M.fd]
    have htd : t = d' := by
      rw [p2, fdL_td H hpN hk, M.td, T.tds] at m1
      have m1 : P.tds[t']? = some t := m1
      rw [M.dd] at m1
      exact (Option.some.inj m1).symm
    subst htd
    have hn : (type (j + 1)).name = f'.name := by
      rw [← hf]
      exact c5 _ (T.name j i d hj c4 h1 hk)
    have hnames := hF.names t' t M.dd M.dty
    have e : type (j + 1) = f' := by
      have : kk = j' := nodup_at hnames (x := f'.name) (by rw [List.getElem?_map, c3, Option.map_some, hn]) (by rw [List.getElem?_map, M.ff, Option.map_some])
      subst this
      rw [M.ff] at c3
      exact (Option.some.inj c3).symm
    have e' : fdL P i = f' := by rw [fdL_not (Or.inr (by rw [hk]; intro h; cases h)), hf]
    refine ⟨c1, by rw [e, e'], fun _ => ?_⟩
    rw [c2, e, M.addr]
    omega
  · obtain ⟨_, m2⟩ := hS.elements (jp + 1) pd l2 p1 (by rw [p2, hpty]; exact hk) u3 u4
    obtain ⟨c1, c2, c3⟩ := m2 q _ u5
    have hpp : fdL P (pa P.st i) = fdOf P (pa P.st i) := by
      obtain ⟨l', j', t', d', M⟩ := (fits H hpN).2.2 (Or.inr (Or.inr hk))
      exact fdL_not (Or.inr (by rw [M.str]; intro h; cases h))
    have e' : fdL P i = Spec.LoadSays.element P.tds (fdOf P (pa P.st i)) := by unfold fdL; rw [if_pos ⟨h1, hk⟩]
    refine ⟨c1, by rw [c3, p2, hpp, e', T.tds], fun _ => ?_⟩
    have hq := u8 (by rw [hk]; intro h; cases h)
    have k1 := (kids_list H hpN (by simp [isCell, hk]) u6).1
    have e2 : (components P.tds (P.obj (pa P.st i)))[q]? = some (P.obj i) := by rw [← k1, List.getElem?_map, hq]; rfl
    obtain ⟨_, hob⟩ := part_array hk e2
    have hadr : (P.obj i).addr = (P.obj (pa P.st i)).addr + q * (P.obj (pa P.st i)).step := by
      conv => lhs; rw [hob]
      rw [object_addr]
    obtain ⟨_, _, _, a3, a4, _⟩ := array_fd (fits H hpN).1 hk
    rw [c2, hadr, a4, p2, hpp]
    show _ + q * ((fdOf P (pa P.st i)).size / (fdOf P (pa P.st i)).dims.headD 0) = _
    omega
  · have ho : P.own (pa P.st i) = some i := H.own_iff.2 ⟨hi1, hr.2, rfl, hcell⟩
    obtain ⟨d, hd⟩ := T.data jp _ u2
    obtain ⟨d1, d2⟩ := T.ptr jp _ i d u2 hd hk ho
    obtain ⟨c1, c2⟩ := hS.targets (jp + 1) d pd l2 p1 (by rw [p2, hpty]; exact hk) hd u3 u4 d1 d2 q _ u5
    refine ⟨c1, by rw [c2, p2, T.tds, fdL_target H hpN hk ho], fun h => ?_⟩
    rw [hcell] at h
    cases h

/-- the types of the objects -/
theorem typed (H : P.Core) (hF : Fields P.tds) (T : Tells P N' E) (hS : Shape E dst P.fd place type) (hd : dst ≠ 0) :
    ∀ (j i : Nat), N'[j]? = some i → place (j + 1) ≠ 0 ∧ type (j + 1) = fdL P i := by
  intro j
  induction j using Nat.strongRecOn with
  | _ j ih =>
    intro i hj
    by_cases h1 : i = 1
    · subst h1
      have := T.one hj
      subst this
      refine ⟨by rw [hS.top.1]; exact hd, ?_⟩
      rw [hS.top.2, fdL_not (Or.inl rfl)]
      simp [fdOf]
    · obtain ⟨_, _, _, e1, e2, _⟩ := step H hF T hS hj h1 fun j' i' h => ih j' h i'
      exact ⟨e1, e2⟩

/-! ### numbers of references -/

theorem number_false {jt : Nat} (h : jt + 1 < 2 ^ 32) : (number false jt).toNat % 2 ^ 32 = jt + 1 ∧ 0 ≤ (number false jt).toInt := by
  have h1 : (number false jt).toNat = jt + 1 := by
    unfold number
    rw [if_neg (by simp), BitVec.toNat_ofNat, Nat.mod_eq_of_lt (by omega)]
  refine ⟨by rw [h1]; omega, ?_⟩
  rw [BitVec.toInt_eq_toNat_cond, h1, if_pos (by omega)]
  omega

theorem number_true {jt : Nat} (h : jt + 1 < 2 ^ 32) : (-number true jt).toNat % 2 ^ 32 = jt + 1 ∧ (number true jt).toInt < 0 := by
  have h1 : -number true jt = BitVec.ofNat 128 (jt + 1) := by
    unfold number
    rw [if_pos rfl, BitVec.neg_neg]
  refine ⟨by rw [h1, BitVec.toNat_ofNat]; omega, ?_⟩
  have h2 : (number true jt).toNat = 2 ^ 128 - (jt + 1) := by
    unfold number
    rw [if_pos rfl, BitVec.toNat_neg, BitVec.toNat_ofNat]
    omega
  rw [BitVec.toInt_eq_toNat_cond, h2, if_neg (by omega)]
  omega

theorem Listed.named (L : Listed P N' E) {j i : Nat} (h : N'[j]? = some i) : j + 1 < E.ra.length ∧ j + 1 < 2 ^ 32 ∧ Named E.ra (j + 1) (j + 1) := by
  have h1 := (List.getElem?_eq_some_iff.1 h).1
  have hl := L.len
  have hs := L.small
  refine ⟨by omega, by omega, by omega, by omega, ⟨_, List.getElem?_eq_getElem (by omega), L.idx _ _ (by omega) (List.getElem?_eq_getElem (by omega))⟩, ?_⟩
  intro k pk hk hi
  by_cases h0 : k = 0
  · omega
  · have := L.idx k pk h0 hk
    omega

/-- content references lead to pointers and strings -/
theorem content (H : P.Core) (hF : Fields P.tds) (T : Tells P N' E) (hd : dst ≠ 0) : ∀ place type, Shape E dst P.fd place type →
    ∀ (i k : Nat) (v : BitVec 128) (pk : Pd), place i ≠ 0 → (type i).ty = .pointer ∨ (type i).ty = .string → Numbered E i v → v.toInt < 0 →
      E.ra[k]? = some pk → pk.idx = (-v).toNat % 2 ^ 32 → place k = 0 ∨ (type k).ty = .pointer ∨ (type k).ty = .string := by
  intro place type hS i k v pk hi hty hnum hneg hk hidx
  obtain ⟨h0, h1⟩ := hS.within i hi
  have hl := T.len
  obtain ⟨j, rfl⟩ : ∃ j, i = j + 1 := ⟨i - 1, by omega⟩
  have hj : N'[j]? = some (N'[j]'(by omega)) := List.getElem?_eq_getElem _
  generalize N'[j]'(by omega) = c at hj
  have hc := T.sub c (List.mem_of_getElem? hj)
  have htyp := (typed H hF T hS hd j c hj).2
  rw [htyp, fdL_ty H hc] at hty
  have hcell : isCell (P.obj c) = true := by simpa [isCell] using hty
  obtain ⟨d, d1, d2, d3⟩ := hnum
  rcases cell_cases H hc hcell with ⟨t, o1, _, _⟩ | ⟨_, o2, _⟩ | ⟨_, o2, o3⟩
  · rcases hty with hp | hp
    · exact absurd d3 ((T.ptr j c t d hj d1 hp o1).2 v)
    · obtain ⟨_, tx, e, _⟩ := T.str j c t d hj d1 hp o1
      rw [e] at d3; cases d3
  · obtain ⟨jt, e1, _, e3⟩ := T.ref j c d hj d1 hcell o2
    rw [d3] at e3
    injection e3 with e3
    have hnm := T.named e1
    obtain ⟨_, hr⟩ := ref_cases H hc ⟨hcell, o2⟩
    rcases hr with ⟨hcr, _, _⟩ | ⟨hcr, hcl, _⟩
    · rw [hcr] at e3
      have := (number_false hnm.2.1).2
      rw [← e3] at this
      omega
    · rw [hcr] at e3
      subst e3
      rw [(number_true hnm.2.1).1] at hidx
      have hk1 : k = jt + 1 := by
        have := hnm.2.2.2.2.2 k pk hk hidx
        by_cases hk0 : k = 0
        · subst hk0
          have := T.first pk hk
          omega
        · have := T.idx k pk hk0 hk
          omega
      subst hk1
      right
      rw [(typed H hF T hS hd jt _ e1).2, fdL_ty H (T.sub _ (List.mem_of_getElem? e1))]
      simpa [isCell] using hcl
  · rw [T.null j c d hj d1 hcell o2 o3] at d2
    cases d2

/-! ### places -/

/-- where the block of a node is -/
noncomputable def block (P : Plan) (N' : List Nat) (dst : Nat) (place : Nat → Nat) (m' : Bytes) (t : Nat) : Nat :=
  if t = 1 then dst else word m' (place (N'.idxOf (pa P.st t) + 1))

variable {m' : Bytes} {new : Blocks}

theorem Listed.at (L : Listed P N' E) {j i : Nat} (h : N'[j]? = some i) : N'.idxOf i = j := by
  obtain ⟨h1, h2⟩ := List.getElem?_eq_some_iff.1 h
  have hm : i ∈ N' := List.mem_of_getElem? h
  have h3 : N'[N'.idxOf i]? = some i := by
    rw [List.getElem?_eq_getElem (List.idxOf_lt_length_of_mem hm), List.getElem_idxOf]
  exact L.inj h3 h

theorem block_of (L : Listed P N' E) {j i t : Nat} (h : N'[j]? = some i) (ht : pa P.st t = i) (h1 : t ≠ 1) : block P N' dst place m' t = word m' (place (j + 1)) := by
  unfold block
  rw [if_neg h1, ht, L.at h]

/-- Every node is where the document says. -/
theorem placed (H : P.Core) (hF : Fields P.tds) (T : Tells P N' E) (hS : Says E dst P.fd m' new place type) (hd : dst ≠ 0) :
    ∀ (j i : Nat), N'[j]? = some i → place (j + 1) = na P.top P.obj (block P N' dst place m') i := by
  intro j
  induction j using Nat.strongRecOn with
  | _ j ih =>
    intro i hj
    by_cases h1 : i = 1
    · subst h1
      have := T.one hj
      subst this
      rw [na_start H.C.tops (Or.inl rfl), hS.top.1]
      simp [block]
    · obtain ⟨jp, u1, u2, _, _, u3⟩ := step H hF T hS.toShape hj h1 fun j' i' _ h => typed H hF T hS.toShape hd j' i' h
      have hi := T.sub i (List.mem_of_getElem? hj)
      have hr := H.range hi
      have hi1 : 1 < i := by omega
      cases hc : isCell (P.obj (pa P.st i)) with
      | false =>
        rw [u3 hc, ih jp u1 _ u2]
        exact (na_up H.C hi1 hr.2 hc).2.symm
      | true =>
        have hk : (P.obj (pa P.st i)).ty = .pointer := by
          rcases parent_kind H hi h1 with hk | hk | ⟨hk, _⟩
          · simp [isCell, hk] at hc
          · simp [isCell, hk] at hc
          · exact hk
        have hpN := parent_tree H hi h1
        have ho : P.own (pa P.st i) = some i := H.own_iff.2 ⟨hi1, hr.2, rfl, hc⟩
        rw [na_start H.C.tops (Or.inr ⟨hi1, hr.2, hc⟩), block_of T.toListed u2 rfl h1]
        obtain ⟨d, hd'⟩ := T.data jp _ u2
        obtain ⟨d1, d2⟩ := T.ptr jp _ i d u2 hd' hk ho
        obtain ⟨pd, l, l2, w1, w2, w3, w4⟩ := T.down jp _ u2
        obtain ⟨w5, w6⟩ := w4 (by rw [hk]; intro h; cases h)
        have hl := kids_one H hk ho w2
        subst hl
        obtain ⟨jc, w7, w8⟩ := w6 0 i rfl
        have := T.inj w7 hj
        subst this
        have hty := typed H hF T hS.toShape hd jp _ u2
        have := ((hS.pointer (jp + 1) d pd l2 hty.1 (by rw [hty.2, fdL_ty H hpN]; exact hk) hd' w1 w3).2 d1 d2).2 (by intro h; rw [h] at w5; cases w5)
        have := (this.2 0 _ w8).2.1
        rw [this]
        omega

/-! ### the image of the graph -/

theorem elementSize_of (tds : List Td) (a : Nat) (f : Fd) (h : plain f.ty = true) : elementSize tds f.ty f.td = elementSize tds (ofFd a f).ty (ofFd a f).td := by
  unfold ofFd
  rw [object_ty]
  cases hty : f.ty <;> rw [hty] at h <;> first | rfl | cases h

theorem size_plain (H : P.Core) {i : Nat} (hi : i ∈ P.N) (hpl : plain (P.obj i).ty = true) : (fdL P i).size = elementSize P.tds (P.obj i).ty (P.obj i).td := by
  have hfit := (fits H hi).1
  have hfty := fits_ty H hi
  have hsuff : (fdOf P i).size = elementSize P.tds (fdOf P i).ty (fdOf P i).td → (fdL P i).size = elementSize P.tds (P.obj i).ty (P.obj i).td := by
    intro h
    rw [(fdL_fields H hi).2.2.2.1, h, elementSize_of P.tds (P.obj i).addr _ (by rw [hfty]; exact hpl), ← hfit]
  apply hsuff
  by_cases h1 : i = 1
  · subst h1
    have : fdOf P 1 = P.fd := by simp [fdOf]
    rw [this] at hfty ⊢
    exact H.fd.2.2.1 (by rw [hfty]; exact hpl)
  · have hr := H.range hi
    rcases parent_kind H hi h1 with hk | hk | ⟨hk, _⟩
    · obtain ⟨l, j, t, d, f, M⟩ := member_of H.C (by omega : 1 < i) hr.2 hk
      have : fdOf P i = f := by simp [fdOf, h1, hk, M.fd]
      rw [this] at hfty ⊢
      exact (H.C.T.fields t d M.dd M.dty f M.inFields).1.2.2.1 (by rw [hfty]; exact hpl)
    · obtain ⟨l, j, t, d, M⟩ := (fits H (parent_tree H hi h1)).2.2 (Or.inr (Or.inr hk))
      have hf : fdOf P i = XdrStep.element P.tds (fdOf P (pa P.st i)) := by
        conv => lhs; unfold fdOf
        rw [if_neg h1, hk]
        simp only
        rw [M.fd]
        rfl
      have hok := (H.C.T.fields t d M.dd M.dty _ M.inFields).1.2.2.2
      obtain ⟨a0, _, _, a3, _⟩ := array_fd (fits H (parent_tree H hi h1)).1 hk
      rw [a0] at hok
      obtain ⟨bb, c, _, _, _, e1, e2⟩ := hok
      obtain ⟨q, hq⟩ := List.mem_iff_getElem?.1 (H.C.V.part (by omega : 1 < i) hr.2 (by simp [isCell, hk]))
      have hlt := (part_array hk hq).1
      rw [a3, e1] at hlt
      have hlt : q < c := hlt
      rw [hf]
      show (fdOf P (pa P.st i)).size / (fdOf P (pa P.st i)).dims.headD 0 = elementSize P.tds (fdOf P (pa P.st i)).aux (fdOf P (pa P.st i)).td
      rw [e1, e2]
      exact Nat.mul_div_cancel_left _ (by omega)
    · have hf : fdOf P i = XdrStep.pointee P.tds { aux := (P.obj (pa P.st i)).aux, td := (P.obj (pa P.st i)).td } := by simp [fdOf, h1, hk]
      rw [hf]
      rfl

/-- the bytes of a value are inside of the object -/
theorem value_in (H : P.Core) (hld : P.ld ≤ 16) {i k : Nat} (hi : i ∈ P.N) (h : valueByte P.ld P.tds (P.obj i) k) : k < (fdL P i).size ∧ valueType (fdL P i).ty = true := by
  have hr := H.range hi
  rw [fdL_ty H hi]
  have hsz := size_plain H hi
  have hok := H.C.V.ok i hr.1 hr.2
  unfold valueByte at h
  unfold ObjOK at hok
  by_cases he : (P.obj i).ty = .enum
  · rw [he] at h hsz hok ⊢
    obtain ⟨t, d, h1, h2, h3⟩ := hok
    refine ⟨?_, rfl⟩
    rw [hsz rfl, h1]
    have := H.C.T.enums t d h2 h3
    unfold Verif.Spec.XdrGraph.enumType at h
    rw [h1] at h
    simp only [Option.bind_some, h2, Option.map_some, Option.getD_some] at h
    have e : elementSize P.tds .enum (some t) = d.size := by simp [elementSize, typeSize, h2]
    rw [e]
    omega
  · cases hty : (P.obj i).ty <;> rw [hty] at h hsz hok he <;> simp only [typeSize] at h <;>
      first
      | exact absurd rfl he
      | exact absurd h (Nat.not_lt_zero _)
      | exact h.elim
      | exact ⟨by rw [hsz rfl]; simp only [elementSize, typeSize]; simp; omega, rfl⟩

/-- the type of every node that is listed is that of its object -/
structure Ctx (P : Plan) (N' : List Nat) (E : Env) (m0 m' : Bytes) (new : Blocks) (place : Nat → Nat) (type : Nat → Fd) : Prop where
  H : P.Core
  F : Fields P.tds
  T : Tells P N' E
  S : Says E P.dst P.fd m' new place type
  dst : P.dst ≠ 0
  ld : P.ld ≤ 16
  alloc : Allocator E.alloc
  grown : Grown E.alloc P.live0 new
  room : covered P.live0 P.dst (extent P.tds P.root) = true ∧ P.dst + extent P.tds P.root ≤ 2 ^ 64
  kept : ∀ p, ¬ (P.dst ≤ p ∧ p < P.dst + P.fd.size) → covered new p 1 = false → m' p = m0 p

variable {m0 : Bytes} (C : Ctx P N' E m0 m' new place type)
include C

theorem cell_listed {i : Nat} (hi : i ∈ P.N) (hc : isCell (P.obj i) = true) : ∃ j : Nat, N'[j]? = some i := by
  apply List.mem_iff_getElem?.1
  apply Classical.byContradiction
  intro h
  have := C.T.gone i hi h
  have hpl : (P.obj i).ty = .pointer ∨ (P.obj i).ty = .string := by simpa [isCell] using hc
  rcases hpl with h | h <;> rw [h] at this <;> cases this

/-- a block of its own -/
theorem own_block {i t : Nat} (hi : i ∈ P.N) (ht : P.own i = some t) {j : Nat} (hj : N'[j]? = some i) :
    (block P N' P.dst place m' t, P.need t) ∈ new ∧ block P N' P.dst place m' t = word m' (place (j + 1)) ∧
    ((P.obj i).ty = .string → ∀ l, Text P.m (P.obj t).addr l → ∀ k, k ≤ l → m' (block P N' P.dst place m' t + k) = P.m ((P.obj t).addr + k)) ∧
    ∀ v, ¬ Numbered E (j + 1) v := by
  obtain ⟨h1, h2, h3, h4⟩ := C.H.own_iff.1 ht
  have hb : block P N' P.dst place m' t = word m' (place (j + 1)) := block_of C.T.toListed hj h3 (by omega)
  have hty := typed C.H C.F C.T C.S.toShape C.dst j i hj
  have hft := fdL_ty C.H hi
  obtain ⟨d, hd⟩ := C.T.data j i hj
  have hst : Start P.st P.n P.obj t := Or.inr ⟨h1, h2, by rw [h3]; exact h4⟩
  have hneed := start_need C.H.C hst
  have hpl : (P.obj i).ty = .pointer ∨ (P.obj i).ty = .string := by simpa [isCell] using h4
  rcases hpl with hpl | hpl
  · obtain ⟨d1, d2⟩ := C.T.ptr j i t d hj hd hpl ht
    obtain ⟨pd, l, l2, w1, w2, w3, w4⟩ := C.T.down j i hj
    obtain ⟨w5, w6⟩ := w4 (by rw [hpl]; intro h; cases h)
    have hl := kids_one C.H hpl ht w2
    subst hl
    have hp := ((C.S.pointer (j + 1) d pd l2 hty.1 (by rw [hty.2, hft]; exact hpl) hd w1 w3).2 d1 d2).2 (by intro h; rw [h] at w5; cases w5)
    have hm := hp.1
    have htN : t ∈ P.N := (C.H.C.V.inTree t).2 ⟨⟨by omega, h2⟩, fun h => by rw [h3, hpl] at h; cases h.2⟩
    have hk := parent_kind C.H htN (by omega)
    rw [h3] at hk
    have hplain : plain (P.obj t).ty = true := by
      rcases hk with hk | hk | ⟨_, _, hk, _⟩
      · rw [hpl] at hk; cases hk
      · rw [hpl] at hk; cases hk
      · exact hk
    have hsz : l2.length * (Spec.LoadSays.target E.tds (type (j + 1))).size = P.need t := by
      rw [← w5, hty.2, C.T.tds, ← fdL_target C.H hi hpl ht, size_plain C.H htN hplain]
      unfold Plan.need
      rw [hneed.2.2.2.2 (by intro h; rw [h] at hplain; cases hplain)]
      unfold extent
      rw [if_pos hplain]
      simp
    rw [hsz] at hm
    refine ⟨by rw [hb]; exact hm, hb, (fun h => by rw [hpl] at h; cases h), ?_⟩
    rintro v ⟨d', e1, _, e2⟩
    rw [hd] at e1
    cases e1
    exact d2 v e2
  · obtain ⟨d1, tx, d2, d3, d4⟩ := C.T.str j i t d hj hd hpl ht
    have hn : P.need t = tx.length + 1 := by
      apply need_eq
      have : (P.obj t).ty = .charArray := by
        have hl := C.H.C.V.lead t h1 h2 (by rw [h3]; exact h4)
        rw [h3] at hl
        unfold Verif.Spec.Save.target at hl
        rw [hpl] at hl
        simp only at hl
        split at hl
        · cases hl
        · exact (congrArg Obj.ty (Option.some.inj hl)).symm
      unfold Needs
      rw [if_pos this]
      exact ⟨_, rfl, d3⟩
    have hs := ((C.S.text (j + 1) d hty.1 (by rw [hty.2, hft]; exact hpl) hd).2 d1)
    rcases hs with ⟨v, hv⟩ | ⟨tx', e1, e2, e3⟩
    · rw [d2] at hv; cases hv
    · rw [d2] at e1
      injection e1 with e1
      subst e1
      rw [hn, hb]
      refine ⟨e2, rfl, fun _ l hl k hk => ?_, ?_⟩
      · have hll : l = tx.length := by
          rcases Nat.lt_trichotomy l tx.length with h | h | h
          · exact absurd hl.1 (d3.2 l h)
          · exact h
          · exact absurd d3.1 (hl.2 _ h)
        subst hll
        rw [e3 k hk]
        by_cases hkl : k < tx.length
        · exact d4 k hkl
        · have : k = tx.length := by omega
          subst this
          rw [hl.1]
          simp
      · rintro v ⟨d', e1, _, e2⟩
        rw [hd] at e1
        cases e1
        rw [d2] at e2
        cases e2

/-- a pointer or string that leads nowhere -/
theorem null_cell' {i : Nat} (hi : i ∈ P.N) (hc : isCell (P.obj i) = true) (hr : refers P i = false) (hn : (ni P.st.info i).null = true) {j : Nat} (hj : N'[j]? = some i) :
    word m' (place (j + 1)) = 0 := by
  have hty := typed C.H C.F C.T C.S.toShape C.dst j i hj
  have hft := fdL_ty C.H hi
  obtain ⟨d, hd⟩ := C.T.data j i hj
  have hdn := C.T.null j i d hj hd hc hr hn
  have hpl : (P.obj i).ty = .pointer ∨ (P.obj i).ty = .string := by simpa [isCell] using hc
  rcases hpl with hpl | hpl
  · obtain ⟨pd, l, l2, w1, w2, w3, w4⟩ := C.T.down j i hj
    exact (C.S.pointer (j + 1) d pd l2 hty.1 (by rw [hty.2, hft]; exact hpl) hd w1 w3).1 hdn
  · exact (C.S.text (j + 1) d hty.1 (by rw [hty.2, hft]; exact hpl) hd).1 hdn

theorem new_eq {x y : Nat × Nat} (hx : x ∈ new) (hy : y ∈ new) (h : x.1 = y.1) : x = y := by
  apply Classical.byContradiction
  intro hne
  have hp := Verif.Lemmas.LoadSafe.grown_apart C.alloc C.grown
  have := List.Pairwise.forall_of_forall_of_flip (R := fun b c : Nat × Nat => b = c ∨ Apart b.1 b.2 c.1 c.2) (l := new)
    (fun x _ => .inl rfl) (hp.imp fun h => .inr h) (hp.imp fun h => .inr (Or.symm h)) hx hy
  rcases this with h' | h'
  · exact hne h'
  · have h1 := (C.S.held x hx).1
    have h2 := (C.S.held y hy).1
    unfold Apart at h'
    omega

/-- blocks -/
theorem start_block {t : Nat} (h : Start P.st P.n P.obj t) : (t = 1 ∧ block P N' P.dst place m' t = P.dst ∧ P.need t = extent P.tds P.root) ∨
    (∃ i, i ∈ P.N ∧ P.own i = some t) ∧ (block P N' P.dst place m' t, P.need t) ∈ new := by
  rcases h with rfl | ⟨h1, h2, h3⟩
  · exact .inl ⟨rfl, by simp [block], C.H.need_one⟩
  · right
    have ho : P.own (pa P.st t) = some t := C.H.own_iff.2 ⟨h1, h2, rfl, h3⟩
    have hp := C.H.C.V.up t h1 h2
    have hN := C.H.C.V.cell_tree hp.1 hp.2 h3
    obtain ⟨j, hj⟩ := cell_listed C hN h3
    exact ⟨⟨_, hN, ho⟩, (own_block C hN ho hj).1⟩

omit C in
theorem grown_space {alloc : Blocks → Nat → Nat} (hA : Allocator alloc) {live new : Blocks} (h : Grown alloc live new) : ∀ b ∈ new, b.1 + b.2 ≤ 2 ^ 64 := by
  induction h with
  | none => intro b hb; cases hb
  | more _ h2 ih =>
    intro b hb
    rcases List.mem_append.1 hb with hb | hb
    · exact ih b hb
    · simp only [List.mem_singleton] at hb; subst hb
      exact hA.space _ _ h2

theorem na_lt {i : Nat} (h1 : 1 ≤ i) (h2 : i < P.n) : na P.top P.obj (block P N' P.dst place m') i < 2 ^ 64 := by
  have h3 := in_block C.H.C (b := block P N' P.dst place m') h1 h2
  have h4 := top_start C.H.C.V C.H.C.tops i h1 h2
  rcases start_block C h4 with ⟨_, g1, g2⟩ | ⟨_, g1⟩
  · have := C.room.2
    unfold Plan.need at g2
    omega
  · have := grown_space C.alloc C.grown _ g1
    unfold Plan.need at this
    simp only at this
    omega

/-- a reference -/
theorem ref_cell {i : Nat} (hi : i ∈ P.N) (hc : isCell (P.obj i) = true) (hr : refers P i = true) {j : Nat} (hj : N'[j]? = some i) :
    ∃ t, 1 ≤ t ∧ t < P.n ∧ word m' (place (j + 1)) = na P.top P.obj (block P N' P.dst place m') t ∧ (Verif.Spec.Save.target P.mem P.tds (P.obj i) = some (P.obj t) ∨
      ((P.obj i).ty = .pointer ∧ untyped (P.obj i).aux = true ∧ (P.obj t).addr = P.mem.ptr (P.obj i).addr)) := by
  have hty := typed C.H C.F C.T C.S.toShape C.dst j i hj
  have hft := fdL_ty C.H hi
  have hpl : (P.obj i).ty = .pointer ∨ (P.obj i).ty = .string := by simpa [isCell] using hc
  obtain ⟨d, hd⟩ := C.T.data j i hj
  obtain ⟨jt, e1, e2, e3⟩ := C.T.ref j i d hj hd hc hr
  obtain ⟨q1, q2, q3⟩ := C.T.named e1
  have hnum : Numbered E (j + 1) _ := ⟨d, hd, e2, e3⟩
  obtain ⟨r1, r2⟩ := ref_cases C.H hi ⟨hc, hr⟩
  have hrt := C.H.range r1
  have hpt := typed C.H C.F C.T C.S.toShape C.dst jt _ e1
  rcases r2 with ⟨hcr, _, r3⟩ | ⟨hcr, r3, r4, t, r5, r6⟩
  · rw [hcr] at hnum
    have := (C.S.refers (j + 1) _ hty.1 (by rw [hty.2, hft]; exact hpl) hnum (number_false q2).2).2 (jt + 1) (by rw [(number_false q2).1]; exact q3)
    refine ⟨_, hrt.1, hrt.2, ?_, r3⟩
    rw [this, placed C.H C.F C.T C.S C.dst jt _ e1]
    exact Nat.mod_eq_of_lt (na_lt C hrt.1 hrt.2)
  · rw [hcr] at hnum
    obtain ⟨o1, o2, o3, o4⟩ := C.H.own_iff.1 r5
    obtain ⟨b1, b2, _, b4⟩ := own_block C r1 r5 e1
    have := ((C.S.shares (j + 1) _ hty.1 (by rw [hty.2, hft]; exact hpl) hnum (number_true q2).2).2 (jt + 1) (by rw [(number_true q2).1]; exact q3)).2 hpt.1
      (by rw [hpt.2, fdL_ty C.H r1]; simpa [isCell] using r3) b4
    refine ⟨t, by omega, o2, ?_, r6⟩
    rw [this, ← b2, na_start C.H.C.tops (Or.inr ⟨o1, o2, by rw [o3]; exact o4⟩)]

theorem image : Image P (block P N' P.dst place m') m0 m' new := by
  have hplaced := placed C.H C.F C.T C.S C.dst
  have htyped := typed C.H C.F C.T C.S.toShape C.dst
  have hroot := C.H.C.S.base
  have hfs : P.fd.size = extent P.tds P.root := by
    have h1 : P.fd.ty = P.root.ty := by rw [C.H.root]; exact (object_ty _ _ _ _ _ _).symm
    rw [C.H.fd.2.2.1 (by rw [h1]; exact hroot.1), elementSize_of P.tds P.root.addr _ (by rw [h1]; exact hroot.1), ← C.H.root]
    unfold extent
    rw [if_pos hroot.1]
  have hdist : ∀ {t t' : Nat}, Start P.st P.n P.obj t → Start P.st P.n P.obj t' → t ≠ t' → t ≠ 1 → t' ≠ 1 → block P N' P.dst place m' t ≠ block P N' P.dst place m' t' := by
    intro t t' h h' hne h1 h1'
    rcases start_block C h with ⟨g, _⟩ | ⟨⟨i, hi, ho⟩, g⟩
    · exact absurd g h1
    rcases start_block C h' with ⟨g', _⟩ | ⟨⟨i', hi', ho'⟩, g'⟩
    · exact absurd g' h1'
    have q1 := C.H.own_iff.1 ho
    have q2 := C.H.own_iff.1 ho'
    obtain ⟨j, hj⟩ := cell_listed C hi q1.2.2.2
    obtain ⟨j', hj'⟩ := cell_listed C hi' q2.2.2.2
    obtain ⟨_, b2, _, b4⟩ := own_block C hi ho hj
    obtain ⟨_, b2', _, b4'⟩ := own_block C hi' ho' hj'
    have hii : i ≠ i' := by
      rintro rfl
      rw [ho] at ho'
      exact hne (Option.some.inj ho')
    have hjj : j ≠ j' := by
      rintro rfl
      rw [hj] at hj'
      exact hii (Option.some.inj hj')
    rw [b2, b2']
    have t1 := htyped j i hj
    have t2 := htyped j' i' hj'
    have c1 : (P.obj i).ty = .pointer ∨ (P.obj i).ty = .string := by simpa [isCell] using q1.2.2.2
    have c2 : (P.obj i').ty = .pointer ∨ (P.obj i').ty = .string := by simpa [isCell] using q2.2.2.2
    refine C.S.single (j + 1) (j' + 1) (by omega) t1.1 t2.1 (by rw [t1.2, fdL_ty C.H hi]; exact c1) (by rw [t2.2, fdL_ty C.H hi']; exact c2) b4 b4' ?_
    rw [← b2]
    exact Verif.Lemmas.LoadSafe.grown_pos C.grown _ g
  have happ : ∀ x ∈ new, ∀ y ∈ new, x = y ∨ Apart x.1 x.2 y.1 y.2 := by
    intro x hx y hy
    have hp := Verif.Lemmas.LoadSafe.grown_apart C.alloc C.grown
    exact List.Pairwise.forall_of_forall_of_flip (R := fun b c : Nat × Nat => b = c ∨ Apart b.1 b.2 c.1 c.2) (l := new)
      (fun x _ => .inl rfl) (hp.imp fun h => .inr h) (hp.imp fun h => .inr (Or.symm h)) hx hy
  have hroom : ∀ x ∈ new, Apart P.dst (extent P.tds P.root) x.1 x.2 := by
    intro x hx
    obtain ⟨c, c1, c2, c3⟩ := covered_mem.1 C.room.1
    have := Verif.Lemmas.LoadSafe.grown_old C.alloc C.grown x hx c c1
    unfold Apart at this ⊢
    omega
  refine ⟨by simp [block], ?_, ?_, ?_, ?_, ?_, ?_, ?_, ?_, ?_, Verif.Lemmas.LoadSafe.grown_old C.alloc C.grown, Verif.Lemmas.LoadSafe.grown_apart C.alloc C.grown, ?_⟩
  · intro t t' h h' hne
    by_cases h1 : t = 1
    · subst h1
      rcases start_block C h with ⟨_, g1, g2⟩ | ⟨⟨i, _, ho⟩, _⟩
      · rcases start_block C h' with ⟨g3, _⟩ | ⟨_, g3⟩
        · exact absurd g3.symm hne
        · rw [g1]
          have := hroom _ g3
          unfold Plan.need at g2 this
          rw [g2]
          exact this
      · have := (C.H.own_iff.1 ho).1
        omega
    · rcases start_block C h with ⟨g, _⟩ | ⟨_, g⟩
      · exact absurd g h1
      by_cases h1' : t' = 1
      · subst h1'
        rcases start_block C h' with ⟨_, g1, g2⟩ | ⟨⟨i, _, ho⟩, _⟩
        · rw [g1]
          have := hroom _ g
          unfold Plan.need at g2 this
          rw [g2]
          exact Or.symm this
        · have := (C.H.own_iff.1 ho).1
          omega
      · rcases start_block C h' with ⟨g', _⟩ | ⟨_, g'⟩
        · exact absurd g' h1'
        rcases happ _ g _ g' with e | e
        · exact absurd (congrArg Prod.fst e) (hdist h h' hne h1 h1')
        · exact e
  · intro t h
    rcases start_block C h with ⟨_, g, _⟩ | ⟨_, g⟩
    · rw [g]; exact C.dst
    · exact Verif.Lemmas.LoadSafe.grown_pos C.grown _ g
  · intro i i1 i2 hc
    have hi := C.H.C.V.cell_tree i1 i2 hc
    obtain ⟨j, hj⟩ := cell_listed C hi hc
    rw [← hplaced j i hj]
    rcases cell_cases C.H hi hc with ⟨t, o1, o2, _⟩ | ⟨_, o2, _⟩ | ⟨_, o2, o3⟩
    · left
      obtain ⟨q1, q2, q3, q4⟩ := C.H.own_iff.1 o1
      refine ⟨t, by omega, q2, ?_, .inl ?_⟩
      · rw [na_start C.H.C.tops (Or.inr ⟨q1, q2, by rw [q3]; exact q4⟩)]
        exact (own_block C hi o1 hj).2.1.symm
      · have := C.H.C.V.lead t q1 q2 (by rw [q3]; exact q4)
        rw [q3] at this
        exact this
    · exact .inl (ref_cell C hi hc o2 hj)
    · exact .inr ⟨o2, null_cell C.H hi hc o3, null_cell' C hi hc o2 o3 hj⟩
  · intro i i1 i2 k hv
    have hiN : i ∈ P.N := by
      apply Classical.byContradiction
      intro hni
      have := (C.H.C.V.F.off i _ i1 (C.H.C.V.get i2).1 hni).2.2.1
      unfold valueByte at hv
      rw [this] at hv
      exact absurd hv (Nat.not_lt_zero _)
    have hiN' : i ∈ N' := by
      apply Classical.byContradiction
      intro hni
      have := C.T.gone i hiN hni
      unfold valueByte at hv
      cases hty : (P.obj i).ty <;> rw [hty] at this hv <;> first | exact hv | exact absurd hv (Nat.not_lt_zero _) | cases this
    obtain ⟨j, hj⟩ := List.mem_iff_getElem?.1 hiN'
    obtain ⟨v1, v2⟩ := value_in C.H C.ld hiN hv
    obtain ⟨d, hd⟩ := C.T.data j i hj
    have ht := htyped j i hj
    obtain ⟨bb, b1, b2⟩ := C.S.value (j + 1) d ht.1 (by rw [ht.2]; exact v2) hd
    rw [ht.2] at b1 b2
    rw [← hplaced j i hj, b2 k v1]
    exact C.T.value j i d bb hj hd b1 k hv
  · intro c hc hty f hf q q1 q2
    have hcN' : c ∈ N' := by
      apply Classical.byContradiction
      intro hni
      have := C.T.gone c hc hni
      rw [hty] at this
      cases this
    obtain ⟨j, hj⟩ := List.mem_iff_getElem?.1 hcN'
    have ht := htyped j c hj
    obtain ⟨l, jj, t, d, M⟩ := (fits C.H hc).2.2 (.inl hty)
    have hff : fdL P c = f := by
      rw [fdL_not (Or.inr (by rw [M.str]; intro h; cases h))]
      have := M.fd
      rw [hf] at this
      exact (Option.some.inj this).symm
    obtain ⟨s1, s2⟩ := C.S.bits (j + 1) ht.1 (by rw [ht.2, fdL_ty C.H hc]; exact hty)
    rw [ht.2] at s1 s2
    rcases C.T.bits j c hj hty with e | ⟨bb, e1, e2⟩
    · exact absurd e s1
    · have := s2 bb e1 (q - f.shift) (by rw [hff]; omega)
      rw [e2 _ (by rw [hff]; omega), hff] at this
      rw [← hplaced j c hj]
      have e : f.shift + (q - f.shift) = q := by omega
      rw [e] at this
      exact this
  · intro c hc hty f hf k hk hz
    have hcN' : c ∈ N' := by
      apply Classical.byContradiction
      intro hni
      have := C.T.gone c hc hni
      rw [hty] at this
      cases this
    obtain ⟨j, hj⟩ := List.mem_iff_getElem?.1 hcN'
    have ht := htyped j c hj
    obtain ⟨l, jj, t, d, M⟩ := (fits C.H hc).2.2 (.inr (.inl hty))
    have hff : fdL P c = f := by
      rw [fdL_not (Or.inr (by rw [M.str]; intro h; cases h))]
      have := M.fd
      rw [hf] at this
      exact (Option.some.inj this).symm
    obtain ⟨d', hd⟩ := C.T.data j c hj
    have hft : (fdL P c).ty = .charArray := by rw [fdL_ty C.H hc]; exact hty
    obtain ⟨bb, b1, b2⟩ := C.S.value (j + 1) d' ht.1 (by rw [ht.2, hft]; rfl) hd
    rw [ht.2] at b1 b2
    rw [← hplaced j c hj, b2 k (by rw [hff]; exact hk)]
    unfold valueBytes at b1
    rw [hft] at b1
    simp only at b1
    cases hval : d'.val with
    | text tx =>
      rw [hval] at b1
      simp only [Option.some.injEq] at b1
      rw [← b1]
      exact C.T.chars j c d' tx hj hd hty hval k (by rw [hff]; exact hk) hz
    | _ => rw [hval] at b1; cases b1
  · intro c c1 c2 hs l hl k hk
    have hcell : isCell (P.obj (pa P.st c)) = true := by simp [isCell, hs]
    have hp := C.H.C.V.up c c1 c2
    have hN := C.H.C.V.cell_tree hp.1 hp.2 hcell
    obtain ⟨j, hj⟩ := cell_listed C hN hcell
    exact (own_block C hN (C.H.own_iff.2 ⟨c1, c2, rfl, hcell⟩) hj).2.2.1 hs l hl k hk
  · intro c c1 c2 hcell
    rcases start_block C (t := c) (Or.inr ⟨c1, c2, hcell⟩) with ⟨g, _⟩ | ⟨_, g⟩
    · omega
    · exact g
  · intro x hx
    obtain ⟨_, y, y1, y2, y3, y4⟩ := C.S.held x hx
    obtain ⟨w1, w2⟩ := C.S.within y y1
    have hl := C.T.len
    obtain ⟨j, rfl⟩ : ∃ j, y = j + 1 := ⟨y - 1, by omega⟩
    have hj : N'[j]? = some (N'[j]'(by omega)) := List.getElem?_eq_getElem _
    generalize N'[j]'(by omega) = i at hj
    have hi := C.T.sub i (List.mem_of_getElem? hj)
    have ht := htyped j i hj
    rw [ht.2, fdL_ty C.H hi] at y2
    have hc : isCell (P.obj i) = true := by simpa [isCell] using y2
    rcases cell_cases C.H hi hc with ⟨t, o1, o2, _⟩ | ⟨_, o2, _⟩ | ⟨_, o2, o3⟩
    · obtain ⟨q1, q2, q3, q4⟩ := C.H.own_iff.1 o1
      obtain ⟨b1, b2, _⟩ := own_block C hi o1 hj
      exact ⟨t, q1, q2, by rw [q3]; exact q4, new_eq C hx b1 (by rw [b2]; exact y4.symm)⟩
    · obtain ⟨d, hd⟩ := C.T.data j i hj
      obtain ⟨jt, e1, e2, e3⟩ := C.T.ref j i d hj hd hc o2
      exact absurd ⟨d, hd, e2, e3⟩ (y3 _)
    · have := null_cell' C hi hc o2 o3 hj
      rw [y4] at this
      exact absurd this (Verif.Lemmas.LoadSafe.grown_pos C.grown _ hx)
  · intro a ha hn
    apply C.kept a (by rw [hfs]; exact ha)
    rw [Bool.eq_false_iff]
    intro h
    obtain ⟨c, c1, c2, c3⟩ := covered_mem.1 h
    exact hn c c1 ⟨c2, by omega⟩

end Verif.Lemmas.LoadGraph
