import Verif.Lemmas.JsonNode
import Verif.Props.Json
import Verif.Props.Load
/-!
The document of a saved graph, and what it tells about the graph.
-/
namespace Verif.Lemmas.JsonGraph
open Verif.Model Verif.Model.Ptrs Verif.Model.Save Verif.Spec.Ptrs Verif.Spec.Save Verif.Spec.SaveJson Verif.Spec.Json Verif.Model.SaveJson
  Verif.Lemmas.SaveTree Verif.Lemmas.SaveFinal Verif.Lemmas.SaveInv Verif.Lemmas.CopyLayout Verif.Lemmas.CopyView Verif.Lemmas.CopyMem Verif.Lemmas.CopyPlace Verif.Lemmas.XdrSeg Verif.Lemmas.XdrPlan Verif.Lemmas.XdrFit
  Verif.Lemmas.XdrMem Verif.Lemmas.JsonValue Verif.Lemmas.JsonPruned Verif.Lemmas.JsonNode
open Verif.Lemmas.XdrNode (refers cell_cases src)
open Verif.Model.Copy (Bytes Blocks covered)
open Verif.Spec.Copy (isCell Text extent span)
open Verif.Spec.XdrGraph (bitAt valueByte)
open Verif.Spec.Load (Fields Unrepeated Tree)
open Verif.Lemmas.LoadGraph (fdL fdL_fields fdL_ty Listed Tells nodup_at)
open Verif.Model.XdrGraph (bytesAt)

/-- the children in the array before and after the removal -/
theorem shrink {ra ra' : List Pd} : ∀ (f : Forest) (b : Bool) (par h par2 h2 : Nat), Rep ra par h f → Rep ra' par2 h2 (withoutEmpty ra b f) →
    ∀ p ∈ (withoutEmpty ra b f).nodes, ∃ l l', Chain ra (kidsHead (nd ra p)) l ∧ Chain ra' (kidsHead (nd ra' p)) l' ∧ ∀ x ∈ l', x ∈ l := by
  intro f
  induction f with
  | nil => intro b par h par2 h2 _ _ p hp; simp [withoutEmpty, Forest.nodes] at hp
  | cons i k s ihk ihs =>
    intro b par h par2 h2 hr hr2 p hp
    obtain ⟨_, _, pd, e1, e2, e3, e4⟩ := hr
    rw [withoutEmpty] at hp hr2
    split at hp
    · rename_i hdrop
      rw [if_pos hdrop] at hr2
      exact ihs b _ _ _ _ e4 hr2 p hp
    · rename_i hkeep
      rw [if_neg hkeep] at hr2
      obtain ⟨_, _, pd2, g1, g2, g3, g4⟩ := hr2
      rw [Forest.nodes] at hp
      rcases List.mem_cons.1 hp with rfl | hp
      · refine ⟨k.roots, (withoutEmpty ra (isStruct ra p) k).roots, ?_, ?_, DocWalk.without_roots ra k _⟩
        · rw [(SaveDone.get_nd e1).1]; exact chain_roots _ _ _ e3
        · rw [(SaveDone.get_nd g1).1]; exact chain_roots _ _ _ g3
      · rcases List.mem_append.1 hp with hp | hp
        · exact ihk _ _ _ _ _ e3 g3 p hp
        · exact ihs _ _ _ _ _ e4 g4 p hp

variable {P : Plan} {K : Codec} {known : List Nat → Bool} {ra' : List Pd} {k' : Forest}

/-- the descriptors as the writer sees them -/
def infos (K : Codec) (P : Plan) : List Json.Info := List.zipWith (SaveJson.info K (src P)) P.st.ptrs.ra P.st.info

theorem info_at (H : P.Core) {i : Nat} (hi : i < P.n) : (infos K P)[i]? = some (SaveJson.info K (src P) (nd P.st.ptrs.ra i) (ni P.st.info i)) := by
  obtain ⟨h1, h2⟩ := H.C.V.get hi
  unfold infos
  rw [List.getElem?_zipWith, h1, h2]

theorem struct_like (H : P.Core) {i : Nat} (h1 : 1 ≤ i) (h2 : i < P.n) : structLike (P.obj i).ty = true ↔ (P.obj i).ty = .struct := by
  have hok := H.C.V.ok i h1 h2
  unfold ObjOK at hok
  cases hty : (P.obj i).ty <;> rw [hty] at hok <;> first | exact hok.elim | simp [structLike]

theorem member_iff (H : P.Core) (R : Pruned P ra' k') {i : Nat} (hi : i ∈ P.N) {pd' : Pd} (hS : Same (nd P.st.ptrs.ra i) pd') :
    isMember ra' pd' ↔ i ≠ 1 ∧ (P.obj (pa P.st i)).ty = .struct := by
  have hr := H.range hi
  unfold isMember
  rw [hS.parent]
  by_cases h1 : i = 1
  · subst h1
    obtain ⟨_, _, pd, e1, e2, _⟩ := H.C.V.F.tree
    rw [(SaveDone.get_nd e1).1, e2]
    simp
  · have hp := H.C.V.up i (by omega) hr.2
    obtain ⟨pp, g1, g2⟩ := R.node _ (parent_tree H hi h1)
    have hty : pp.ty = (P.obj (pa P.st i)).ty := by rw [g2.ty, H.C.V.ty hp.1 hp.2]
    constructor
    · rintro ⟨_, pp', e1, e2⟩
      have e1 : ra'[pa P.st i]? = some pp' := e1
      rw [g1] at e1
      cases e1
      rw [hty, struct_like H hp.1 hp.2] at e2
      exact ⟨h1, e2⟩
    · rintro ⟨_, e⟩
      exact ⟨by have := hp.1; show pa P.st i ≠ 0; omega, pp, g1, by rw [hty, e]; rfl⟩

theorem no_kids (H : P.Core) {i : Nat} (hi : i ∈ P.N) (h : (ni P.st.info i).null = true ∨ compound (P.obj i).ty = false) {ks : List Nat}
    (hk : Chain P.st.ptrs.ra (kidsHead (nd P.st.ptrs.ra i)) ks) : ks = [] := by
  have hr := H.range hi
  cases hc : isCell (P.obj i) with
  | true =>
    refine kids_ref H hi hc ?_ hk
    rcases h with h | h
    · rcases cell_cases H hi hc with ⟨t, _, _, hn⟩ | ⟨ho, _, _⟩ | ⟨ho, _, _⟩
      · rw [h] at hn; cases hn
      · exact Or.inl ho
      · exact Or.inl ho
    · right
      have : (P.obj i).ty = .pointer ∨ (P.obj i).ty = .string := by simpa [isCell] using hc
      rcases this with e | e
      · rw [e] at h; cases h
      · exact e
  | false =>
    refine kids_none H hi hc ?_ hk
    have h1 : (P.obj i).ty ≠ .string := fun e => by simp [isCell, e] at hc
    have h2 : (P.obj i).ty ≠ .pointer := fun e => by simp [isCell, e] at hc
    rcases h with h | h
    · rcases (H.C.V.unset i hr.1 hr.2 h1 h2 h).1 with e | e <;> simp [components, e]
    · have e1 : (P.obj i).ty ≠ .struct := fun e => by rw [e] at h; cases h
      have e2 : (P.obj i).ty ≠ .array := fun e => by rw [e] at h; cases h
      unfold components
      cases hty : (P.obj i).ty <;> first | rfl | exact absurd hty e1 | exact absurd hty e2

theorem writable (H : P.Core) (hF : Fields P.tds) (hP : Printable known P.tds) (hR : Restored K P.ld P.m P.mem P.tds P.root) (hld : P.ld ≤ 16) (hmax : P.max ≤ P.fuel)
    (R : Pruned P ra' k') (hs : (1 :: k'.nodes).length < 2 ^ 32) : Writable known ra' (infos K P) (1 :: k'.nodes) := by
  intro i hi pd' hpd
  have hi := R.sub i hi
  have hr := H.range hi
  obtain ⟨pd2, g1, hS⟩ := R.node i hi
  rw [hpd] at g1
  cases g1
  have hmem := member_iff H R hi hS
  have hrf : (pd'.ref || pd'.cref) = refers P i := by rw [hS.ref, hS.cref]; rfl
  have hty : pd'.ty = (P.obj i).ty := by rw [hS.ty, H.C.V.ty hr.1 hr.2]
  have hname : isMember ra' pd' → (∀ c ∈ ((ni P.st.info i).fd.map Fd.name).getD [], c ≠ 34 ∧ c ≠ 92) ∧ known (((ni P.st.info i).fd.map Fd.name).getD []) = true := by
    intro h
    obtain ⟨h1, h2⟩ := hmem.1 h
    obtain ⟨l, j, t, d, f, M⟩ := member_of H.C (by omega : 1 < i) hr.2 h2
    rw [M.fd]
    exact hP.names t d f M.dd M.dty M.inFields
  refine ⟨_, info_at H hr.2, ⟨?_, fun h => (hname h).1, ?_, ?_, ?_, ?_⟩, fun h => (hname h).2⟩
  · intro hu
    obtain ⟨u1, u2⟩ := H.C.V.unnamed i hr.1 hr.2 hu
    refine hmem.2 ⟨by omega, u2.resolve_right fun h => ?_⟩
    exact ((H.C.V.inTree i).1 hi).2 ⟨by omega, h⟩
  · intro h
    rw [hrf] at h
    have hf := hS.first (by rw [hS.ref, hS.cref] at hrf; rw [hrf]; exact h)
    rw [hf]
    have hk := R.kept H hi h
    obtain ⟨j, hj⟩ := List.mem_iff_getElem?.1 hk
    have := R.ids j _ hj
    obtain ⟨t, t1, t2⟩ := Option.map_eq_some_iff.1 this
    refine ⟨t, t1, ?_⟩
    have := (List.getElem?_eq_some_iff.1 hj).1
    omega
  · intro h1 h2
    have hN : (Forest.cons 1 k' .nil).nodes = 1 :: k'.nodes := by simp [Forest.nodes]
    obtain ⟨l, l', c1, c2, c3⟩ := shrink _ _ _ _ _ _ H.C.V.F.tree (R.without ▸ R.rep) i (by rw [R.without, hN]; assumption)
    have := no_kids H hi (by rw [hty] at h2; exact h2) c1
    subst this
    have hl' : l' = [] := List.eq_nil_iff_forall_not_mem.2 fun x hx => by cases c3 x hx
    subst hl'
    have c2 : kidsHead (nd ra' i) = 0 := c2
    rw [(SaveDone.get_nd hpd).1] at c2
    unfold kidsHead at c2
    rw [if_neg (by rw [h1]; simp)] at c2
    exact c2
  · intro _ _
    rw [hty]
    exact kind H hP hi
  · intro h1 h2 h3
    rw [hty] at h3
    rw [hrf] at h1
    obtain ⟨lf, F⟩ := fine H hF hP hR hld hmax hi h3 h1 h2
    show LeafOK ((leaf K (src P) (nd P.st.ptrs.ra i) (ni P.st.info i)).getD .undefined)
    rw [F.eq]
    exact F.ok

/-! ### the document that is read -/

/-- what is read from the document of the graph -/
structure Read (K : Codec) (P : Plan) (ra' : List Pd) (k' : Forest) (ptrs : Ptrs) (data : List Json.Loaded) : Prop where
  lenR : ptrs.ra.length = 1 + (1 :: k'.nodes).length
  lenD : data.length = 1 + (1 :: k'.nodes).length
  rep : Rep ptrs.ra 0 1 (number 1 (.cons 1 k' .nil))
  node : ∀ (j i : Nat), (1 :: k'.nodes)[j]? = some i → ∃ pd x q y, ra'[i]? = some pd ∧ (infos K P)[i]? = some x ∧
    ptrs.ra[j + 1]? = some q ∧ q.idx = j + 1 ∧ data[j + 1]? = some y ∧ SameNode ra' pd x y
  zero : ptrs.ra[0]? = some ({} : Pd)
  zeroD : data[0]? = some ({} : Json.Loaded)

variable {ptrs : Ptrs} {data : List Json.Loaded}

/-- the node of the graph that a node of the document stands for -/
theorem Read.at (D : Read K P ra' k' ptrs data) {j : Nat} {q : Pd} (h : ptrs.ra[j]? = some q) (h0 : j ≠ 0) : ∃ j0 i, j = j0 + 1 ∧ (1 :: k'.nodes)[j0]? = some i := by
  have h1 := (List.getElem?_eq_some_iff.1 h).1
  rw [D.lenR] at h1
  exact ⟨j - 1, _, by omega, List.getElem?_eq_getElem (by omega)⟩

theorem Read.same (H : P.Core) (R : Pruned P ra' k') (D : Read K P ra' k' ptrs data) {j i : Nat} (hj : (1 :: k'.nodes)[j]? = some i) :
    ∃ pd q y, ra'[i]? = some pd ∧ Same (nd P.st.ptrs.ra i) pd ∧ ptrs.ra[j + 1]? = some q ∧ q.idx = j + 1 ∧ data[j + 1]? = some y ∧
      SameNode ra' pd (SaveJson.info K (src P) (nd P.st.ptrs.ra i) (ni P.st.info i)) y := by
  obtain ⟨pd, x, q, y, h1, h2, h3, h4, h5, h6⟩ := D.node j i hj
  have hi := R.sub i (List.mem_of_getElem? hj)
  rw [info_at H (H.range hi).2] at h2
  cases h2
  obtain ⟨pd2, g1, hS⟩ := R.node i hi
  rw [h1] at g1
  cases g1
  exact ⟨pd, q, y, h1, hS, h3, h4, h5, h6⟩

/-- the parent of a node in the document and in the graph -/
theorem Read.parent (H : P.Core) (R : Pruned P ra' k') (D : Read K P ra' k' ptrs data) {j i : Nat} (hj : (1 :: k'.nodes)[j]? = some i) (h1 : i ≠ 1) :
    ∃ (jp : Nat) (l l2 : List Nat) (q : Nat), jp < j ∧ (1 :: k'.nodes)[jp]? = some (pa P.st i) ∧ (nd ptrs.ra (1 + j)).parent = 1 + jp ∧
      Chain P.st.ptrs.ra (kidsHead (nd P.st.ptrs.ra (pa P.st i))) l ∧ Chain ptrs.ra (kidsHead (nd ptrs.ra (1 + jp))) l2 ∧ i ∈ l ∧ l2[q]? = some (1 + j) ∧
      ((P.obj (pa P.st i)).ty ≠ .struct → l[q]? = some i) := by
  have hi := R.sub i (List.mem_of_getElem? hj)
  have hr := H.range hi
  have hp := H.C.V.up i (by omega) hr.2
  have hN : (Forest.cons 1 k' .nil).nodes = 1 :: k'.nodes := by simp [Forest.nodes]
  have hrep := D.rep
  rw [← R.without] at hrep
  rcases DocWalk.up _ _ _ _ _ _ _ H.C.V.F.tree hrep j i (by rw [R.without, hN]; exact hj) with ⟨h, _⟩ | ⟨jp, p, l, l2, q, a1, a2, a3, a4, a5, a6, a7, a8, a9⟩
  · have : pa P.st i = 0 := h
    omega
  · rw [R.without, hN] at a2
    have a3 : pa P.st i = p := a3
    subst a3
    refine ⟨jp, l, l2, q, a1, a2, a4, a5, a6, a7, a8, fun h => a9 ?_⟩
    unfold isStruct
    rw [(H.C.V.get hp.2).1]
    simp only
    rw [H.C.V.ty hp.1 hp.2]
    cases e : structLike (P.obj (pa P.st i)).ty with
    | false => rfl
    | true => exact absurd ((struct_like H hp.1 hp.2).1 e) h

theorem Read.unrepeated (H : P.Core) (hF : Fields P.tds) (R : Pruned P ra' k') (D : Read K P ra' k' ptrs data) : Unrepeated ptrs.ra (data.map LoadJson.doc) := by
  have key : ∀ (j : Nat) (pj : Pd) (x : Load.Doc) (n : List Nat), ptrs.ra[j]? = some pj → (data.map LoadJson.doc)[j]? = some x → x.name = some n →
      ∃ j0 i jp, j = j0 + 1 ∧ (1 :: k'.nodes)[j0]? = some i ∧ i ≠ 1 ∧ (P.obj (pa P.st i)).ty = .struct ∧ n = (((ni P.st.info i).fd.map Fd.name).getD []) ∧
        (1 :: k'.nodes)[jp]? = some (pa P.st i) ∧ pj.parent = 1 + jp := by
    intro j pj x n hj hx hn
    rw [List.getElem?_map] at hx
    obtain ⟨y, hy, rfl⟩ := Option.map_eq_some_iff.1 hx
    have hn : y.name = some n := hn
    by_cases h0 : j = 0
    · subst h0
      rw [D.zeroD] at hy
      cases hy
      cases hn
    · obtain ⟨j0, i, rfl, hi⟩ := D.at hj h0
      obtain ⟨pd, q, y', g1, g2, g3, g4, g5, g6⟩ := D.same H R hi
      rw [hy] at g5
      cases g5
      have hm : isMember ra' pd := by
        apply Classical.byContradiction
        intro h
        rw [g6.name.2 h] at hn
        cases hn
      have hnm := g6.name.1 hm
      rw [hn] at hnm
      obtain ⟨h1, h2⟩ := (member_iff H R (R.sub i (List.mem_of_getElem? hi)) g2).1 hm
      obtain ⟨jp, _, _, _, _, a2, a3, _⟩ := D.parent H R hi h1
      refine ⟨j0, i, jp, rfl, hi, h1, h2, Option.some.inj hnm, a2, ?_⟩
      rw [← a3, Nat.add_comm, (SaveDone.get_nd hj).1]
  intro j k pj pk x y n hne hj hk hpar hx hy hxn hyn
  obtain ⟨j0, i, jp, rfl, a1, a2, a3, a4, a5, a6⟩ := key j pj x n hj hx hxn
  obtain ⟨k0, i', kp, rfl, b1, b2, b3, b4, b5, b6⟩ := key k pk y n hk hy hyn
  have : jp = kp := by omega
  subst this
  rw [a5] at b5
  have hpp : pa P.st i = pa P.st i' := Option.some.inj b5
  have hri := H.range (R.sub i (List.mem_of_getElem? a1))
  have hri' := H.range (R.sub i' (List.mem_of_getElem? b1))
  have hp := H.C.V.up i (by omega) hri.2
  obtain ⟨l, l1, l2, l3, l4⟩ := H.C.V.fields _ hp.1 hp.2 a3
  obtain ⟨u, hu⟩ := List.mem_iff_getElem?.1 ((l3 i).2 ⟨by omega, hri.2, rfl⟩)
  obtain ⟨w, hw⟩ := List.mem_iff_getElem?.1 ((l3 i').2 ⟨by omega, hri'.2, hpp.symm⟩)
  have hlen : l.length = (members P.tds (P.obj (pa P.st i))).length := by
    have e := congrArg List.length l2
    obtain ⟨_, _, t, d, f, M⟩ := member_of H.C (by omega : 1 < i) hri.2 a3
    rw [List.length_map] at e
    rw [e]
    simp [components, members, a3, M.td, M.dd]
  have hfi := l4 u i hu
  have hfi' := l4 w i' hw
  have hul := (List.getElem?_eq_some_iff.1 hu).1
  have hwl := (List.getElem?_eq_some_iff.1 hw).1
  obtain ⟨_, _, t, d, f, M⟩ := member_of H.C (by omega : 1 < i) hri.2 a3
  have hmm : members P.tds (P.obj (pa P.st i)) = d.fields := by simp [members, M.td, M.dd]
  rw [hmm] at hfi hfi' hlen
  have hnames := hF.names t d M.dd M.dty
  rw [List.getElem?_eq_getElem (by omega)] at hfi hfi'
  rw [hfi] at a4
  rw [hfi'] at b4
  have huw : u = w := by
    refine nodup_at hnames (x := n) ?_ ?_
    · rw [List.getElem?_map, List.getElem?_eq_getElem (by omega), a4]; rfl
    · rw [List.getElem?_map, List.getElem?_eq_getElem (by omega), b4]; rfl
  subst huw
  rw [hu] at hw
  cases hw
  have := nodup_at R.nodup a1 b1
  omega

theorem readAs_small {lf : Json.Leaf} {u : Bool} {v : Nat} (h : ReadAs lf u (.int v)) : v < 2 ^ 128 := by
  have hw : ∀ x : Int, word x < 2 ^ 128 := fun x => by unfold word; omega
  cases h with
  | false => decide
  | true => decide
  | int v => exact hw _
  | int128 v => exact hw _
  | uint128 v => exact v.isLt
  | whole t v _ => exact hw _
  | pointer => decide
  | other => decide

theorem word_neg {n : Nat} (h0 : 0 < n) (h : n < 2 ^ 32) : word (-(n : Int)) = 2 ^ 128 - n := by
  unfold word
  rw [show (-(n : Int)) % 2 ^ 128 = ((2 ^ 128 - n : Nat) : Int) from ?_]
  · exact Int.toNat_natCast _
  · rw [← Int.add_emod_right, Int.emod_eq_of_lt] <;> omega

theorem word_pos {n : Nat} (h : n < 2 ^ 32) : word (n : Int) = n := by
  unfold word
  rw [Int.emod_eq_of_lt (by omega) (by omega)]
  exact Int.toNat_natCast _

theorem word_ref (c : Bool) {n : Nat} (h0 : 0 < n) (h : n < 2 ^ 32) : word (if c then -(n : Int) else n) % 2 ^ 128 ≠ 2 ^ 127 := by
  cases c
  · rw [if_neg (by simp), word_pos h]; omega
  · rw [if_pos rfl, word_neg h0 h]; omega

theorem Read.numbers (H : P.Core) (hF : Fields P.tds) (hP : Printable known P.tds) (hR : Restored K P.ld P.m P.mem P.tds P.root) (hld : P.ld ≤ 16) (hmax : P.max ≤ P.fuel)
    (R : Pruned P ra' k') (hs : (1 :: k'.nodes).length < 2 ^ 32) (D : Read K P ra' k' ptrs data) : ∀ d ∈ data, ∀ v, d.value = .int v → v % 2 ^ 128 ≠ 2 ^ 127 := by
  intro d hd v hv
  obtain ⟨j, hj⟩ := List.mem_iff_getElem?.1 hd
  by_cases h0 : j = 0
  · subst h0
    rw [D.zeroD] at hj
    cases hj
    cases hv
  · have hjl := (List.getElem?_eq_some_iff.1 hj).1
    rw [D.lenD, ← D.lenR] at hjl
    obtain ⟨j0, i, rfl, hi⟩ := D.at (List.getElem?_eq_getElem hjl) h0
    obtain ⟨pd, q, y, g1, hS, g3, g4, g5, g6⟩ := D.same H R hi
    rw [hj] at g5
    cases g5
    have hiN := R.sub i (List.mem_of_getElem? hi)
    have hr := H.range hiN
    have hrf : (pd.ref || pd.cref) = refers P i := by rw [hS.ref, hS.cref]; rfl
    have hty : pd.ty = (P.obj i).ty := by rw [hS.ty, H.C.V.ty hr.1 hr.2]
    cases h : refers P i with
    | true =>
      obtain ⟨t, t1, _, t3⟩ := g6.ref (by rw [hrf]; exact h)
      rw [hS.first (by rw [hS.ref, hS.cref] at hrf; rw [hrf]; exact h)] at t1
      obtain ⟨jt, hjt⟩ := List.mem_iff_getElem?.1 (R.kept H hiN h)
      have := R.ids jt _ hjt
      rw [t1] at this
      have hti : t.idx = jt + 1 := Option.some.inj this
      have hjl := (List.getElem?_eq_some_iff.1 hjt).1
      rw [hv] at t3
      injection t3 with t3
      rw [t3, hti]
      exact word_ref _ (by omega) (by omega)
    | false =>
      cases hn : (ni P.st.info i).null with
      | true =>
        have := (g6.null (by rw [hrf]; exact h) hn).2
        rw [hv] at this
        cases this
        decide
      | false =>
        cases hc : compound (P.obj i).ty with
        | true =>
          have := (g6.list (by rw [hrf]; exact h) hn (by rw [hty]; exact hc)).2
          rw [hv] at this
          cases this
        | false =>
          obtain ⟨lf, F⟩ := fine (K := K) H hF hP hR hld hmax hiN hc h hn
          have := g6.leaf (by rw [hrf]; exact h) hn (by rw [hty]; exact hc)
          rw [hv] at this
          have this : ReadAs ((leaf K (src P) (nd P.st.ptrs.ra i) (ni P.st.info i)).getD .undefined) d.null (.int v) := this
          rw [F.eq] at this
          rw [Nat.mod_eq_of_lt (readAs_small this)]
          exact F.num _ _ this

end Verif.Lemmas.JsonGraph
