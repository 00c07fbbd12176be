import Verif.Lemmas.LoadRef
/-!
Loading a tree of nodes: what is stored is what the nodes say.  The result.
-/
namespace Verif.Lemmas.LoadFinal
open Verif.Model Verif.Model.Ptrs Verif.Model.Save Verif.Model.Copy Verif.Model.Load Verif.Spec Verif.Spec.Save Verif.Spec.Load Verif.Spec.LoadSays
  Verif.Lemmas.XdrMem Verif.Lemmas.CopyMem Verif.Lemmas.LoadSafe Verif.Lemmas.LoadInv Verif.Lemmas.LoadStep Verif.Lemmas.LoadRow Verif.Lemmas.LoadOpen Verif.Lemmas.LoadEnd
  Verif.Lemmas.LoadSays Verif.Lemmas.LoadTold Verif.Lemmas.LoadTree Verif.Lemmas.LoadPtr Verif.Lemmas.LoadRef
open Verif.Model.XdrGraph (put peek bytesAt bitBytes toBits ofBits bytesWord tdAt tdType wordBytes)
open Verif.Spec.Copy (Apart Layout span Allocator Grown)
open Verif.Spec.XdrGraph (bitAt)
open Verif.Lemmas.XdrSafe (home home_mono home_live not_home)

section
variable {E : Env} {dst ext : Nat} {live0 : Blocks} {m0 : Bytes} (S : Setup E dst ext live0)
include S

/-- where a node is -/
def placeOf (s : LSt) (i : Nat) : Nat := ((s.nodes[i]?).map Node.addr).getD 0
def typeOf (s : LSt) (i : Nat) : Fd := ((s.nodes[i]?).map Node.fd).getD {}

omit S in
theorem placeOf_some {s : LSt} {i : Nat} {x : Node} (h : s.nodes[i]? = some x) : placeOf s i = x.addr ∧ typeOf s i = x.fd := by
  unfold placeOf typeOf
  rw [h]
  exact ⟨rfl, rfl⟩

omit S in
theorem placeOf_ne {s : LSt} {i : Nat} (h : placeOf s i ≠ 0) : ∃ x, s.nodes[i]? = some x ∧ x.addr ≠ 0 ∧ placeOf s i = x.addr ∧ typeOf s i = x.fd := by
  unfold placeOf at h
  cases e : s.nodes[i]? with
  | none => rw [e] at h; exact absurd rfl h
  | some x => rw [e] at h; exact ⟨x, rfl, h, placeOf_some e⟩

omit S in
theorem elements_says {s : LSt} {a : Nat} {g : Fd} {count : Nat} : ∀ (l : List Nat) (k : Nat), Placed s (elements a g count k l) → k ≤ count →
    k + l.length ≤ count ∧ ∀ (q c : Nat), l[q]? = some c → placeOf s c ≠ 0 ∧ placeOf s c = a + (k + q) * g.size ∧ typeOf s c = g := by
  intro l
  induction l with
  | nil => intro k _ hk; exact ⟨by simpa using hk, fun q c h => by simp at h⟩
  | cons c0 l ih =>
    intro k hp hk
    unfold elements at hp
    by_cases hge : k ≥ count
    · rw [if_pos hge] at hp
      obtain ⟨_, _, _, _, h, _⟩ := hp none (by simp)
      cases h
    · rw [if_neg hge] at hp
      obtain ⟨h1, h2⟩ := ih (k + 1) (fun it hit => hp it (by simp [hit])) (by omega)
      refine ⟨by simp only [List.length_cons]; omega, fun q c hc => ?_⟩
      cases q with
      | zero =>
        simp only [List.getElem?_cons_zero, Option.some.injEq] at hc
        subst hc
        obtain ⟨c', b, g', y, e1, e2, e3, e4, e5⟩ := hp _ (List.mem_cons_self ..)
        simp only [Option.some.injEq, Prod.mk.injEq] at e1
        obtain ⟨rfl, rfl, rfl⟩ := e1
        obtain ⟨f1, f2⟩ := placeOf_some e2
        rw [f1, f2, e3, e4, Nat.add_zero]
        exact ⟨e5, rfl, rfl⟩
      | succ q =>
        have := h2 q c (by simpa using hc)
        rwa [show k + 1 + q = k + (q + 1) from by omega] at this

omit S in
theorem assign_says {s : LSt} {a : Nat} {fields : List Fd} : ∀ (l : List Nat) (cur : Option Nat) (items : List Item), assign E fields a cur l = some items → Placed s items →
    ∀ (q c : Nat), l[q]? = some c → placeOf s c ≠ 0 ∧ placeOf s c = a + (typeOf s c).offset ∧
      ∃ k d, fields[k]? = some (typeOf s c) ∧ E.data[c]? = some d ∧ ((∀ n ∈ Names E.data l, n = none) → k = nextField cur + q) := by
  intro l
  induction l with
  | nil => intro cur items _ _ q c h; simp at h
  | cons c0 l ih =>
    intro cur items h hp q c hc
    obtain ⟨dc, hdc, k, hcase, hfield⟩ := assign_cons h
    rcases hcase with rfl | ⟨g, rest, hg, rfl, hrest⟩
    · obtain ⟨_, _, _, _, h, _⟩ := hp none (by simp)
      cases h
    cases q with
    | zero =>
      simp only [List.getElem?_cons_zero, Option.some.injEq] at hc
      subst hc
      obtain ⟨c', b, g', y, e1, e2, e3, e4, e5⟩ := hp _ (List.mem_cons_self ..)
      simp only [Option.some.injEq, Prod.mk.injEq] at e1
      obtain ⟨rfl, rfl, rfl⟩ := e1
      obtain ⟨f1, f2⟩ := placeOf_some e2
      rw [f1, f2, e3, e4]
      refine ⟨e5, rfl, k, dc, hg, hdc, fun hn => ?_⟩
      rcases hfield with ⟨n, _, e6, _⟩ | ⟨e6, _⟩
      · have := hn dc.name (by simp [Names, hdc])
        rw [e6] at this
        cases this
      · omega
    | succ q =>
      obtain ⟨h1, h2, k', d, h3, h4, h5⟩ := ih (some k) rest hrest (fun it hit => hp it (by simp [hit])) q c (by simpa using hc)
      refine ⟨h1, h2, k', d, h3, h4, fun hn => ?_⟩
      have h6 := h5 (fun n hn' => hn n (by unfold Names at *; rw [List.map_cons]; exact List.mem_cons_of_mem _ hn'))
      rcases hfield with ⟨n, _, e6, _⟩ | ⟨e6, _⟩
      · have := hn dc.name (by simp [Names, hdc])
        rw [e6] at this
        cases this
      · rw [h6, e6]
        simp only [nextField]
        omega

omit S in
theorem valueBit_eq {b : Nat → UInt8} {q : Nat} (hq : q < 128) : (bytesWord (convBytes 16 b)).getLsbD q = valueBit b q := by
  obtain ⟨v, h1, h2⟩ := Verif.Lemmas.XdrMem.readLE_bit 16 (convBytes 16 b) (by simp [convBytes]) (by
    intro x hx
    unfold convBytes at hx
    rw [List.mem_map] at hx
    obtain ⟨k, _, rfl⟩ := hx
    exact (b k).toNat_lt)
  unfold bytesWord valueBit
  rw [h1, Option.getD_some, BitVec.getLsbD_ofNat, decide_eq_true hq, Bool.true_and]
  have h3 := h2 (q / 8) (q % 8) (by omega) (by omega)
  rw [show 8 * (q / 8) + q % 8 = q from by omega] at h3
  rw [h3]
  unfold convBytes
  rw [List.getD_eq_getElem?_getD, List.getElem?_map, List.getElem?_range (by omega)]
  rfl

/-- which node describes what -/
theorem shape {s : LSt} {f : Fd} (h : Inv E dst ext live0 m0 E.ra.length s) (hA : All E dst ext live0 E.ra.length s)
    (htop : ∃ x, s.nodes[1]? = some x ∧ x.addr = dst ∧ x.fd = f) : Shape E dst f (placeOf s) (typeOf s) := by
  have hlt : ∀ {j : Nat} {x : Node}, s.nodes[j]? = some x → j < E.ra.length := fun hx => by rw [← h.len]; exact (List.getElem?_eq_some_iff.1 hx).1
  have hkids : ∀ {i : Nat} {pd : Pd} {l l' : List Nat}, E.ra[i]? = some pd → Siblings E.ra pd.firstChild l → Load.kids E i = some l' → l' = l := by
    intro i pd l l' h1 h2 h3
    obtain ⟨pd', l2, g1, g2, g3, _⟩ := kids_ok S.tree (List.getElem?_eq_some_iff.1 h1).1
    rw [h1] at g1; cases g1
    rw [g3] at h3
    injection h3 with h3
    rw [← h3]
    exact siblings_unique g2 h2
  constructor
  case top =>
    obtain ⟨x, h1, h2, h3⟩ := htop
    obtain ⟨f1, f2⟩ := placeOf_some h1
    exact ⟨f1.trans h2, f2.trans h3⟩
  case within =>
    intro i hi
    obtain ⟨x, hx, hx0, _, _⟩ := placeOf_ne hi
    refine ⟨?_, hlt hx⟩
    rintro rfl
    exact hx0 (h.null x hx)
  case typed =>
    intro i d t hi hd ht
    obtain ⟨x, hx, hx0, e1, e2⟩ := placeOf_ne hi
    rw [e2]
    exact (((hA.ok i x hx hx0).1.named d hd).2 t ht).symm
  case members =>
    intro i pd l hi ht hpd hl
    obtain ⟨x, hx, hx0, e1, e2⟩ := placeOf_ne hi
    rw [e2] at ht ⊢
    obtain ⟨o1, _, o3⟩ := hA.ok i x hx hx0
    obtain ⟨d, hd, hv⟩ := o1.vals
    unfold Vals at hv
    rw [ht] at hv
    obtain ⟨items, h1, h2⟩ := hv
    unfold loadStruct at h1
    cases et : tdAt E.tds x.fd.td with
    | none => rw [et] at h1; simp [failed] at h1
    | some t =>
      rw [et] at h1
      simp only [Option.bind_eq_bind] at h1
      obtain ⟨l', g1, h1⟩ := Option.bind_eq_some_iff.1 h1
      obtain ⟨its, g2, h1⟩ := Option.bind_eq_some_iff.1 h1
      simp only [Option.some.injEq, Prod.mk.injEq, true_and] at h1
      subst h1
      have := hkids hpd hl g1
      subst this
      refine ⟨t, rfl, fun q c hc => ?_⟩
      obtain ⟨k1, k2, k, dc, k3, k4, k5⟩ := assign_says l' none its g2 h2 q c hc
      rw [e1]
      refine ⟨k1, k2, k, dc, k3, k4, fun n hn => ?_, fun hn => ?_⟩
      · obtain ⟨y, hy, hy0, y1, y2⟩ := placeOf_ne k1
        have hfd := o3.2.2
        rw [ht] at hfd
        obtain ⟨t0, d0, ht0, hd0, hs0⟩ := hfd
        have : t = d0 := by
          unfold tdAt at et
          rw [ht0, Option.bind_some, hd0] at et
          exact (Option.some.inj et).symm
        subst this
        obtain ⟨u1, u2⟩ := S.known.fields.named t0 t _ hd0 hs0 (List.mem_of_getElem? k3)
        rw [y2] at u1 u2 ⊢
        exact (((hA.ok c y hy hy0).1.named dc k4).1 n hn u1 u2).symm
      · have hmem : dc.name ∈ Names E.data l' := by
          unfold Names
          rw [List.mem_map]
          exact ⟨c, List.mem_of_getElem? hc, by rw [k4]; rfl⟩
        rcases S.names i pd l' hpd hl with hN | ⟨hN, _⟩
        · rw [k5 hN]; simp [nextField]
        · exact absurd hn (hN _ hmem)
  case elements =>
    intro i pd l hi ht hpd hl
    obtain ⟨x, hx, hx0, e1, e2⟩ := placeOf_ne hi
    rw [e2] at ht ⊢
    obtain ⟨o1, _, o3⟩ := hA.ok i x hx hx0
    obtain ⟨d, hd, hv⟩ := o1.vals
    unfold Vals at hv
    rw [ht] at hv
    obtain ⟨items, h1, h2⟩ := hv
    have hg := o3.2.2
    rw [ht] at hg
    obtain ⟨b, c, _, _, hdim, hsize⟩ := hg
    unfold loadArray at h1
    simp only [Option.bind_eq_bind] at h1
    obtain ⟨l', g1, h1⟩ := Option.bind_eq_some_iff.1 h1
    have := hkids hpd hl g1
    subst this
    by_cases hc : x.fd.dims.headD 0 = 0
    · rw [if_pos hc] at h1
      by_cases hl' : l' = []
      · subst hl'
        exact ⟨by simp, fun q c h => by simp at h⟩
      · rw [if_neg hl'] at h1; simp [failed] at h1
    · rw [if_neg hc] at h1
      by_cases hz : x.fd.size = 0
      · rw [if_pos hz] at h1; simp [failed] at h1
      · rw [if_neg hz, if_pos (by rw [hdim]; rfl)] at h1
        simp only [Option.some.injEq, Prod.mk.injEq, true_and] at h1
        subst h1
        obtain ⟨k1, k2⟩ := elements_says l' 0 h2 (Nat.zero_le _)
        refine ⟨by simpa using k1, fun q c hc => ?_⟩
        have := k2 q c hc
        rw [Nat.zero_add] at this
        rw [e1]
        exact this
  case targets =>
    intro i d pd l hi ht hd hpd hl hnull hint q c hc
    obtain ⟨x, hx, hx0, e1, e2⟩ := placeOf_ne hi
    rw [e2] at ht ⊢
    obtain ⟨o1, _, o3⟩ := hA.ok i x hx hx0
    have hpt : pointee E x = Verif.Spec.LoadSays.target E.tds x.fd := by
      unfold pointee Verif.Spec.LoadSays.target
      obtain ⟨a1, a2⟩ := o1.own.2 (not_compound_pointer ht)
      rw [a1, a2]
    obtain ⟨d', hd', hp⟩ := hA.ptr i x hx (o1.own.1.trans ht) (hlt hx)
    rw [hd] at hd'; cases hd'
    rcases hp with ⟨p1, _⟩ | ⟨_, ⟨v, p2, _⟩, _⟩ | ⟨_, _, _, l', p4, p5⟩
    · rw [hnull] at p1; cases p1
    · exact absurd p2 (hint v)
    · have := hkids hpd hl p4
      subst this
      rcases p5 with p5 | ⟨_, _, _, p8⟩
      · rw [p5.1] at hc; simp at hc
      · have := (elements_says l' 0 p8 (Nat.zero_le _)).2 q c hc
        rw [← hpt]
        exact ⟨this.1, this.2.2⟩

theorem says (hsp : dst + ext ≤ 2 ^ 64) {s s' : LSt} {f : Fd} (h : Inv E dst ext live0 m0 E.ra.length s) (hA : All E dst ext live0 E.ra.length s) (hf : f.size = ext)
    (htop : ∃ x, s.nodes[1]? = some x ∧ x.addr = dst ∧ x.fd = f) (hC : Content E s) (e : setCrossrefs E s = some (true, s')) :
    Says E dst f s'.m (s'.live.drop live0.length) (placeOf s) (typeOf s) := by
  obtain ⟨el, _, hS⟩ := crossrefs_told S hsp h hC e
  rw [el]
  -- pointers and strings that are no references, and everything else that is no structure or array, stay
  have hplain : ∀ (j : Nat) (x : Node), s.nodes[j]? = some x → isCell x → Plain x → ∀ k, k < 8 → s'.m (x.addr + k) = s.m (x.addr + k) := by
    intro j x hx hc hp k hk
    refine Classical.byContradiction fun hne => ?_
    obtain ⟨q, y, h1, h2, h3, h4, h5⟩ := hS.only _ hne
    by_cases hq : q = j
    · subst hq
      rw [hx] at h1; cases h1
      exact h3 hp
    · have := h.apart q j y x hq h1 hx h2 hc
      unfold Apart at this
      omega
  have hword : ∀ (j : Nat) (x : Node), s.nodes[j]? = some x → isCell x → Plain x → word s'.m x.addr = word s.m x.addr :=
    fun j x hx hc hp => word_congr (hplain j x hx hc hp)
  have hleaf : ∀ (j : Nat) (x : Node), s.nodes[j]? = some x → x.addr ≠ 0 → ¬ compound x.fd.ty → ¬ isCell x → ∀ k, k < room E.tds x.fd → s'.m (x.addr + k) = s.m (x.addr + k) := by
    intro j x hx hx0 hnc hncell k hk
    refine Classical.byContradiction fun hne => ?_
    obtain ⟨q, y, h1, h2, h3, h4, h5⟩ := hS.only _ hne
    by_cases hq : q = j
    · subst hq
      rw [hx] at h1; cases h1
      exact hncell h2
    · have := (hA.ok j x hx hx0).1.cells hnc q y hq h1 h2
      unfold Apart at this
      omega
  have hcell : ∀ {x : Node}, x.ty = x.fd.ty → (x.fd.ty = .pointer ∨ x.fd.ty = .string) → isCell x := fun e h => by unfold isCell; rw [e]; exact h
  have hlt : ∀ {j : Nat} {x : Node}, s.nodes[j]? = some x → j < E.ra.length := fun hx => by rw [← h.len]; exact (List.getElem?_eq_some_iff.1 hx).1
  have hkids : ∀ {i : Nat} {pd : Pd} {l l' : List Nat}, E.ra[i]? = some pd → Siblings E.ra pd.firstChild l → Load.kids E i = some l' → l' = l := by
    intro i pd l l' h1 h2 h3
    obtain ⟨pd', l2, g1, g2, g3, _⟩ := kids_ok S.tree (List.getElem?_eq_some_iff.1 h1).1
    rw [h1] at g1; cases g1
    rw [g3] at h3
    injection h3 with h3
    rw [← h3]
    exact siblings_unique g2 h2
  -- what is known of pointers and strings
  have hcase : ∀ (i : Nat) (x : Node) (d : Doc), s.nodes[i]? = some x → isCell x → E.data[i]? = some d → (d.null = true ∧ Plain x ∧ word s.m x.addr = 0) ∨
      (d.null = false ∧ (∀ v, d.val ≠ .int v) ∧ Plain x) ∨ (d.null = false ∧ ∃ v, d.val = .int v ∧ Flag x v) := by
    intro i x d hx hc hd
    have hx0 := cell_addr h hx hc
    obtain ⟨o1, _, _⟩ := hA.ok i x hx hx0
    rcases hc with ht | ht
    · obtain ⟨d', hd', hp⟩ := hA.ptr i x hx ht (hlt hx)
      rw [hd] at hd'; cases hd'
      rcases hp with ⟨p1, p2, p3⟩ | ⟨p1, ⟨v, p2, p3⟩, _⟩ | ⟨p1, p2, p3, _⟩
      · exact .inl ⟨p1, p3, p2⟩
      · exact .inr (.inr ⟨p1, v, p2, p3⟩)
      · exact .inr (.inl ⟨p1, p2, p3⟩)
    · obtain ⟨d', hd', hp⟩ := o1.vals
      rw [hd] at hd'; cases hd'
      unfold Vals at hp
      rw [← o1.own.1, ht] at hp
      rcases hp with ⟨p1, p2, p3⟩ | ⟨p1, t, p2, p3, _⟩ | ⟨p1, v, p2, p3, _⟩
      · exact .inl ⟨p1, p3, p2⟩
      · exact .inr (.inl ⟨p1, fun v => by rw [p2]; simp, p3⟩)
      · exact .inr (.inr ⟨p1, v, p2, p3⟩)
  have hnum : ∀ (i : Nat) (x : Node), s.nodes[i]? = some x → isCell x → (∀ v, ¬ Numbered E i v) → Plain x := by
    intro i x hx hc hn
    have hid : i < E.data.length := by rw [S.data]; exact hlt hx
    rcases hcase i x _ hx hc (List.getElem?_eq_getElem hid) with h1 | h1 | ⟨h1, v, h2, _⟩
    · exact h1.2.1
    · exact h1.2.2
    · exact absurd ⟨_, List.getElem?_eq_getElem hid, h1, h2⟩ (hn v)
  have hflag : ∀ (i : Nat) (v : BitVec 128), placeOf s i ≠ 0 → (typeOf s i).ty = .pointer ∨ (typeOf s i).ty = .string → Numbered E i v →
      ∃ x, s.nodes[i]? = some x ∧ placeOf s i = x.addr ∧ Flag x v ∧ Expect E s x (word s'.m x.addr) := by
    intro i v hi ht ⟨d, hd, hn, hv⟩
    obtain ⟨x, hx, hx0, e1, e2⟩ := placeOf_ne hi
    rw [e2] at ht
    have hc := hcell (hA.ok i x hx hx0).1.own.1 ht
    rcases hcase i x d hx hc hd with h1 | h1 | ⟨_, v', h2, h3⟩
    · rw [hn] at h1; cases h1.1
    · exact absurd hv (h1.2.1 v)
    · rw [hv] at h2
      injection h2 with h2
      subst h2
      refine ⟨x, hx, e1, h3, hS.done i x (List.getElem?_eq_some_iff.1 hx).1 hx hc fun hp => ?_⟩
      rcases h3 with ⟨_, h3, _⟩ | ⟨_, _, h3, _⟩
      · rw [hp.1] at h3; cases h3
      · rw [hp.2] at h3; cases h3
  have hnode : ∀ {q k : Nat}, Named E.ra q k → ∃ t, s.nodes[k]? = some t := by
    rintro q k ⟨_, _, ⟨pk, h1, _⟩, _⟩
    exact ⟨_, List.getElem?_eq_getElem (by rw [h.len]; exact (List.getElem?_eq_some_iff.1 h1).1)⟩
  constructor
  case toShape => exact shape S h hA htop
  case held =>
    intro b hb
    obtain ⟨j, x, hx, hc, e⟩ := h.held b hb
    have hb0 := grown_pos h.grown b hb
    have hp : Plain x := by
      have hf : ¬ (x.ref = true ∨ x.cref = true) := fun g => hb0 (by rw [← e]; exact h.flag j x hx hc g)
      unfold Plain
      cases hr : x.ref <;> cases hcr : x.cref <;> simp [hr, hcr] at hf ⊢
    have hx0 := cell_addr h hx hc
    have ho := (hA.ok j x hx hx0).1.own.1
    obtain ⟨f1, f2⟩ := placeOf_some hx
    refine ⟨h.size b hb, j, by rw [f1]; exact hx0, by rw [f2, ← ho]; exact hc, ?_, by rw [f1, hword j x hx hc hp]; exact e⟩
    rintro v ⟨d, hd, hn, hv⟩
    rcases hcase j x d hx hc hd with g | g | ⟨_, v', _, g⟩
    · rw [hn] at g; cases g.1
    · exact g.2.1 v hv
    · rcases g with ⟨_, g, _⟩ | ⟨_, _, g, _⟩
      · rw [hp.1] at g; cases g
      · rw [hp.2] at g; cases g
  case single =>
    intro i j hne hi hj hti htj hni hnj hw
    obtain ⟨x, hx, hx0, e1, e2⟩ := placeOf_ne hi
    obtain ⟨y, hy, hy0, g1, g2⟩ := placeOf_ne hj
    rw [e2] at hti
    rw [g2] at htj
    have hcx := hcell (hA.ok i x hx hx0).1.own.1 hti
    have hcy := hcell (hA.ok j y hy hy0).1.own.1 htj
    rw [e1, hword i x hx hcx (hnum i x hx hcx hni)] at hw ⊢
    rw [g1, hword j y hy hcy (hnum j y hy hcy hnj)]
    exact h.uniq i j x y hne hx hy hcx hcy hw
  case value =>
    intro i d hi ht hd
    obtain ⟨x, hx, hx0, e1, e2⟩ := placeOf_ne hi
    rw [e2] at ht ⊢
    rw [e1]
    obtain ⟨o1, _, o3⟩ := hA.ok i x hx hx0
    obtain ⟨d', hd', hv⟩ := o1.vals
    rw [hd] at hd'; cases hd'
    have hnc : ¬ compound x.fd.ty := by rintro (e | e) <;> (rw [e] at ht; cases ht)
    have hncell : ¬ isCell x := by
      unfold isCell
      rw [o1.own.1]
      rintro (e | e) <;> (rw [e] at ht; cases ht)
    have hroom : room E.tds x.fd = x.fd.size := by
      by_cases hp : plain x.fd.ty = true
      · rw [room_plain hp, o3.2.1 hp]
      · unfold room
        revert hp ht
        cases x.fd.ty <;> simp [plain, valueType]
    have hvals : ∃ b, valueBytes E x.fd i d = some b ∧ ∀ k, k < room E.tds x.fd → s.m (x.addr + k) = b k := by
      unfold Vals at hv
      revert hv ht
      cases x.fd.ty <;> simp [valueType]
    obtain ⟨b, h1, h2⟩ := hvals
    refine ⟨b, h1, fun k hk => ?_⟩
    rw [hleaf i x hx hx0 hnc hncell k (by omega)]
    exact h2 k (by omega)
  case bits =>
    intro i hi ht
    obtain ⟨x, hx, hx0, e1, e2⟩ := placeOf_ne hi
    rw [e2] at ht ⊢
    rw [e1]
    obtain ⟨o1, _, o3⟩ := hA.ok i x hx hx0
    obtain ⟨d', hd', hv⟩ := o1.vals
    have hg := o3.2.2
    rw [ht] at hg
    unfold Vals at hv
    rw [ht] at hv
    simp only at hv
    have hnc : ¬ compound x.fd.ty := by rw [ht]; rintro (e | e) <;> cases e
    have hncell : ¬ isCell x := by
      unfold isCell
      rw [o1.own.1, ht]
      rintro (e | e) <;> cases e
    refine ⟨fun e => by rw [e] at hv; exact hv, fun b hb q hq => ?_⟩
    rw [hb] at hv
    have := good_width (tds := E.tds) ht
    rw [← valueBit_eq (by omega), ← hv q hq]
    exact bit_of_byte (hleaf i x hx hx0 hnc hncell _ (by omega))
  case text =>
    intro i d hi ht hd
    obtain ⟨x, hx, hx0, e1, e2⟩ := placeOf_ne hi
    rw [e2] at ht
    rw [e1]
    obtain ⟨o1, _, o3⟩ := hA.ok i x hx hx0
    have hc := hcell o1.own.1 (.inr ht)
    obtain ⟨d', hd', hv⟩ := o1.vals
    rw [hd] at hd'; cases hd'
    unfold Vals at hv
    rw [ht] at hv
    rcases hv with ⟨p1, p2, p3⟩ | ⟨p1, t, p2, p3, p4, p5⟩ | ⟨p1, v, p2, p3, _⟩
    · exact ⟨fun _ => by rw [hword i x hx hc p3]; exact p2, fun hn => by rw [p1] at hn; cases hn⟩
    · refine ⟨fun hn => (by rw [p1] at hn; cases hn), fun _ => .inr ⟨t, p2, ?_, fun k hk => ?_⟩⟩
      · rw [hword i x hx hc p3]; exact p4
      · rw [hword i x hx hc p3, ← p5 k hk]
        refine Classical.byContradiction fun hne => ?_
        obtain ⟨q, y, h1, h2, h3, h4, h5⟩ := hS.only _ hne
        have := text_apart S h (h.cell q y h1 h2) hx (o1.own.1.trans ht) p4 rfl
        unfold Apart at this
        simp only at this
        omega
    · exact ⟨fun hn => (by rw [p1] at hn; cases hn), fun _ => .inl ⟨v, p2⟩⟩
  case pointer =>
    intro i d pd l hi ht hd hpd hl
    obtain ⟨x, hx, hx0, e1, e2⟩ := placeOf_ne hi
    rw [e2] at ht ⊢
    rw [e1]
    obtain ⟨o1, _, o3⟩ := hA.ok i x hx hx0
    have hc := hcell o1.own.1 (.inl ht)
    have hpt : pointee E x = Verif.Spec.LoadSays.target E.tds x.fd := by
      unfold pointee Verif.Spec.LoadSays.target
      obtain ⟨a1, a2⟩ := o1.own.2 (not_compound_pointer ht)
      rw [a1, a2]
    obtain ⟨d', hd', hp⟩ := hA.ptr i x hx (o1.own.1.trans ht) (hlt hx)
    rw [hd] at hd'; cases hd'
    rcases hp with ⟨p1, p2, p3⟩ | ⟨p1, ⟨v, p2, p3⟩, _⟩ | ⟨p1, p2, p3, l', p4, p5⟩
    · exact ⟨fun _ => by rw [hword i x hx hc p3]; exact p2, fun hn => by rw [p1] at hn; cases hn⟩
    · exact ⟨fun hn => (by rw [p1] at hn; cases hn), fun _ hn => absurd p2 (hn v)⟩
    · have := hkids hpd hl p4
      subst this
      rw [hword i x hx hc p3, ← hpt]
      refine ⟨fun hn => (by rw [p1] at hn; cases hn), fun _ _ => ⟨fun hnil => ?_, fun hne => ?_⟩⟩
      · rcases p5 with p5 | p5
        · exact p5.2
        · exact absurd hnil p5.1
      · rcases p5 with p5 | ⟨_, p6, p7, p8⟩
        · exact absurd p5.1 hne
        · refine ⟨p7, fun q c hc => ?_⟩
          have := (elements_says l' 0 p8 (Nat.zero_le _)).2 q c hc
          rwa [Nat.zero_add] at this
  case refers =>
    intro i v hi ht hn hv
    obtain ⟨x, hx, e1, hF, hE⟩ := hflag i v hi ht hn
    rw [e1]
    rcases hF with ⟨_, f1, f2, f3⟩ | ⟨f1, _⟩
    · unfold u32 at f3
      rw [← f3]
      refine ⟨hE.none, fun k hk => ?_⟩
      obtain ⟨t, ht⟩ := hnode hk
      rw [hE.node k t hk ht f2, (placeOf_some ht).1]
    · omega
  case shares =>
    intro i v hi ht hn hv
    obtain ⟨x, hx, e1, hF, hE⟩ := hflag i v hi ht hn
    rw [e1]
    rcases hF with ⟨f1, _⟩ | ⟨_, f1, f2, f3⟩
    · omega
    · unfold u32 at f3
      rw [← f3]
      refine ⟨hE.none, fun k hk => ?_⟩
      obtain ⟨t, ht⟩ := hnode hk
      obtain ⟨k1, k2⟩ := hE.text k t hk ht f2
      obtain ⟨t1, t2⟩ := placeOf_some ht
      rw [t1, t2]
      refine ⟨k1, fun h0 hty hnn => ?_⟩
      have hc := hcell (hA.ok k t ht h0).1.own.1 hty
      have hp := hnum k t ht hc hnn
      rw [k2 hc hp, hword k t ht hc hp]
  case rest =>
    intro p hp
    have hpart : Part dst ext live0 s (p / 8) := by
      rcases hp with hp | ⟨i, n, hi, ht, hn, hb, hq⟩
      · rw [hf] at hp; exact .inl hp
      · obtain ⟨x, hx, hx0, e1, e2⟩ := placeOf_ne hi
        rw [e2] at ht
        have ho := (hA.ok i x hx hx0).1.own.1
        have hc := hcell ho (.inl ht)
        rw [e1, hword i x hx hc (hnum i x hx hc hn)] at hb hq
        exact .inr ⟨i, x, n, hx, ho.trans ht, hb, hq⟩
    have hin : InLeaf E s p → ∃ i, placeOf s i ≠ 0 ∧ (typeOf s i).ty ≠ .struct ∧ (typeOf s i).ty ≠ .array ∧ 8 * placeOf s i + (bitsOf (typeOf s i)).1 ≤ p ∧ p < 8 * placeOf s i + (bitsOf (typeOf s i)).2 := by
      rintro ⟨i, x, hx, hx0, hnc, h1, h2⟩
      obtain ⟨f1, f2⟩ := placeOf_some hx
      refine ⟨i, by rw [f1]; exact hx0, by rw [f2]; exact fun e => hnc (.inl e), by rw [f2]; exact fun e => hnc (.inr e), ?_⟩
      rw [f1, f2]
      have hg := (hA.ok i x hx hx0).2.2.2.1
      unfold lowBit at h1
      unfold highBit at h2
      by_cases hpl : plain x.fd.ty = true
      · rw [room_plain hpl, ← hg hpl] at h2
        unfold bitsOf
        revert hpl h1 h2
        cases x.fd.ty <;> simp [plain] <;> omega
      · unfold room at h2
        unfold bitsOf
        revert hpl h1 h2
        cases x.fd.ty <;> simp [plain] <;> omega
    rcases hA.rest p hpart with g | g
    · exact .inr (hin g)
    · by_cases hch : s'.m (p / 8) = s.m (p / 8)
      · left
        rw [← g]
        unfold bitAt
        rw [hch]
      · right
        obtain ⟨q, y, h1, h2, h3, h4, h5⟩ := hS.only _ hch
        have hy0 := cell_addr h h1 h2
        have ho := (hA.ok q y h1 hy0).1.own.1
        refine hin ⟨q, y, h1, hy0, ?_, ?_, ?_⟩
        · rw [← ho]; rcases h2 with h2 | h2 <;> rw [h2] <;> (rintro (e | e) <;> cases e)
        · unfold lowBit
          rw [← ho, if_neg (by rcases h2 with h2 | h2 <;> rw [h2] <;> simp)]
          omega
        · unfold highBit
          rw [room_cell h2 ho, ← ho, if_neg (by rcases h2 with h2 | h2 <;> rw [h2] <;> simp)]
          omega

end
end Verif.Lemmas.LoadFinal
