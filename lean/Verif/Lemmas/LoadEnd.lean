import Verif.Lemmas.LoadOpen
/-!
Loading an arbitrary tree of nodes: pointers, references, and the release of everything.
-/
namespace Verif.Lemmas.LoadEnd
open Verif.Model Verif.Model.Ptrs Verif.Model.Save Verif.Model.Copy Verif.Model.Load Verif.Spec Verif.Spec.Save Verif.Spec.Load
  Verif.Lemmas.XdrMem Verif.Lemmas.CopyMem Verif.Lemmas.LoadSafe Verif.Lemmas.LoadInv Verif.Lemmas.LoadStep Verif.Lemmas.LoadRow Verif.Lemmas.LoadOpen
open Verif.Model.XdrGraph (put peek bytesAt bitBytes toBits ofBits bytesWord tdAt tdType wordBytes)
open Verif.Spec.Copy (Apart Layout span Allocator Grown)
open Verif.Lemmas.XdrSafe (home home_mono home_live not_home)

section
variable {E : Env} {dst ext : Nat} {live0 : Blocks} {m0 : Bytes} (S : Setup E dst ext live0)
include S

/-- the block of a pointer -/
theorem pointer_ok {i : Nat} {s : LSt} {x : Node} (h : Inv E dst ext live0 m0 i s) (hx : s.nodes[i]? = some x) (ht : x.ty = .pointer) :
    ∃ ok s' items a n, openPointer E s i = some (ok, s', items) ∧ Inv E dst ext live0 m0 (i + 1) s' ∧ Row E dst ext live0 (i + 1) s' i a n items ∧
      (items = [] ∨ s'.live = s.live ++ [(a, n)] ∧ Sits dst ext live0 s' (i + 1) a n) := by
  have hc : isCell x := .inl ht
  have hw : word s.m x.addr = 0 := h.fresh i x hx ht (Nat.le_refl _)
  have hcov : covered s.live x.addr 8 = true := cell_live S h (h.cell i x hx hc)
  have hil : i < E.ra.length := by rw [← h.len]; exact (List.getElem?_eq_some_iff.1 hx).1
  have hid : i < E.data.length := by rw [S.data]; exact hil
  have h1 := inv_mono (Nat.le_succ i) h
  obtain ⟨hsz, hpts⟩ := h.good i x hx ht
  unfold openPointer
  rw [hx, List.getElem?_eq_getElem hid]
  simp only [Option.bind_eq_bind, Option.bind_some, if_neg (cell_addr h hx hc), store_zero hcov hw]
  by_cases hn : (E.data[i]'hid).null = true
  · rw [if_pos hn]; exact ⟨true, s, [], 0, 0, rfl, h1, trivial, .inl rfl⟩
  rw [if_neg hn]
  -- a reference, or not
  have hval : (∃ v, (E.data[i]'hid).val = .int v) ∨ ∀ v, (E.data[i]'hid).val ≠ .int v := by
    cases (E.data[i]'hid).val <;> simp
  rcases hval with ⟨v, hv⟩ | hv
  · have hne : v ≠ BitVec.ofNat 128 (2 ^ 127) := fun e => S.least _ (List.getElem_mem hid) (by rw [hv, e])
    obtain ⟨s', e1, h2, _, _, _, g1⟩ := reference_ok (i := i) (a := 0) (n := 0) (bit := false) h1 hx (fun _ => hw) (cell_addr h hx hc)
      (fun _ => Nat.lt_succ_self i) (h.early i x hx ht (Nat.le_refl _)).2 .self (List.getElem_mem hid) hv hne
    simp only [hv, numbered, e1, Option.bind_some, g1]
    rw [if_pos flagged_set]
    exact ⟨true, s', [], 0, 0, rfl, h2.inv, trivial, .inl rfl⟩
  · have hmatch : numbered s i (E.data[i]'hid).val = some s := by
      unfold numbered
      cases e : (E.data[i]'hid).val with
      | int v => exact absurd e (hv v)
      | none => rfl
      | text => rfl
      | other => rfl
    rw [hmatch]
    simp only [Option.bind_some, hx]
    by_cases hr : (x.ref || x.cref) = true
    · rw [if_pos hr]; exact ⟨true, s, [], 0, 0, rfl, h1, trivial, .inl rfl⟩
    rw [if_neg hr]
    simp only [Bool.or_eq_true, not_or, Bool.not_eq_true] at hr
    obtain ⟨pd, l, k1, k2, k3, k4, k5⟩ := kids_ok S.tree hil
    rw [k3]
    simp only [Option.bind_some]
    by_cases hl : l = []
    · rw [if_pos hl]; exact ⟨true, s, [], 0, 0, rfl, h1, trivial, .inl rfl⟩
    rw [if_neg hl]
    obtain ⟨gk1, gk2, gk3, gk4⟩ := good_elem (tds := E.tds) (aux := x.aux) (td := x.td)
      (g := pointee E x) hpts rfl rfl rfl rfl rfl
    generalize pointee E x = g at *
    by_cases hg0 : g.size = 0
    · rw [if_pos hg0]; exact ⟨false, s, [], 0, 0, rfl, h1, trivial, .inl rfl⟩
    rw [if_neg hg0, hsz]
    simp only [Bool.false_eq_true, if_false]
    have hn0 : 0 < l.length * g.size := Nat.mul_pos (by cases l; exact absurd rfl hl; simp) (by omega)
    generalize hnn : l.length * g.size = n at *
    unfold LSt.calloc
    by_cases h0 : E.alloc s.live n = 0
    · simp only [h0, if_true, store_zero hcov hw, Option.bind_some]
      exact ⟨false, s, [], 0, 0, rfl, h1, trivial, .inl rfl⟩
    · simp only [h0, if_false]
      have hap := alloc_apart S h0 hcov
      have hsp := S.alloc.space _ _ h0
      have hc1 : covered (s.live ++ [(E.alloc s.live n, n)]) x.addr 8 = true := covered_mono hcov
      simp only [LSt.store, hc1, if_true, Option.bind_some]
      obtain ⟨m1, m2⟩ := mem_store (m := s.m) hsp hn0 hap (t := []) (by simp)
      have hput : ∀ (m : Bytes) (a : Nat), put m a [] = m := by intro m a; funext b; exact put_out (by simp)
      rw [hput] at m1 m2
      obtain ⟨hinv, _⟩ := inv_alloc S h1 hx hc hw hr (fun _ => Nat.lt_succ_self i) hn0 h0 m1 m2
      refine ⟨true, _, _, E.alloc s.live n, n, rfl, hinv, ?_⟩
      have hle : live0.length ≤ s.live.length := by obtain ⟨l, e⟩ := h.live; rw [← e]; simp
      refine (fun F => ⟨(row_elements (chars := False) S.tree F gk1 gk2 gk3 gk4 (by rw [hnn]; exact Nat.le_refl _) l 0 k4 k5).1, .inr ⟨rfl, F.sits⟩⟩) ?_
      refine ⟨.inr ⟨(E.alloc s.live n, n), ?_, ⟨Nat.le_refl _, Nat.le_refl _⟩, fun k y hy hcy e => ?_⟩, fun k hk => ?_, fun j y hy hcy => ?_, ⟨x, hx, cell_addr h hx hc, fun _ => ⟨Nat.lt_succ_self i, id⟩⟩,
        fun c pc y hpc hp hy => ?_⟩
      · show _ ∈ (s.live ++ [_]).drop _
        rw [List.drop_append_of_le_length hle]
        simp
      · by_cases hki : k = i
        · subst hki
          rw [show s.nodes[k]? = some y from hy] at hx; cases hx
          exact ⟨Nat.lt_succ_self k, ht⟩
        · exfalso
          refine hinv.uniq k i y x hki hy hx hcy hc ?_ ?_
          · rw [e]; exact h0
          · rw [e]; exact m1.symm
      · unfold Apart at hap
        show setWord _ _ _ _ = 0
        rw [setWord_other (by omega), put_in (k := k) (v := 0)]
        · rfl
        · simp [hk]
      · have := alloc_apart S h0 (cell_live S h (h.cell j y hy hcy))
        unfold Apart at *
        omega
      · refine Classical.byContradiction fun hne => ?_
        rcases h.ready c pc y hpc hy hne with h2 | ⟨z, h2, h3, h4⟩
        · rw [h2] at hp
          subst hp
          exact cell_addr h hx hc (h.null x hx)
        · rw [hp] at h2 h4
          rw [hx] at h2; cases h2
          have := h4 ht
          omega

theorem postponed_ok : ∀ (n i : Nat) (s : LSt), i + n = E.ra.length → Inv E dst ext live0 m0 i s →
    ∃ ok s', postponed E (List.range' i n) s = some (ok, s') ∧ Inv E dst ext live0 m0 E.ra.length s' := by
  intro n
  induction n with
  | zero => intro i s hn h; exact ⟨true, s, rfl, by rw [← hn]; exact h⟩
  | succ n ih =>
    intro i s hn h
    have hil : i < s.nodes.length := by rw [h.len]; omega
    rw [List.range'_succ]
    unfold postponed
    rw [List.getElem?_eq_getElem hil]
    simp only [Option.bind_eq_bind, Option.bind_some]
    by_cases ht : (s.nodes[i]'hil).ty = .pointer
    · rw [if_pos ht]
      obtain ⟨ok, s', items, a, k, e1, hinv, hrow, _⟩ := pointer_ok S h (List.getElem?_eq_getElem hil) ht
      rw [e1]
      simp only [Option.bind_some]
      cases ok with
      | false => exact ⟨false, s', rfl, inv_mono (by omega) hinv⟩
      | true =>
        simp only [if_true]
        obtain ⟨ok, s2, e2, hs2⟩ := loadAll_ok S (load_works S E.ra.length (i + 1) i (by omega) (by omega)) items s' hinv hrow
        rw [e2]
        simp only [Option.bind_some]
        cases ok with
        | false => exact ⟨false, s2, rfl, inv_mono (by omega) hs2.inv⟩
        | true =>
          simp only [if_true]
          exact ih (i + 1) s2 (by omega) hs2.inv
    · rw [if_neg ht]
      exact ih (i + 1) s (by omega) (inv_mono (by omega) h)

/-! ### references -/

omit S in
theorem maxIdx_le {ra : List Pd} : ∀ {b : Nat} {pd : Pd}, pd ∈ ra → pd.idx ≤ ra.foldl (fun m pd => Nat.max m pd.idx) b := by
  have hb : ∀ (ra : List Pd) (b : Nat), b ≤ ra.foldl (fun m pd => Nat.max m pd.idx) b := by
    intro ra
    induction ra with
    | nil => intro b; exact Nat.le_refl _
    | cons p ra ih => intro b; exact Nat.le_trans (Nat.le_max_left b p.idx) (ih _)
  induction ra with
  | nil => intro b pd h; cases h
  | cons p ra ih =>
    intro b pd h
    rcases List.mem_cons.1 h with rfl | h
    · exact Nat.le_trans (Nat.le_max_right b pd.idx) (hb ra _)
    · exact ih h

omit S in
theorem maxIdx_lt {ra : List Pd} {n : Nat} (h : ∀ pd ∈ ra, pd.idx < n) : ∀ {b : Nat}, b < n → ra.foldl (fun m pd => Nat.max m pd.idx) b < n := by
  induction ra with
  | nil => intro b hb; exact hb
  | cons p ra ih =>
    intro b hb
    exact ih (fun pd hpd => h pd (by simp [hpd])) (Nat.max_lt.2 ⟨hb, h p (by simp)⟩)

omit S in
theorem fillTable_ok {P : Nat → Nat → Prop} : ∀ (l : List Pd) (i : Nat) (t : List Nat), (∀ pd ∈ l, pd.idx < t.length) →
    (∀ (q : Nat) (pd : Pd), l[q]? = some pd → P pd.idx (i + q)) → (∀ (q k : Nat), t[q]? = some k → k = 0 ∨ P q k) →
    ∃ t', fillTable l i t = some t' ∧ t'.length = t.length ∧ ∀ (q k : Nat), t'[q]? = some k → k = 0 ∨ P q k := by
  intro l
  induction l with
  | nil => intro i t _ _ h; exact ⟨t, rfl, rfl, h⟩
  | cons pd l ih =>
    intro i t h1 h2 h3
    unfold fillTable
    have h2' : ∀ (q : Nat) (p : Pd), l[q]? = some p → P p.idx (i + 1 + q) := fun q p hp => by
      have := h2 (q + 1) p (by simpa using hp)
      rwa [show i + (q + 1) = i + 1 + q from by omega] at this
    by_cases h0 : pd.idx = 0
    · rw [if_pos h0]
      simp only [Option.bind_eq_bind, Option.bind_some]
      exact ih (i + 1) t (fun p hp => h1 p (by simp [hp])) h2' h3
    · rw [if_neg h0]
      unfold wr
      have hlt := h1 pd (by simp)
      rw [if_pos hlt]
      simp only [Option.bind_eq_bind, Option.bind_some]
      obtain ⟨t', e, hl, ht⟩ := ih (i + 1) (t.set pd.idx i) (fun p hp => by simpa using h1 p (by simp [hp])) h2' (fun q k hq => by
        rw [List.getElem?_set] at hq
        rw [if_pos hlt] at hq
        split at hq
        · next e =>
          injection hq with hq
          subst hq e
          have := h2 0 pd (by simp)
          exact .inr (by simpa using this)
        · exact h3 q k hq)
      exact ⟨t', e, by rw [hl]; simp, ht⟩

/-- the memory while references are set -/
structure Linked (E : Env) (dst ext : Nat) (live0 : Blocks) (m0 : Bytes) (s : LSt) (m : Bytes) : Prop where
  kept : ∀ p, covered (home dst ext live0 s.live) p 1 = false → m p = m0 p
  same : ∀ (j : Nat) (x : Node), s.nodes[j]? = some x → isCell x → x.ref = false → x.cref = false → word m x.addr = word s.m x.addr
  value : ∀ (j : Nat) (x : Node), s.nodes[j]? = some x → isCell x → word m x.addr = 0 ∨ covered (home dst ext live0 s.live) (word m x.addr) 0 = true

omit S in
theorem word_setWord_mod {m : Bytes} {a v : Nat} : word (setWord m a v) a = v % 2 ^ 64 := by
  unfold word
  rw [number_digits 8 a v]
  intro k hk
  unfold setWord
  rw [if_pos (by omega), show a + k - a = k from by omega]

theorem home_space (hsp : dst + ext ≤ 2 ^ 64) {cur : Nat} {s : LSt} (h : Inv E dst ext live0 m0 cur s) {v : Nat} (hc : covered (home dst ext live0 s.live) v 0 = true) : v ≤ 2 ^ 64 := by
  rw [covered_mem] at hc
  obtain ⟨b, hb, h1, h2⟩ := hc
  unfold home at hb
  rcases List.mem_cons.1 hb with rfl | hb
  · simp only at *; omega
  · have := grown_space S.alloc h.grown b hb
    omega

theorem crossref_ok (hsp : dst + ext ≤ 2 ^ 64) {cur : Nat} {s : LSt} (h : Inv E dst ext live0 m0 cur s) (hC : Content E s) {max : Nat} {table : List Nat} (htl : table.length = max + 1)
    (ht : ∀ (q k : Nat), table[q]? = some k → k = 0 ∨ ∃ pk : Pd, E.ra[k]? = some pk ∧ pk.idx = q) {m : Bytes} (hm : Linked E dst ext live0 m0 s m)
    {i : Nat} {x : Node} (hx : s.nodes[i]? = some x) : ∃ m', crossref s.nodes max table s.live m x = some m' ∧ Linked E dst ext live0 m0 s m' := by
  unfold crossref
  by_cases hf : (x.ref || x.cref) = false
  · rw [if_pos hf]; exact ⟨m, rfl, hm⟩
  rw [if_neg hf]
  by_cases hg : x.first > max
  · rw [if_pos hg]; exact ⟨m, rfl, hm⟩
  rw [if_neg hg]
  have hk : table[x.first]? = some (table[x.first]'(by omega)) := List.getElem?_eq_getElem _
  generalize table[x.first]'(by omega) = k at hk
  rw [hk]
  simp only [Option.bind_eq_bind, Option.bind_some]
  by_cases hk0 : k = 0
  · rw [if_pos hk0]; exact ⟨m, rfl, hm⟩
  rw [if_neg hk0]
  rcases ht _ _ hk with h1 | ⟨pk, h1, h2⟩
  · exact absurd h1 hk0
  have hkl : k < s.nodes.length := by rw [h.len]; exact (List.getElem?_eq_some_iff.1 h1).1
  have hkt := List.getElem?_eq_getElem hkl
  generalize s.nodes[k]'hkl = t at hkt
  rw [hkt]
  simp only [Option.bind_some]
  by_cases hty : x.ty ≠ .pointer ∧ x.ty ≠ .string
  · rw [if_pos hty]; exact ⟨m, rfl, hm⟩
  rw [if_neg hty]
  have hcx : isCell x := by
    unfold isCell
    by_cases h3 : x.ty = .pointer
    · exact .inl h3
    · by_cases h4 : x.ty = .string
      · exact .inr h4
      · exact absurd ⟨h3, h4⟩ hty
  by_cases hct : x.cref = true ∧ t.addr = 0
  · rw [if_pos hct]; exact ⟨m, rfl, hm⟩
  rw [if_neg hct]
  -- the value
  have hv : ∃ v, referred s.live m x t = some v ∧ (v = 0 ∨ covered (home dst ext live0 s.live) v 0 = true) := by
    unfold referred
    by_cases hcr : x.cref = true
    · rw [if_pos hcr]
      have hct' : t.addr ≠ 0 := fun e => hct ⟨hcr, e⟩
      have hcell : isCell t := by
        rcases hC x t k pk (List.mem_of_getElem? hx) hcx hcr h1 h2 hkt with h3 | h3
        · exact absurd h3 hct'
        · exact h3
      rw [if_pos (cell_live S h (h.cell k t hkt hcell))]
      exact ⟨_, rfl, hm.value k t hkt hcell⟩
    · rw [if_neg hcr]
      refine ⟨_, rfl, ?_⟩
      by_cases h3 : t.addr = 0
      · exact .inl h3
      · exact .inr (h.place k t hkt h3)
  obtain ⟨v, hv1, hv2⟩ := hv
  rw [hv1]
  simp only [Option.bind_some]
  rw [if_neg (cell_addr h hx hcx), if_pos (cell_live S h (h.cell i x hx hcx))]
  refine ⟨_, rfl, fun p hp => ?_, fun j y hy hcy hr hcr => ?_, fun j y hy hcy => ?_⟩
  · rw [setWord_other (not_home (sits_home (h.cell i x hx hcx)) hp)]
    exact hm.kept p hp
  · have hne : j ≠ i := by
      intro e
      subst e
      rw [hx] at hy; cases hy
      rw [hr, hcr] at hf
      exact hf rfl
    rw [← hm.same j y hy hcy hr hcr]
    have := h.apart j i y x hne hy hx hcy hcx
    unfold Apart at this
    exact word_congr fun q hq => setWord_other (by omega)
  · by_cases hne : j = i
    · subst hne
      rw [hx] at hy; cases hy
      rw [word_setWord_mod]
      rcases hv2 with hv2 | hv2
      · rw [hv2]; exact .inl rfl
      · have hle := home_space S hsp h hv2
        rcases Nat.lt_or_ge v (2 ^ 64) with hlt | hge
        · rw [Nat.mod_eq_of_lt hlt]; exact .inr hv2
        · have : v = 2 ^ 64 := by omega
          rw [this]; exact .inl (by decide)
    · have hw : word (setWord m x.addr v) y.addr = word m y.addr := by
        have := h.apart j i y x hne hy hx hcy hcx
        unfold Apart at this
        exact word_congr fun q hq => setWord_other (by omega)
      rw [hw]
      exact hm.value j y hy hcy

theorem crossrefs_ok (hsp : dst + ext ≤ 2 ^ 64) {cur : Nat} {s : LSt} (h : Inv E dst ext live0 m0 cur s) (hC : Content E s) : ∃ ok m', setCrossrefs E s = some (ok, { s with m := m' }) ∧
    Linked E dst ext live0 m0 s m' ∧ (ok = false → m' = s.m) := by
  have hlink : Linked E dst ext live0 m0 s s.m := by
    refine ⟨h.kept, fun _ _ _ _ _ _ => rfl, fun j x hx hc => ?_⟩
    rcases h.val j x hx hc with h1 | ⟨b, hb, h1⟩
    · exact .inl h1
    · right
      rw [← h1, covered_mem]
      exact ⟨b, by unfold home; simp [hb], Nat.le_refl _, by omega⟩
  unfold setCrossrefs
  by_cases ht : E.table = false
  · rw [if_pos ht]
    exact ⟨false, s.m, rfl, hlink, fun _ => rfl⟩
  rw [if_neg ht]
  have hlt : maxIdx E.ra < 2 ^ 32 - 1 := maxIdx_lt (fun pd hpd => by have := (S.tree.bare pd hpd).2.2.2; omega) (by omega)
  have hu : u32 (maxIdx E.ra + 1) = maxIdx E.ra + 1 := by unfold u32; omega
  obtain ⟨t, e, hl, htab⟩ := fillTable_ok (P := fun q k => ∃ pk : Pd, E.ra[k]? = some pk ∧ pk.idx = q) E.ra 0 (List.replicate (u32 (maxIdx E.ra + 1)) 0)
    (fun pd hpd => by rw [hu, List.length_replicate]; have := maxIdx_le (b := 0) hpd; unfold maxIdx; omega)
    (fun q pd hq => ⟨pd, by simpa using hq, rfl⟩)
    (fun q k hq => by rw [List.getElem?_replicate] at hq; split at hq; · injection hq with hq; exact .inl hq.symm
                      · cases hq)
  rw [e]
  simp only [Option.bind_eq_bind, Option.bind_some]
  have hloop : ∀ (l : List Node) (m : Bytes), (∀ x ∈ l, ∃ i : Nat, s.nodes[i]? = some x) → Linked E dst ext live0 m0 s m →
      ∃ m', crossrefLoop s.nodes (maxIdx E.ra) t s.live l m = some m' ∧ Linked E dst ext live0 m0 s m' := by
    intro l
    induction l with
    | nil => intro m _ hm; exact ⟨m, rfl, hm⟩
    | cons x l ih =>
      intro m hx hm
      obtain ⟨i, hi⟩ := hx x (by simp)
      obtain ⟨m1, e1, hm1⟩ := crossref_ok S hsp h hC (max := maxIdx E.ra) (by rw [hl, hu, List.length_replicate]) htab hm hi
      unfold crossrefLoop
      rw [e1]
      exact ih m1 (fun y hy => hx y (by simp [hy])) hm1
  obtain ⟨m', e', hm'⟩ := hloop s.nodes s.m (fun x hx => List.mem_iff_getElem?.1 hx) hlink
  rw [e']
  exact ⟨true, m', rfl, hm', fun h => by cases h⟩

/-! ### release -/

/-- nodes from `i` on have been treated, `R` are the blocks that are left -/
structure Rest (dst ext : Nat) (live0 : Blocks) (nodes : List Node) (i : Nat) (R : Blocks) (s : LSt) : Prop where
  same : s.nodes = nodes
  live : s.live = live0 ++ R
  old : ∀ b ∈ R, b.1 ≠ 0 ∧ ∀ c ∈ live0, c.1 ≠ b.1
  start : R.Pairwise fun b c => b.1 ≠ c.1
  cell : ∀ (j : Nat) (x : Node), j < i → nodes[j]? = some x → isCell x → (dst ≤ x.addr ∧ x.addr + 8 ≤ dst + ext) ∨
    ∃ b ∈ R, (b.1 ≤ x.addr ∧ x.addr + 8 ≤ b.1 + b.2) ∧ ∀ (k : Nat) (y : Node), k < i → nodes[k]? = some y → isCell y → word s.m y.addr = b.1 → k < j
  apart : ∀ (j k : Nat) (x y : Node), j ≠ k → nodes[j]? = some x → nodes[k]? = some y → isCell x → isCell y → Apart x.addr 8 y.addr 8
  val : ∀ (j : Nat) (x : Node), j < i → nodes[j]? = some x → isCell x → word s.m x.addr = 0 ∨ ∃ b ∈ R, b.1 = word s.m x.addr
  uniq : ∀ (j k : Nat) (x y : Node), j ≠ k → j < i → k < i → nodes[j]? = some x → nodes[k]? = some y → isCell x → isCell y →
    word s.m x.addr ≠ 0 → word s.m x.addr ≠ word s.m y.addr
  held : ∀ b ∈ R, ∃ (j : Nat) (x : Node), j < i ∧ nodes[j]? = some x ∧ isCell x ∧ word s.m x.addr = b.1
  done : ∀ (j : Nat) (x : Node), i ≤ j → nodes[j]? = some x → isCell x → dst ≤ x.addr ∧ x.addr + 8 ≤ dst + ext → word s.m x.addr = 0

omit S in
theorem eraseP_start {R : Blocks} {v : Nat} {b : Nat × Nat} (hs : R.Pairwise fun b c => b.1 ≠ c.1) (hb : b ∈ R) (he : b.1 = v) :
    ∀ c, c ∈ R.eraseP (fun c => c.1 == v) ↔ c ∈ R ∧ c.1 ≠ v := by
  induction R with
  | nil => cases hb
  | cons d R ih =>
    rw [List.pairwise_cons] at hs
    intro c
    rw [List.eraseP_cons]
    by_cases hd : (d.1 == v) = true
    · rw [hd]
      simp only [cond_true]
      simp only [beq_iff_eq] at hd
      constructor
      · intro hc
        exact ⟨by simp [hc], fun e => hs.1 c hc (hd.trans e.symm)⟩
      · rintro ⟨hc, hne⟩
        rcases List.mem_cons.1 hc with rfl | hc
        · exact absurd hd hne
        · exact hc
    · simp only [hd, cond_false]
      simp only [beq_iff_eq] at hd
      have hbR : b ∈ R := by
        rcases List.mem_cons.1 hb with rfl | hb
        · exact absurd he hd
        · exact hb
      simp only [List.mem_cons]
      rw [ih hs.2 hbR c]
      constructor
      · rintro (rfl | ⟨h1, h2⟩)
        · exact ⟨.inl rfl, hd⟩
        · exact ⟨.inr h1, h2⟩
      · rintro ⟨rfl | h1, h2⟩
        · exact .inl rfl
        · exact .inr ⟨h1, h2⟩

omit S in
theorem eraseP_old {live0 R : Blocks} {v : Nat} (h : ∀ c ∈ live0, c.1 ≠ v) : (live0 ++ R).eraseP (fun c => c.1 == v) = live0 ++ R.eraseP (fun c => c.1 == v) := by
  rw [List.eraseP_append_right]
  intro c hc
  simp [h c hc]

theorem release_ok {nodes : List Node} : ∀ (n : Nat) (R : Blocks) (s : LSt), n + 1 ≤ nodes.length → (∀ x : Node, nodes[0]? = some x → ¬ isCell x) →
    Rest dst ext live0 nodes (n + 1) R s →
    ∃ s', cleanup (List.range' 1 n).reverse s = some s' ∧ s'.live = live0 ∧ s'.nodes = nodes ∧
      (∀ p, (∀ (j : Nat) (x : Node), nodes[j]? = some x → isCell x → (dst ≤ x.addr ∧ x.addr + 8 ≤ dst + ext) ∨ (∃ b ∈ R, b.1 ≤ x.addr ∧ x.addr + 8 ≤ b.1 + b.2) →
        ¬ (x.addr ≤ p ∧ p < x.addr + 8)) → s'.m p = s.m p) ∧
      ∀ (j : Nat) (x : Node), nodes[j]? = some x → isCell x → dst ≤ x.addr ∧ x.addr + 8 ≤ dst + ext → word s'.m x.addr = 0 := by
  intro n
  induction n with
  | zero =>
    intro R s _ hnull h
    refine ⟨s, rfl, ?_, h.same, fun _ _ => rfl, fun j x hx hc hin => ?_⟩
    · rw [h.live]
      cases R with
      | nil => simp
      | cons b R =>
        obtain ⟨j, x, h1, h2, h3, _⟩ := h.held b (by simp)
        rw [show j = 0 from by omega] at h2
        exact absurd h3 (hnull x h2)
    · refine h.done j x ?_ hx hc hin
      cases j with
      | zero => exact absurd hc (hnull x hx)
      | succ j => omega
  | succ n ih =>
    intro R s hn hnull h
    rw [List.range'_1_concat, List.reverse_append, List.reverse_cons, List.reverse_nil, List.nil_append, List.singleton_append, Nat.add_comm 1 n]
    have hil : n + 1 < nodes.length := by omega
    have hx := List.getElem?_eq_getElem hil
    generalize nodes[n + 1]'hil = x at hx
    unfold cleanup
    rw [h.same, hx]
    simp only [Option.bind_eq_bind, Option.bind_some]
    -- cells stay the same
    by_cases hc : x.ty = .pointer ∨ x.ty = .string
    · rw [if_pos hc]
      have hcx : isCell x := hc
      have hcov : covered s.live x.addr 8 = true := by
        rw [h.live]
        rcases h.cell (n + 1) x (by omega) hx hcx with h1 | ⟨b, hb, h1, _⟩
        · exact covered_mono (covered_part S.space h1.1 h1.2)
        · rw [covered_mem]
          exact ⟨b, by simp [hb], h1⟩
      unfold LSt.fetch
      rw [if_pos hcov]
      simp only [Option.bind_some]
      by_cases hv : word s.m x.addr = 0
      · rw [if_pos hv]
        refine ih R s (by omega) hnull ⟨h.same, h.live, h.old, h.start, fun j y hj hy hcy => ?_, h.apart, fun j y hj hy hcy => h.val j y (by omega) hy hcy,
          fun j k y z hne hj hk hy hz hcy hcz => h.uniq j k y z hne (by omega) (by omega) hy hz hcy hcz, fun b hb => ?_, fun j y hj hy hcy hin => ?_⟩
        · rcases h.cell j y (by omega) hy hcy with h1 | ⟨b, hb, h1, h2⟩
          · exact .inl h1
          · exact .inr ⟨b, hb, h1, fun k z hk hz hcz e => h2 k z (by omega) hz hcz e⟩
        · obtain ⟨j, y, h1, h2, h3, h4⟩ := h.held b hb
          have hj : j ≠ n + 1 := by
            intro e
            subst e
            rw [hx] at h2; cases h2
            exact (h.old b hb).1 (h4.symm.trans hv)
          exact ⟨j, y, by omega, h2, h3, h4⟩
        · by_cases hjn : j = n + 1
          · subst hjn
            rw [hx] at hy; cases hy
            exact hv
          · exact h.done j y (by omega) hy hcy hin
      · rw [if_neg hv]
        rcases h.val (n + 1) x (by omega) hx hcx with h1 | ⟨b, hb, hbv⟩
        · exact absurd h1 hv
        generalize hvv : word s.m x.addr = v at *
        have hany : s.live.any (fun c => c.1 == v) = true := by
          rw [List.any_eq_true]
          exact ⟨b, by rw [h.live]; simp [hb], by simp [hbv]⟩
        unfold LSt.free
        rw [if_pos hany]
        simp only [Option.bind_some]
        have hlive : s.live.eraseP (fun c => c.1 == v) = live0 ++ R.eraseP (fun c => c.1 == v) := by
          rw [h.live]
          exact eraseP_old (fun c hc => by rw [← hbv]; exact (h.old b hb).2 c hc)
        have hmem := eraseP_start h.start hb hbv
        have hcov' : covered (s.live.eraseP fun c => c.1 == v) x.addr 8 = true := by
          rw [hlive]
          rcases h.cell (n + 1) x (by omega) hx hcx with h1 | ⟨c, hc', h1, h2⟩
          · exact covered_mono (covered_part S.space h1.1 h1.2)
          · rw [covered_mem]
            refine ⟨c, ?_, h1⟩
            have : c ∈ R.eraseP (fun c => c.1 == v) := by
              rw [hmem]
              refine ⟨hc', fun e => ?_⟩
              have := h2 (n + 1) x (by omega) hx hcx (hvv.trans e.symm)
              omega
            simp [this]
        unfold LSt.store
        rw [if_pos hcov']
        simp only [Option.bind_some]
        have hother : ∀ (j : Nat) (y : Node), j ≠ n + 1 → nodes[j]? = some y → isCell y → word (setWord s.m x.addr 0) y.addr = word s.m y.addr := by
          intro j y hj hy hcy
          have := h.apart j (n + 1) y x hj hy hx hcy hcx
          unfold Apart at this
          exact word_congr fun q hq => setWord_other (by omega)
        have hrest : Rest dst ext live0 nodes (n + 1) (R.eraseP fun c => c.1 == v) { s with m := setWord s.m x.addr 0, live := s.live.eraseP fun c => c.1 == v } := by
          refine ⟨h.same, hlive, fun c hc => h.old c ((hmem c).1 hc).1, h.start.sublist (List.eraseP_sublist ..), fun j y hj hy hcy => ?_, h.apart, fun j y hj hy hcy => ?_,
            fun j k y z hne hj hk hy hz hcy hcz => ?_, fun c hc => ?_, fun j y hj hy hcy hin => ?_⟩
          · rcases h.cell j y (by omega) hy hcy with h1 | ⟨c, hc', h1, h2⟩
            · exact .inl h1
            · refine .inr ⟨c, (hmem c).2 ⟨hc', fun e => ?_⟩, h1, fun k z hk hz hcz e => h2 k z (by omega) hz hcz ?_⟩
              · have := h2 (n + 1) x (by omega) hx hcx (hvv.trans e.symm)
                omega
              · rw [← hother k z (by omega) hz hcz]; exact e
          · rw [show word (LSt.m ⟨setWord s.m x.addr 0, s.live.eraseP fun c => c.1 == v, s.nodes⟩) y.addr = word s.m y.addr from hother j y (by omega) hy hcy]
            rcases h.val j y (by omega) hy hcy with h1 | ⟨c, hc', h1⟩
            · exact .inl h1
            · refine .inr ⟨c, (hmem c).2 ⟨hc', fun e => ?_⟩, h1⟩
              refine h.uniq (n + 1) j x y (by omega) (by omega) (by omega) hx hy hcx hcy (by rw [hvv]; exact hv) ?_
              rw [hvv, ← e, h1]
          · show word (setWord s.m x.addr 0) _ ≠ 0 → word (setWord s.m x.addr 0) _ ≠ word (setWord s.m x.addr 0) _
            rw [hother j y (by omega) hy hcy, hother k z (by omega) hz hcz]
            exact h.uniq j k y z hne (by omega) (by omega) hy hz hcy hcz
          · obtain ⟨hc', hne⟩ := (hmem c).1 hc
            obtain ⟨j, y, h1, h2, h3, h4⟩ := h.held c hc'
            have hj : j ≠ n + 1 := by
              intro e
              subst e
              rw [hx] at h2; cases h2
              exact hne (h4.symm.trans hvv)
            exact ⟨j, y, by omega, h2, h3, (hother j y hj h2 h3).trans h4⟩
          · by_cases hjn : j = n + 1
            · subst hjn
              rw [hx] at hy; cases hy
              exact word_setWord (by omega)
            · exact (hother j y hjn hy hcy).trans (h.done j y (by omega) hy hcy hin)
        obtain ⟨s', e, g1, g2, g3, g4⟩ := ih _ _ (by omega) hnull hrest
        refine ⟨s', e, g1, g2, fun p hp => ?_, g4⟩
        rw [g3 p]
        · refine setWord_other (hp (n + 1) x hx hcx ?_)
          rcases h.cell (n + 1) x (by omega) hx hcx with h1 | ⟨c, hc', h1, _⟩
          · exact .inl h1
          · exact .inr ⟨c, hc', h1⟩
        · intro j y hy hcy hin
          refine hp j y hy hcy ?_
          rcases hin with hin | ⟨c, hc', hin⟩
          · exact .inl hin
          · exact .inr ⟨c, ((hmem c).1 hc').1, hin⟩
    · rw [if_neg hc]
      refine ih R s (by omega) hnull ⟨h.same, h.live, h.old, h.start, fun j y hj hy hcy => ?_, h.apart, fun j y hj hy hcy => h.val j y (by omega) hy hcy,
        fun j k y z hne hj hk hy hz hcy hcz => h.uniq j k y z hne (by omega) (by omega) hy hz hcy hcz, fun b hb => ?_, fun j y hj hy hcy hin => ?_⟩
      · rcases h.cell j y (by omega) hy hcy with h1 | ⟨b, hb, h1, h2⟩
        · exact .inl h1
        · exact .inr ⟨b, hb, h1, fun k z hk hz hcz e => h2 k z (by omega) hz hcz e⟩
      · obtain ⟨j, y, h1, h2, h3, h4⟩ := h.held b hb
        have hj : j ≠ n + 1 := by
          intro e
          subst e
          rw [hx] at h2; cases h2
          exact hc h3
        exact ⟨j, y, by omega, h2, h3, h4⟩
      · by_cases hjn : j = n + 1
        · subst hjn
          rw [hx] at hy; cases hy
          exact absurd hcy hc
        · exact h.done j y (by omega) hy hcy hin

end
end Verif.Lemmas.LoadEnd
