import Verif.Lemmas.LoadPtr
import Verif.Lemmas.CmpFloat
/-!
Loading a tree of nodes: what is stored is what the nodes say.  References.
-/
namespace Verif.Lemmas.LoadRef
open Verif.Model Verif.Model.Ptrs Verif.Model.Save Verif.Model.Copy Verif.Model.Load Verif.Spec Verif.Spec.Save Verif.Spec.Load Verif.Spec.LoadSays
  Verif.Lemmas.XdrMem Verif.Lemmas.CopyMem Verif.Lemmas.LoadSafe Verif.Lemmas.LoadInv Verif.Lemmas.LoadStep Verif.Lemmas.LoadRow Verif.Lemmas.LoadOpen Verif.Lemmas.LoadEnd
  Verif.Lemmas.LoadSays Verif.Lemmas.LoadTold Verif.Lemmas.LoadTree Verif.Lemmas.LoadPtr
open Verif.Model.XdrGraph (put peek bytesAt bitBytes toBits ofBits bytesWord tdAt tdType wordBytes)
open Verif.Spec.Copy (Apart Layout span Allocator Grown)
open Verif.Spec.XdrGraph (bitAt)
open Verif.Lemmas.XdrSafe (home home_mono home_live not_home)

section
variable {E : Env} {dst ext : Nat} {live0 : Blocks} {m0 : Bytes} (S : Setup E dst ext live0)
include S

omit S in
theorem fillTable_cons {pd : Pd} {l : List Pd} {i : Nat} {t t' : List Nat} (e : fillTable (pd :: l) i t = some t') :
    ∃ t1, fillTable l (i + 1) t1 = some t' ∧ ((pd.idx = 0 ∧ t1 = t) ∨ (pd.idx ≠ 0 ∧ pd.idx < t.length ∧ t1 = t.set pd.idx i)) := by
  unfold fillTable at e
  by_cases h0 : pd.idx = 0
  · rw [if_pos h0] at e
    exact ⟨t, e, .inl ⟨h0, rfl⟩⟩
  · rw [if_neg h0] at e
    unfold wr at e
    split at e
    · next hlt => exact ⟨_, e, .inr ⟨h0, hlt, rfl⟩⟩
    · cases e

omit S in
theorem fillTable_other : ∀ (l : List Pd) (i : Nat) (t t' : List Nat) (q : Nat), fillTable l i t = some t' → (∀ pd ∈ l, pd.idx = q → q = 0) → t'[q]? = t[q]? := by
  intro l
  induction l with
  | nil => intro i t t' q e _; simp only [fillTable, Option.some.injEq] at e; rw [e]
  | cons pd l ih =>
    intro i t t' q e h
    obtain ⟨t1, e, e1⟩ := fillTable_cons e
    rw [ih _ _ _ _ e (fun p hp => h p (by simp [hp]))]
    rcases e1 with ⟨_, e1⟩ | ⟨h0, _, e1⟩
    · rw [e1]
    · rw [e1, List.getElem?_set, if_neg]
      intro hq
      exact h0 (hq.trans (h pd (by simp) hq))

omit S in
theorem fillTable_last : ∀ (l : List Pd) (i : Nat) (t t' : List Nat) (q p : Nat) (pd : Pd), fillTable l i t = some t' → l[p]? = some pd → pd.idx = q → q ≠ 0 →
    (∀ (p' : Nat) (pd' : Pd), l[p']? = some pd' → pd'.idx = q → p' ≤ p) → t'[q]? = some (i + p) := by
  intro l
  induction l with
  | nil => intro i t t' q p pd _ h; simp at h
  | cons pd0 l ih =>
    intro i t t' q p pd e hp hq hq0 hlast
    obtain ⟨t1, e, e1⟩ := fillTable_cons e
    cases p with
    | zero =>
      simp only [List.getElem?_cons_zero, Option.some.injEq] at hp
      subst hp
      rw [fillTable_other l _ _ _ q e]
      · rcases e1 with ⟨h0, _⟩ | ⟨_, hlt, e1⟩
        · exact absurd (hq.symm.trans h0) hq0
        · rw [e1, List.getElem?_set, if_pos hq, if_pos hlt]
          rfl
      · intro p hp hpq
        obtain ⟨k, hk⟩ := List.mem_iff_getElem?.1 hp
        have := hlast (k + 1) p (by simpa using hk) hpq
        omega
    | succ p =>
      rw [ih (i + 1) t1 t' q p pd e (by simpa using hp) hq hq0 (fun p' pd' h1 h2 => by have := hlast (p' + 1) pd' (by simpa using h1) h2; omega)]
      congr 1
      omega

/-- what a reference is set to -/
structure Expect (E : Env) (s : LSt) (x : Node) (w : Nat) : Prop where
  none : (∀ k, ¬ Named E.ra x.first k) → w = 0
  node : ∀ (k : Nat) (t : Node), Named E.ra x.first k → s.nodes[k]? = some t → x.cref = false → w = t.addr % 2 ^ 64
  text : ∀ (k : Nat) (t : Node), Named E.ra x.first k → s.nodes[k]? = some t → x.cref = true → (t.addr = 0 → w = 0) ∧ (isCell t → Plain t → w = word s.m t.addr)

/-- references up to node `j` have been set -/
structure Sofar (E : Env) (s : LSt) (j : Nat) (m : Bytes) : Prop where
  only : ∀ p, m p ≠ s.m p → ∃ (k : Nat) (x : Node), s.nodes[k]? = some x ∧ isCell x ∧ ¬ Plain x ∧ x.addr ≤ p ∧ p < x.addr + 8
  done : ∀ (k : Nat) (x : Node), k < j → s.nodes[k]? = some x → isCell x → ¬ Plain x → Expect E s x (word m x.addr)
  later : ∀ (k : Nat) (x : Node), j ≤ k → s.nodes[k]? = some x → isCell x → word m x.addr = word s.m x.addr

omit S in
theorem named_unique {ra : List Pd} {q j k : Nat} (hj : Named ra q j) (hk : Named ra q k) : j = k := by
  obtain ⟨_, _, ⟨pj, h1, h2⟩, h3⟩ := hj
  obtain ⟨_, _, ⟨pk, g1, g2⟩, g3⟩ := hk
  have := h3 k pk g1 g2
  have := g3 j pj h1 h2
  omega

omit S in
theorem crossref_told {cur : Nat} {s : LSt} (h : Inv E dst ext live0 m0 cur s) {table : List Nat}
    (hnone : ∀ q : Nat, (∀ k, ¬ Named E.ra q k) → q ≤ maxIdx E.ra → table[q]? = some 0) (hsome : ∀ q k, Named E.ra q k → q ≤ maxIdx E.ra ∧ table[q]? = some k)
    {m m' : Bytes} (hl : Linked E dst ext live0 m0 s m) {j : Nat} (hm : Sofar E s j m) {x : Node} (hx : s.nodes[j]? = some x)
    (e : crossref s.nodes (maxIdx E.ra) table s.live m x = some m') : Sofar E s (j + 1) m' := by
  have hold : ∀ (k : Nat) (y : Node), k < j + 1 → k ≠ j → s.nodes[k]? = some y → isCell y → ¬ Plain y → Expect E s y (word m y.addr) :=
    fun k y hk hkj hy hcy hp => hm.done k y (by omega) hy hcy hp
  -- nothing happens
  have hsame : m' = m → (isCell x → ¬ Plain x → Expect E s x (word m x.addr)) → Sofar E s (j + 1) m' := by
    intro hmm hxx
    subst hmm
    refine ⟨hm.only, fun k y hk hy hcy hp => ?_, fun k y hk hy hcy => hm.later k y (by omega) hy hcy⟩
    by_cases hkj : k = j
    · subst hkj
      rw [hx] at hy; cases hy
      exact hxx hcy hp
    · exact hold k y hk hkj hy hcy hp
  have hzero : isCell x → ¬ Plain x → word m x.addr = 0 := by
    intro hcx hp
    rw [hm.later j x (Nat.le_refl _) hx hcx]
    refine h.flag j x hx hcx ?_
    unfold Plain at hp
    cases e1 : x.ref <;> cases e2 : x.cref <;> simp_all
  unfold crossref at e
  by_cases hf : (x.ref || x.cref) = false
  · rw [if_pos hf] at e
    injection e with e
    refine hsame e.symm fun _ hp => absurd ?_ hp
    simpa [Plain] using hf
  rw [if_neg hf] at e
  have hnp : ¬ Plain x := by
    intro hp
    apply hf
    simpa [Plain] using hp
  by_cases hg : x.first > maxIdx E.ra
  · rw [if_pos hg] at e
    injection e with e
    refine hsame e.symm fun hcx hp => ?_
    have hno : ∀ k, ¬ Named E.ra x.first k := fun k hk => by have := (hsome _ _ hk).1; omega
    exact ⟨fun _ => hzero hcx hp, fun k t hk => absurd hk (hno k), fun k t hk => absurd hk (hno k)⟩
  rw [if_neg hg] at e
  simp only [Option.bind_eq_bind] at e
  obtain ⟨k, hk, e⟩ := Option.bind_eq_some_iff.1 e
  have hnm : k ≠ 0 → Named E.ra x.first k := by
    intro hk0
    refine Classical.byContradiction fun hn => hk0 ?_
    by_cases hex : ∃ k', Named E.ra x.first k'
    · obtain ⟨k', hk'⟩ := hex
      have := (hsome _ _ hk').2
      rw [hk] at this
      injection this with this
      subst this
      exact absurd hk' hn
    · have := hnone x.first (fun k' hk' => hex ⟨k', hk'⟩) (by omega)
      rw [hk] at this
      injection this
  by_cases hk0 : k = 0
  · rw [if_pos hk0] at e
    injection e with e
    refine hsame e.symm fun hcx hp => ?_
    have hno : ∀ k, ¬ Named E.ra x.first k := fun k' hk' => by
      have := (hsome _ _ hk').2
      rw [hk] at this
      injection this with this
      exact hk'.2.1 (by omega)
    exact ⟨fun _ => hzero hcx hp, fun k t hk => absurd hk (hno k), fun k t hk => absurd hk (hno k)⟩
  rw [if_neg hk0] at e
  obtain ⟨t, ht, e⟩ := Option.bind_eq_some_iff.1 e
  have hN := hnm hk0
  by_cases hty : x.ty ≠ .pointer ∧ x.ty ≠ .string
  · rw [if_pos hty] at e
    injection e with e
    refine hsame e.symm fun hcx hp => ?_
    rcases hcx with hcx | hcx
    · exact absurd hcx hty.1
    · exact absurd hcx hty.2
  rw [if_neg hty] at e
  have hcx : isCell x := by
    unfold isCell
    by_cases h3 : x.ty = .pointer
    · exact .inl h3
    · by_cases h4 : x.ty = .string
      · exact .inr h4
      · exact absurd ⟨h3, h4⟩ hty
  by_cases hct : x.cref = true ∧ t.addr = 0
  · rw [if_pos hct] at e
    injection e with e
    refine hsame e.symm fun hcx hp => ⟨fun hno => absurd hN (hno k), fun k' t' hk' ht' hc => ?_, fun k' t' hk' ht' hc => ?_⟩
    · rw [hct.1] at hc; cases hc
    · have := named_unique hk' hN
      subst this
      rw [ht] at ht'; cases ht'
      refine ⟨fun _ => hzero hcx hp, fun hct' => ?_⟩
      exact absurd hct.2 (cell_addr h ht hct')
  rw [if_neg hct] at e
  obtain ⟨v, hv, e⟩ := Option.bind_eq_some_iff.1 e
  rw [if_neg (cell_addr h hx hcx)] at e
  split at e
  · injection e with e
    subst e
    have hothers : ∀ (q : Nat) (y : Node), q ≠ j → s.nodes[q]? = some y → isCell y → word (setWord m x.addr v) y.addr = word m y.addr := by
      intro q y hq hy hcy
      have := h.apart q j y x hq hy hx hcy hcx
      unfold Apart at this
      exact word_congr fun r hr => setWord_other (by omega)
    refine ⟨fun p hp => ?_, fun q y hq hy hcy hpy => ?_, fun q y hq hy hcy => ?_⟩
    · by_cases hin : x.addr ≤ p ∧ p < x.addr + 8
      · exact ⟨j, x, hx, hcx, hnp, hin⟩
      · rw [setWord_other hin] at hp
        exact hm.only p hp
    · by_cases hqj : q = j
      · subst hqj
        rw [hx] at hy; cases hy
        rw [word_setWord_mod]
        refine ⟨fun hno => absurd hN (hno k), fun k' t' hk' ht' hc => ?_, fun k' t' hk' ht' hc => ?_⟩
        · have := named_unique hk' hN
          subst this
          rw [ht] at ht'; cases ht'
          unfold referred at hv
          rw [hc] at hv
          simp only [Bool.false_eq_true, if_false, Option.some.injEq] at hv
          rw [hv]
        · have := named_unique hk' hN
          subst this
          rw [ht] at ht'; cases ht'
          refine ⟨fun h0 => absurd ⟨hc, h0⟩ hct, fun hcell hpl => ?_⟩
          unfold referred at hv
          rw [if_pos hc] at hv
          split at hv
          · injection hv with hv
            rw [← hv, hl.same k' t ht hcell hpl.1 hpl.2]
            exact Nat.mod_eq_of_lt (by have := Verif.Lemmas.CmpFloat.number_lt s.m 8 t.addr; unfold word; omega)
          · cases hv
      · rw [hothers q y hqj hy hcy]
        exact hold q y hq hqj hy hcy hpy
    · rw [hothers q y (by omega) hy hcy]
      exact hm.later q y (by omega) hy hcy
  · cases e

theorem crossrefs_told (hsp : dst + ext ≤ 2 ^ 64) {cur : Nat} {s s' : LSt} (h : Inv E dst ext live0 m0 cur s) (hC : Content E s) (e : setCrossrefs E s = some (true, s')) :
    s'.live = s.live ∧ s'.nodes = s.nodes ∧ Sofar E s s.nodes.length s'.m := by
  have hlink : Linked E dst ext live0 m0 s s.m := by
    refine ⟨h.kept, fun _ _ _ _ _ _ => rfl, fun j x hx hc => ?_⟩
    rcases h.val j x hx hc with h1 | ⟨b, hb, h1⟩
    · exact .inl h1
    · right
      rw [← h1, covered_mem]
      exact ⟨b, by unfold home; simp [hb], Nat.le_refl _, by omega⟩
  unfold setCrossrefs at e
  by_cases ht : E.table = false
  · rw [if_pos ht] at e; simp at e
  rw [if_neg ht] at e
  have hlt : maxIdx E.ra < 2 ^ 32 - 1 := maxIdx_lt (fun pd hpd => by have := (S.tree.bare pd hpd).2.2.2; omega) (by omega)
  have hu : u32 (maxIdx E.ra + 1) = maxIdx E.ra + 1 := by unfold u32; omega
  obtain ⟨t, et, hl, htab⟩ := fillTable_ok (P := fun q k => ∃ pk : Pd, E.ra[k]? = some pk ∧ pk.idx = q) E.ra 0 (List.replicate (u32 (maxIdx E.ra + 1)) 0)
    (fun pd hpd => by rw [hu, List.length_replicate]; have := maxIdx_le (b := 0) hpd; unfold maxIdx; omega)
    (fun q pd hq => ⟨pd, by simpa using hq, rfl⟩)
    (fun q k hq => by rw [List.getElem?_replicate] at hq; split at hq; · injection hq with hq; exact .inl hq.symm
                      · cases hq)
  rw [et] at e
  simp only [Option.bind_eq_bind, Option.bind_some] at e
  obtain ⟨m', e', e⟩ := Option.bind_eq_some_iff.1 e
  simp only [Option.some.injEq, Prod.mk.injEq, true_and] at e
  subst e
  refine ⟨rfl, rfl, ?_⟩
  have hsome : ∀ q k, Named E.ra q k → q ≤ maxIdx E.ra ∧ t[q]? = some k := by
    intro q k ⟨h1, h2, ⟨pk, h3, h4⟩, h5⟩
    refine ⟨by rw [← h4]; exact maxIdx_le (List.mem_of_getElem? h3), ?_⟩
    have := fillTable_last E.ra 0 _ t q k pk et h3 h4 h1 h5
    simpa using this
  have hnone : ∀ q : Nat, (∀ k, ¬ Named E.ra q k) → q ≤ maxIdx E.ra → t[q]? = some 0 := by
    intro q hq hle
    have hlen : q < t.length := by rw [hl, hu, List.length_replicate]; omega
    have htq := List.getElem?_eq_getElem hlen
    generalize t[q] = k at htq
    rw [htq]
    refine Classical.byContradiction fun hne => ?_
    have hk0 : k ≠ 0 := fun e => hne (by rw [e])
    -- there is a node with this number: take the last one
    have hq0 : q ≠ 0 := by
      intro e0
      have := fillTable_other E.ra 0 _ t q et (fun _ _ _ => e0)
      rw [htq, List.getElem?_replicate] at this
      split at this
      · injection this with this; exact hk0 this
      · cases this
    have hlast : ∀ n : Nat, (∀ (j : Nat) (pj : Pd), E.ra[j]? = some pj → pj.idx = q → j < n) → (∃ (j : Nat) (pj : Pd), E.ra[j]? = some pj ∧ pj.idx = q) →
        ∃ (j : Nat) (pj : Pd), E.ra[j]? = some pj ∧ pj.idx = q ∧ ∀ (j' : Nat) (pj' : Pd), E.ra[j']? = some pj' → pj'.idx = q → j' ≤ j := by
      intro n
      induction n with
      | zero => intro h1 ⟨j, pj, h2, h3⟩; have := h1 j pj h2 h3; omega
      | succ n ih =>
        intro h1 h2
        by_cases hn : ∃ pj : Pd, E.ra[n]? = some pj ∧ pj.idx = q
        · obtain ⟨pj, h3, h4⟩ := hn
          exact ⟨n, pj, h3, h4, fun j' pj' h5 h6 => by have := h1 j' pj' h5 h6; omega⟩
        · refine ih (fun j pj h3 h4 => ?_) h2
          have := h1 j pj h3 h4
          have : j ≠ n := fun e => hn ⟨pj, by rw [← e]; exact h3, h4⟩
          omega
    rcases htab q k htq with h1 | ⟨pk, h1, h2⟩
    · exact hk0 h1
    · obtain ⟨j, pj, g1, g2, g3⟩ := hlast E.ra.length (fun j pj h _ => (List.getElem?_eq_some_iff.1 h).1) ⟨k, pk, h1, h2⟩
      have h5 := g3 k pk h1 h2
      exact hq j ⟨hq0, by omega, ⟨pj, g1, g2⟩, g3⟩
  have hloop : ∀ (l : List Node) (j : Nat) (m : Bytes), s.nodes.drop j = l → Linked E dst ext live0 m0 s m → Sofar E s j m → crossrefLoop s.nodes (maxIdx E.ra) t s.live l m = some m' →
      Sofar E s (j + l.length) m' := by
    intro l
    induction l with
    | nil => intro j m _ _ hm e; simp only [crossrefLoop, Option.some.injEq] at e; subst e; exact hm
    | cons x l ih =>
      intro j m hd hlm hm e
      have hx : s.nodes[j]? = some x := by
        have : (s.nodes.drop j)[0]? = some x := by rw [hd]; rfl
        rw [List.getElem?_drop] at this
        simpa using this
      obtain ⟨m1, e1, hm1⟩ := crossref_ok S hsp h hC (max := maxIdx E.ra) (by rw [hl, hu, List.length_replicate]) htab hlm hx
      unfold crossrefLoop at e
      rw [e1] at e
      simp only [Option.bind_eq_bind, Option.bind_some] at e
      have := ih (j + 1) m1 (by rw [← List.drop_drop, hd]; rfl) hm1 (crossref_told h hnone hsome hlm hm hx e1) e
      rw [List.length_cons, show j + (l.length + 1) = j + 1 + l.length from by omega]
      exact this
  have := hloop s.nodes 0 s.m rfl hlink ⟨fun p hp => absurd rfl hp, fun k x hk => by omega, fun _ _ _ _ _ => rfl⟩ e'
  rw [Nat.zero_add] at this
  exact this

end
end Verif.Lemmas.LoadRef
