import Verif.Lemmas.SimGraph
import Verif.Lemmas.SaveFinal
/-!
The post-processing gives the same nodes for isomorphic graphs.
-/
namespace Verif.Lemmas.SimPost
open Verif.Model Verif.Model.Ptrs Verif.Model.Save Verif.Spec.Ptrs Verif.Spec.Save Verif.Spec.Copy Verif.Lemmas.SaveTree Verif.Lemmas.SaveInv Verif.Lemmas.SavePost
  Verif.Lemmas.SimTwin Verif.Lemmas.SimObj Verif.Lemmas.SimGraph

/-- the order in which nodes at one address are preferred: the largest, and then the last one -/
def Le (st : St) (x y : Nat) : Prop := (ni st.info x).size < (ni st.info y).size ∨ ((ni st.info x).size = (ni st.info y).size ∧ x ≤ y)

theorem bestMatch_max {obj : Nat → Obj} {st : St} {n a : Nat} (hl : st.info.length = n) (ha : ∀ j, 1 ≤ j → j < n → (ni st.info j).addr = (obj j).addr)
    (hn : ∀ j, 1 ≤ j → j < n → Prev obj ((obj j).addr / 4) j (ni st.info j).nextUntyped) (fuel : Nat) :
    ∀ hi node best b, hi ≤ n → Prev obj (a / 4) hi node → (best ≠ 0 → best < n ∧ hi ≤ best) → bestMatch st a fuel node best = some b →
      (best ≠ 0 → Le st best b) ∧ ∀ m, 1 ≤ m → m < hi → (obj m).addr = a → Le st m b := by
  induction fuel with
  | zero => intro hi node best b _ _ _ h; cases h
  | succ fuel ih =>
    intro hi node best b hhi hp hb h
    unfold bestMatch at h
    by_cases h0 : node = 0
    · rw [if_pos h0] at h
      cases h
      exact ⟨fun _ => Or.inr ⟨rfl, Nat.le_refl _⟩, fun m h1 h2 h3 => absurd (by rw [h3]) (hp.2.2 m (by omega) h2)⟩
    · rw [if_neg h0] at h
      have hlt : node < n := by have := hp.1; omega
      rw [ni_get (by omega : node < st.info.length)] at h
      simp only [Option.bind_eq_bind, Option.bind_some] at h
      have hpn := hn node (by omega) hlt
      have hadr := hp.2.1 h0
      rw [hadr] at hpn
      have hlo := hp.1
      rw [ha node (by omega) hlt] at h
      have skip : ∀ m, m < hi → (obj m).addr = a → ¬ node < m := fun m g1 g2 g3 => hp.2.2 m g3 g1 (by rw [g2])
      by_cases hm : (obj node).addr = a
      · rw [if_pos hm] at h
        by_cases hb0 : best = 0
        · rw [if_pos hb0] at h
          obtain ⟨b1, b2⟩ := ih node _ node b (by omega) hpn (fun _ => ⟨hlt, Nat.le_refl _⟩) h
          refine ⟨fun g => absurd hb0 g, fun m g1 g2 g3 => ?_⟩
          have := skip m g2 g3
          by_cases hmn : m = node
          · subst hmn; exact b1 h0
          · exact b2 m g1 (by omega) g3
        · rw [if_neg hb0, ni_get (by have := (hb hb0).1; omega : best < st.info.length)] at h
          simp only [Option.bind_some] at h
          have hbb := (hb hb0).2
          split at h
          · rename_i hgt
            obtain ⟨b1, b2⟩ := ih node _ node b (by omega) hpn (fun _ => ⟨hlt, Nat.le_refl _⟩) h
            have b1 := b1 h0
            refine ⟨fun _ => ?_, fun m g1 g2 g3 => ?_⟩
            · unfold Le at *; omega
            · have := skip m g2 g3
              by_cases hmn : m = node
              · subst hmn; exact b1
              · exact b2 m g1 (by omega) g3
          · rename_i hgt
            obtain ⟨b1, b2⟩ := ih node _ best b (by omega) hpn (fun _ => ⟨(hb hb0).1, by omega⟩) h
            have b1 := b1 hb0
            refine ⟨fun _ => b1, fun m g1 g2 g3 => ?_⟩
            have := skip m g2 g3
            by_cases hmn : m = node
            · subst hmn; unfold Le at *; omega
            · exact b2 m g1 (by omega) g3
      · rw [if_neg hm] at h
        obtain ⟨b1, b2⟩ := ih node _ best b (by omega) hpn (fun g => ⟨(hb g).1, by have := (hb g).2; omega⟩) h
        refine ⟨b1, fun m g1 g2 g3 => ?_⟩
        have := skip m g2 g3
        by_cases hmn : m = node
        · subst hmn; exact absurd g3 hm
        · exact b2 m g1 (by omega) g3

theorem le_twin {s t : St} (h : Twin s t) (x y : Nat) : Le t x y ↔ Le s x y := by
  unfold Le
  rw [(core_eq (h.ni x)).2.2.1, (core_eq (h.ni y)).2.2.1]

theorem redirect_twin {s t : St} (h : Twin s t) {i : Nat} {s' t' : St} (e : redirect s i = some s') (e' : redirect t i = some t') : Twin s' t' := by
  unfold redirect at e e'
  rw [h.ptrs] at e'
  cases hx : s.ptrs.ra[i]? with
  | none => simp [hx] at e
  | some pd =>
    simp only [hx, Option.bind_eq_bind, Option.bind_some] at e e'
    by_cases hr : pd.ref = true
    · rw [if_pos hr] at e e'
      cases hy : s.ptrs.ra[pd.firstChild]? with
      | none => simp [hy] at e
      | some r =>
        simp only [hy, Option.bind_some] at e e'
        by_cases hp : r.parent = 0
        · rw [if_pos hp] at e e'
          cases e; cases e'; exact h
        · rw [if_neg hp] at e e'
          cases hz : s.ptrs.ra[r.parent]? with
          | none => simp [hz] at e
          | some p =>
            simp only [hz, Option.bind_some] at e e'
            by_cases hs : p.ty = .string
            · rw [if_pos hs] at e e'
              simp only [Option.bind_eq_some_iff] at e e'
              obtain ⟨a, ha, e⟩ := e
              obtain ⟨b, hb, e'⟩ := e'
              exact updPd_twin (updPd_twin h ha hb) e e'
            · rw [if_neg hs] at e e'
              cases e; cases e'; exact h
    · rw [if_neg hr] at e e'
      cases e; cases e'; exact h

theorem charSize_twin {s t : St} (h : Twin s t) {i : Nat} {pd : Pd} {s' t' : St} (e : charSize s i pd = some s') (e' : charSize t i pd = some t') : Twin s' t' := by
  unfold charSize at e e'
  rw [h.ptrs] at e'
  by_cases h0 : pd.parent = 0
  · rw [if_pos h0] at e e'
    cases e; cases e'; exact h
  · rw [if_neg h0] at e e'
    cases hx : s.ptrs.ra[pd.parent]? with
    | none => simp [hx] at e
    | some p =>
      simp only [hx, Option.bind_eq_bind, Option.bind_some] at e e'
      by_cases hc : (p.ty = .array ∨ p.ty = .pointer) ∧ pd.next ≠ 0
      · rw [if_pos hc] at e e'
        cases hy : s.info[pd.next]? with
        | none => simp [hy] at e
        | some y =>
          obtain ⟨z, hz, hc⟩ := h.get hy
          simp only [hy, hz, Option.bind_some, (core_eq hc).2.2.1] at e e'
          exact updInfo_twin h (fun a b hab => by
            obtain ⟨g1, g2, g3, g4, g5, g6⟩ := core_eq hab
            simp [core, g1, g2, g3, g4, g5, g6]) e e'
      · rw [if_neg hc] at e e'
        cases e; cases e'; exact h

variable {mem mem' : Mem} {tds : List Td} {root root' : Obj} {U U' : Prop} {P0 : Nat → Pd} {I0 I0' : Nat → Info} {index index' : Nat → Nat} {n : Nat}
  {ks ks' : Nat → List Nat} {obj obj' : Nat → Obj} {O O' : Nat → Option Nat} {pl : Obj → Nat}

/-- What is known about pointers without a type in both memories; `F` are the links of the nodes at the end. -/
structure Void (mem mem' : Mem) (P0 : Nat → Pd) (I0 : Nat → Info) (n : Nat) (obj : Nat → Obj) (pl : Obj → Nat) (F : Nat → Nat × Bool × Bool) : Prop where
  noText : ∀ i b, 1 ≤ i → i < n → (obj i).ty = .pointer → untyped (obj i).aux = true → (I0 i).null = false → 1 ≤ b → b < n → (obj b).addr = mem.ptr (obj i).addr → ¬ Text P0 b
  hit : ∀ i b, 1 ≤ i → i < n → (obj i).ty = .pointer → untyped (obj i).aux = true → (I0 i).null = false → 1 ≤ b → b < n → F i = (b, true, false) →
    (obj b).addr = mem.ptr (obj i).addr → mem'.ptr (pl (obj i)) = pl (obj b) ∧ ∀ j, 1 ≤ j → j < n → pl (obj j) = pl (obj b) → (obj j).addr = (obj b).addr
  miss : ∀ i, 1 ≤ i → i < n → (obj i).ty = .pointer → untyped (obj i).aux = true → (I0 i).null = false → F i = (0, false, false) →
    (∀ j, 1 ≤ j → j < n → (obj j).addr ≠ mem.ptr (obj i).addr) → ∀ j, 1 ≤ j → j < n → pl (obj j) ≠ mem'.ptr (pl (obj i))

theorem step_sim (h : InvF mem tds U root P0 I0 index n ks obj O (fun _ => False)) (hO : ∀ j, 1 ≤ j → j < n → O j = none)
    (h' : InvF mem' tds U' root' P0 I0' index' n ks' obj' O' (fun _ => False)) (hO' : ∀ j, 1 ≤ j → j < n → O' j = none)
    (hobj : ∀ i, 1 ≤ i → i < n → obj' i = moved (obj i) (pl (obj i))) {F : Nat → Nat × Bool × Bool} (hv : Void mem mem' P0 I0 n obj pl F) {i : Nat} (h1 : 1 ≤ i) (h2 : i < n) {s t : St}
    (hj : J mem P0 I0 index n obj i s) (hj' : J mem' P0 I0' index' n obj' i t) (ht : Twin s t) {s' t' : St}
    (e : resolveVoidAndStrings mem s i = some s') (e' : resolveVoidAndStrings mem' t i = some t') (hF : lk (nd s'.ptrs.ra i) = F i) : Twin s' t' := by
  have hs := h.seen i h1 h2
  have hs' := h'.seen i h1 h2
  unfold resolveVoidAndStrings at e e'
  simp only [Option.bind_eq_bind, Option.bind_eq_some_iff] at e e'
  obtain ⟨s1, e, er⟩ := e
  obtain ⟨t1, e', er'⟩ := e'
  suffices ht1 : Twin s1 t1 from redirect_twin ht1 er er'
  obtain ⟨s1', b1, b2, b3⟩ := resolveByType_ok h hO h1 h2 hj
  rw [e] at b1
  cases b1
  unfold resolveByType at e e'
  rw [nd_get (by rw [hj.len]; exact h2), ni_get (by rw [hj.leni]; exact h2)] at e
  rw [nd_get (by rw [hj'.len]; exact h2), ni_get (by rw [hj'.leni]; exact h2), show nd t.ptrs.ra i = nd s.ptrs.ra i by rw [ht.ptrs]] at e'
  simp only [Option.bind_eq_bind, Option.bind_some] at e e'
  obtain ⟨g1, g2, g3, g4, g5, g6⟩ := core_eq (ht.ni i)
  have hty : (nd s.ptrs.ra i).ty = (obj i).ty := by rw [(hj.same i).2.2.1, hs.ty]
  have haddr : (ni s.info i).addr = (obj i).addr := by rw [hj.addr, hs.addr]
  have haddr' : (ni t.info i).addr = pl (obj i) := by rw [hj'.addr, hs'.addr, hobj i h1 h2]; rfl
  split at e
  · rename_i hp
    rw [hp] at e'
    simp only at e'
    rw [g2, g5] at e'
    by_cases hc : ((ni s.info i).aux = .none ∨ (ni s.info i).aux = .void) ∧ (ni s.info i).null = false
    · rw [if_pos hc] at e e'
      rw [hty] at hp
      have haux : (ni s.info i).aux = (obj i).aux := by rw [hj.aux]; exact hs.aux hp
      have hu : untyped (obj i).aux = true := by rw [← haux]; unfold untyped; rcases hc.1 with h | h <;> rw [h] <;> rfl
      have hnull : (I0 i).null = false := by rw [← (hj.todo i (Nat.le_refl _)).2]; exact hc.2
      unfold resolveVoid at e e'
      obtain ⟨u, a1, a2, a3, a4⟩ := step_info s i (fun n => { n with null := true }) (by rw [hj.leni]; exact h2) (fun _ => ⟨rfl, rfl, rfl, rfl, rfl⟩) (fun _ _ => rfl)
      obtain ⟨w, c1, c2, c3, c4⟩ := step_info t i (fun n => { n with null := true }) (by rw [hj'.leni]; exact h2) (fun _ => ⟨rfl, rfl, rfl, rfl, rfl⟩) (fun _ _ => rfl)
      rw [a1] at e
      rw [c1] at e'
      have hw : Twin u w := updInfo_twin ht (fun a b hab => by
        obtain ⟨g1, g2, g3, g4, g5, g6⟩ := core_eq hab
        simp [core, g1, g2, g3, g4, g6]) a1 c1
      simp only [Option.bind_eq_bind, Option.bind_some] at e e'
      rw [a2.len, hj.len, haddr, a2.index, hj.index] at e
      rw [c2.len, hj'.len, haddr', c2.index, hj'.index] at e'
      obtain ⟨b, d1, d2, d3⟩ := bestMatch_ok (obj := obj) (st := u) (n := n) (a := mem.ptr (obj i).addr) (by rw [a2.leni, hj.leni])
        (fun j h3 h4 => by rw [a2.addr, hj.addr]; exact (h.seen j h3 h4).addr) (fun j h3 h4 => by rw [a2.nextU, hj.nextU]; exact h.bnext j h3 h4)
        (n + 1) n _ 0 (Nat.le_refl n) (h.bhead _) (by have := (h.bhead (mem.ptr (obj i).addr / 4)).1; omega) (fun h => absurd rfl h)
      have d4 := (bestMatch_max (obj := obj) (st := u) (n := n) (a := mem.ptr (obj i).addr) (by rw [a2.leni, hj.leni])
        (fun j h3 h4 => by rw [a2.addr, hj.addr]; exact (h.seen j h3 h4).addr) (fun j h3 h4 => by rw [a2.nextU, hj.nextU]; exact h.bnext j h3 h4)
        (n + 1) n _ 0 b (Nat.le_refl n) (h.bhead _) (fun h => absurd rfl h) d1).2
      obtain ⟨b', f1, f2, f3⟩ := bestMatch_ok (obj := obj') (st := w) (n := n) (a := mem'.ptr (pl (obj i))) (by rw [c2.leni, hj'.leni])
        (fun j h3 h4 => by rw [c2.addr, hj'.addr]; exact (h'.seen j h3 h4).addr) (fun j h3 h4 => by rw [c2.nextU, hj'.nextU]; exact h'.bnext j h3 h4)
        (n + 1) n _ 0 (Nat.le_refl n) (h'.bhead _) (by have := (h'.bhead (mem'.ptr (pl (obj i)) / 4)).1; omega) (fun h => absurd rfl h)
      have f4 := (bestMatch_max (obj := obj') (st := w) (n := n) (a := mem'.ptr (pl (obj i))) (by rw [c2.leni, hj'.leni])
        (fun j h3 h4 => by rw [c2.addr, hj'.addr]; exact (h'.seen j h3 h4).addr) (fun j h3 h4 => by rw [c2.nextU, hj'.nextU]; exact h'.bnext j h3 h4)
        (n + 1) n _ 0 b' (Nat.le_refl n) (h'.bhead _) (fun h => absurd rfl h) f1).2
      have hadr' : ∀ j, 1 ≤ j → j < n → (obj' j).addr = pl (obj j) := fun j j1 j2 => by rw [hobj j j1 j2]; rfl
      rw [d1] at e
      rw [f1] at e'
      simp only [Option.bind_some] at e e'
      have hl0 := untyped_ok h hO h1 h2 ⟨hp, hu⟩
      -- the links after this step
      obtain ⟨s2, r1, r2, r3, r4, _⟩ := redirect_ok h h1 h2 (by rw [b2.len, hj.len]) (hj.same.trans b2.same) b3
      rw [er] at r1
      cases r1
      unfold Out at r3
      rw [if_pos ⟨hp, hu⟩, hF] at r3
      by_cases hb : b = 0
      · rw [if_pos hb] at e
        cases e
        have hno := (d3 hb).2
        have hFi : F i = (0, false, false) := by
          rcases r3 with ⟨r3, _⟩ | ⟨r, r5, r6, r7, _⟩
          · exact r3
          · exact absurd r7 (hno r r5 r6)
        have hb' : b' = 0 := by
          apply Classical.byContradiction
          intro hb'
          obtain ⟨x1, x2⟩ := f2 hb'
          rw [hadr' b' (by omega) x1] at x2
          exact hv.miss i h1 h2 hp hu hnull hFi hno b' (by omega) x1 x2
        rw [if_pos hb'] at e'
        cases e'
        exact hw
      · obtain ⟨x1, x2⟩ := d2 hb
        rw [if_neg hb] at e
        have hb1 : 1 ≤ b := by omega
        -- the link is to the node found
        have hFi : F i = (b, true, false) := by
          rw [← hF]
          unfold setReference at e
          obtain ⟨s2, q1, q2, q3, q4⟩ := step_links u i (fun pd => { pd with firstChild := b, ref := true }) (by rw [a2.len, hj.len]; exact h2) (fun _ => ⟨rfl, rfl, rfl, rfl, rfl⟩)
          obtain ⟨s3, y1, y2, y3, y4, y5⟩ := step_mark s2 i b (by rw [q2.len, a2.len, hj.len]; exact x1)
          rw [q1] at e
          simp only [Option.bind_eq_bind, Option.bind_some] at e
          rw [y1] at e
          cases e
          have hcr : (nd u.ptrs.ra i).cref = false := by
            have := (hj.todo i (Nat.le_refl _)).1
            rw [hl0] at this
            simp only [lk, Prod.mk.injEq] at this
            rw [a3]; exact this.2.2
          have hlk : lk (nd s1.ptrs.ra i) = (b, true, false) := by
            rw [y3, q3]
            show (b, true, (nd u.ptrs.ra i).cref) = _
            rw [hcr]
          simp only [lk, Prod.mk.injEq] at hlk
          have hnt := hv.noText i b h1 h2 hp hu hnull hb1 x1 x2
          unfold redirect at er
          rw [nd_get (by rw [b2.len, hj.len]; exact h2)] at er
          simp only [Option.bind_eq_bind, Option.bind_some, hlk.2.1, if_true, hlk.1] at er
          rw [nd_get (by rw [b2.len, hj.len]; exact x1)] at er
          simp only [Option.bind_some] at er
          have hsame := hj.same.trans b2.same
          have done : s1 = s' → lk (nd s'.ptrs.ra i) = (b, true, false) := by
            rintro rfl
            unfold lk
            rw [hlk.1, hlk.2.1, hlk.2.2]
          by_cases hpp : (nd s1.ptrs.ra b).parent = 0
          · rw [if_pos hpp] at er
            exact done (Option.some.inj er)
          · rw [if_neg hpp] at er
            cases hz : s1.ptrs.ra[(nd s1.ptrs.ra b).parent]? with
            | none => simp [hz] at er
            | some p =>
              simp only [hz, Option.bind_some] at er
              have hpt : p.ty ≠ .string := by
                intro hst
                apply hnt
                rw [← (hsame.text b)]
                refine ⟨hpp, ?_⟩
                have : nd s1.ptrs.ra (nd s1.ptrs.ra b).parent = p := by
                  unfold nd at hz ⊢; rw [hz]; rfl
                rw [this]; exact hst
              rw [if_neg hpt] at er
              exact done (Option.some.inj er)
        obtain ⟨z1, z2⟩ := hv.hit i b h1 h2 hp hu hnull hb1 x1 hFi x2
        have hbb : b' = b := by
          have hne : b' ≠ 0 := by
            intro h0
            exact (f3 h0).2 b hb1 x1 (by rw [hadr' b hb1 x1, z1])
          obtain ⟨k1, k2⟩ := f2 hne
          rw [hadr' b' (by omega) k1, z1] at k2
          have k3 := z2 b' (by omega) k1 k2
          have l1 := d4 b' (by omega) k1 (by rw [k3, x2])
          have l2 := f4 b hb1 x1 (by rw [hadr' b hb1 x1, z1])
          rw [le_twin hw] at l2
          unfold Le at l1 l2
          omega
        subst hbb
        rw [if_neg hb] at e'
        exact setReference_twin hw e e'
    · rw [if_neg hc] at e e'
      cases e; cases e'; exact ht
  · rename_i hp
    rw [hp] at e'
    simp only at e'
    split at e
    · rename_i hr
      rw [if_pos hr] at e'
      exact updPd_twin ht e e'
    · rename_i hr
      rw [if_neg hr] at e'
      cases e; cases e'; exact ht
  · rename_i hp
    rw [hp] at e'
    exact charSize_twin ht e e'
  · rename_i k1 k2 k3
    split at e'
    · exact absurd ‹_› k1
    · exact absurd ‹_› k2
    · exact absurd ‹_› k3
    · cases e; cases e'; exact ht

theorem postLoop_keep (h : InvF mem tds U root P0 I0 index n ks obj O (fun _ => False)) (hO : ∀ j, 1 ≤ j → j < n → O j = none) (m : Nat) :
    ∀ {i : Nat} {st st' : St}, 1 ≤ i → i + m = n → J mem P0 I0 index n obj i st → postLoop mem m st i = some st' → ∀ j, j < i → lk (nd st'.ptrs.ra j) = lk (nd st.ptrs.ra j) := by
  induction m with
  | zero => intro i st st' _ _ _ e j _; cases e; rfl
  | succ m ih =>
    intro i st st' h1 h2 hj e j hji
    obtain ⟨s1, a1, a2, a3⟩ := resolve_ok h hO h1 (by omega) hj
    unfold postLoop at e
    rw [a1] at e
    rw [ih (by omega) (by omega) a3 e j (by omega), (a2.other j (by omega)).1]

theorem postLoop_sim (h : InvF mem tds U root P0 I0 index n ks obj O (fun _ => False)) (hO : ∀ j, 1 ≤ j → j < n → O j = none)
    (h' : InvF mem' tds U' root' P0 I0' index' n ks' obj' O' (fun _ => False)) (hO' : ∀ j, 1 ≤ j → j < n → O' j = none)
    (hobj : ∀ i, 1 ≤ i → i < n → obj' i = moved (obj i) (pl (obj i))) {F : Nat → Nat × Bool × Bool} (hv : Void mem mem' P0 I0 n obj pl F) (m : Nat) :
    ∀ {i : Nat} {s t s' t' : St}, 1 ≤ i → i + m = n → J mem P0 I0 index n obj i s → J mem' P0 I0' index' n obj' i t → Twin s t →
      postLoop mem m s i = some s' → postLoop mem' m t i = some t' → (∀ j, i ≤ j → j < n → lk (nd s'.ptrs.ra j) = F j) → Twin s' t' := by
  induction m with
  | zero => intro i s t s' t' _ _ _ _ ht e e' _; cases e; cases e'; exact ht
  | succ m ih =>
    intro i s t s' t' h1 h2 hj hj' ht e e' hF
    obtain ⟨s1, a1, a2, a3⟩ := resolve_ok h hO h1 (by omega) hj
    obtain ⟨t1, b1, b2, b3⟩ := resolve_ok h' hO' h1 (by omega) hj'
    unfold postLoop at e e'
    rw [a1] at e
    rw [b1] at e'
    have hk := postLoop_keep h hO m (by omega) (by omega) a3 e i (by omega)
    have hst := step_sim h hO h' hO' hobj hv h1 (by omega) hj hj' ht a1 b1 (by rw [← hk]; exact hF i (Nat.le_refl _) (by omega))
    exact ih (by omega) (by omega) a3 b3 hst e e' fun j j1 j2 => hF j (by omega) j2

/-- the post-processing gives the same nodes -/
theorem post_sim {st st' f f' : St} (h : Inv mem tds U root st ks obj O (fun _ => False)) (hO : ∀ j, 1 ≤ j → j < st.ptrs.ra.length → O j = none)
    (h' : Inv mem' tds U' root' st' ks' obj' O' (fun _ => False)) (hO' : ∀ j, 1 ≤ j → j < st'.ptrs.ra.length → O' j = none) (ht : Twin st st')
    (hn : 1 < st.ptrs.ra.length) (hz : SaveIdx.Z st.ptrs.ra)
    (hobj : ∀ i, 1 ≤ i → i < st.ptrs.ra.length → obj' i = moved (obj i) (pl (obj i)))
    (e : postProcess mem st = some f) (e' : postProcess mem' st' = some f')
    (hv : Void mem mem' (nd st.ptrs.ra) (ni st.info) st.ptrs.ra.length obj pl fun i => lk (nd f.ptrs.ra i)) : Twin f f' := by
  have hlen : st'.ptrs.ra.length = st.ptrs.ra.length := by rw [ht.ptrs]
  obtain ⟨g, k, a1, _, _, _, _, _, _, _, s1, a2, a3⟩ := SaveFinal.post_ok h hO hn hz
  rw [e] at a1
  cases a1
  have hj' := j_start h'
  have hI' := h'.inv
  rw [ht.ptrs] at hj' hI' hO'
  obtain ⟨t1, b1, _⟩ := postLoop_ok hI' hO' (st.ptrs.ra.length - 1) (Nat.le_refl 1) (by omega) hj'
  have := postLoop_sim h.inv hO hI' hO' hobj hv (st.ptrs.ra.length - 1) (Nat.le_refl 1) (by omega) (j_start h) hj' ht a2 b1 (fun j _ _ => (a3 j).symm)
  unfold postProcess at e e'
  rw [a2] at e
  rw [hlen, b1] at e'
  simp only [Option.bind_eq_bind, Option.bind_some, Option.bind_eq_some_iff] at e e'
  obtain ⟨⟨x, ra, y⟩, e1, e2⟩ := e
  obtain ⟨⟨x', ra', y'⟩, f1, f2⟩ := e'
  rw [this.ptrs, e1] at f1
  cases f1
  cases e2
  cases f2
  exact ⟨by simp [this.ptrs], this.info⟩

end Verif.Lemmas.SimPost
