import Verif.Lemmas.SaveLoop
/-!
`mr_save` ends when only finitely many objects can be reached.
-/
namespace Verif.Lemmas.SaveGraph
open Verif.Model Verif.Model.Ptrs Verif.Model.Save Verif.Spec.Ptrs Verif.Spec.Save Verif.Lemmas.SaveTree Verif.Lemmas.SaveInv Verif.Lemmas.SaveStep
  Verif.Lemmas.SaveRun Verif.Lemmas.SaveResolve Verif.Lemmas.SaveHandler Verif.Lemmas.SaveInner Verif.Lemmas.SaveMain Verif.Lemmas.SaveLoop

variable {mem : Mem} {tds : List Td} {root : Obj} {st : St} {ks : Nat → List Nat} {obj : Nat → Obj} {O : Nat → Option Nat}

/-- the number of nodes a node can lead to without reaching a new object, with itself -/
def wt (o : Obj) : Nat := if o.ty = .pointer ∧ o.aux = .pointer then 2 else 1

def tot (w : Nat → Nat) (i : Nat) : Nat → Nat
  | 0 => 0
  | n + 1 => tot w i n + (if i ≤ n then w n else 0)

theorem tot_out (w : Nat → Nat) {i n : Nat} (h : n ≤ i) : tot w i n = 0 := by
  induction n with
  | zero => rfl
  | succ n ih => rw [tot, ih (by omega), if_neg (by omega)]

theorem tot_step (w : Nat → Nat) {i n : Nat} (h : i < n) : tot w i n = w i + tot w (i + 1) n := by
  induction n with
  | zero => omega
  | succ n ih =>
    rw [tot, tot]
    by_cases hi : i = n
    · subst hi
      rw [if_pos (Nat.le_refl _), if_neg (by omega), tot_out w (Nat.le_refl _), tot_out w (by omega)]
      omega
    · rw [ih (by omega), if_pos (by omega), if_pos (by omega)]
      omega

theorem tot_congr {w w' : Nat → Nat} {i n : Nat} (h : ∀ j, j < n → w' j = w j) : tot w' i n = tot w i n := by
  induction n with
  | zero => rfl
  | succ n ih => rw [tot, tot, ih (fun j hj => h j (by omega)), h n (by omega)]

theorem tot_grow (w : Nat → Nat) (hw : ∀ j, w j ≤ 2) (i n m : Nat) : tot w i (n + m) ≤ tot w i n + 2 * m := by
  induction m with
  | zero => simp
  | succ m ih =>
    rw [← Nat.add_assoc, tot]
    have := hw (n + m)
    split <;> omega

open Classical in
/-- the objects without a node -/
noncomputable def missing (K : List Obj) (obj : Nat → Obj) (n : Nat) : Nat := (K.filter fun k => decide (∀ j, 1 ≤ j → j < n → obj j ≠ k)).length

theorem filter_le {α : Type} (K : List α) (p q : α → Bool) (h : ∀ x, p x = true → q x = true) : (K.filter p).length ≤ (K.filter q).length := by
  induction K with
  | nil => simp
  | cons x K ih =>
    simp only [List.filter_cons]
    cases hp : p x with
    | true => simp [h x hp, ih]
    | false =>
      cases q x with
      | true => simp; omega
      | false => simp [ih]

theorem filter_lt {α : Type} (K : List α) (p q : α → Bool) (h : ∀ x, p x = true → q x = true) {a : α} (ha : a ∈ K) (h1 : q a = true) (h2 : p a = false) :
    (K.filter p).length + 1 ≤ (K.filter q).length := by
  induction K with
  | nil => cases ha
  | cons x K ih =>
    simp only [List.filter_cons]
    rcases List.mem_cons.1 ha with rfl | ha
    · have := filter_le K p q h
      simp [h1, h2]; omega
    · have := ih ha
      cases hp : p x with
      | true => simp [h x hp]; omega
      | false =>
        cases q x with
        | true => simp; omega
        | false => simp; omega

theorem missing_le {K : List Obj} {obj obj' : Nat → Obj} {n n' : Nat} (hn : n ≤ n') (h : ∀ j, j < n → obj' j = obj j) : missing K obj' n' ≤ missing K obj n := by
  apply filter_le
  intro x hx
  simp only [decide_eq_true_eq] at hx ⊢
  intro j h1 h2
  rw [← h j h2]
  exact hx j h1 (by omega)

theorem missing_lt {K : List Obj} {obj obj' : Nat → Obj} {n n' : Nat} (hn : n ≤ n') (h : ∀ j, j < n → obj' j = obj j) {o : Obj} (ho : o ∈ K)
    (h1 : ∀ j, 1 ≤ j → j < n → obj j ≠ o) {m : Nat} (hm1 : 1 ≤ m) (hm2 : m < n') (hm : obj' m = o) : missing K obj' n' + 1 ≤ missing K obj n := by
  refine filter_lt _ _ _ ?_ ho ?_ ?_
  · intro x hx
    simp only [decide_eq_true_eq] at hx ⊢
    intro j h1 h2
    rw [← h j h2]
    exact hx j h1 (by omega)
  · simp only [decide_eq_true_eq]; exact h1
  · simp only [decide_eq_false_iff_not]
    exact fun hx => hx m hm1 hm2 hm

theorem contents_ok (hT : Types tds) {rk : Nat → Nat} (hrk : Nested tds rk) {d depth C : Nat} (hd : d ≤ depth) {K : List Obj}
    (hK : ∀ x, Reach mem tds root x → x ∈ K) (hneed : ∀ x ∈ K, need rk x ≤ d) (hC : ∀ x ∈ K, cnt tds d x ≤ C) (fuel : Nat) :
    ∀ (st : St) (ks : Nat → List Nat) (obj : Nat → Obj) (O : Nat → Option Nat) (i : Nat), Loop mem tds root st ks obj O i → 1 ≤ i →
      tot (fun j => wt (obj j)) i st.ptrs.ra.length + 2 * C * missing K obj st.ptrs.ra.length < fuel →
      ∃ st' ks' obj' O', saveContents mem tds depth fuel st i = some (st', 1) ∧ Inv mem tds (Single mem tds root) root st' ks' obj' O' (fun _ => False) ∧
        (∀ j, 1 ≤ j → j < st'.ptrs.ra.length → O' j = none) ∧ st.ptrs.ra.length ≤ st'.ptrs.ra.length := by
  induction fuel with
  | zero => intro _ _ _ _ _ _ _ h; omega
  | succ fuel ih =>
    intro st ks obj O i h h1 hm
    rw [saveContents]
    by_cases h2 : i < st.ptrs.ra.length
    · rw [if_pos h2, nd_get h2, ni_get (by rw [h.inv.len]; exact h2)]
      simp only [Option.bind_eq_bind, Option.bind_some]
      have hiff := hasContent_iff h h1 h2
      have hw1 : 1 ≤ wt (obj i) := by unfold wt; split <;> omega
      rw [tot_step _ h2] at hm
      by_cases hc : hasContent (nd st.ptrs.ra i) (ni st.info i) = true
      · rw [if_pos hc]
        obtain ⟨hty, hts⟩ := hiff.1 hc
        obtain ⟨o, ht⟩ := Option.isSome_iff_exists.1 hts
        have hro : Reach mem tds root o := Reach.lead (reach_root h.inv.inv h1 h2) ht
        have hoK := hK o hro
        obtain ⟨st', ks', obj', O', e1, e2, e3, e4⟩ := content_ok hT (saveInner_ok (root := root) hT hrk d depth hd) h h1 h2 hty ht (hneed o hoK)
        rw [e1]
        simp only [Option.bind_some]
        rw [if_neg (by omega)]
        have hgrow := e3.grow
        have htot : ∀ i, tot (fun j => wt (obj' j)) i st.ptrs.ra.length = tot (fun j => wt (obj j)) i st.ptrs.ra.length :=
          fun i => tot_congr fun j hj => by rw [e3.objs j hj]
        have hmle := missing_le (K := K) e3.grow e3.objs
        have hmul := Nat.mul_le_mul_left (2 * C) hmle
        have hok : tot (fun j => wt (obj' j)) (i + 1) st'.ptrs.ra.length + 2 * C * missing K obj' st'.ptrs.ra.length < fuel := by
          by_cases hn : st.ptrs.ra.length < st'.ptrs.ra.length
          · have hfirst := e3.first hn
            by_cases hne : neverEqual o.ty = true
            · rcases target_ty (h.inv.inv.seen i h1 h2).ok ht with ⟨_, hp | hp⟩ | ⟨h3, _⟩
              · cases hty' : o.ty <;> rw [hty'] at hne hp <;> simp [neverEqual, plain] at hne hp
              · have ho := (h.inv.inv.seen i h1 h2).ok
                unfold ObjOK at ho
                rw [hty] at ho
                unfold target at ht
                rw [hty] at ht
                simp only at ht ho
                split at ht
                · cases ht
                · rename_i hu
                  simp only [Bool.or_eq_true, not_or] at hu
                  have he := Option.some.inj ht
                  rcases ho with ho | ⟨b, hb1, hb2⟩
                  · exact absurd ho hu.1
                  · have haux : (obj i).aux = .pointer := by
                      rw [← he, object_ty] at hp; exact hp
                    have hoaux : o.aux = b := by
                      rw [← he, tyOf_has hb1, haux]
                      simp only [object]
                      split <;> rfl
                    have hbp : b ≠ .pointer := by
                      intro hb
                      rw [hb, haux] at hb2
                      rcases hb2 with ⟨_, h4⟩ | ⟨_, h4 | h4⟩ <;> simp [plain, untyped] at h4
                    have hwo : wt o = 1 := by
                      unfold wt
                      rw [if_neg]
                      rw [hoaux]
                      exact fun h => hbp h.2
                    have hwi : wt (obj i) = 2 := by
                      unfold wt
                      rw [if_pos ⟨hty, haux⟩]
                    have hcomp : components tds o = [] := by unfold components; rw [hp]
                    have := cnt_leaf (tds := tds) hcomp (by rw [hp]; simp) d
                    have hlen : st'.ptrs.ra.length = st.ptrs.ra.length + 1 := by omega
                    rw [hlen, tot, if_pos (by omega), hfirst, hwo, htot]
                    rw [hlen] at hmul
                    omega
              · rw [hty] at h3; cases h3
            · have hfresh := e3.fresh (by simp [ptrLike, hty]) hn (by simpa using hne)
              have hlt := missing_lt (K := K) e3.grow e3.objs hoK hfresh (by have := h.inv.inv.pos; omega) hn hfirst
              have hmul2 := Nat.mul_le_mul_left (2 * C) hlt
              rw [Nat.mul_add, Nat.mul_one] at hmul2
              have hCo := hC o hoK
              have hg := tot_grow (fun j => wt (obj' j)) (fun j => by show wt _ ≤ 2; unfold wt; split <;> omega) (i + 1) st.ptrs.ra.length (st'.ptrs.ra.length - st.ptrs.ra.length)
              rw [show st.ptrs.ra.length + (st'.ptrs.ra.length - st.ptrs.ra.length) = st'.ptrs.ra.length by omega, htot] at hg
              have : 2 * (st'.ptrs.ra.length - st.ptrs.ra.length) ≤ 2 * C := by omega
              omega
          · have hlen : st'.ptrs.ra.length = st.ptrs.ra.length := by omega
            rw [hlen] at hmul ⊢
            rw [htot]
            omega
        obtain ⟨st2, ks2, obj2, O2, f1, f2, f3, f4⟩ := ih st' ks' obj' O' (i + 1) e2 (by omega) hok
        exact ⟨st2, ks2, obj2, O2, f1, f2, f3, by omega⟩
      · rw [if_neg hc]
        refine ih st ks obj O (i + 1) ⟨h.inv, ?_, fun j j1 j2 j3 => h.todo j j1 (by omega) j3, h.lc⟩ (by omega) (by omega)
        intro j j1 j2 j3
        by_cases hj : j = i
        · subst hj
          rw [h.todo j j1 (Nat.le_refl _) j3, pend, if_neg]
          exact fun h => hc (hiff.2 h)
        · exact h.done j j1 (by omega) j3
    · rw [if_neg h2]
      exact ⟨st, ks, obj, O, rfl, h.inv, fun j j1 j2 => h.done j j1 (by omega) j2, Nat.le_refl _⟩

theorem le_sum (K : List Obj) (f : Obj → Nat) {x : Obj} (hx : x ∈ K) : f x ≤ (K.map f).sum := by
  induction K with
  | nil => cases hx
  | cons y K ih =>
    simp only [List.map_cons, List.sum_cons]
    rcases List.mem_cons.1 hx with rfl | h
    · omega
    · have := ih h; omega

theorem graph_ok (hT : Types tds) {data : Nat} {fd : Fd} (hok : FdOK tds fd) {K : List Obj} (hK : ∀ x, Reach mem tds (ofFd data fd) x → x ∈ K) :
    ∃ N, ∀ fuel, N ≤ fuel → ∃ st ks obj O, saveGraph mem tds fuel data fd = some (st, 1) ∧
      Inv mem tds (Single mem tds (ofFd data fd)) (ofFd data fd) st ks obj O (fun _ => False) ∧
      (∀ j, 1 ≤ j → j < st.ptrs.ra.length → O j = none) ∧ 1 < st.ptrs.ra.length := by
  obtain ⟨rk, hrk⟩ := hT.nested
  let d := (K.map (need rk)).sum
  have hneed : ∀ x ∈ K, need rk x ≤ d := fun x hx => le_sum K (need rk) hx
  let C := (K.map (cnt tds d)).sum
  have hC : ∀ x ∈ K, cnt tds d x ≤ C := fun x hx => le_sum K (cnt tds d) hx
  have hroot := hneed _ (hK _ Reach.self)
  refine ⟨d + 1 + (2 * (1 + cnt tds (d + 1) (ofFd data fd)) + 2 * C * K.length) + 1, ?_⟩
  intro fuel hf
  cases fuel with
  | zero => omega
  | succ fuel =>
    have hok' : FdOK tds { fd with unnamed := true } := hok
    obtain ⟨st, ks, obj, O, e1, e2, e3, e4, e5, e6⟩ := root_ok (mem := mem) (data := data) hT hrk (d := d) (fuel := fuel) (by omega) hok' rfl (by
      show need rk (ofFd data fd) ≤ d + 1
      omega)
    have hofd : ofFd data { fd with unnamed := true } = ofFd data fd := rfl
    rw [hofd] at e2 e6
    have hloop : Loop mem tds (ofFd data fd) st ks obj O 1 := ⟨e2, fun j j1 j2 => by omega, fun j j1 _ j3 => e4 j j1 j3, e5⟩
    obtain ⟨st', ks', obj', O', f1, f2, f3, f4⟩ := contents_ok hT hrk (d := d) (depth := fuel + 1) (C := C) (by omega) hK hneed hC (fuel + 1) st ks obj O 1 hloop (by omega) (by
      have h1 := tot_grow (fun j => wt (obj j)) (fun j => by show wt _ ≤ 2; unfold wt; split <;> omega) 1 0 st.ptrs.ra.length
      rw [Nat.zero_add] at h1
      have h2 : tot (fun j => wt (obj j)) 1 0 = 0 := rfl
      have h3 : missing K obj st.ptrs.ra.length ≤ K.length := List.length_filter_le _ _
      have h4 := Nat.mul_le_mul_left (2 * C) h3
      omega)
    refine ⟨st', ks', obj', O', ?_, f2, f3, by omega⟩
    unfold saveGraph
    rw [e1]
    simp only [Option.bind_eq_bind, Option.bind_some]
    rw [if_neg (by omega)]
    exact f1

end Verif.Lemmas.SaveGraph
