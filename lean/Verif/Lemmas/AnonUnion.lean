import Verif.Spec.AnonUnion

namespace Verif.Lemmas.AnonUnion
open Verif.Model Verif.Model.AnonUnion Verif.Spec.AnonUnion Verif.Spec

/-! ## Decimal numbers -/

theorem decimalLoop_isDecimal : ∀ fuel n, n ≤ fuel → IsDecimal n (decimalLoop fuel n) := by
  intro fuel
  induction fuel with
  | zero =>
    intro n hn
    have : n = 0 := by omega
    subst this
    exact ⟨[0], rfl, by simp, rfl, by simp, by simp⟩
  | succ fuel ih =>
    intro n hn
    unfold decimalLoop
    by_cases h : n < 10
    · rw [if_pos h]
      refine ⟨[n], ?_, ?_, ?_, by simp, ?_⟩
      · have : '0'.toNat = 48 := rfl
        simp [this]; omega
      · intro d hd; simp at hd; omega
      · simp [positional]
      · intro h0; simpa using h0
    · rw [if_neg h]
      obtain ⟨ds, e, hlt, hpos, hne, hz⟩ := ih (n / 10) (by omega)
      refine ⟨ds ++ [n % 10], ?_, ?_, ?_, by simp, ?_⟩
      · rw [e]
        have : '0'.toNat = 48 := rfl
        simp [this]; omega
      · intro d hd
        rcases List.mem_append.1 hd with hd | hd
        · exact hlt d hd
        · simp at hd; omega
      · unfold positional at hpos ⊢
        rw [List.foldl_append, hpos]
        simp; omega
      · intro h0
        exfalso
        cases ds with
        | nil => exact hne rfl
        | cons d ds =>
          simp at h0
          subst h0
          have := hz rfl
          rw [this] at hpos
          simp [positional] at hpos
          omega

theorem decimal_isDecimal (n : Nat) : IsDecimal n (decimal n) := decimalLoop_isDecimal n n (Nat.le_refl _)

theorem decimalLoop_length : ∀ fuel n k, n < 10 ^ (k + 1) → (decimalLoop fuel n).length ≤ k + 1 := by
  intro fuel
  induction fuel with
  | zero => intro n k _; simp [decimalLoop]
  | succ fuel ih =>
    intro n k hn
    unfold decimalLoop
    by_cases h : n < 10
    · simp [h]
    · rw [if_neg h, List.length_append, List.length_singleton]
      cases k with
      | zero => simp at hn; omega
      | succ k =>
        have := ih (n / 10) k (by rw [Nat.pow_succ] at hn; omega)
        omega

theorem decimal_length {n : Nat} (h : n < 1000) : (decimal n).length ≤ 3 :=
  decimalLoop_length n n 2 (by omega)

/-! ## The loop over the members -/

/-- The last offset that is not 0, or `o`. -/
def lastNZ (offs : List Nat) (o : Nat) : Nat := offs.foldl (fun a x => if x ≠ 0 then x else a) o

theorem scanMembers_eq (h : Nat) : ∀ (xs : List Nat) (fds : List Fd) (size : Nat) (hd : Fd),
    fds[h]? = some hd → h ∉ xs → xs.Nodup → (∀ x ∈ xs, ∃ fd, fds[x]? = some fd) →
    ∃ fds', scanMembers h (xs.map some) fds size =
        some (fds', xs.foldl (fun s x => if s < fieldSize fds x then fieldSize fds x else s) size) ∧
      fds'.length = fds.length ∧
      fds'[h]? = some { hd with offset := lastNZ (xs.map (fieldOffset fds)) hd.offset } ∧
      (∀ (x : Nat) (fd : Fd), x ∈ xs → fds[x]? = some fd → fds'[x]? = some { fd with offset := 0 }) ∧
      (∀ x, x ∉ xs → x ≠ h → fds'[x]? = fds[x]?) := by
  intro xs
  induction xs with
  | nil =>
    intro fds size hd hh _ _ _
    exact ⟨fds, rfl, rfl, by rw [hh]; rfl, by simp, fun _ _ _ => rfl⟩
  | cons x xs ih =>
    intro fds size hd hh hnot hnd hall
    obtain ⟨fd, hfd⟩ := hall x List.mem_cons_self
    have hxh : x ≠ h := fun e => hnot (e ▸ List.mem_cons_self)
    have hlt : x < fds.length := (List.getElem?_eq_some_iff.1 hfd).1
    have hhlt : h < fds.length := (List.getElem?_eq_some_iff.1 hh).1
    -- the two updates
    let fds1 := if fd.offset ≠ 0 then fds.set h { hd with offset := fd.offset } else fds
    let hd1 : Fd := { hd with offset := if fd.offset ≠ 0 then fd.offset else hd.offset }
    have hlen1 : fds1.length = fds.length := by simp only [fds1]; split <;> simp
    have hfd1 : fds1[x]? = some fd := by
      simp only [fds1]; split
      · rw [List.getElem?_set_ne (Ne.symm hxh), hfd]
      · exact hfd
    have hh1 : fds1[h]? = some hd1 := by
      simp only [fds1, hd1]; split
      · rw [List.getElem?_set_self hhlt]
      · exact hh
    have ho1 : ∀ y, y ≠ h → fds1[y]? = fds[y]? := by
      intro y hy
      simp only [fds1]; split
      · rw [List.getElem?_set_ne (Ne.symm hy)]
      · rfl
    let fds2 := fds1.set x { fd with offset := 0 }
    have hh2 : fds2[h]? = some hd1 := by
      simp only [fds2]
      rw [List.getElem?_set_ne hxh, hh1]
    have ho2 : ∀ y, y ≠ h → y ≠ x → fds2[y]? = fds[y]? := by
      intro y hy hyx
      simp only [fds2]
      rw [List.getElem?_set_ne (Ne.symm hyx), ho1 y hy]
    have hx2 : fds2[x]? = some { fd with offset := 0 } := by
      simp only [fds2]
      rw [List.getElem?_set_self (by omega)]
    have hxs : ∀ y ∈ xs, y ≠ h ∧ y ≠ x := fun y hy =>
      ⟨fun e => hnot (e ▸ List.mem_cons_of_mem _ hy), fun e => (List.nodup_cons.1 hnd).1 (e ▸ hy)⟩
    obtain ⟨fds', e, hl, h1, h2, h3⟩ := ih fds2 (if size < fd.size then fd.size else size) hd1 hh2
      (fun hm => hnot (List.mem_cons_of_mem _ hm)) (List.nodup_cons.1 hnd).2
      (fun y hy => by
        obtain ⟨z, hz⟩ := hall y (List.mem_cons_of_mem _ hy)
        exact ⟨z, by rw [ho2 y (hxs y hy).1 (hxs y hy).2, hz]⟩)
    have hs : ∀ y ∈ xs, fieldSize fds2 y = fieldSize fds y ∧ fieldOffset fds2 y = fieldOffset fds y := by
      intro y hy
      unfold fieldSize fieldOffset
      rw [ho2 y (hxs y hy).1 (hxs y hy).2]
      exact ⟨rfl, rfl⟩
    have hfold : ∀ s, xs.foldl (fun s x => if s < fieldSize fds2 x then fieldSize fds2 x else s) s =
        xs.foldl (fun s x => if s < fieldSize fds x then fieldSize fds x else s) s := by
      have : ∀ ys : List Nat, (∀ y ∈ ys, y ∈ xs) → ∀ s,
          ys.foldl (fun s x => if s < fieldSize fds2 x then fieldSize fds2 x else s) s =
          ys.foldl (fun s x => if s < fieldSize fds x then fieldSize fds x else s) s := by
        intro ys
        induction ys with
        | nil => intro _ s; rfl
        | cons y ys ihy =>
          intro hy s
          rw [List.foldl_cons, List.foldl_cons, (hs y (hy y List.mem_cons_self)).1,
            ihy (fun z hz => hy z (List.mem_cons_of_mem _ hz))]
      exact this xs (fun _ h => h)
    have hoff : xs.map (fieldOffset fds2) = xs.map (fieldOffset fds) :=
      List.map_congr_left fun y hy => (hs y hy).2
    have hsz : fieldSize fds x = fd.size := by simp [fieldSize, hfd]
    have hof : fieldOffset fds x = fd.offset := by simp [fieldOffset, hfd]
    refine ⟨fds', ?_, ?_, ?_, ?_, ?_⟩
    · rw [List.map_cons, List.foldl_cons, hsz, ← hfold, ← e]
      simp only [scanMembers, Option.bind_eq_bind, Option.bind_some, hfd, hh]
      have : (if fd.offset ≠ 0 then fds.set h { hd with offset := fd.offset } else fds)[x]? =
          some fd := hfd1
      rw [this]
      rfl
    · rw [hl]; simp only [fds2]; rw [List.length_set, hlen1]
    · rw [h1, hoff, List.map_cons, hof]
      rfl
    · intro y d hy hd'
      rcases List.mem_cons.1 hy with rfl | hy
      · rw [hfd] at hd'; cases hd'
        by_cases hm : y ∈ xs
        · exact absurd hm (List.nodup_cons.1 hnd).1
        · rw [h3 y hm hxh, hx2]
      · exact h2 y d hy (by rw [ho2 y (hxs y hy).1 (hxs y hy).2, hd'])
    · intro y hy hyh
      have hyx : y ≠ x := fun e => hy (e ▸ List.mem_cons_self)
      rw [h3 y (fun hm => hy (List.mem_cons_of_mem _ hm)) hyh, ho2 y hyh hyx]

/-! ## Memory -/

theorem readN_mid (A X Z : List (Option Nat)) :
    readN (A ++ (X ++ Z)) A.length X.length = some X := by
  unfold readN
  rw [if_pos (by simp)]
  simp

theorem writeN_prefix (A X ys : List (Option Nat)) (h : ys.length ≤ X.length) :
    writeN (A ++ X) A.length ys = some (A ++ (ys ++ X.drop ys.length)) := by
  unfold writeN
  rw [if_pos (by simp; omega)]
  simp [List.drop_append]

theorem wr_mid {α : Type} (A Z : List α) (x y : α) :
    wr (A ++ x :: Z) A.length y = some (A ++ y :: Z) := by
  unfold wr
  rw [if_pos (by simp)]
  simp

theorem get_mid {α : Type} (A Z : List α) (x : α) : (A ++ x :: Z)[A.length]? = some x := by simp

theorem get_suffix {α : Type} (A B X : List α) (p : Nat) (h : A.length = B.length) (hp : A.length ≤ p) :
    (A ++ X)[p]? = (B ++ X)[p]? := by
  rw [List.getElem?_append_right hp, List.getElem?_append_right (by omega), h]

/-- The rotation of one union to the end of the array. -/
theorem rotate_mem (A F T Q : List (Option Nat)) :
    (do
      let m ← writeN (A ++ (F ++ (T ++ Q))) A.length T
      writeN m (A.length + T.length) F) = some (A ++ (T ++ (F ++ Q))) := by
  rw [writeN_prefix _ _ _ (by simp; omega)]
  simp only [Option.bind_eq_bind, Option.bind_some]
  have h1 : A.length + T.length = (A ++ T).length := by simp
  rw [← List.append_assoc, h1, writeN_prefix _ _ _ (by simp; omega), List.drop_drop]
  have : (F ++ (T ++ Q)).drop (T.length + F.length) = Q := by
    rw [Nat.add_comm, ← List.drop_drop]; simp
  rw [this, List.append_assoc]

/-! ## One union -/

theorem split_eq (st : St) (t i h e count j : Nat) (td ud : Td) (hd ed : Fd) (B R : List Nat)
    (P Q : List (Option Nat)) (tname hname : List Nat)
    (ht : st.tds[t]? = some td)
    (hm : st.mem = P ++ some h :: (B.map some ++ some e :: (R.map some ++ none :: Q)))
    (hP : P.length = td.fields + i) (hc : count = i + 1 + B.length + 1 + R.length)
    (hj : j = i + 1 + B.length) (hh : st.fds[h]? = some hd) (he : st.fds[e]? = some ed)
    (hB : ∀ x ∈ B, ∃ fd, st.fds[x]? = some fd) (hnd : (h :: (B ++ [e])).Nodup)
    (hu : st.tds[hd.res]? = some ud) (hut : hd.res ≠ t)
    (htn : sprintf ud.nameCap (typeName td.name i) = some tname)
    (hhn : headerName td i hd = some hname) :
    ∃ fds', split st t i j h count = some (⟨fds', (st.tds.set hd.res
          { ud with kind := hd.kind, name := tname,
                    size := B.foldl (fun s x => if s < fieldSize st.fds x then fieldSize st.fds x else s) 0,
                    producer := 3, fields := P.length + 1 + R.length + 1 }).set t
          { td with count := i + 1 + R.length },
        P ++ some h :: (R.map some ++ none :: (B.map some ++ none :: Q)), st.added⟩,
        i + 1 + R.length) ∧
      fds'.length = st.fds.length ∧
      fds'[h]? = some { hd with
        name := hname, type := tname,
        size := B.foldl (fun s x => if s < fieldSize st.fds x then fieldSize st.fds x else s) 0,
        offset := lastNZ (B.map (fieldOffset st.fds)) hd.offset, info := ed.info, res := ed.res,
        resType := ed.resType, mrSize := ed.mrSize } ∧
      (∀ (x : Nat) (fd : Fd), x ∈ B → st.fds[x]? = some fd → fds'[x]? = some { fd with offset := 0 }) ∧
      (∀ x, x ∉ B → x ≠ h → fds'[x]? = st.fds[x]?) := by
  obtain ⟨hhB, hBnd⟩ := List.nodup_cons.1 hnd
  have hhB' : h ∉ B := fun x => hhB (List.mem_append.2 (Or.inl x))
  have hhe : e ≠ h := fun x => hhB (List.mem_append.2 (Or.inr (x ▸ List.mem_cons_self)))
  have hBnd' : B.Nodup := (List.nodup_append.1 hBnd).1
  have heB : e ∉ B := fun x => (List.nodup_append.1 hBnd).2.2 e x e List.mem_cons_self rfl
  obtain ⟨fds1, e1, l1, g1, g2, g3⟩ := scanMembers_eq h B st.fds 0 hd hh hhB' hBnd' hB
  have hult : hd.res < st.tds.length := (List.getElem?_eq_some_iff.1 hu).1
  have htlt : t < st.tds.length := (List.getElem?_eq_some_iff.1 ht).1
  have hhlt : h < fds1.length := (List.getElem?_eq_some_iff.1 g1).1
  -- memory
  have hm1 : st.mem = (P ++ [some h]) ++ ((B.map some ++ [some e]) ++ ((R.map some ++ [none]) ++ Q)) := by
    rw [hm]; simp
  have hA : td.fields + i + 1 = (P ++ [some h]).length := by simp; omega
  have hF : j - i = (B.map some ++ [some e]).length := by simp; omega
  have hT : count - j = (R.map some ++ [(none : Option Nat)]).length := by simp; omega
  have hread1 : readN st.mem (td.fields + i + 1) (j - i) = some (B.map some ++ [some e]) := by
    rw [hm1, hA, hF, readN_mid]
  have hread2 : readN st.mem (td.fields + i + 1 + (j - i)) (count - j) =
      some (R.map some ++ [none]) := by
    have := readN_mid ((P ++ [some h]) ++ (B.map some ++ [some e])) (R.map some ++ [none]) Q
    rw [List.append_assoc, List.length_append] at this
    rw [hm1, hA, hF, hT]
    exact this
  have hrot := rotate_mem (P ++ [some h]) (B.map some ++ [some e]) (R.map some ++ [none]) Q
  rw [← hm1, ← hA, ← hT] at hrot
  have hlast : td.fields + count =
      ((P ++ [some h]) ++ ((R.map some ++ [none]) ++ B.map some)).length := by
    simp; omega
  have hm2 : (P ++ [some h]) ++ ((R.map some ++ [none]) ++ ((B.map some ++ [some e]) ++ Q)) =
      ((P ++ [some h]) ++ ((R.map some ++ [none]) ++ B.map some)) ++ some e :: Q := by simp
  rw [hm2] at hrot
  have hget : (((P ++ [some h]) ++ ((R.map some ++ [none]) ++ B.map some)) ++ some e :: Q)[td.fields + count]? =
      some (some e) := by rw [hlast, get_mid]
  have hwr : wr (((P ++ [some h]) ++ ((R.map some ++ [none]) ++ B.map some)) ++ some e :: Q)
      (td.fields + count) none =
      some (((P ++ [some h]) ++ ((R.map some ++ [none]) ++ B.map some)) ++ none :: Q) := by
    rw [hlast, wr_mid]
  have htake : (B.map some ++ [some e]).take (j - i - 1) = B.map some := by
    have : j - i - 1 = (B.map (some : Nat → Option Nat)).length := by simp; omega
    rw [this, List.take_left']
    rfl
  have hed : fds1[e]? = some ed := by rw [g3 e heB hhe, he]
  have hhn' : headerName td i { hd with offset := lastNZ (B.map (fieldOffset st.fds)) hd.offset } =
      some hname := hhn
  have htset : ∀ x : Td, (st.tds.set hd.res x)[t]? = some td := by
    intro x; rw [List.getElem?_set_ne hut, ht]
  obtain ⟨m1, hm1', hrot2⟩ : ∃ m1, writeN st.mem (td.fields + i + 1) (R.map some ++ [none]) = some m1 ∧
      writeN m1 (td.fields + i + 1 + (count - j)) (B.map some ++ [some e]) =
        some (((P ++ [some h]) ++ ((R.map some ++ [none]) ++ B.map some)) ++ some e :: Q) := by
    cases hw : writeN st.mem (td.fields + i + 1) (R.map some ++ [none]) with
    | none => rw [hw] at hrot; simp at hrot
    | some m1 => rw [hw] at hrot; exact ⟨m1, rfl, hrot⟩
  refine ⟨fds1.set h { hd with
        name := hname, type := tname,
        size := B.foldl (fun s x => if s < fieldSize st.fds x then fieldSize st.fds x else s) 0,
        offset := lastNZ (B.map (fieldOffset st.fds)) hd.offset, info := ed.info, res := ed.res,
        resType := ed.resType, mrSize := ed.mrSize }, ?_, ?_, ?_, ?_, ?_⟩
  · simp only [split, ht, hh, Option.bind_eq_bind, Option.bind_some, hread1, hread2, hm1', hrot2,
      htake, e1, hget, hwr, g1, hu, htn, hhn', hed, htset]
    have hcnt : count - (j - i) = i + 1 + R.length := by omega
    have hf : td.fields + (i + 1 + R.length + 1) = P.length + 1 + R.length + 1 := by omega
    rw [hcnt, hf]
    simp
  · rw [List.length_set, l1]
  · rw [List.getElem?_set_self hhlt]
  · intro x fd hx hfd
    have hne : h ≠ x := by
      intro eq
      subst eq
      exact hhB' hx
    rw [List.getElem?_set_ne hne, g2 x fd hx hfd]
  · intro x hx hxh
    rw [List.getElem?_set_ne (Ne.symm hxh), g3 x hx hxh]

/-! ## The other loops -/

theorem countFields_eq (A Q : List (Option Nat)) : ∀ (xs ys : List Nat) (fuel : Nat),
    ys.length < fuel →
    countFields (A ++ (xs.map some ++ (ys.map some ++ none :: Q))) A.length fuel xs.length =
      some (xs.length + ys.length) := by
  intro xs ys
  induction ys generalizing xs with
  | nil =>
    intro fuel hf
    cases fuel with
    | zero => simp at hf
    | succ fuel =>
      have : (A ++ (xs.map some ++ ([].map some ++ none :: Q)))[A.length + xs.length]? = some none := by
        have h := get_mid (A ++ xs.map some) Q none
        rw [List.append_assoc, List.length_append, List.length_map] at h
        exact h
      simp only [countFields, this, Option.bind_eq_bind, Option.bind_some, List.length_nil, Nat.add_zero]
  | cons y ys ih =>
    intro fuel hf
    cases fuel with
    | zero => simp at hf
    | succ fuel =>
      have : (A ++ (xs.map some ++ ((y :: ys).map some ++ none :: Q)))[A.length + xs.length]? =
          some (some y) := by
        have h := get_mid (A ++ xs.map some) (ys.map some ++ none :: Q) (some y)
        rw [List.append_assoc, List.length_append, List.length_map] at h
        exact h
      simp only [countFields, this, Option.bind_eq_bind, Option.bind_some]
      have := ih (xs ++ [y]) fuel (by simpa using hf)
      simp only [List.map_append, List.append_assoc, List.length_append, List.length_singleton,
        List.map_cons, List.map_nil, List.cons_append, List.nil_append] at this
      simp only [List.map_cons, List.cons_append, List.length_cons]
      rw [this]
      congr 1; omega

theorem startStruct_eq (st : St) (t : Nat) (td : Td) (A Q : List (Option Nat)) (xs : List Nat)
    (ht : st.tds[t]? = some td) (hm : st.mem = A ++ (xs.map some ++ none :: Q))
    (hA : td.fields = A.length) :
    startStruct st t = some ({ st with tds := st.tds.set t { td with count := xs.length } }, xs.length) := by
  have h := countFields_eq A Q [] xs (st.mem.length + 1) (by rw [hm]; simp; omega)
  simp only [List.map_nil, List.nil_append, List.length_nil, Nat.zero_add] at h
  rw [← hm] at h
  simp only [startStruct, ht, Option.bind_eq_bind, Option.bind_some, hA, h]

/-! ## Looking for the end record -/

/-- The descriptor of a record in the current state. -/
def zero (inner : Bool) (fd : Fd) : Fd := if inner then { fd with offset := 0 } else fd

def Cur (fds : List Fd) (st : St) (inner : Bool) (f : Nat) : Prop :=
  ∃ fd, fds[f]? = some fd ∧ st.fds[f]? = some (zero inner fd)

theorem zero_kind (inner : Bool) (fd : Fd) : (zero inner fd).kind = fd.kind := by
  cases inner <;> rfl
theorem zero_size (inner : Bool) (fd : Fd) : (zero inner fd).size = fd.size := by
  cases inner <;> rfl
theorem zero_res (inner : Bool) (fd : Fd) : (zero inner fd).res = fd.res := by
  cases inner <;> rfl

theorem Cur.of {fds : List Fd} {st : St} {inner : Bool} {f : Nat} {fd : Fd} (h : Cur fds st inner f)
    (e : fds[f]? = some fd) : st.fds[f]? = some (zero inner fd) := by
  obtain ⟨g, hg, h⟩ := h
  rw [e] at hg; cases hg; exact h

theorem fieldAt_eq {st : St} {p f : Nat} {fd : Fd} (h : st.mem[p]? = some (some f))
    (e : st.fds[f]? = some fd) : fieldAt st p = some (f, fd) := by
  simp [fieldAt, h, e]

theorem findEnd_skip (fds : List Fd) (tds : List Td) (len : Nat) (st : St) (inner : Bool) (base count : Nat) :
    ∀ (d : Decl) (j o fuel : Nat) (A Z : List (Option Nat)),
    st.mem = A ++ ((flat d).map some ++ Z) → A.length = base + j → j + (flat d).length ≤ count →
    1 ≤ o → Records fds tds len d → (∀ f ∈ flat d, Cur fds st inner f) →
    findEnd st base count (fuel + (flat d).length) j o =
      findEnd st base count fuel (j + (flat d).length) o := by
  intro d
  induction d with
  | nil => intro j o fuel A Z _ _ _ _ _ _; rfl
  | field f r ih =>
    intro j o fuel A Z hm hA hc ho hr hcur
    obtain ⟨⟨fd, hfd, k1, k2, k3⟩, hr⟩ := hr
    simp only [flat, List.length_cons] at hc ⊢
    have hg : st.mem[base + j]? = some (some f) := by
      rw [hm, ← hA]; exact get_mid A _ (some f)
    have hfa := fieldAt_eq hg ((hcur f (by simp [flat])).of hfd)
    have hh : isHeader fd.kind = false := by simp [isHeader, k1, k2]
    rw [show fuel + ((flat r).length + 1) = fuel + (flat r).length + 1 by omega]
    simp only [findEnd, show j < count by omega, ↓reduceIte, hfa, Option.bind_eq_bind, Option.bind_some,
      zero_kind, hh, k3, Bool.false_eq_true]
    rw [ih (j + 1) o fuel (A ++ [some f]) Z (by rw [hm]; simp [flat]) (by simp; omega) (by omega) ho hr
      (fun g hg => hcur g (by simp [flat, hg]))]
    congr 1; omega
  | union h b e r ihb ihr =>
    intro j o fuel A Z hm hA hc ho hr hcur
    obtain ⟨⟨hd, hhd, hk, _⟩, ⟨ed, hed, ek, _⟩, hrb, hrr⟩ := hr
    simp only [flat, List.length_cons, List.length_append] at hc ⊢
    have hg : st.mem[base + j]? = some (some h) := by
      rw [hm, ← hA]; exact get_mid A _ (some h)
    have hfa := fieldAt_eq hg ((hcur h (by simp [flat])).of hhd)
    have hh : isHeader hd.kind = true := by rcases hk with hk | hk <;> simp [isHeader, hk]
    have hne : hd.kind ≠ .endAnonUnion := by rcases hk with hk | hk <;> simp [hk]
    have hg2 : st.mem[base + (j + 1 + (flat b).length)]? = some (some e) := by
      have : st.mem = (A ++ some h :: (flat b).map some) ++ some e :: ((flat r).map some ++ Z) := by
        rw [hm]; simp [flat]
      rw [this, show base + (j + 1 + (flat b).length) = (A ++ some h :: (flat b).map some).length by
        simp; omega]
      exact get_mid _ _ _
    have hfa2 := fieldAt_eq hg2 ((hcur e (by simp [flat])).of hed)
    rw [show fuel + ((flat b).length + ((flat r).length + 1) + 1) =
      (fuel + (flat r).length + 1) + (flat b).length + 1 by omega]
    simp only [findEnd, show j < count by omega, ↓reduceIte, hfa, Option.bind_eq_bind, Option.bind_some,
      zero_kind, hh, hne]
    rw [ihb (j + 1) (o + 1) (fuel + (flat r).length + 1) (A ++ [some h])
      (some e :: ((flat r).map some ++ Z)) (by rw [hm]; simp [flat]) (by simp; omega) (by omega)
      (by omega) hrb (fun g hg => hcur g (by simp [flat, hg]))]
    have heh : isHeader .endAnonUnion = false := rfl
    simp only [findEnd, show j + 1 + (flat b).length < count by omega, ↓reduceIte, hfa2,
      Option.bind_eq_bind, Option.bind_some, zero_kind, heh, ek, Bool.false_eq_true,
      show ¬ (o + 1 - 1 = 0) by omega, show o + 1 - 1 = o by omega]
    rw [ihr (j + 1 + (flat b).length + 1) o fuel (A ++ some h :: ((flat b).map some ++ [some e])) Z
      (by rw [hm]; simp [flat]) (by simp; omega) (by omega) ho hrr
      (fun g hg => hcur g (by simp [flat, hg])),
      show j + 1 + (flat b).length + 1 + (flat r).length =
        j + ((flat b).length + ((flat r).length + 1) + 1) by omega]
    simp
    omega

/-- The matching end record of the header at index `i` is found. -/
theorem findEnd_eq (fds : List Fd) (tds : List Td) (len : Nat) (st : St) (inner : Bool)
    (base count i h e : Nat) (b : Decl) (P Z : List (Option Nat))
    (hm : st.mem = P ++ some h :: ((flat b).map some ++ some e :: Z)) (hP : P.length = base + i)
    (hc : i + 1 + (flat b).length < count) (hrb : Records fds tds len b)
    (hcur : ∀ f ∈ flat b, Cur fds st inner f) (ed : Fd) (he : st.fds[e]? = some ed)
    (ek : ed.kind = .endAnonUnion) :
    findEnd st base count (count + 1) (i + 1) 1 = some (some (i + 1 + (flat b).length)) := by
  have hsk := findEnd_skip fds tds len st inner base count b (i + 1) 1
    (count + 1 - (flat b).length) (P ++ [some h]) (some e :: Z) (by rw [hm]; simp) (by simp; omega)
    (by omega) (Nat.le_refl _) hrb hcur
  rw [show count + 1 - (flat b).length + (flat b).length = count + 1 by omega] at hsk
  rw [hsk]
  obtain ⟨n, hn⟩ : ∃ n, count + 1 - (flat b).length = n + 1 := ⟨count - (flat b).length, by omega⟩
  have hg2 : st.mem[base + (i + 1 + (flat b).length)]? = some (some e) := by
    have : st.mem = (P ++ some h :: (flat b).map some) ++ some e :: Z := by rw [hm]; simp
    rw [this, show base + (i + 1 + (flat b).length) = (P ++ some h :: (flat b).map some).length by
      simp; omega]
    exact get_mid _ _ _
  have heh : isHeader .endAnonUnion = false := rfl
  rw [hn]
  simp only [findEnd, hc, ↓reduceIte, fieldAt_eq hg2 he, Option.bind_eq_bind, Option.bind_some, heh, ek,
    Bool.false_eq_true, show (1 - 1 = 0) by omega]

/-! ## Sizes and offsets -/

theorem fold_largest (fds : List Fd) (tds : List Td) (len : Nat) (st : St) (inner : Bool) :
    ∀ (d : Decl) (s : Nat), Records fds tds len d → (∀ f ∈ flat d, Cur fds st inner f) →
    (flat d).foldl (fun s x => if s < fieldSize st.fds x then fieldSize st.fds x else s) s =
      max s (largest fds d) := by
  have hmax : ∀ s x : Nat, (if s < x then x else s) = max s x := by
    intro s x; split <;> omega
  have hsz : ∀ f fd, fds[f]? = some fd → Cur fds st inner f →
      fieldSize st.fds f = fd.size ∧ fieldSize fds f = fd.size := by
    intro f fd e hc
    simp [fieldSize, hc.of e, e, zero_size]
  intro d
  induction d with
  | nil => intro s _ _; simp [flat, largest, leaves]
  | field f r ih =>
    intro s hr hcur
    obtain ⟨⟨fd, hfd, _⟩, hr⟩ := hr
    obtain ⟨h1, h2⟩ := hsz f fd hfd (hcur f (by simp [flat]))
    rw [flat, List.foldl_cons, ih _ hr (fun g hg => hcur g (by simp [flat, hg])), h1, hmax]
    simp only [largest, leaves, List.map_cons, List.foldr_cons, h2]
    omega
  | union h b e r ihb ihr =>
    intro s hr hcur
    obtain ⟨⟨hd, hhd, _, hs0, _⟩, ⟨ed, hed, _, es0, _⟩, hrb, hrr⟩ := hr
    obtain ⟨h1, _⟩ := hsz h hd hhd (hcur h (by simp [flat]))
    obtain ⟨h2, _⟩ := hsz e ed hed (hcur e (by simp [flat]))
    have hL : largest fds (.union h b e r) = max (largest fds b) (largest fds r) := by
      simp only [largest, leaves, List.map_append, List.foldr_append]
      generalize (leaves r).map (fieldSize fds) = ys
      generalize (leaves b).map (fieldSize fds) = xs
      induction xs with
      | nil => simp
      | cons x xs ih => simp only [List.foldr_cons, ih]; omega
    rw [flat, List.foldl_cons, List.foldl_append, List.foldl_cons, h1, h2, hs0, es0,
      ihb _ hrb (fun g hg => hcur g (by simp [flat, hg])),
      ihr _ hrr (fun g hg => hcur g (by simp [flat, hg])), hL]
    simp only [Nat.not_lt_zero, ↓reduceIte]
    omega

theorem lastNZ_zero : ∀ (l : List Nat) (o : Nat), (∀ y ∈ l, y = 0) → lastNZ l o = o := by
  intro l
  induction l with
  | nil => intro o _; rfl
  | cons y l ih =>
    intro o h
    have hy := h y List.mem_cons_self
    subst hy
    show lastNZ l _ = o
    rw [ih _ (fun z hz => h z (List.mem_cons_of_mem _ hz))]
    simp

theorem lastNZ_eq (x : Nat) (hx : x ≠ 0) : ∀ (l : List Nat) (o : Nat), (∀ y ∈ l, y = x ∨ y = 0) →
    (x ∈ l ∨ o = x) → lastNZ l o = x := by
  intro l
  induction l with
  | nil => intro o _ h; simpa [lastNZ] using h
  | cons y l ih =>
    intro o h hin
    show lastNZ l (if y ≠ 0 then y else o) = x
    apply ih _ (fun z hz => h z (List.mem_cons_of_mem _ hz))
    rcases h y List.mem_cons_self with rfl | rfl
    · right; simp [hx]
    · simp only [ne_eq, not_true_eq_false, ↓reduceIte]
      rcases hin with hin | hin
      · rcases List.mem_cons.1 hin with hin | hin
        · exact absurd hin hx
        · exact Or.inl hin
      · exact Or.inr hin

/-- In a body the records that are not fields have offset 0. -/
theorem offsets_flat (fds : List Fd) (tds : List Td) (len : Nat) : ∀ (d : Decl),
    Records fds tds len d → (∀ f ∈ flat d, f ∈ leaves d ∨ fieldOffset fds f = 0) ∧
      (∀ f ∈ leaves d, f ∈ flat d) := by
  intro d
  induction d with
  | nil => intro _; simp [flat, leaves]
  | field f r ih =>
    intro hr
    obtain ⟨i1, i2⟩ := ih hr.2
    refine ⟨?_, ?_⟩
    · intro g hg
      rcases List.mem_cons.1 hg with rfl | hg
      · left; simp [leaves]
      · rcases i1 g hg with h | h
        · left; simp [leaves, h]
        · right; exact h
    · intro g hg
      simp only [leaves, List.mem_cons] at hg
      simp only [flat, List.mem_cons]
      rcases hg with rfl | hg
      · left; rfl
      · right; exact i2 g hg
  | union h b e r ihb ihr =>
    intro hr
    obtain ⟨⟨hd, hhd, _, _, ho, _⟩, ⟨ed, hed, _, _, eo⟩, hrb, hrr⟩ := hr
    obtain ⟨b1, b2⟩ := ihb hrb
    obtain ⟨r1, r2⟩ := ihr hrr
    refine ⟨?_, ?_⟩
    · intro g hg
      simp only [flat, List.mem_cons, List.mem_append] at hg
      simp only [leaves, List.mem_append]
      rcases hg with rfl | hg | rfl | hg
      · right; simp [fieldOffset, hhd, ho]
      · rcases b1 g hg with h | h
        · exact Or.inl (Or.inl h)
        · exact Or.inr h
      · right; simp [fieldOffset, hed, eo]
      · rcases r1 g hg with h | h
        · exact Or.inl (Or.inr h)
        · exact Or.inr h
    · intro g hg
      simp only [leaves, List.mem_append] at hg
      simp only [flat, List.mem_cons, List.mem_append]
      rcases hg with hg | hg
      · exact Or.inr (Or.inl (b2 g hg))
      · exact Or.inr (Or.inr (Or.inr (r2 g hg)))

theorem lastNZ_place (fds : List Fd) (tds : List Td) (len : Nat) (b : Decl) (hr : Records fds tds len b) :
    Place fds b (lastNZ ((flat b).map (fieldOffset fds)) 0) := by
  obtain ⟨h1, h2⟩ := offsets_flat fds tds len b hr
  intro x hall hex
  have hall' : ∀ y ∈ (flat b).map (fieldOffset fds), y = x ∨ y = 0 := by
    intro y hy
    obtain ⟨f, hf, rfl⟩ := List.mem_map.1 hy
    rcases h1 f hf with h | h
    · exact hall f h
    · exact Or.inr h
  by_cases hx : x = 0
  · subst hx
    exact lastNZ_zero _ _ (fun y hy => (hall' y hy).elim id id)
  · obtain ⟨f, hf, rfl⟩ := hex
    exact lastNZ_eq _ hx _ _ hall' (Or.inl (List.mem_map_of_mem (h2 f hf)))

/-! ## The main loop -/

/-- `Extracted`, with the places of the extracted types bounded. -/
def Ext (fds : List Fd) (st : St) (lo hi : Nat) : List Nat → Bool → Nat → Decl → Prop
  | _, _, _, .nil => True
  | name, inner, i, .field f r => Cur fds st inner f ∧ Ext fds st lo hi name inner (i + 1) r
  | name, inner, i, .union h b e r =>
    (∃ hd ed td digits o, fds[h]? = some hd ∧ fds[e]? = some ed ∧ IsDecimal i digits ∧
      (if inner then o = 0 else Place fds b o) ∧
      st.fds[h]? = some
        { hd with name := if hd.name = [] then name ++ ascii "_" ++ digits else hd.name,
                  type := name ++ ascii "_" ++ digits ++ ascii "_t",
                  size := largest fds b, offset := o, info := ed.info, res := ed.res,
                  resType := ed.resType, mrSize := ed.mrSize } ∧
      st.tds[hd.res]? = some td ∧ td.kind = hd.kind ∧
      td.name = name ++ ascii "_" ++ digits ++ ascii "_t" ∧ td.size = largest fds b ∧
      td.producer = 3 ∧ lo ≤ td.fields ∧ td.fields + (top b).length < hi ∧ Holds st td (top b) ∧
      Ext fds st lo hi td.name true 0 b) ∧
    Ext fds st lo hi name inner (i + 1) r

theorem Ext.extracted {fds : List Fd} {st : St} {lo hi : Nat} : ∀ {d : Decl} {name : List Nat}
    {inner : Bool} {i : Nat}, Ext fds st lo hi name inner i d → Extracted fds st name inner i d := by
  intro d
  induction d with
  | nil => intros; trivial
  | field f r ih =>
    intro name inner i h
    obtain ⟨⟨fd, h1, h2⟩, h3⟩ := h
    exact ⟨⟨fd, h1, h2⟩, ih h3⟩
  | union hh b e r ihb ihr =>
    intro name inner i h
    obtain ⟨⟨hd, ed, td, digits, o, a1, a2, a3, a4, a5, a6, a7, a8, a9, a10, _, _, a11, a12⟩, h3⟩ := h
    exact ⟨⟨hd, ed, td, digits, o, a1, a2, a3, a4, a5, a6, a7, a8, a9, a10, a11, ihb a12⟩, ihr h3⟩

theorem Ext.frame {fds : List Fd} {st st' : St} {lo hi lo' hi' : Nat} (hlo : lo' ≤ lo) (hhi : hi ≤ hi') :
    ∀ {d : Decl} {name : List Nat} {inner : Bool} {i : Nat}, Ext fds st lo hi name inner i d →
    (∀ f ∈ flat d, st'.fds[f]? = st.fds[f]?) → (∀ u ∈ unionTypes fds d, st'.tds[u]? = st.tds[u]?) →
    (∀ p, lo ≤ p → p < hi → st'.mem[p]? = st.mem[p]?) → Ext fds st' lo' hi' name inner i d := by
  intro d
  induction d with
  | nil => intros; trivial
  | field f r ih =>
    intro name inner i h hf hu hp
    obtain ⟨⟨fd, h1, h2⟩, h3⟩ := h
    refine ⟨⟨fd, h1, by rw [hf f (by simp [flat]), h2]⟩, ih h3 (fun g hg => hf g (by simp [flat, hg])) hu hp⟩
  | union hh b e r ihb ihr =>
    intro name inner i h hf hu hp
    obtain ⟨⟨hd, ed, td, digits, o, a1, a2, a3, a4, a5, a6, a7, a8, a9, a10, b1, b2, a11, a12⟩, h3⟩ := h
    have hres : resOf fds hh = hd.res := by simp [resOf, a1]
    refine ⟨⟨hd, ed, td, digits, o, a1, a2, a3, a4, ?_, ?_, a7, a8, a9, a10, by omega, by omega, ?_, ?_⟩, ?_⟩
    · rw [hf hh (by simp [flat]), a5]
    · rw [hu hd.res (by simp [unionTypes, hres]), a6]
    · refine ⟨a11.1, fun k hk => ?_⟩
      rw [hp _ (by omega) (by omega)]
      exact a11.2 k hk
    · exact ihb a12 (fun g hg => hf g (by simp [flat, hg])) (fun u h => hu u (by simp [unionTypes, h])) hp
    · exact ihr h3 (fun g hg => hf g (by simp [flat, hg])) (fun u h => hu u (by simp [unionTypes, h])) hp

theorem top_le_flat (d : Decl) : (top d).length ≤ (flat d).length := by
  induction d with
  | nil => simp [top, flat]
  | field f r ih => simp [top, flat]; omega
  | union h b e r _ ih => simp [top, flat]; omega

theorem extract_done (fuel : Nat) (st : St) (t n : Nat) (hf : 0 < fuel) :
    extract fuel st t n n = some (st, true) := by
  cases fuel with
  | zero => omega
  | succ fuel => simp [extract]

theorem extract_decl (fds0 : List Fd) (tds0 : List Td) (len : Nat) :
    ∀ (d : Decl) (fuel : Nat) (st : St) (t i k : Nat) (td : Td) (inner : Bool) (P Q : List (Option Nat)),
    (flat d).length < fuel → st.tds[t]? = some td → td.count = i + (flat d).length →
    P.length = td.fields + i → st.mem = P ++ ((flat d).map some ++ none :: Q) →
    (∀ f ∈ flat d, Cur fds0 st inner f) → Records fds0 tds0 len d → (flat d).Nodup →
    (unionTypes fds0 d).Nodup → t ∉ unionTypes fds0 d →
    (∀ u ∈ unionTypes fds0 d, st.tds[u]? = tds0[u]?) → td.name.length ≤ len + 6 * k →
    k + depth d ≤ 16 → i + (flat d).length ≤ 1000 →
    ∃ st' Y, extract fuel st t (i + (flat d).length) i = some (st', true) ∧
      st'.mem = P ++ ((top d).map some ++ none :: (Y ++ Q)) ∧
      Y.length + (top d).length = (flat d).length ∧
      st'.tds[t]? = some { td with count := i + (top d).length } ∧
      (∀ f, f ∉ flat d → st'.fds[f]? = st.fds[f]?) ∧
      (∀ u, u ≠ t → u ∉ unionTypes fds0 d → st'.tds[u]? = st.tds[u]?) ∧
      st'.added = st.added ++ unionTypes fds0 d ∧
      Ext fds0 st' P.length (P.length + (flat d).length + 1) td.name inner i d := by
  intro d
  induction d with
  | nil =>
    intro fuel st t i k td inner P Q hf ht hcnt hP hm _ _ _ _ _ _ _ _ _
    refine ⟨st, [], extract_done _ _ _ _ (by omega), hm, rfl, ?_, fun _ _ => rfl, fun _ _ _ => rfl,
      by simp [unionTypes], trivial⟩
    simp only [top, List.length_nil, Nat.add_zero, flat] at hcnt ⊢
    rw [ht, ← hcnt]
  | field f r ih =>
    intro fuel st t i k td inner P Q hf ht hcnt hP hm hcur hrec hnd hund htu htds hname hdep hbig
    obtain ⟨⟨fd, hfd, k1, k2, k3⟩, hr⟩ := hrec
    simp only [flat, List.length_cons] at hf hcnt hbig
    obtain ⟨fuel, rfl⟩ : ∃ n, fuel = n + 1 := ⟨fuel - 1, by omega⟩
    have hg : st.mem[td.fields + i]? = some (some f) := by
      rw [hm, ← hP]; exact get_mid P _ (some f)
    have hfa := fieldAt_eq hg ((hcur f (by simp [flat])).of hfd)
    have hh : isHeader fd.kind = false := by simp [isHeader, k1, k2]
    have hfr : f ∉ flat r := (List.nodup_cons.1 hnd).1
    obtain ⟨st', Y, e, m1, m2, m3, m4, m5, m6, m7⟩ := ih fuel st t (i + 1) k td inner (P ++ [some f]) Q
      (by omega) ht (by omega) (by simp; omega) (by rw [hm]; simp [flat])
      (fun g hg => hcur g (by simp [flat, hg])) hr (List.nodup_cons.1 hnd).2 hund htu htds hname hdep
      (by omega)
    refine ⟨st', Y, ?_, ?_, ?_, ?_, ?_, m5, m6, ?_⟩
    · simp only [flat, List.length_cons]
      rw [show i + ((flat r).length + 1) = i + 1 + (flat r).length by omega]
      simp only [extract, show i < i + 1 + (flat r).length by omega, ↓reduceIte, ht, hfa,
        Option.bind_eq_bind, Option.bind_some, zero_kind, hh, Bool.false_eq_true]
      exact e
    · rw [m1]; simp [top]
    · simp only [top, flat, List.length_cons]; omega
    · rw [m3]; simp only [top, List.length_cons]; congr 2; omega
    · intro g hg
      exact m4 g (fun h => hg (by simp [flat, h]))
    · refine ⟨?_, m7.frame (by simp) (by simp [flat]; omega) (fun _ _ => rfl) (fun _ _ => rfl)
        (fun _ _ _ => rfl)⟩
      obtain ⟨fd', q1, q2⟩ := hcur f (by simp [flat])
      exact ⟨fd', q1, by rw [m4 f hfr, q2]⟩
  | union h b e r ihb ihr =>
    intro fuel st t i k td inner P Q hf ht hcnt hP hm hcur hrec hnd hund htu htds hname hdep hbig
    obtain ⟨⟨hd, hhd, hk, hs0, ho0, hcap, ud, hud, ucap⟩, ⟨ed, hed, ek, _, eo⟩, hrb, hrr⟩ := hrec
    have hres : resOf fds0 h = hd.res := by simp [resOf, hhd]
    simp only [flat, List.length_cons, List.length_append] at hf hcnt hbig
    obtain ⟨fuel, rfl⟩ : ∃ n, fuel = n + 1 := ⟨fuel - 1, by omega⟩
    -- distinctness
    simp only [flat] at hnd
    obtain ⟨hh1, hnd1⟩ := List.nodup_cons.1 hnd
    obtain ⟨hbnd, hernd, hdisj⟩ := List.nodup_append.1 hnd1
    obtain ⟨her, hrnd⟩ := List.nodup_cons.1 hernd
    have hhb : h ∉ flat b := fun x => hh1 (List.mem_append.2 (Or.inl x))
    have hhe : e ≠ h := fun x => hh1 (by rw [← x]; simp)
    have hhr : h ∉ flat r := fun x => hh1 (by simp [x])
    have heb : e ∉ flat b := fun x => hdisj e x e (by simp) rfl
    have hbr : ∀ x ∈ flat b, x ∉ flat r := fun x hx hr => hdisj x hx x (by simp [hr]) rfl
    simp only [unionTypes, hres] at hund htu htds
    obtain ⟨hubnd, hurnd', hudisj⟩ := List.nodup_append.1 hund
    obtain ⟨hur, hurnd⟩ := List.nodup_cons.1 hurnd'
    have hub : hd.res ∉ unionTypes fds0 b := fun x => hudisj _ x hd.res (by simp) rfl
    have hubr : ∀ x ∈ unionTypes fds0 b, x ∉ unionTypes fds0 r := fun x hx hr =>
      hudisj x hx x (by simp [hr]) rfl
    have htres : hd.res ≠ t := fun x => htu (by simp [x])
    have htb : t ∉ unionTypes fds0 b := fun x => htu (by simp [x])
    have htr : t ∉ unionTypes fds0 r := fun x => htu (by simp [x])
    -- lookups
    have chd := (hcur h (by simp [flat])).of hhd
    have ced := (hcur e (by simp [flat])).of hed
    have hg : st.mem[td.fields + i]? = some (some h) := by
      rw [hm, ← hP]; exact get_mid P _ (some h)
    have hfa := fieldAt_eq hg chd
    have hh : isHeader hd.kind = true := by rcases hk with hk | hk <;> simp [isHeader, hk]
    have hcurb : ∀ f ∈ flat b, Cur fds0 st inner f := fun g hg => hcur g (by simp [flat, hg])
    have hcurr : ∀ f ∈ flat r, Cur fds0 st inner f := fun g hg => hcur g (by simp [flat, hg])
    have hm' : st.mem = P ++ some h :: ((flat b).map some ++ some e :: ((flat r).map some ++ none :: Q)) := by
      rw [hm]; simp [flat]
    have hfe := findEnd_eq fds0 tds0 len st inner td.fields
      (i + ((flat b).length + ((flat r).length + 1) + 1)) i h e b P _ hm' hP (by omega) hrb hcurb _ ced
      (by rw [zero_kind]; exact ek)
    -- names
    have hdec := decimal_length (n := i) (by omega)
    have hdepth : k + depth b + 1 ≤ 16 := by
      have : depth b + 1 ≤ depth (.union h b e r) := by simp only [depth]; omega
      omega
    have hdepr : k + depth r ≤ 16 := by
      have : depth r ≤ depth (.union h b e r) := by simp only [depth]; omega
      omega
    have htn : sprintf ud.nameCap (typeName td.name i) = some (typeName td.name i) := by
      unfold sprintf
      rw [if_pos]
      simp [typeName, fieldName, ucap]; omega
    have hhn : headerName td i (zero inner hd) =
        some (if hd.name = [] then fieldName td.name i else hd.name) := by
      have hz1 : (zero inner hd).name = hd.name := by cases inner <;> rfl
      have hz2 : (zero inner hd).nameCap = hd.nameCap := by cases inner <;> rfl
      unfold headerName
      rw [hz1, hz2]
      by_cases hn : hd.name = []
      · rw [if_pos hn, if_pos hn]
        unfold sprintf
        rw [if_pos]
        simp [fieldName, hcap]; omega
      · rw [if_neg hn, if_neg hn]
    have hut : st.tds[hd.res]? = some ud := by rw [htds hd.res (by simp), hud]
    obtain ⟨fds1, es, l1, g1, g2, g3⟩ := split_eq st t i h e
      (i + ((flat b).length + ((flat r).length + 1) + 1)) (i + 1 + (flat b).length) td ud (zero inner hd)
      (zero inner ed) (flat b) (flat r) P Q _ _ ht hm' hP (by omega) rfl chd ced
      (fun x hx => by obtain ⟨fd, _, q⟩ := hcurb x hx; exact ⟨_, q⟩)
      (by
        refine List.nodup_cons.2 ⟨?_, List.nodup_append.2 ⟨hbnd, by simp, ?_⟩⟩
        · intro x
          rcases List.mem_append.1 x with x | x
          · exact hhb x
          · simp at x; exact hhe x.symm
        · intro x hx y hy
          simp at hy; subst hy
          exact fun q => heb (q ▸ hx))
      (by rw [zero_res]; exact hut) (by rw [zero_res]; exact htres) htn hhn
    rw [zero_res] at es
    rw [fold_largest fds0 tds0 len st inner b 0 hrb hcurb, Nat.zero_max, zero_kind] at es
    rw [fold_largest fds0 tds0 len st inner b 0 hrb hcurb, Nat.zero_max] at g1
    -- the new type
    let ud1 : Td := { ud with kind := hd.kind, name := typeName td.name i, size := largest fds0 b,
                              producer := 3, fields := P.length + 1 + (flat r).length + 1 }
    let st1 : St := ⟨fds1, (st.tds.set hd.res ud1).set t { td with count := i + 1 + (flat r).length },
        P ++ some h :: ((flat r).map some ++ none :: ((flat b).map some ++ none :: Q)), st.added⟩
    have hult : hd.res < st.tds.length := (List.getElem?_eq_some_iff.1 hut).1
    have htlt : t < st.tds.length := (List.getElem?_eq_some_iff.1 ht).1
    have h1u : st1.tds[hd.res]? = some ud1 := by
      show ((st.tds.set hd.res ud1).set t _)[hd.res]? = _
      rw [List.getElem?_set_ne (Ne.symm htres), List.getElem?_set_self hult]
    have hPb : (P ++ some h :: ((flat r).map some ++ [(none : Option Nat)])).length =
        P.length + 1 + (flat r).length + 1 := by
      simp only [List.length_append, List.length_cons, List.length_map, List.length_nil]; omega
    have hst := startStruct_eq st1 hd.res ud1 (P ++ some h :: ((flat r).map some ++ [none])) Q (flat b) h1u
      (by show P ++ some h :: ((flat r).map some ++ none :: ((flat b).map some ++ none :: Q)) = _; simp)
      (by rw [hPb])
    let ud2 : Td := { ud1 with count := (flat b).length }
    let st2 : St := { st1 with tds := st1.tds.set hd.res ud2 }
    have h2u : st2.tds[hd.res]? = some ud2 := by
      show (st1.tds.set hd.res ud2)[hd.res]? = _
      rw [List.getElem?_set_self (by simp [st1, hult])]
    have h2o : ∀ u, u ≠ hd.res → u ≠ t → st2.tds[u]? = st.tds[u]? := by
      intro u hu hut
      show (((st.tds.set hd.res ud1).set t _).set hd.res ud2)[u]? = _
      rw [List.getElem?_set_ne (Ne.symm hu), List.getElem?_set_ne (Ne.symm hut),
        List.getElem?_set_ne (Ne.symm hu)]
    have h2t : st2.tds[t]? = some { td with count := i + 1 + (flat r).length } := by
      show (((st.tds.set hd.res ud1).set t _).set hd.res ud2)[t]? = _
      rw [List.getElem?_set_ne htres, List.getElem?_set_self (by simpa using htlt)]
    obtain ⟨st3, Yb, eb, b1, b2, b3, b4, b5, b6, b7⟩ := ihb fuel st2 hd.res 0 (k + 1) ud2 true
      (P ++ some h :: ((flat r).map some ++ [none])) Q (by omega) h2u (by simp [ud2])
      (by rw [hPb])
      (by show P ++ some h :: ((flat r).map some ++ none :: ((flat b).map some ++ none :: Q)) = _; simp)
      (by
        intro x hx
        obtain ⟨fd, q1, q2⟩ := hcurb x hx
        refine ⟨fd, q1, ?_⟩
        show fds1[x]? = _
        rw [g2 x _ hx q2]
        cases inner <;> rfl)
      hrb hbnd hubnd hub
      (by
        intro u hu
        rw [h2o u (fun q => hub (q ▸ hu)) (fun q => htb (q ▸ hu))]
        exact htds u (by simp [hu]))
      (by
        show (typeName td.name i).length ≤ _
        simp [typeName, fieldName]; omega)
      (by omega) (by omega)
    let st3' : St := { st3 with added := st3.added ++ [hd.res] }
    have h3t : st3'.tds[t]? = some { td with count := i + 1 + (flat r).length } := by
      show st3.tds[t]? = _
      rw [b5 t (Ne.symm htres) htb, h2t]
    have h3m : st3'.mem = (P ++ [some h]) ++ ((flat r).map some ++ none ::
        ((top b).map some ++ none :: (Yb ++ Q))) := by
      show st3.mem = _
      rw [b1]; simp
    obtain ⟨st4, Yr, er, r1, r2, r3, r4, r5, r6, r7⟩ := ihr fuel st3' t (i + 1) k
      { td with count := i + 1 + (flat r).length } inner (P ++ [some h])
      ((top b).map some ++ none :: (Yb ++ Q)) (by omega) h3t rfl (by simp; omega) h3m
      (by
        intro x hx
        obtain ⟨fd, q1, q2⟩ := hcurr x hx
        refine ⟨fd, q1, ?_⟩
        show st3.fds[x]? = _
        have hxb : x ∉ flat b := fun q => hbr x q hx
        have hxh : x ≠ h := fun q => hhr (q ▸ hx)
        rw [b4 x hxb]
        show fds1[x]? = _
        rw [g3 x hxb hxh, q2])
      hrr hrnd hurnd htr
      (by
        intro u hu
        have hu1 : u ≠ hd.res := fun q => hur (q ▸ hu)
        have hu2 : u ≠ t := fun q => htr (q ▸ hu)
        have hu3 : u ∉ unionTypes fds0 b := fun q => hubr u q hu
        show st3.tds[u]? = _
        rw [b5 u hu1 hu3, h2o u hu1 hu2]
        exact htds u (by simp [hu]))
      hname hdepr (by omega)
    have hmem4 : ∀ p, P.length + 1 + (flat r).length + 1 ≤ p → st4.mem[p]? = st3.mem[p]? := by
      intro p hp
      have e3 : st3.mem = (P ++ some h :: ((flat r).map some ++ [none])) ++
          ((top b).map some ++ none :: (Yb ++ Q)) := b1
      have e4 : st4.mem = ((P ++ [some h]) ++ ((top r).map some ++ none :: Yr)) ++
          ((top b).map some ++ none :: (Yb ++ Q)) := by rw [r1]; simp
      have l4 : ((P ++ [some h]) ++ ((top r).map some ++ (none : Option Nat) :: Yr)).length =
          P.length + 1 + (flat r).length + 1 := by simp; omega
      rw [e3, e4]
      exact get_suffix _ _ _ p (by rw [l4, hPb]) (by rw [l4]; exact hp)
    refine ⟨st4, Yr ++ ((top b).map some ++ none :: Yb), ?_, ?_, ?_, ?_, ?_, ?_, ?_, ?_⟩
    · simp only [flat, List.length_cons, List.length_append]
      simp only [extract, show i < i + ((flat b).length + ((flat r).length + 1) + 1) by omega,
        ↓reduceIte, ht, hfa, Option.bind_eq_bind, Option.bind_some, zero_kind, hh, hfe, zero_res]
      have es' : split st t i (i + 1 + (flat b).length) h
          (i + ((flat b).length + ((flat r).length + 1) + 1)) =
          some (st1, i + 1 + (flat r).length) := es
      have hst' : startStruct st1 hd.res = some (st2, (flat b).length) := hst
      rw [Nat.zero_add] at eb
      simp only [es', hst', eb, Option.bind_some]
      exact er
    · rw [r1]; simp [top]
    · simp only [top, flat, List.length_cons, List.length_append, List.length_map]; omega
    · rw [r3]; simp only [top, List.length_cons]; congr 2; omega
    · intro x hx
      have x1 : x ≠ h := fun q => hx (by simp [flat, q])
      have x2 : x ∉ flat b := fun q => hx (by simp [flat, q])
      have x3 : x ∉ flat r := fun q => hx (by simp [flat, q])
      rw [r4 x x3]
      show st3.fds[x]? = _
      rw [b4 x x2]
      exact g3 x x2 x1
    · intro u hu1 hu2
      simp only [unionTypes, hres, List.mem_append, List.mem_cons, not_or] at hu2
      rw [r5 u hu1 hu2.2.2]
      show st3.tds[u]? = _
      rw [b5 u hu2.2.1 hu2.1, h2o u hu2.2.1 hu1]
    · rw [r6]
      show st3.added ++ [hd.res] ++ _ = _
      rw [b6]
      show st.added ++ _ ++ _ ++ _ = _
      simp [unionTypes, hres]
    · refine ⟨⟨hd, ed, { ud2 with count := (top b).length }, decimal i,
        lastNZ ((flat b).map (fieldOffset st.fds)) (zero inner hd).offset, hhd, hed, decimal_isDecimal i,
        ?_, ?_, ?_, rfl, ?_, rfl, rfl, ?_, ?_, ?_, ?_⟩, ?_⟩
      · cases inner with
        | true =>
          simp only [↓reduceIte]
          apply lastNZ_zero
          intro y hy
          obtain ⟨f, hf, rfl⟩ := List.mem_map.1 hy
          obtain ⟨fd, _, q⟩ := hcurb f hf
          simp [fieldOffset, q, zero]
        | false =>
          simp only [Bool.false_eq_true, ↓reduceIte]
          have : (flat b).map (fieldOffset st.fds) = (flat b).map (fieldOffset fds0) := by
            apply List.map_congr_left
            intro f hf
            obtain ⟨fd, q1, q⟩ := hcurb f hf
            simp [fieldOffset, q, q1, zero]
          rw [this]
          have : (zero false hd).offset = 0 := ho0
          rw [this]
          exact lastNZ_place fds0 tds0 len b hrb
      · rw [r4 h hhr]
        show st3.fds[h]? = _
        rw [b4 h hhb]
        show fds1[h]? = _
        rw [g1]
        cases inner <;> rfl
      · rw [r5 hd.res htres hur]
        show st3.tds[hd.res]? = _
        rw [b3, Nat.zero_add]
      · rfl
      · show P.length ≤ P.length + 1 + (flat r).length + 1
        omega
      · show P.length + 1 + (flat r).length + 1 + (top b).length < _
        have := top_le_flat b
        simp only [flat, List.length_cons, List.length_append]
        omega
      · refine ⟨rfl, fun k hk => ?_⟩
        show st4.mem[P.length + 1 + (flat r).length + 1 + k]? = _
        rw [hmem4 _ (by omega), b1, ← hPb,
          List.getElem?_append_right (by omega), show
          (P ++ some h :: ((flat r).map some ++ [(none : Option Nat)])).length + k -
          (P ++ some h :: ((flat r).map some ++ [(none : Option Nat)])).length = k by omega]
        by_cases hk' : k < (top b).length
        · rw [List.getElem?_append_left (by simpa using hk'), List.getElem?_map]
          rw [List.getElem?_eq_getElem hk']
          rfl
        · have : k = (top b).length := by omega
          subst this
          have := get_mid ((top b).map some) (Yb ++ Q) (none : Option Nat)
          rw [List.length_map] at this
          rw [this]; simp
      · have b7' : Ext fds0 st3 (P.length + 1 + (flat r).length + 1)
            (P.length + 1 + (flat r).length + 1 + (flat b).length + 1) (typeName td.name i) true 0 b := by
          rw [← hPb]; exact b7
        refine b7'.frame (by omega) (by simp [flat]; omega) ?_ ?_ ?_
        · intro x hx
          rw [r4 x (hbr x hx)]
        · intro u hu
          rw [r5 u (fun q => htb (q ▸ hu)) (hubr u hu)]
        · intro p hp _
          exact hmem4 p hp
      · exact r7.frame (by simp) (by simp [flat]; omega) (fun _ _ => rfl) (fun _ _ => rfl)
          (fun _ _ _ => rfl)

end Verif.Lemmas.AnonUnion
