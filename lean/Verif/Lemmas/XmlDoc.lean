import Verif.Model.XmlDoc
import Verif.Spec.XmlDoc

namespace Verif.Lemmas.XmlDoc
open Verif.Model Verif.Model.XmlDoc Verif.Spec.XmlDoc

theorem blank_eq (c : Nat) : isspace c = blank c := rfl

/-- The buffer holds the bytes `u` read so far, and has room for one more. -/
structure Buf (st : St) (u : List Nat) : Prop where
  held : st.str.take st.size = u
  len : u.length = st.size
  room : st.size < st.str.length
  nonzero : ∀ c ∈ u, c ≠ 0

theorem grow_eq (alloc : Nat → Bool) (st : St) (u : List Nat) (c : Nat) (h : Buf st u) (hc : c ≠ 0)
    (hb : st.size + 1 < 1073741824) :
    ∃ str1, wr st.str st.size c = some str1 ∧
      (grow alloc str1 st.size = some none ∨
        ∃ str2, grow alloc str1 st.size = some (some str2) ∧
          ∀ st2 : St, st2.str = str2 → st2.size = st.size + 1 → Buf st2 (u ++ [c])) ∧
      ((∀ n, alloc n = true) → grow alloc str1 st.size ≠ some none) := by
  have hlt := h.room
  refine ⟨st.str.set st.size c, by simp [wr, hlt], ?_, ?_⟩
  · have htake : (st.str.set st.size c).take (st.size + 1) = u ++ [c] := by
      rw [List.take_add_one, List.getElem?_set_self hlt, List.take_set_of_le (Nat.le_refl _), h.held]
      rfl
    have hnz : ∀ d ∈ u ++ [c], d ≠ 0 := by
      intro d hd
      rcases List.mem_append.1 hd with hd | hd
      · exact h.nonzero d hd
      · simp at hd; omega
    unfold grow
    rw [List.length_set]
    by_cases hs : st.size = st.str.length - 1
    · rw [if_pos hs, if_pos (by omega)]
      by_cases ha : alloc (st.str.length * 2) = true
      · right
        refine ⟨_, by rw [if_pos ha], ?_⟩
        intro st2 e1 e2
        refine ⟨?_, ?_, ?_, hnz⟩
        · rw [e1, e2, List.take_append_of_le_length (by simp; omega), htake]
        · rw [e2]; simp [h.len]
        · rw [e1, e2]; simp; omega
      · left; rw [if_neg ha]
    · rw [if_neg hs]
      right
      refine ⟨_, rfl, ?_⟩
      intro st2 e1 e2
      refine ⟨?_, ?_, ?_, hnz⟩
      · rw [e1, e2, htake]
      · rw [e2]; simp [h.len]
      · rw [e1, e2, List.length_set]; omega
  · intro ha
    unfold grow
    rw [List.length_set]
    by_cases hs : st.size = st.str.length - 1
    · rw [if_pos hs, if_pos (by omega), ha]; simp
    · rw [if_neg hs]; simp

/-- One turn, when every allocation succeeds. -/
theorem turn_eq (alloc : Nat → Bool) (ha : ∀ n, alloc n = true) (st : St) (u : List Nat) (c : Nat)
    (h : Buf st u) (ho : st.opened ≤ 2 * st.size) (hc : c ≠ 0) (hb : st.size + 1 < 1073741824) :
    ∃ str2, turn alloc st c = (if st.opened = 0 ∧ ¬ (c = ch '<' ∨ isspace c = true) then some .fail
        else endTag ⟨str2, st.size + 1, st.c_, if c = ch '<' then st.opened + 2 else st.opened,
          closing st.c_ c st.toClose, st.count⟩ c) ∧
      ∀ st2 : St, st2.str = str2 → st2.size = st.size + 1 → Buf st2 (u ++ [c]) := by
  obtain ⟨str1, e1, h1 | ⟨str2, e2, h2⟩, h3⟩ := grow_eq alloc st u c h hc hb
  · exact absurd h1 (h3 ha)
  · refine ⟨str2, ?_, h2⟩
    have hov : ¬ (c = ch '<' ∧ 2147483647 < st.opened + 2) := by omega
    simp only [turn, e1, Option.bind_eq_bind, Option.bind_some, e2, hov, ↓reduceIte]

/-- The state after some bytes. -/
structure At (st : St) (u : List Nat) (c_ : Nat) (opened toClose : Int) (count : Nat) : Prop where
  buf : Buf st u
  prev : st.c_ = c_
  opn : st.opened = opened
  cls : st.toClose = toClose
  cnt : st.count = count
  low : st.opened ≤ 2 * u.length

theorem At.top {st : St} {u : List Nat} {c_ : Nat} {o tc : Int} {n : Nat} (h : At st u c_ o tc n) :
    st.opened ≤ 2 * st.size := by
  have := h.low
  rw [h.buf.len] at this
  exact this

/-- Reading `cs` leads from one state to another. -/
def Reads (alloc : Nat → Bool) (st : St) (cs : List Nat) (st' : St) : Prop :=
  ∀ rest, loop alloc st (cs ++ rest) = loop alloc st' rest

theorem Reads.trans {alloc : Nat → Bool} {st st1 st2 : St} {a b : List Nat} (h : Reads alloc st a st1)
    (h' : Reads alloc st1 b st2) : Reads alloc st (a ++ b) st2 := by
  intro rest
  rw [List.append_assoc, h, h']

theorem Reads.nil (alloc : Nat → Bool) (st : St) : Reads alloc st [] st := fun _ => rfl

variable {alloc : Nat → Bool} (ha : ∀ n, alloc n = true)
include ha

/-- A byte that is no angle bracket. -/
theorem read_plain {st : St} {u : List Nat} {c_ : Nat} {o tc : Int} {n : Nat} (h : At st u c_ o tc n)
    (c : Nat) (hc0 : c ≠ 0) (hc1 : c ≠ 60) (hc2 : c ≠ 62) (hb : u.length + 1 < 1073741824)
    (ho : o ≠ 0 ∨ blank c = true) (hp : ¬ (c_ = 60 ∧ c = 47)) :
    ∃ st', Reads alloc st [c] st' ∧ At st' (u ++ [c]) (if blank c then c_ else c) o tc n := by
  obtain ⟨str2, e, hbuf⟩ := turn_eq alloc ha st u c h.buf h.top hc0 (by rw [← h.buf.len]; exact hb)
  have hopen : ¬ (st.opened = 0 ∧ ¬ (c = ch '<' ∨ isspace c = true)) := by
    rintro ⟨h1, h2⟩
    rw [h.opn] at h1
    rcases ho with ho | ho
    · exact ho h1
    · exact h2 (Or.inr ho)
  have hcl : closing st.c_ c st.toClose = tc := by
    have e1 : ch '/' = 47 := rfl
    have e2 : ch '>' = 62 := rfl
    have e3 : ch '?' = 63 := rfl
    have e4 : ch '<' = 60 := rfl
    unfold closing
    rw [e1, e2, e3, e4, h.prev, h.cls, if_neg hp, if_neg (fun q => hc2 q.2), if_neg (fun q => hc2 q.2)]
  rw [if_neg hopen] at e
  have e4 : ch '<' = 60 := rfl
  have e2 : ch '>' = 62 := rfl
  rw [e4, if_neg hc1, hcl] at e
  unfold endTag at e
  rw [e2] at e
  simp only [hc2, ↓reduceIte] at e
  refine ⟨⟨str2, st.size + 1, if isspace c then st.c_ else c, st.opened, tc, st.count⟩, ?_, hbuf _ rfl rfl, ?_, h.opn, rfl, h.cnt, by have := h.low; simp; omega⟩
  · intro rest
    show loop alloc st (c :: rest) = _
    simp only [loop, hc0, ↓reduceIte, e, Option.bind_eq_bind, Option.bind_some]
  · rw [← h.prev]; rfl

/-- The opening bracket. -/
theorem read_open {st : St} {u : List Nat} {c_ : Nat} {o tc : Int} {n : Nat} (h : At st u c_ o tc n)
    (hb : u.length + 1 < 1073741824) :
    ∃ st', Reads alloc st [60] st' ∧ At st' (u ++ [60]) 60 (o + 2) tc n := by
  obtain ⟨str2, e, hbuf⟩ := turn_eq alloc ha st u 60 h.buf h.top (by omega) (by rw [← h.buf.len]; exact hb)
  have e4 : ch '<' = 60 := rfl
  have e2 : ch '>' = 62 := rfl
  have hcl : closing st.c_ 60 st.toClose = tc := by
    have e1 : ch '/' = 47 := rfl
    have e3 : ch '?' = 63 := rfl
    unfold closing
    rw [e1, e2, e3, e4, h.cls]
    simp
  rw [if_neg (by rw [e4]; simp), e4, hcl] at e
  unfold endTag at e
  rw [e2] at e
  simp only [↓reduceIte, show ¬ (60 = 62) by omega, show isspace 60 = false from rfl,
    Bool.false_eq_true] at e
  refine ⟨⟨str2, st.size + 1, 60, st.opened + 2, tc, st.count⟩, ?_, hbuf _ rfl rfl, rfl, ?_, rfl, h.cnt, by have := h.low; simp; omega⟩
  · intro rest
    show loop alloc st (60 :: rest) = _
    simp only [loop, show ¬ (60 = 0) by omega, ↓reduceIte, e, Option.bind_eq_bind, Option.bind_some]
  · show st.opened + 2 = _
    rw [h.opn]

/-- The slash of a closing tag. -/
theorem read_slash {st : St} {u : List Nat} {o tc : Int} {n : Nat} (h : At st u 60 o tc n)
    (hb : u.length + 1 < 1073741824) (ho : o ≠ 0) :
    ∃ st', Reads alloc st [47] st' ∧ At st' (u ++ [47]) 47 o (-3) n := by
  obtain ⟨str2, e, hbuf⟩ := turn_eq alloc ha st u 47 h.buf h.top (by omega) (by rw [← h.buf.len]; exact hb)
  have e4 : ch '<' = 60 := rfl
  have e2 : ch '>' = 62 := rfl
  have hcl : closing st.c_ 47 st.toClose = -3 := by
    have e1 : ch '/' = 47 := rfl
    have e3 : ch '?' = 63 := rfl
    unfold closing
    rw [e1, e2, e3, e4, h.prev]
    simp
  rw [if_neg (by rw [h.opn]; exact fun q => ho q.1), e4, hcl] at e
  unfold endTag at e
  rw [e2] at e
  simp only [↓reduceIte, show ¬ (47 = 62) by omega, show ¬ (47 = 60) by omega,
    show isspace 47 = false from rfl, Bool.false_eq_true] at e
  refine ⟨⟨str2, st.size + 1, 47, st.opened, -3, st.count⟩, ?_, hbuf _ rfl rfl, rfl, h.opn, rfl, h.cnt, by have := h.low; simp; omega⟩
  intro rest
  show loop alloc st (47 :: rest) = _
  simp only [loop, show ¬ (47 = 0) by omega, ↓reduceIte, e, Option.bind_eq_bind, Option.bind_some]

/-- How many levels the closing bracket closes. -/
def levels (c_ : Nat) (tc : Int) : Int := if c_ = 47 ∨ c_ = 63 then -2 else tc

omit ha in
theorem closing_end (c_ : Nat) (tc : Int) : closing c_ 62 tc = levels c_ tc := by
  have e1 : ch '/' = 47 := rfl
  have e2 : ch '>' = 62 := rfl
  have e3 : ch '?' = 63 := rfl
  have e4 : ch '<' = 60 := rfl
  unfold closing levels
  rw [e1, e2, e3, e4]
  by_cases h1 : c_ = 47
  · simp [h1]
  · by_cases h2 : c_ = 63 <;> simp [h1, h2]

/-- The closing bracket inside an element. -/
theorem read_close {st : St} {u : List Nat} {c_ : Nat} {o tc : Int} {n : Nat} (h : At st u c_ o tc n)
    (hb : u.length + 1 < 1073741824) (ho : o ≠ 0) (hl : 0 < o + levels c_ tc)
    (hn : levels c_ tc ≤ 0) :
    ∃ st', Reads alloc st [62] st' ∧ At st' (u ++ [62]) 62 (o + levels c_ tc) (-1) n := by
  obtain ⟨str2, e, hbuf⟩ := turn_eq alloc ha st u 62 h.buf h.top (by omega) (by rw [← h.buf.len]; exact hb)
  have e4 : ch '<' = 60 := rfl
  have e2 : ch '>' = 62 := rfl
  rw [if_neg (by rw [h.opn]; exact fun q => ho q.1), e4, closing_end, h.prev, h.cls, h.opn] at e
  unfold endTag at e
  rw [e2] at e
  simp only [↓reduceIte, show ¬ (62 = 60) by omega, show isspace 62 = false from rfl,
    Bool.false_eq_true, show ¬ (o + levels c_ tc < 0) by omega, show ¬ (o + levels c_ tc = 0) by omega] at e
  refine ⟨⟨str2, st.size + 1, 62, o + levels c_ tc, -1, st.count⟩, ?_, hbuf _ rfl rfl, rfl, rfl, rfl, h.cnt, by have := h.low; have := h.opn; simp; omega⟩
  intro rest
  show loop alloc st (62 :: rest) = _
  simp only [loop, show ¬ (62 = 0) by omega, ↓reduceIte, e, Option.bind_eq_bind, Option.bind_some]

/-- The closing bracket of the prolog. -/
theorem read_prolog_end {st : St} {u : List Nat} {c_ : Nat} {o tc : Int} {n : Nat}
    (h : At st u c_ o tc (n + 2)) (hb : u.length + 1 < 1073741824) (ho : o ≠ 0)
    (hl : o + levels c_ tc = 0) :
    ∃ st', Reads alloc st [62] st' ∧ At st' (u ++ [62]) 62 0 (-1) (n + 1) := by
  obtain ⟨str2, e, hbuf⟩ := turn_eq alloc ha st u 62 h.buf h.top (by omega) (by rw [← h.buf.len]; exact hb)
  have e4 : ch '<' = 60 := rfl
  have e2 : ch '>' = 62 := rfl
  rw [if_neg (by rw [h.opn]; exact fun q => ho q.1), e4, closing_end, h.prev, h.cls, h.opn] at e
  unfold endTag at e
  rw [e2] at e
  simp only [↓reduceIte, show ¬ (62 = 60) by omega, show isspace 62 = false from rfl,
    Bool.false_eq_true, hl, h.cnt, show ¬ ((0 : Int) < 0) by omega,
    show ¬ (n + 2 - 1 = 0) by omega] at e
  refine ⟨⟨str2, st.size + 1, 62, 0, -1, n + 2 - 1⟩, ?_, hbuf _ rfl rfl, rfl, rfl, rfl, ?_, by simp; omega⟩
  · intro rest
    show loop alloc st (62 :: rest) = _
    simp only [loop, show ¬ (62 = 0) by omega, ↓reduceIte, e, Option.bind_eq_bind, Option.bind_some]
  · show n + 2 - 1 = n + 1
    omega

/-- The closing bracket of the document. -/
theorem read_end {st : St} {u : List Nat} {c_ : Nat} {o tc : Int}
    (h : At st u c_ o tc 1) (hb : u.length + 1 < 1073741824) (ho : o ≠ 0)
    (hl : o + levels c_ tc = 0) (rest : List Nat) :
    loop alloc st (62 :: rest) = some (some (u ++ [62]), rest) := by
  obtain ⟨str2, e, hbuf⟩ := turn_eq alloc ha st u 62 h.buf h.top (by omega) (by rw [← h.buf.len]; exact hb)
  have e4 : ch '<' = 60 := rfl
  have e2 : ch '>' = 62 := rfl
  rw [if_neg (by rw [h.opn]; exact fun q => ho q.1), e4, closing_end, h.prev, h.cls, h.opn] at e
  unfold endTag at e
  rw [e2] at e
  simp only [↓reduceIte, show ¬ (62 = 60) by omega, hl, h.cnt, show ¬ ((0 : Int) < 0) by omega,
    show 1 - 1 = 0 by omega] at e
  have hB := hbuf ⟨str2, st.size + 1, 0, 0, 0, 0⟩ rfl rfl
  have hroom : st.size + 1 < str2.length := hB.room
  have hheld : str2.take (st.size + 1) = u ++ [62] := hB.held
  have htw : (str2.set (st.size + 1) 0).takeWhile (fun c => c != 0) = u ++ [62] := by
    have hsplit : str2.set (st.size + 1) 0 = (u ++ [62]) ++ 0 :: str2.drop (st.size + 1 + 1) := by
      rw [List.set_eq_take_append_cons_drop, if_pos hroom, hheld]
    rw [hsplit, List.takeWhile_append_of_pos]
    · simp
    · intro c hc
      simpa using hB.nonzero c hc
  simp only [loop, show ¬ (62 = 0) by omega, ↓reduceIte, e, finish, wr, hroom, Option.bind_eq_bind,
    Option.bind_some, htw]

/-- Text. -/
theorem read_text : ∀ (t : List Nat) {st : St} {u : List Nat} {c_ : Nat} {o tc : Int} {n : Nat},
    At st u c_ o tc n → TextBytes t → u.length + t.length < 1073741824 → o ≠ 0 → c_ ≠ 60 →
    ∃ st' d, Reads alloc st t st' ∧ At st' (u ++ t) d o tc n ∧ d ≠ 60 ∧
      d = (lastByte t).getD c_ := by
  intro t
  induction t with
  | nil =>
    intro st u c_ o tc n h _ _ _ hc
    exact ⟨st, c_, Reads.nil _ _, by simpa using h, hc, rfl⟩
  | cons c t ih =>
    intro st u c_ o tc n h ht hb ho hc
    simp only [List.length_cons] at hb
    obtain ⟨k1, k2, k3⟩ := ht c List.mem_cons_self
    obtain ⟨st1, r1, a1⟩ := read_plain ha h c k1 k2 k3 (by omega) (Or.inl ho) (fun q => hc q.1)
    have hne : (if blank c = true then c_ else c) ≠ 60 := by split <;> assumption
    obtain ⟨st2, d, r2, a2, hd, hl⟩ := ih a1 (fun x hx => ht x (List.mem_cons_of_mem _ hx))
      (by simp; omega) ho hne
    refine ⟨st2, d, r1.trans r2, by simpa using a2, hd, ?_⟩
    rw [hl]
    unfold lastByte
    rw [List.reverse_cons, List.find?_append]
    cases hf : t.reverse.find? (fun c => !blank c) with
    | some x => rfl
    | none =>
      simp only [Option.getD_none, Option.none_or]
      by_cases hbl : blank c = true
      · simp [hbl]
      · simp [hbl]

/-- Text behind an opening bracket. -/
theorem read_tag : ∀ (t : List Nat) {st : St} {u : List Nat} {o tc : Int} {n : Nat},
    At st u 60 o tc n → TextBytes t → u.length + t.length < 1073741824 → o ≠ 0 →
    (∃ c, firstByte t = some c ∧ c ≠ 47) →
    ∃ st' d, Reads alloc st t st' ∧ At st' (u ++ t) d o tc n ∧ d ≠ 60 ∧ lastByte t = some d := by
  intro t
  induction t with
  | nil => intro st u o tc n _ _ _ _ h; obtain ⟨c, h, _⟩ := h; simp [firstByte] at h
  | cons c t ih =>
    intro st u o tc n h ht hb ho hfirst
    simp only [List.length_cons] at hb
    obtain ⟨k1, k2, k3⟩ := ht c List.mem_cons_self
    have ht' : TextBytes t := fun x hx => ht x (List.mem_cons_of_mem _ hx)
    by_cases hbl : blank c = true
    · have hc47 : c ≠ 47 := by intro e; subst e; simp [blank] at hbl
      obtain ⟨st1, r1, a1⟩ := read_plain ha h c k1 k2 k3 (by omega) (Or.inl ho) (fun q => hc47 q.2)
      rw [if_pos hbl] at a1
      obtain ⟨st2, d, r2, a2, hd, hl⟩ := ih a1 ht' (by simp; omega) ho (by
        simpa [firstByte, hbl] using hfirst)
      refine ⟨st2, d, r1.trans r2, by simpa using a2, hd, ?_⟩
      unfold lastByte at hl ⊢
      rw [List.reverse_cons, List.find?_append, hl]; rfl
    · have hc47 : c ≠ 47 := by
        obtain ⟨d, e, hd⟩ := hfirst
        simp only [firstByte, List.find?_cons, hbl, Bool.not_false, Bool.not_eq_true] at e
        cases e; exact hd
      obtain ⟨st1, r1, a1⟩ := read_plain ha h c k1 k2 k3 (by omega) (Or.inl ho) (fun q => hc47 q.2)
      rw [if_neg hbl] at a1
      obtain ⟨st2, d, r2, a2, hd, hl⟩ := read_text ha t a1 ht' (by simp; omega) ho k2
      refine ⟨st2, d, r1.trans r2, by simpa using a2, hd, ?_⟩
      rw [hl]
      unfold lastByte
      rw [List.reverse_cons, List.find?_append]
      cases hf : t.reverse.find? (fun c => !blank c) with
      | some x => rfl
      | none => simp [hbl]

/-- White space outside of the element. -/
theorem read_white : ∀ (w : List Nat) {st : St} {u : List Nat} {c_ : Nat} {o tc : Int} {n : Nat},
    At st u c_ o tc n → White w → u.length + w.length < 1073741824 →
    ∃ st', Reads alloc st w st' ∧ At st' (u ++ w) c_ o tc n := by
  intro w
  induction w with
  | nil => intro st u c_ o tc n h _ _; exact ⟨st, Reads.nil _ _, by simpa using h⟩
  | cons c w ih =>
    intro st u c_ o tc n h hw hb
    simp only [List.length_cons] at hb
    have hbl := hw c List.mem_cons_self
    have hr : c = 32 ∨ (9 ≤ c ∧ c ≤ 13) := by simpa [blank] using hbl
    obtain ⟨st1, r1, a1⟩ := read_plain ha h c (by omega) (by omega) (by omega) (by omega) (Or.inr hbl)
      (fun q => by omega)
    rw [if_pos hbl] at a1
    obtain ⟨st2, r2, a2⟩ := ih a1 (fun x hx => hw x (List.mem_cons_of_mem _ hx)) (by simp; omega)
    exact ⟨st2, r1.trans r2, by simpa using a2⟩

/-- An opening tag up to its last byte. -/
theorem read_opening {st : St} {u : List Nat} {c_ : Nat} {o tc : Int} {n : Nat} (h : At st u c_ o tc n)
    (a : List Nat) (ht : TextBytes a) (hf : ∃ c, firstByte a = some c ∧ c ≠ 47)
    (hb : u.length + a.length + 1 < 1073741824) (ho : 0 ≤ o) :
    ∃ st' d, Reads alloc st ([60] ++ a) st' ∧ At st' (u ++ ([60] ++ a)) d (o + 2) tc n ∧ d ≠ 60 ∧
      lastByte a = some d := by
  obtain ⟨st1, r1, a1⟩ := read_open ha h (by omega)
  obtain ⟨st2, d, r2, a2, hd, hl⟩ := read_tag ha a a1 ht (by simp; omega) (by omega) hf
  exact ⟨st2, d, r1.trans r2, by simpa using a2, hd, hl⟩

/-- A closing tag up to its last byte. -/
theorem read_closing {st : St} {u : List Nat} {c_ : Nat} {o tc : Int} {n : Nat} (h : At st u c_ o tc n)
    (z : List Nat) (hz : CloseText z) (hb : u.length + z.length + 2 < 1073741824) (ho : 0 ≤ o) :
    ∃ st' d, Reads alloc st ([60, 47] ++ z) st' ∧ At st' (u ++ ([60, 47] ++ z)) d (o + 2) (-3) n ∧
      d ≠ 47 ∧ d ≠ 63 := by
  obtain ⟨ht, c, hl, h1, h2⟩ := hz
  obtain ⟨st1, r1, a1⟩ := read_open ha h (by omega)
  obtain ⟨st2, r2, a2⟩ := read_slash ha a1 (by simp; omega) (by omega)
  obtain ⟨st3, d, r3, a3, _, hd⟩ := read_text ha z a2 ht (by simp; omega) (by omega) (by omega)
  rw [hl] at hd
  refine ⟨st3, d, (r1.trans r2).trans r3, by simpa using a3, ?_, ?_⟩
  · rw [hd]; exact h1
  · rw [hd]; exact h2

/-- The inside of an element. -/
theorem read_content : ∀ (x : Content) {st : St} {u : List Nat} {c_ : Nat} {o : Int} {n : Nat},
    At st u c_ o (-1) n → WellFormed x → u.length + (render x).length < 1073741824 → 1 ≤ o → c_ ≠ 60 →
    ∃ st' d, Reads alloc st (render x) st' ∧ At st' (u ++ render x) d o (-1) n ∧ d ≠ 60 := by
  intro x
  induction x with
  | nil =>
    intro st u c_ o n h _ _ _ hc
    exact ⟨st, c_, Reads.nil _ _, by simpa [render] using h, hc⟩
  | text t r ih =>
    intro st u c_ o n h hw hb ho hc
    simp only [render, List.length_append] at hb
    obtain ⟨st1, d1, r1, a1, hd1, _⟩ := read_text ha t h hw.1 (by omega) (by omega) hc
    obtain ⟨st2, d2, r2, a2, hd2⟩ := ih a1 hw.2 (by simp; omega) ho hd1
    exact ⟨st2, d2, r1.trans r2, by simpa [render] using a2, hd2⟩
  | leaf a r ih =>
    intro st u c_ o n h hw hb ho hc
    simp only [render, List.length_append, List.length_cons, List.length_nil] at hb
    obtain ⟨st1, d1, r1, a1, hd1, _⟩ := read_opening ha h a hw.1.1 hw.1.2 (by omega) (by omega)
    obtain ⟨st2, r2, a2⟩ := read_plain ha a1 47 (by omega) (by omega) (by omega) (by simp; omega)
      (Or.inl (by omega)) (fun q => hd1 q.1)
    rw [show (if blank 47 = true then d1 else 47) = 47 from rfl] at a2
    have hl : levels 47 (-1) = -2 := rfl
    obtain ⟨st3, r3, a3⟩ := read_close ha a2 (by simp; omega) (by omega) (by rw [hl]; omega) (by rw [hl]; omega)
    rw [hl, show o + 2 + -2 = o by omega] at a3
    obtain ⟨st4, d4, r4, a4, hd4⟩ := ih a3 hw.2 (by simp; omega) ho (by omega)
    refine ⟨st4, d4, ?_, by simpa [render] using a4, hd4⟩
    have := ((r1.trans r2).trans r3).trans r4
    simpa [render] using this
  | node a b z r ihb ihr =>
    intro st u c_ o n h hw hb ho hc
    obtain ⟨⟨ht, hf, q, hq, hq1, hq2⟩, hwb, hz, hwr⟩ := hw
    simp only [render, List.length_append, List.length_cons, List.length_nil] at hb
    obtain ⟨st1, d1, r1, a1, hd1, hl1⟩ := read_opening ha h a ht hf (by omega) (by omega)
    rw [hq] at hl1; cases hl1
    have hl : levels q (-1) = -1 := by simp [levels, hq1, hq2]
    obtain ⟨st2, r2, a2⟩ := read_close ha a1 (by simp; omega) (by omega) (by rw [hl]; omega) (by rw [hl]; omega)
    rw [hl, show o + 2 + -1 = o + 1 by omega] at a2
    obtain ⟨st3, d3, r3, a3, hd3⟩ := ihb a2 hwb (by simp; omega) (by omega) (by omega)
    obtain ⟨st4, d4, r4, a4, hd4, hd4'⟩ := read_closing ha a3 z hz (by simp; omega) (by omega)
    have hl' : levels d4 (-3) = -3 := by simp [levels, hd4, hd4']
    obtain ⟨st5, r5, a5⟩ := read_close ha a4 (by simp; omega) (by omega) (by rw [hl']; omega) (by rw [hl']; omega)
    rw [hl', show o + 1 + 2 + -3 = o by omega] at a5
    obtain ⟨st6, d6, r6, a6, hd6⟩ := ihr a5 hwr (by simp; omega) ho (by omega)
    refine ⟨st6, d6, ?_, by simpa [render] using a6, hd6⟩
    have := ((((r1.trans r2).trans r3).trans r4).trans r5).trans r6
    simpa [render] using this

end Verif.Lemmas.XmlDoc
