import Verif.Model.Lloc
import Verif.Spec.Position

/-
C35: parser error locations are exact.
-/
namespace Verif.Props.Lloc
open Verif.Model.Lloc
open Verif.Spec

/-- The counters describe position `k` of the text. -/
def At (text : List Nat) (k : Nat) (l : Lloc) : Prop :=
  l.lineno = Position.line text k ∧ l.column = Position.column text k ∧ l.offset = k

theorem line_succ (text : List Nat) (k c : Nat) (h : text[k]? = some c) :
    Position.line text (k + 1) = Position.line text k + (if c = 10 then 1 else 0) := by
  simp only [Position.line, List.take_add_one, h, Option.toList_some, List.count_append,
    List.count_cons, List.count_nil]
  by_cases hc : c = 10 <;> simp [hc] <;> omega

theorem column_succ (text : List Nat) (k c : Nat) (h : text[k]? = some c) :
    Position.column text (k + 1) = if c = 10 then 0 else Position.column text k + 1 := by
  simp only [Position.column, List.take_add_one, h, Option.toList_some, List.reverse_append,
    List.reverse_cons, List.reverse_nil, List.nil_append, List.cons_append, List.takeWhile_cons]
  by_cases hc : c = 10 <;> simp [hc]

theorem line_le (text : List Nat) (k : Nat) : Position.line text k ≤ 1 + k := by
  have := List.count_le_length (a := 10) (l := text.take k)
  simp only [Position.line]
  have h2 : (text.take k).length ≤ k := by simp; omega
  omega

theorem column_le (text : List Nat) (k : Nat) : Position.column text k ≤ k := by
  simp only [Position.column]
  have := (List.takeWhile_prefix (l := (text.take k).reverse) (fun c => c != 10)).length_le
  simp at this
  omega

theorem loop_at (text : List Nat) (hlen : text.length < 2147483647) :
    ∀ (fuel k ptr : Nat) (l : Lloc), At text k l → k ≤ ptr → ptr ≤ text.length →
      ptr < k + fuel → ∃ l', loop text 0 ptr fuel l = some l' ∧ At text ptr l' := by
  intro fuel
  induction fuel with
  | zero => intro k ptr l _ _ _ _; omega
  | succ fuel ih =>
    intro k ptr l h hk hp hf
    obtain ⟨h1, h2, h3⟩ := h
    unfold loop
    by_cases hlt : k < ptr
    · have hc : text[k]? = some text[k] := List.getElem?_eq_getElem (by omega)
      have hl := line_le text k
      have hcol := column_le text k
      simp only [h3, Nat.zero_add, hlt, ↓reduceIte, hc, Option.bind_eq_bind, Option.bind_some]
      by_cases hn : text[k] = 10
      · simp only [hn, ↓reduceIte, inc, h1]
        rw [if_pos (by omega)]
        simp only [Option.bind_some, if_pos (show k < 2147483647 by omega)]
        apply ih (k + 1) ptr _ _ (by omega) hp (by omega)
        refine ⟨?_, ?_, rfl⟩
        · simp [line_succ text k _ hc, hn]
        · simp [column_succ text k _ hc, hn]
      · simp only [hn, ↓reduceIte, inc, h2]
        rw [if_pos (by omega)]
        simp only [Option.bind_some, if_pos (show k < 2147483647 by omega)]
        apply ih (k + 1) ptr _ _ (by omega) hp (by omega)
        refine ⟨?_, ?_, rfl⟩
        · simp [line_succ text k _ hc, hn, h1]
        · simp [column_succ text k _ hc, hn]
    · have : k = ptr := by omega
      subst this
      refine ⟨l, ?_, h1, h2, h3⟩
      simp [h3]

theorem calc_at (text : List Nat) (hlen : text.length < 2147483647) (k ptr : Nat) (m : Load)
    (hb : m.buf = some 0) (h : At text k m.lloc) (hk : k ≤ ptr) (hp : ptr ≤ text.length) :
    ∃ m', calcLloc text m ptr = some m' ∧ m'.buf = some 0 ∧ At text ptr m'.lloc := by
  obtain ⟨l', e, hl⟩ := loop_at text hlen (ptr + 1) k ptr m.lloc h hk hp (by omega)
  refine ⟨{ m with lloc := l' }, ?_, hb, hl⟩
  simp [calcLloc, hb, e]

theorem at_zero (text : List Nat) : At text 0 init.lloc := by
  refine ⟨?_, ?_, rfl⟩
  · simp [Position.line, init]
  · simp [Position.column, init]

theorem action_at (text : List Nat) (hlen : text.length < 2147483647) (k cp : Nat) (m : Load)
    (hb : m.buf = some 0 ∨ (k = 0 ∧ m = init)) (h : At text k m.lloc) (hk : k ≤ cp)
    (hp : cp ≤ text.length) :
    ∃ m' s e, userAction text m k cp = some (m', s, e) ∧ m'.buf = some 0 ∧ At text cp m'.lloc ∧
      At text k s ∧ At text cp e := by
  have h1 : ∃ m', calcLloc text m k = some m' ∧ m'.buf = some 0 ∧ At text k m'.lloc := by
    rcases hb with hb | ⟨hk0, hm⟩
    · exact calc_at text hlen k k m hb h (Nat.le_refl _) (by omega)
    · subst hk0; subst hm
      exact ⟨_, rfl, rfl, at_zero text⟩
  obtain ⟨m1, e1, b1, a1⟩ := h1
  obtain ⟨m2, e2, b2, a2⟩ := calc_at text hlen k cp m1 b1 a1 hk hp
  exact ⟨m2, m1.lloc, m2.lloc, by simp [userAction, e1, e2], b2, a2, a1, a2⟩

theorem scan_at (text : List Nat) (hlen : text.length < 2147483647) :
    ∀ (lens : List Nat) (m : Load) (pos : Nat),
      (m.buf = some 0 ∨ (pos = 0 ∧ m = init)) → At text pos m.lloc →
      pos + lens.sum ≤ text.length →
      ∃ out, scan text m pos lens = some out ∧ out.length = lens.length ∧
        ∀ i s e, out[i]? = some (s, e) →
          At text (pos + (lens.take i).sum) s ∧ At text (pos + (lens.take (i + 1)).sum) e := by
  intro lens
  induction lens with
  | nil => intro m pos _ _ _; exact ⟨[], rfl, rfl, by simp⟩
  | cons n lens ih =>
    intro m pos hb h hsum
    simp only [List.sum_cons] at hsum
    obtain ⟨m', s, e, he, b', a', as, ae⟩ :=
      action_at text hlen pos (pos + n) m hb h (by omega) (by omega)
    obtain ⟨out, ho, hl, hall⟩ := ih m' (pos + n) (Or.inl b') a' (by omega)
    refine ⟨(s, e) :: out, by simp [scan, he, ho], by simp [hl], ?_⟩
    intro i s' e' hi
    cases i with
    | zero =>
      simp only [List.getElem?_cons_zero, Option.some.injEq, Prod.mk.injEq] at hi
      obtain ⟨rfl, rfl⟩ := hi
      simpa using ⟨as, ae⟩
    | succ i =>
      simp only [List.getElem?_cons_succ] at hi
      have := hall i s' e' hi
      simpa [Nat.add_assoc] using this

/-- C35.  For every text shorter than `INT_MAX` bytes and every cut of it (or of a
prefix of it) into consecutive tokens, the scanner reports for every token exactly the
line and the column of its first byte and of the position after its last byte, and its
offsets; no counter overflows and nothing outside the text is read. -/
theorem C35_token_locations (text lens : List Nat) (hlen : text.length < 2147483647)
    (hcut : lens.sum ≤ text.length) :
    ∃ locs, scan text init 0 lens = some locs ∧ locs.length = lens.length ∧
      ∀ (i : Nat) (s e : Lloc), locs[i]? = some (s, e) →
        s = { lineno := Position.line text (Position.start lens i),
              column := Position.column text (Position.start lens i),
              offset := Position.start lens i } ∧
        e = { lineno := Position.line text (Position.start lens (i + 1)),
              column := Position.column text (Position.start lens (i + 1)),
              offset := Position.start lens (i + 1) } := by
  obtain ⟨out, ho, hl, hall⟩ := scan_at text hlen lens init 0 (Or.inr ⟨rfl, rfl⟩) (at_zero text)
    (by omega)
  refine ⟨out, ho, hl, ?_⟩
  intro i s e hi
  obtain ⟨⟨a1, a2, a3⟩, b1, b2, b3⟩ := hall i s e hi
  simp only [Nat.zero_add] at *
  exact ⟨by cases s; simp_all [Position.start], by cases e; simp_all [Position.start]⟩

/-- C35.  Locations do not depend on how the text was cut: two cuts that both have a
token boundary at the same offset report the same line and column there. -/
theorem C35_cut_independent (text lens lens' : List Nat) (hlen : text.length < 2147483647)
    (h : lens.sum ≤ text.length) (h' : lens'.sum ≤ text.length)
    (locs locs' : List (Lloc × Lloc)) (e : scan text init 0 lens = some locs)
    (e' : scan text init 0 lens' = some locs') (p p' : Lloc × Lloc) (hp : p ∈ locs)
    (hp' : p' ∈ locs') (ho : p.2.offset = p'.2.offset) : p.2 = p'.2 := by
  obtain ⟨o, e1, _, a⟩ := C35_token_locations text lens hlen h
  obtain ⟨o', e1', _, a'⟩ := C35_token_locations text lens' hlen h'
  rw [e] at e1; rw [e'] at e1'
  cases e1; cases e1'
  obtain ⟨i, hi⟩ := List.mem_iff_getElem?.1 hp
  obtain ⟨j, hj⟩ := List.mem_iff_getElem?.1 hp'
  have x := (a i p.1 p.2 hi).2
  have y := (a' j p'.1 p'.2 hj).2
  rw [x, y] at ho ⊢
  simp only at ho
  rw [ho]

/-- Non-vacuity: "{\n ab" cut into "{", "\n ", "ab". -/
example : scan [123, 10, 32, 97, 98] init 0 [1, 2, 2] =
    some [(⟨1, 0, 0⟩, ⟨1, 1, 1⟩), (⟨1, 1, 1⟩, ⟨2, 1, 3⟩), (⟨2, 1, 3⟩, ⟨2, 3, 5⟩)] := by
  decide +kernel

example : Position.line [123, 10, 32, 97, 98] 4 = 2 ∧ Position.column [123, 10, 32, 97, 98] 4 = 2 := by
  decide +kernel

end Verif.Props.Lloc
