import Verif.Spec.Message
/-!
# C73: messages
-/
namespace Verif.Props.Message
open Verif.Model.Message Verif.Spec.Message

theorem fill_ok : ∀ (es : List (Nat × Option Text)) (table : List (Option Text)), (es.map Prod.fst).Nodup →
    (∀ e ∈ es, e.1 < table.length) →
    ∃ t, fill es table = some t ∧ t.length = table.length ∧ (∀ e ∈ es, t[e.1]? = some e.2) ∧
      ∀ i, i ∉ es.map Prod.fst → t[i]? = table[i]?
  | [], table => by intro _ _; exact ⟨table, rfl, rfl, by simp, by simp⟩
  | (v, f) :: es, table => by
    intro hd hs
    rw [List.map_cons, List.nodup_cons] at hd
    have hv := hs (v, f) (by simp)
    obtain ⟨t, h1, h2, h3, h4⟩ := fill_ok es (table.set v f) hd.2 (by
      intro e he
      rw [List.length_set]
      exact hs e (by simp [he]))
    refine ⟨t, by rw [fill, if_pos hv, h1], by rw [h2, List.length_set], ?_, ?_⟩
    · intro e he
      rcases List.mem_cons.mp he with rfl | he
      · rw [h4 _ hd.1]
        simp [hv]
      · exact h3 e he
    · intro i hi
      simp only [List.map_cons, List.mem_cons, not_or] at hi
      rw [h4 i hi.2, List.getElem?_set, if_neg (fun e => hi.1 e.symm)]

/-- what the static variables hold -/
def Inv (last : Nat) (enums : List (Nat × Option Text)) (known : Bool) (s : St) : Prop :=
  s.inited = known ∧ s.messages.length = last + 1 ∧
  (known = false → s.messages = List.replicate (last + 1) none) ∧
  (known = true → (∀ e ∈ enums, s.messages[e.1]? = some e.2) ∧
    ∀ i, i ∉ enums.map Prod.fst → i ≤ last → s.messages[i]? = some none)

theorem prepare_ok {last : Nat} {enums : List (Nat × Option Text)} (ht : Table last enums) {known : Bool} {s : St} (h : Inv last enums known s)
    (types : Bool) : ∃ s', prepare (if types then some enums else none) s = some s' ∧ Inv last enums (known || types) s' := by
  obtain ⟨h1, h2, h3, h4⟩ := h
  cases known with
  | true => exact ⟨s, by simp [prepare, h1], h1, h2, by simp, h4⟩
  | false =>
    cases types with
    | false => exact ⟨s, by simp [prepare, h1], h1, h2, h3, h4⟩
    | true =>
      obtain ⟨t, g1, g2, g3, g4⟩ := fill_ok enums s.messages ht.distinct (by
        intro e he
        have := ht.small e he
        omega)
      refine ⟨{ messages := t, inited := true }, by simp [prepare, h1, g1], rfl, by rw [g2, h2], by simp, ?_⟩
      intro _
      refine ⟨g3, ?_⟩
      intro i hi hl
      rw [g4 i hi, h3 rfl, List.getElem?_replicate, if_pos (by omega)]

theorem format_ok {last : Nat} {enums : List (Nat × Option Text)} (ht : Table last enums) {known : Bool} {s : St} (h : Inv last enums known s)
    {id : Nat} (hid : id ≠ last + 1) :
    ∃ f, formatOf s id = some f ∧ if known then Format enums id f else f = txt "Unknown MR_MESSAGE_ID." := by
  obtain ⟨h1, h2, h3, h4⟩ := h
  by_cases hl : id ≤ last
  · obtain ⟨f, hf⟩ : ∃ f, s.messages[id]? = some f := ⟨s.messages[id]'(by omega), List.getElem?_eq_getElem _⟩
    refine ⟨f.getD (txt "Unknown MR_MESSAGE_ID."), ?_, ?_⟩
    · unfold formatOf
      rw [if_pos (by omega), hf]
      rfl
    · cases known with
      | false =>
        rw [h3 rfl, List.getElem?_replicate, if_pos (by omega)] at hf
        cases hf
        rfl
      | true =>
        obtain ⟨g1, g2⟩ := h4 rfl
        simp only [if_true]
        by_cases hm : id ∈ enums.map Prod.fst
        · obtain ⟨e, he, rfl⟩ := List.mem_map.mp hm
          have := g1 e he
          rw [hf] at this
          cases this
          obtain ⟨i, x⟩ := e
          cases x with
          | some f => exact Or.inl he
          | none =>
            right
            refine ⟨?_, rfl⟩
            intro g hg
            have := g1 _ hg
            rw [hf] at this
            cases this
        · rw [g2 id hm hl] at hf
          cases hf
          right
          refine ⟨?_, rfl⟩
          intro g hg
          exact hm (List.mem_map.mpr ⟨_, hg, rfl⟩)
  · refine ⟨_, by unfold formatOf; rw [if_neg (by omega)], ?_⟩
    cases known with
    | false => rfl
    | true =>
      right
      refine ⟨?_, rfl⟩
      intro g hg
      exact hl (ht.small _ hg)

theorem level_ok {level : Nat} (h : level ≠ 8) : levelName level = some (nameOf level) := by
  match level with
  | 0 | 1 | 2 | 3 | 4 | 5 | 6 | 7 => rfl
  | 8 => exact absurd rfl h
  | n + 9 =>
    unfold levelName
    rw [if_neg (by rintro ⟨_, h⟩; simp [levels] at h)]
    rfl

theorem message_ok {last : Nat} {enums : List (Nat × Option Text)} (ht : Table last enums) {known : Bool} {s : St} (h : Inv last enums known s)
    (c : Call) (hl : c.level ≠ 8) (hid : c.id ≠ last + 1) :
    ∃ s' o, message c.handler c.threshold (if c.types then some enums else none) c.render c.alloc s c.level c.id = some (s', o) ∧
      Expected enums (known || c.types) c o ∧
      Inv last enums (known || (c.types && !c.handler && decide (c.threshold ≤ c.level))) s' := by
  unfold message
  by_cases hh : c.handler = true
  · refine ⟨s, _, by rw [if_pos hh], by simp [Expected, hh], ?_⟩
    simpa [hh] using h
  · have hh' : c.handler = false := by simpa using hh
    by_cases hc : c.level ≥ c.threshold
    · obtain ⟨s', e1, hi⟩ := prepare_ok ht h c.types
      obtain ⟨f, e2, hf⟩ := format_ok ht hi hid
      have hinv : (known || (c.types && !c.handler && decide (c.threshold ≤ c.level))) = (known || c.types) := by
        simp [hh', hc]
      rw [if_neg hh, if_pos hc, level_ok hl, hinv]
      simp only [messageFormat, e1, e2, Option.bind_eq_bind, Option.bind_some, vasprintf]
      unfold Expected
      simp only [hh', Bool.false_eq_true, if_false, Nat.not_lt.mpr hc]
      cases hr : c.render f with
      | none => exact ⟨s', _, rfl, ⟨f, hf, by rw [hr]⟩, hi⟩
      | some t =>
        cases t with
        | nil => exact ⟨s', _, rfl, ⟨f, hf, by rw [hr]⟩, hi⟩
        | cons b t =>
          simp only [List.length_cons, Nat.add_eq_zero_iff, Nat.succ_ne_self, and_false, if_false]
          cases ha : c.alloc with
          | true => exact ⟨s', _, rfl, ⟨f, hf, by rw [hr]; rfl⟩, hi⟩
          | false => exact ⟨s', _, rfl, ⟨f, hf, by rw [hr]; rfl⟩, hi⟩
    · refine ⟨s, _, by rw [if_neg hh, if_neg hc], ?_, ?_⟩
      · simp [Expected, hh', Nat.lt_of_not_ge hc]
      · simpa [hh', hc] using h

theorem run_ok {last : Nat} {enums : List (Nat × Option Text)} (ht : Table last enums) : ∀ (cs : List Call) (known : Bool) (s : St),
    Inv last enums known s → (∀ c ∈ cs, c.level ≠ 8 ∧ c.id ≠ last + 1) →
    ∃ s' os, run enums cs s = some (s', os) ∧ AllExpected enums known cs os ∧ ∃ known', Inv last enums known' s'
  | [], known, s => by intro h _; exact ⟨s, [], rfl, rfl, known, h⟩
  | c :: cs, known, s => by
    intro h hc
    obtain ⟨s1, o, e1, h1, h2⟩ := message_ok ht h c (hc c (by simp)).1 (hc c (by simp)).2
    obtain ⟨s2, os, e2, h3, h4⟩ := run_ok ht cs _ s1 h2 (fun c h => hc c (by simp [h]))
    exact ⟨s2, o :: os, by simp [run, e1, e2], ⟨h1, h3⟩, h4⟩

/-- **C73**, for log levels other than 8 and identifiers other than MR_MESSAGE_LAST + 1: in any sequence of messages, with handler,
threshold and registration of types changing in between, each one goes to the handler if there is one (whatever its level), is dropped
if its level is below the threshold, and is written otherwise with the name of its level and the text of its identifier, as soon as
types are registered.  If the text cannot be formatted this is written.  No access is outside of the tables.  Missing: the excluded
numbers, see the deviations. -/
theorem C73_messages_partial (last : Nat) (enums : List (Nat × Option Text)) (ht : Table last enums) (cs : List Call)
    (hc : ∀ c ∈ cs, c.level ≠ 8 ∧ c.id ≠ last + 1) :
    ∃ s os, run enums cs (start last) = some (s, os) ∧ AllExpected enums false cs os := by
  obtain ⟨s, os, h1, h2, _⟩ := run_ok ht cs false (start last) ⟨rfl, by simp [start], by intro _; rfl, by simp⟩ hc
  exact ⟨s, os, h1, h2⟩

/-- **C73**, deviation: a message of level 8, if it is written, reads behind the table of eight levels. -/
theorem C73_deviation_level (threshold : Nat) (h : threshold ≤ 8) (tdp : Option (List (Nat × Option Text))) (render : Text → Option Text)
    (alloc : Bool) (s : St) (id : Nat) : message false threshold tdp render alloc s 8 id = none := by
  unfold message
  rw [if_neg (by simp), if_pos h]
  rfl

/-- **C73**, deviation: after any messages as above, a message with the identifier MR_MESSAGE_LAST + 1 reads behind the table of messages
if it is written. -/
theorem C73_deviation_identifier (last : Nat) (enums : List (Nat × Option Text)) (ht : Table last enums) (cs : List Call)
    (hc : ∀ c ∈ cs, c.level ≠ 8 ∧ c.id ≠ last + 1) (s : St) (os : List Out) (hr : run enums cs (start last) = some (s, os))
    (threshold level : Nat) (h : threshold ≤ level) (types : Bool) (render : Text → Option Text) (alloc : Bool) :
    message false threshold (if types then some enums else none) render alloc s level (last + 1) = none := by
  obtain ⟨s0, os0, h1, _, known, hi⟩ := run_ok ht cs false (start last) ⟨rfl, by simp [start], by intro _; rfl, by simp⟩ hc
  rw [hr] at h1
  cases h1
  unfold message
  rw [if_neg (by simp), if_pos h]
  obtain ⟨s', hp, _, hl, _⟩ := prepare_ok ht hi types
  have : formatOf s' (last + 1) = none := by
    unfold formatOf
    rw [if_pos (by omega), List.getElem?_eq_none (by omega)]
    rfl
  cases levelName level with
  | none => rfl
  | some l => simp [messageFormat, hp, this]

/-! Two messages "a%d" and "b" with identifiers 0 and 1; formatting gives the format itself. -/
def exE : List (Nat × Option Text) := [(1, some (txt "b")), (0, some (txt "a%d")), (2, none)]
example : Table 2 exE := ⟨by decide, by decide⟩
/- before types are registered; below the threshold; written; with a handler; unknown identifier; no memory -/
def exC : List Call := [⟨false, 3, false, some, true, 4, 1⟩, ⟨false, 3, true, some, true, 2, 1⟩, ⟨false, 3, true, some, true, 3, 1⟩,
  ⟨true, 3, true, some, true, 0, 1⟩, ⟨false, 3, false, some, true, 9, 77⟩, ⟨false, 3, false, some, false, 6, 0⟩]
example : ∀ c ∈ exC, c.level ≠ 8 ∧ c.id ≠ 3 := by decide
example : (run exE exC (start 2)).map Prod.snd = some [.line (txt "WARN") (txt "Unknown MR_MESSAGE_ID."), .silent, .line (txt "INFO") (txt "b"),
    .handler 0 1, .line (txt "Unknown") (txt "Unknown MR_MESSAGE_ID."), .noMemory (txt "FATAL") 0] := by decide
example : message false 3 (some exE) some true (start 2) 4 3 = none := by decide
example : message false 3 (some exE) some true (start 2) 8 1 = none := by decide

end Verif.Props.Message
