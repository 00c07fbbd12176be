import Verif.Lemmas.TypeRuns
import Verif.Spec.Numeral

/-
C38: type-name normalisation.
-/
namespace Verif.Props.TypeName
open Verif.Model Verif.Model.TypeName Verif.Spec.TypeName Verif.Lemmas.TypeName

/-! ## Normalisation -/

/-- C38.  For every string, normalisation ends without touching memory outside the string;
its result is the words of the text in which every whole word that is a qualifier was
blanked out, separated by single blanks. -/
theorem C38_normalize (s : List Nat) (hs : ∀ c ∈ s, c ≠ 0) :
    normalizeType s = some (joinWords (words (blanked s))) := by
  have hb := blanked_text hs
  have h1 : (blanked s ++ [0]).drop 0 = blanked s ++ [0] := rfl
  have hsk := skipSpaces_eq (blanked s) ((blanked s ++ [0]).length + 1) (blanked s ++ [0]) 0 h1
    (by simp; omega)
  have hdrop : (blanked s ++ [0]).drop ((blanked s).takeWhile space).length =
      (blanked s).dropWhile space ++ [0] := by
    conv => lhs; rw [← List.takeWhile_append_dropWhile (p := space) (l := blanked s)]
    rw [List.append_assoc, List.drop_left']
    rw [List.takeWhile_append_dropWhile]
  have hsub := (List.dropWhile_sublist (l := blanked s) space)
  obtain ⟨b, e, hcs⟩ := squeeze_eq ((blanked s).dropWhile space) ((blanked s ++ [0]).length + 1)
    (blanked s ++ [0]) (0 + ((blanked s).takeWhile space).length) 0 false
    (by rw [Nat.zero_add]; exact hdrop)
    (fun c hc => hb c (hsub.subset hc)) (by intro c hc; simp at hc) (Nat.zero_le _) (by simp)
    (by have := hsub.length_le; simp; omega)
  simp only [normalizeType, dropAll_blanked hs, Option.bind_eq_bind, Option.bind_some, hsk, e, hcs,
    List.take_zero, List.nil_append, rest_drop]

/-- C38.  A declaration without stars keeps exactly its words that are not qualifiers. -/
theorem C38_words (s : List Nat) (hs : ∀ c ∈ s, c ≠ 0)
    (hw : ∀ c ∈ s, space c = true → c = 32 ∨ c = 9) (hstar : 42 ∉ s) :
    normalizeType s = some (joinWords ((words s).filter (fun w => decide (w ∉ qualifiers)))) := by
  rw [C38_normalize s hs, words_blanked s _ hstar]
  intro c hc h
  rcases hw c hc h with rfl | rfl <;> rfl

/-- C38.  The result has no white space but single blanks between words: it neither starts
nor ends with white space, and a blank is followed by a byte that is no white space. -/
theorem C38_clean (s t : List Nat) (hs : ∀ c ∈ s, c ≠ 0) (h : normalizeType s = some t) :
    (∀ c, t.head? = some c → space c = false) ∧ (∀ c, t.getLast? = some c → space c = false) ∧
    (∀ i c, t[i]? = some c → space c = true →
      c = 32 ∧ ∃ d, t[i + 1]? = some d ∧ space d = false) := by
  rw [C38_normalize s hs] at h
  cases h
  have hm := words_mem (blanked s)
  generalize words (blanked s) = ws at hm
  have key : ∀ ws : List (List Nat), (∀ w ∈ ws, w ≠ [] ∧ ∀ c ∈ w, space c = false) →
      (∀ c, (joinWords ws).head? = some c → space c = false) ∧
      (∀ c, (joinWords ws).getLast? = some c → space c = false) ∧
      (∀ i c, (joinWords ws)[i]? = some c → space c = true →
        c = 32 ∧ ∃ d, (joinWords ws)[i + 1]? = some d ∧ space d = false) ∧
      (ws ≠ [] → joinWords ws ≠ []) := by
    intro ws
    induction ws with
    | nil => intro _; simp [joinWords]
    | cons w ws ih =>
      intro hm
      obtain ⟨h1, h2, h3, h4⟩ := ih (fun v hv => hm v (List.mem_cons_of_mem _ hv))
      obtain ⟨hw, hns⟩ := hm w List.mem_cons_self
      have hj := join_cons w ws
      by_cases e : ws = []
      · rw [if_pos e, List.append_nil] at hj
        rw [hj]
        refine ⟨?_, ?_, ?_, fun _ => hw⟩
        · intro c hc; exact hns c (List.mem_of_mem_head? hc)
        · intro c hc; exact hns c (List.mem_of_getLast? hc)
        · intro i c hc hsp
          rw [hns c (List.mem_of_getElem? hc)] at hsp; simp at hsp
      · rw [if_neg e] at hj
        rw [hj]
        have hne := h4 e
        refine ⟨?_, ?_, ?_, fun _ => by simp⟩
        · intro c hc
          cases w with
          | nil => exact absurd rfl hw
          | cons d w => simp at hc; subst hc; exact hns d List.mem_cons_self
        · intro c hc
          apply h2
          rw [List.getLast?_append] at hc
          rw [List.getLast?_cons] at hc
          cases hl : (joinWords ws).getLast? with
          | none => rw [List.getLast?_eq_none_iff] at hl; exact absurd hl hne
          | some d => rw [hl] at hc; simpa using hc
        · intro i c hc hsp
          by_cases hi : i < w.length
          · rw [List.getElem?_append_left hi] at hc
            rw [hns c (List.mem_of_getElem? hc)] at hsp; simp at hsp
          · obtain ⟨k, rfl⟩ : ∃ k, i = w.length + k := ⟨i - w.length, by omega⟩
            rw [get_right] at hc
            rw [Nat.add_assoc, get_right]
            cases k with
            | zero =>
              simp only [List.getElem?_cons_zero, Option.some.injEq] at hc
              refine ⟨hc.symm, ?_⟩
              simp only [Nat.zero_add, List.getElem?_cons_succ]
              cases hh : joinWords ws with
              | nil => exact absurd hh hne
              | cons d l => exact ⟨d, rfl, h1 d (by rw [hh]; rfl)⟩
            | succ k =>
              simp only [List.getElem?_cons_succ] at hc ⊢
              exact h3 k c hc hsp
  have := key ws hm
  exact ⟨this.1, this.2.1, this.2.2.1⟩

/-- C38.  Outside the blanked qualifiers no byte that is not white space is lost, added,
changed or moved past another one. -/
theorem C38_keeps_bytes (s t : List Nat) (hs : ∀ c ∈ s, c ≠ 0) (h : normalizeType s = some t) :
    t.filter (fun c => !space c) = (blanked s).filter (fun c => !space c) := by
  rw [C38_normalize s hs] at h
  cases h
  generalize blanked s = x
  have hj : ∀ ws : List (List Nat), (joinWords ws).filter (fun c => !space c) =
      ws.flatten.filter (fun c => !space c) := by
    intro ws
    induction ws with
    | nil => simp [joinWords]
    | cons w ws ih =>
      rw [join_cons, List.flatten_cons, List.filter_append, List.filter_append, ← ih]
      by_cases e : ws = []
      · simp [e, joinWords]
      · rw [if_neg e, List.filter_cons]
        simp [space]
  rw [hj]
  induction x using words_induction with
  | h0 => simp [words_nil]
  | h1 c s hs ih => rw [words_space hs, ih, List.filter_cons]; simp [hs]
  | h2 w s hw hn hhd ih =>
    rw [words_append_word hw hn hhd, List.flatten_cons, List.filter_append, List.filter_append, ih]

/-- C38.  No qualifier is left as a whole word of the result, for texts whose white space
is blanks and tabs (the preprocessor leaves no other in a stringified type). -/
theorem C38_no_qualifier (s t : List Nat) (hs : ∀ c ∈ s, c ≠ 0)
    (hw : ∀ c ∈ s, space c = true → c = 32 ∨ c = 9) (h : normalizeType s = some t) :
    ∀ q ∈ qualifiers, ∀ a, standsAt t q a = false := by
  rw [C38_normalize s hs] at h
  cases h
  have hp : Plain s := by
    intro c hc h
    rcases hw c hc h with rfl | rfl <;> rfl
  have hu := join_unblanked _ (words_unblanked _ (blanked_plain hp) (blanked_idem s))
  intro q hq a
  rw [Bool.eq_false_iff]
  intro hst
  have hword := qualifiers_word q hq
  have hm := (stands_iff.1 hst).1
  have hpos := hword.pos
  obtain ⟨c, hc⟩ := hm.some hword (p := a) (by omega)
  have hne := (hm.nonsep hword (Nat.le_refl _) (by omega) hc).2
  have hin : inQualifier (joinWords (words (blanked s))) a = true :=
    inQ_iff.2 ⟨q, hq, a, Nat.le_refl _, by omega, hst⟩
  have := blanked_get (joinWords (words (blanked s))) a
  rw [hu, hc, hin] at this
  simp at this
  exact hne this

/-- C38.  Normalisation is idempotent on such texts. -/
theorem C38_idempotent (s t : List Nat) (hs : ∀ c ∈ s, c ≠ 0)
    (hw : ∀ c ∈ s, space c = true → c = 32 ∨ c = 9) (h : normalizeType s = some t) :
    normalizeType t = some t := by
  have ht : ∀ c ∈ t, c ≠ 0 := by
    intro c hc
    by_cases hsp : space c = true
    · intro e; subst e; simp [space] at hsp
    · have hin : c ∈ t.filter (fun c => !space c) := by
        rw [List.mem_filter]; exact ⟨hc, by simpa using hsp⟩
      rw [C38_keeps_bytes s t hs h] at hin
      exact blanked_text hs c (List.mem_filter.1 hin).1
  rw [C38_normalize t ht]
  rw [C38_normalize s hs] at h
  cases h
  have hp : Plain s := by
    intro c hc h
    rcases hw c hc h with rfl | rfl <;> rfl
  rw [join_unblanked _ (words_unblanked _ (blanked_plain hp) (blanked_idem s)),
    words_join _ (words_mem _)]

/-- Deviation: with another kind of white space (here a line feed) the keyword is not
recognised the first time, and normalising again changes the result: "const\nint" gives
"const int", which gives "int". -/
theorem C38_deviation_line_feed :
    normalizeType ([99, 111, 110, 115, 116, 10, 105, 110, 116]) =
      some [99, 111, 110, 115, 116, 32, 105, 110, 116] ∧
    normalizeType [99, 111, 110, 115, 116, 32, 105, 110, 116] = some [105, 110, 116] := by
  decide +kernel

/-- Non-vacuity: "  const struct foo*const  *" gives "foo* *". -/
example : normalizeType (Spec.ascii "  const struct\tfoo*const  *") = some (Spec.ascii "foo* *") := by
  decide +kernel

example : normalizeType (Spec.ascii "const unsigned volatile  constant") =
    some (Spec.ascii "unsigned constant") := by
  decide +kernel

/-! ## Pointers -/

/-- The part of a declaration after the type name: blanks, tabs, stars and qualifiers;
the number is the number of stars. -/
inductive Stars : Nat → List Nat → Prop
  | nil : Stars 0 []
  | blank (k c : Nat) (z : List Nat) : c = 32 ∨ c = 9 → Stars k z → Stars k (c :: z)
  | star (k : Nat) (z : List Nat) : Stars k z → Stars (k + 1) (42 :: z)
  | qualifier (k : Nat) (q z : List Nat) : q ∈ qualifiers →
      (z = [] ∨ ∃ c, z.head? = some c ∧ separator c = true) → Stars k z → Stars k (q ++ z)

theorem stars_blanked {k : Nat} {z : List Nat} (h : Stars k z) :
    (∀ c ∈ blanked z, separator c = true) ∧ (blanked z).count 42 = k := by
  induction h with
  | nil => exact ⟨by simp [blanked_nil], rfl⟩
  | blank k c z hc _ ih =>
    have hsep : separator c = true := by rcases hc with rfl | rfl <;> rfl
    rw [blanked_sep hsep]
    refine ⟨?_, ?_⟩
    · intro d hd
      rcases List.mem_cons.1 hd with rfl | hd
      · exact hsep
      · exact ih.1 d hd
    · rw [List.count_cons_of_ne, ih.2]
      rcases hc with rfl | rfl <;> omega
  | star k z _ ih =>
    rw [blanked_sep rfl]
    refine ⟨?_, by rw [List.count_cons_self, ih.2]⟩
    intro d hd
    rcases List.mem_cons.1 hd with rfl | hd
    · rfl
    · exact ih.1 d hd
  | qualifier k q z hq hz _ ih =>
    have hword := qualifiers_word q hq
    have hsep : ∀ c ∈ q, separator c = false := by
      intro c hc
      rw [sep_delim (hword.ne_zero c hc)]; exact hword.2 c hc
    rw [blanked_append (cut_of_head hz), blanked_word hsep, if_pos hq]
    refine ⟨?_, ?_⟩
    · intro d hd
      rcases List.mem_append.1 hd with hd | hd
      · have := List.eq_of_mem_replicate hd; subst this; rfl
      · exact ih.1 d hd
    · rw [List.count_append, ih.2, List.count_eq_zero_of_not_mem, Nat.zero_add]
      intro hm
      have := List.eq_of_mem_replicate hm
      omega

/-- Appending one byte that is no white space to the text the squeezing loop reads. -/
theorem rest_snoc (c : Nat) (hc : space c = false) : ∀ (x : List Nat) (p : Bool),
    (x = [] ∨ ∃ y, ∃ pre, (y = [c] ∨ y = [32, c]) ∧ rest (x ++ [c]) p = pre ++ y ∧ rest x p = pre) ∧
    (x = [] → rest (x ++ [c]) p = (if p then [32] else []) ++ [c]) := by
  intro x
  induction x with
  | nil => intro p; exact ⟨Or.inl rfl, fun _ => by simp [rest, hc]⟩
  | cons d x ih =>
    intro p
    refine ⟨Or.inr ?_, fun h => by simp at h⟩
    by_cases hd : space d = true
    · simp only [List.cons_append, rest, hd, ↓reduceIte]
      rcases (ih true).1 with rfl | ⟨y, pre, hy, h1, h2⟩
      · refine ⟨[32, c], [], Or.inr rfl, ?_, rfl⟩
        simp [rest, hc]
      · exact ⟨y, pre, hy, h1, h2⟩
    · have hd' : space d = false := by simpa using hd
      simp only [List.cons_append, rest, hd', Bool.false_eq_true, ↓reduceIte]
      rcases (ih false).1 with rfl | ⟨y, pre, hy, h1, h2⟩
      · refine ⟨[c], (if p = true then [32] else []) ++ [d], Or.inl rfl, ?_, ?_⟩
        · simp [rest, hc]
        · simp [rest]
      · refine ⟨y, (if p = true then [32] else []) ++ d :: pre, hy, ?_, by rw [h2]⟩
        rw [h1]; simp

theorem join_snoc_space (x : List Nat) (c : Nat) (hc : space c = true) :
    words (x ++ [c]) = words x := by
  induction x using words_induction with
  | h0 => rw [List.nil_append, words_space hc]
  | h1 d s hs ih => rw [List.cons_append, words_space hs, words_space hs, ih]
  | h2 w s hw hn hhd ih =>
    rw [List.append_assoc, words_append_word hw hn hhd, words_append_word hw hn, ih]
    right
    rcases hhd with rfl | ⟨d, hd, hs⟩
    · exact ⟨c, rfl, hc⟩
    · cases s with
      | nil => simp at hd
      | cons e s => exact ⟨d, by simpa using hd, hs⟩

theorem join_snoc (x : List Nat) (c : Nat) (hc : space c = false) (hx : words x ≠ []) :
    ∃ y, (y = [c] ∨ y = [32, c]) ∧ joinWords (words (x ++ [c])) = joinWords (words x) ++ y := by
  have hdw : (x ++ [c]).dropWhile space = x.dropWhile space ++ [c] := by
    clear hx
    induction x with
    | nil => simp [hc]
    | cons d x ih =>
      by_cases hd : space d = true
      · simp only [List.cons_append, List.dropWhile_cons, hd, ↓reduceIte, ih]
      · simp [List.dropWhile_cons, hd]
  rw [← rest_drop, ← rest_drop, hdw]
  rcases (rest_snoc c hc (x.dropWhile space) false).1 with h | ⟨y, pre, hy, h1, h2⟩
  · exfalso
    apply hx
    rw [← words_dropSpaces, h, words_nil]
  · exact ⟨y, hy, by rw [h1, h2]⟩

theorem snoc_induction {P : List Nat → Prop} (h0 : P []) (h1 : ∀ z c, P z → P (z ++ [c])) :
    ∀ z, P z := by
  intro z
  rw [← List.reverse_reverse z]
  induction z.reverse with
  | nil => exact h0
  | cons c l ih => rw [List.reverse_cons]; exact h1 _ _ ih

/-- The joined words of a text followed by separators. -/
theorem join_stars (x : List Nat) (hx : words x ≠ []) : ∀ z : List Nat,
    (∀ c ∈ z, separator c = true) →
    ∃ y, joinWords (words (x ++ z)) = joinWords (words x) ++ y ∧ y.count 42 = z.count 42 ∧
      (∀ c ∈ y, c = 32 ∨ c = 42) ∧ (y = [] ∨ y.getLast? = some 42) ∧ words (x ++ z) ≠ [] := by
  intro z
  induction z using snoc_induction with
  | h0 => intro _; exact ⟨[], by simp, rfl, by simp, Or.inl rfl, by simpa using hx⟩
  | h1 z c ih =>
    intro hz
    obtain ⟨y, e, hcnt, hall, hlast, hne⟩ := ih (fun d hd => hz d (List.mem_append.2 (Or.inl hd)))
    have hc := hz c (List.mem_append.2 (Or.inr List.mem_cons_self))
    by_cases hsp : space c = true
    · refine ⟨y, ?_, ?_, hall, hlast, ?_⟩
      · rw [← List.append_assoc, join_snoc_space _ c hsp, e]
      · rw [hcnt, List.count_append, List.count_cons_of_ne]
        · simp
        · rcases space_sep hsp hc with rfl | rfl <;> omega
      · rw [← List.append_assoc, join_snoc_space _ c hsp]; exact hne
    · have hsp' : space c = false := by simpa using hsp
      have hc42 : c = 42 := by
        simp [separator, space] at hc hsp'
        omega
      subst hc42
      obtain ⟨y2, hy2, e2⟩ := join_snoc (x ++ z) 42 hsp' hne
      refine ⟨y ++ y2, ?_, ?_, ?_, ?_, ?_⟩
      · rw [← List.append_assoc, e2, e, List.append_assoc]
      · rw [List.count_append, List.count_append, hcnt]
        rcases hy2 with rfl | rfl <;> simp
      · intro d hd
        rcases List.mem_append.1 hd with hd | hd
        · exact hall d hd
        · rcases hy2 with rfl | rfl <;> simp at hd <;> omega
      · right
        rcases hy2 with rfl | rfl <;> simp
      · intro hh
        have h3 := e2
        rw [List.append_assoc, hh] at h3
        have h4 := congrArg List.length h3
        rcases hy2 with rfl | rfl <;> simp [joinWords] at h4

/-- Text without its trailing white space. -/
def rstrip (l : List Nat) : List Nat := (l.reverse.dropWhile space).reverse

theorem rstrip_snoc_space (l : List Nat) (c : Nat) (h : space c = true) :
    rstrip (l ++ [c]) = rstrip l := by
  simp [rstrip, h]

theorem rstrip_snoc (l : List Nat) (c : Nat) (h : space c = false) :
    rstrip (l ++ [c]) = l ++ [c] := by
  simp [rstrip, h]

theorem backSpaces_eq (s : List Nat) : ∀ (e : Nat), e ≤ s.length → rstrip (s.take e) ≠ [] →
    ∃ e', backSpaces s e = some e' ∧ s.take e' = rstrip (s.take e) := by
  intro e
  induction e with
  | zero => intro _ h; simp [rstrip] at h
  | succ e ih =>
    intro he hne
    have hlt : e < s.length := by omega
    have htake : s.take (e + 1) = s.take e ++ [s[e]] := by
      rw [List.take_add_one, List.getElem?_eq_getElem hlt]; rfl
    by_cases hsp : space s[e] = true
    · rw [htake, rstrip_snoc_space _ _ hsp] at hne ⊢
      obtain ⟨e', h1, h2⟩ := ih (by omega) hne
      refine ⟨e', ?_, h2⟩
      simp [backSpaces, List.getElem?_eq_getElem hlt, space_eq, hsp, h1]
    · have hsp' : space s[e] = false := by simpa using hsp
      refine ⟨e + 1, ?_, ?_⟩
      · simp [backSpaces, List.getElem?_eq_getElem hlt, space_eq, hsp']
      · rw [htake, rstrip_snoc _ _ hsp']

theorem isPointer_star (x : List Nat) (hx : rstrip x ≠ []) :
    isPointer (x ++ [42]) = some (true, rstrip x) := by
  have hlen : (x ++ [42]).length - 1 = x.length := by simp
  have htake : (x ++ [42]).take x.length = x := by simp
  obtain ⟨e', h1, h2⟩ := backSpaces_eq (x ++ [42]) x.length (by simp) (by rw [htake]; exact hx)
  have hget : (x ++ [42])[x.length]? = some 42 := by simp
  unfold isPointer
  rw [if_neg (by simp), hlen, hget]
  simp only [Option.bind_eq_bind, Option.bind_some, ↓reduceIte, h1, h2, htake]

/-- Repeated pointer detection, as in `mr_detect_structured_type`. -/
def stripPointers : Nat → List Nat → Option (List Nat)
  | 0, s => some s
  | k + 1, s =>
    match isPointer s with
    | some (true, s') => stripPointers k s'
    | _ => none

theorem rstrip_append (b y : List Nat) (hy : ∀ c ∈ y, c = 32 ∨ c = 42)
    (hb : ∃ c, b.getLast? = some c ∧ space c = false) :
    ∃ y', rstrip (b ++ y) = b ++ y' ∧ y'.count 42 = y.count 42 ∧ (∀ c ∈ y', c = 32 ∨ c = 42) ∧
      (y' = [] ∨ y'.getLast? = some 42) := by
  induction y using snoc_induction with
  | h0 =>
    refine ⟨[], ?_, rfl, by simp, Or.inl rfl⟩
    obtain ⟨c, hc, hsp⟩ := hb
    obtain ⟨pre, rfl⟩ := List.getLast?_eq_some_iff.1 hc
    rw [List.append_nil, rstrip_snoc _ _ hsp]
  | h1 y c ih =>
    rcases hy c (List.mem_append.2 (Or.inr List.mem_cons_self)) with rfl | rfl
    · obtain ⟨y', e, hc, ha, hl⟩ := ih (fun d hd => hy d (List.mem_append.2 (Or.inl hd)))
      refine ⟨y', ?_, ?_, ha, hl⟩
      · rw [← List.append_assoc, rstrip_snoc_space _ _ rfl, e]
      · rw [hc, List.count_append]; simp
    · refine ⟨y ++ [42], ?_, rfl, hy, Or.inr (by simp)⟩
      rw [← List.append_assoc, rstrip_snoc _ _ rfl]

theorem strip_all (b : List Nat) (hb : ∃ c, b.getLast? = some c ∧ space c = false) :
    ∀ (k : Nat) (y : List Nat), y.count 42 = k → (∀ c ∈ y, c = 32 ∨ c = 42) →
    (y = [] ∨ y.getLast? = some 42) → stripPointers k (b ++ y) = some b := by
  intro k
  induction k with
  | zero =>
    intro y hc _ hl
    rcases hl with rfl | hl
    · simp [stripPointers]
    · have := List.mem_of_getLast? hl
      have h2 := List.count_pos_iff.2 this
      omega
  | succ k ih =>
    intro y hc ha hl
    rcases hl with rfl | hl
    · simp at hc
    · obtain ⟨pre, rfl⟩ := List.getLast?_eq_some_iff.1 hl
      obtain ⟨y', e, hc', ha', hl'⟩ := rstrip_append b pre
        (fun c hcm => ha c (List.mem_append.2 (Or.inl hcm))) hb
      have hne : rstrip (b ++ pre) ≠ [] := by
        rw [e]
        obtain ⟨c, hbc, _⟩ := hb
        intro hh
        rw [List.append_eq_nil_iff] at hh
        rw [hh.1] at hbc; simp at hbc
      rw [← List.append_assoc]
      simp only [stripPointers, isPointer_star _ hne, e]
      apply ih y' _ ha' hl'
      rw [List.count_append] at hc
      simp at hc
      omega

/-- C38.  A declaration of a pointer: the normalised text of a type name (at least one word
that is not a qualifier, no star) followed by any mix of blanks, qualifiers and `k` stars
is recognised as a pointer exactly `k` times, and what remains is the bare type name.
Nothing before the text is read. -/
theorem C38_pointer_depth (base z : List Nat) (k : Nat) (hs : ∀ c ∈ base ++ z, c ≠ 0)
    (hw : ∀ c ∈ base, space c = true → c = 32 ∨ c = 9) (hstar : 42 ∉ base)
    (hname : ∃ w ∈ words base, w ∉ qualifiers) (hz : Stars k z)
    (hcut : z = [] ∨ ∃ c, z.head? = some c ∧ separator c = true) :
    ∃ t name, normalizeType (base ++ z) = some t ∧
      name = joinWords ((words base).filter (fun w => decide (w ∉ qualifiers))) ∧
      stripPointers k t = some name ∧ isPointer name = some (false, name) := by
  have hp : Plain base := by
    intro c hc h
    rcases hw c hc h with rfl | rfl <;> rfl
  have hwb := words_blanked base hp hstar
  have hne : words (blanked base) ≠ [] := by
    rw [hwb]
    obtain ⟨w, hwm, hq⟩ := hname
    intro hh
    have : w ∈ (words base).filter (fun w => decide (w ∉ qualifiers)) := by
      rw [List.mem_filter]; exact ⟨hwm, by simpa using hq⟩
    rw [hh] at this; simp at this
  obtain ⟨hsep, hcnt⟩ := stars_blanked hz
  obtain ⟨y, e, hyc, hya, hyl, _⟩ := join_stars (blanked base) hne (blanked z) hsep
  have hclean := C38_clean base _ (fun c hc => hs c (List.mem_append.2 (Or.inl hc)))
    (C38_normalize base (fun c hc => hs c (List.mem_append.2 (Or.inl hc))))
  have hkeep := C38_keeps_bytes base _ (fun c hc => hs c (List.mem_append.2 (Or.inl hc)))
    (C38_normalize base (fun c hc => hs c (List.mem_append.2 (Or.inl hc))))
  have hjne : joinWords (words (blanked base)) ≠ [] := by
    intro hh
    have h1 := words_join _ (words_mem (blanked base))
    rw [hh, words_nil] at h1
    exact hne h1.symm
  have hlast : ∃ c, (joinWords (words (blanked base))).getLast? = some c ∧ space c = false := by
    cases hl : (joinWords (words (blanked base))).getLast? with
    | none => rw [List.getLast?_eq_none_iff] at hl; exact absurd hl hjne
    | some c => exact ⟨c, rfl, hclean.2.1 c hl⟩
  refine ⟨_, _, C38_normalize _ hs, rfl, ?_, ?_⟩
  · rw [blanked_append (cut_of_head hcut), e, ← hwb]
    exact strip_all _ hlast k y (by rw [hyc]; exact hcnt) hya hyl
  · rw [← hwb]
    obtain ⟨c, hc, hsp⟩ := hlast
    obtain ⟨pre, hpre⟩ := List.getLast?_eq_some_iff.1 hc
    have hcm : c ∈ joinWords (words (blanked base)) := List.mem_of_getLast? hc
    have hc42 : c ≠ 42 := by
      intro h42
      have hin : c ∈ (joinWords (words (blanked base))).filter (fun c => !space c) := by
        rw [List.mem_filter]; exact ⟨hcm, by simp [hsp]⟩
      rw [hkeep] at hin
      have hin2 := (List.mem_filter.1 hin).1
      obtain ⟨i, hi⟩ := List.mem_iff_getElem?.1 hin2
      rw [blanked_get] at hi
      cases eb : base[i]? with
      | none => rw [eb] at hi; simp at hi
      | some d =>
        rw [eb] at hi
        simp only [Option.map_some, Option.some.injEq] at hi
        by_cases hq : inQualifier base i = true
        · rw [if_pos hq] at hi; omega
        · rw [if_neg hq] at hi
          exact hstar (h42 ▸ hi ▸ List.mem_of_getElem? eb)
    rw [hpre]
    unfold isPointer
    rw [if_neg (by simp)]
    have : (pre ++ [c])[(pre ++ [c]).length - 1]? = some c := by simp
    rw [this]
    simp [hc42]

/-- Non-vacuity: "const struct foo * const *" is a pointer to a pointer to "foo". -/
example : normalizeType (Spec.ascii "const struct foo * const *") = some (Spec.ascii "foo * *") ∧
    stripPointers 2 (Spec.ascii "foo * *") = some (Spec.ascii "foo") := by
  decide +kernel

example : Stars 2 (Spec.ascii " * const *") :=
  .blank _ 32 _ (Or.inl rfl) (.star _ _ (.blank _ 32 _ (Or.inl rfl)
    (.qualifier _ (Spec.ascii "const") _ (by decide +kernel) (Or.inr ⟨32, rfl, rfl⟩)
      (.blank _ 32 _ (Or.inl rfl) (.star _ _ .nil)))))

/-- Deviation: pointer detection of a text that has nothing before the star reads before
the start of the buffer. -/
theorem C38_deviation_star_only : isPointer [42] = none := by decide +kernel

/-! ## Arrays -/

/-- The text of the bounds of an array: `[d0][d1]...`. -/
def brackets (ds : List (List Nat)) : List Nat := (ds.map (fun d => 91 :: (d ++ [93]))).flatten

/-- The dimensions that are kept: up to four; further bounds are multiplied into the last
one. -/
def kept (ns : List Nat) : List Nat :=
  if ns.length ≤ 4 then ns
  else ns.take 3 ++ [(ns.drop 4).foldl (fun a b => a * b % 4294967296) (ns[3]?.getD 0)]

theorem strchr_hit : ∀ (x : List Nat) (fuel : Nat) (s u y : List Nat), s = u ++ x ++ 91 :: y →
    91 ∉ x → 0 ∉ x → x.length < fuel → strchr s fuel u.length = some (some (u.length + x.length)) := by
  intro x
  induction x with
  | nil =>
    intro fuel s u y hs _ _ hf
    cases fuel with
    | zero => simp at hf
    | succ fuel =>
      subst hs
      simp [strchr, cAt]
  | cons c x ih =>
    intro fuel s u y hs h1 h2 hf
    cases fuel with
    | zero => simp at hf
    | succ fuel =>
      have hstep := ih fuel s (u ++ [c]) y (by rw [hs]; simp) (fun h => h1 (List.mem_cons_of_mem _ h))
        (fun h => h2 (List.mem_cons_of_mem _ h)) (by simpa using hf)
      have hc : cAt s u.length = some c := by subst hs; simp [cAt]
      have hc1 : c ≠ 91 := fun e => h1 (e ▸ List.mem_cons_self)
      have hc2 : c ≠ 0 := fun e => h2 (e ▸ List.mem_cons_self)
      simp only [strchr, hc, Option.bind_eq_bind, Option.bind_some, hc1, hc2, ↓reduceIte]
      rw [List.length_append, List.length_singleton] at hstep
      rw [hstep]
      simp only [List.length_cons]
      congr 2; omega

theorem strchr_miss : ∀ (x : List Nat) (fuel : Nat) (s u : List Nat), s = u ++ x →
    91 ∉ x → 0 ∉ x → x.length < fuel → strchr s fuel u.length = some none := by
  intro x
  induction x with
  | nil =>
    intro fuel s u hs _ _ hf
    cases fuel with
    | zero => simp at hf
    | succ fuel => subst hs; simp [strchr, cAt]
  | cons c x ih =>
    intro fuel s u hs h1 h2 hf
    cases fuel with
    | zero => simp at hf
    | succ fuel =>
      have hstep := ih fuel s (u ++ [c]) (by rw [hs]; simp) (fun h => h1 (List.mem_cons_of_mem _ h))
        (fun h => h2 (List.mem_cons_of_mem _ h)) (by simpa using hf)
      have hc : cAt s u.length = some c := by subst hs; simp [cAt]
      have hc1 : c ≠ 91 := fun e => h1 (e ▸ List.mem_cons_self)
      have hc2 : c ≠ 0 := fun e => h2 (e ▸ List.mem_cons_self)
      simp only [strchr, hc, Option.bind_eq_bind, Option.bind_some, hc1, hc2, ↓reduceIte]
      rw [List.length_append, List.length_singleton] at hstep
      exact hstep

theorem positional_ge (ds : List Nat) (v : Nat) :
    v ≤ ds.foldl (fun acc d => acc * 10 + d) v := by
  induction ds generalizing v with
  | nil => simp
  | cons d ds ih =>
    rw [List.foldl_cons]
    have := ih (v * 10 + d)
    omega

theorem digits_eq : ∀ (ds : List Nat) (fuel : Nat) (s u y : List Nat) (c v : Nat),
    s = u ++ ds.map (· + 48) ++ c :: y → (∀ d ∈ ds, d < 10) → isdigit c = false →
    ds.foldl (fun acc d => acc * 10 + d) v ≤ 2147483647 → ds.length < fuel →
    digits s fuel u.length v = some (ds.foldl (fun acc d => acc * 10 + d) v) := by
  intro ds
  induction ds with
  | nil =>
    intro fuel s u y c v hs _ hc _ hf
    cases fuel with
    | zero => simp at hf
    | succ fuel =>
      subst hs
      simp [digits, cAt, hc]
  | cons d ds ih =>
    intro fuel s u y c v hs hd hc hmax hf
    cases fuel with
    | zero => simp at hf
    | succ fuel =>
      have hd0 := hd d List.mem_cons_self
      have hstep := ih fuel s (u ++ [d + 48]) y c (v * 10 + d) (by rw [hs]; simp)
        (fun x hx => hd x (List.mem_cons_of_mem _ hx)) hc (by rw [List.foldl_cons] at hmax; exact hmax)
        (by simpa using hf)
      have hcc : cAt s u.length = some (d + 48) := by subst hs; simp [cAt]
      have hdig : isdigit (d + 48) = true := by simp [isdigit]; omega
      have hge := positional_ge ds (v * 10 + d)
      rw [List.foldl_cons] at hmax
      simp only [digits, hcc, Option.bind_eq_bind, Option.bind_some, hdig, ↓reduceIte,
        show d + 48 - 48 = d by omega, show v * 10 + d ≤ 2147483647 by omega]
      rw [List.length_append, List.length_singleton] at hstep
      rw [hstep, List.foldl_cons]

theorem atoi_eq (u d y : List Nat) (n : Nat) (hd : Spec.IsDecimal n d) (hn : n ≤ 2147483647) :
    atoi (u ++ d ++ 93 :: y) u.length = some n := by
  obtain ⟨ds, hmap, hlt, hpos, hne, _⟩ := hd
  have hmap' : d = ds.map (· + 48) := hmap
  have hlen : d.length = ds.length := by rw [hmap']; simp
  obtain ⟨d0, ds', hds⟩ : ∃ a b, ds = a :: b := by
    cases ds with
    | nil => exact absurd rfl hne
    | cons a b => exact ⟨a, b, rfl⟩
  have hsp : atoiSpaces (u ++ d ++ 93 :: y) ((u ++ d ++ 93 :: y).length + 1) u.length =
      some u.length := by
    have hc : cAt (u ++ d ++ 93 :: y) u.length = some (d0 + 48) := by
      rw [hmap', hds]; simp [cAt]
    have h0 : d0 < 10 := hlt d0 (by rw [hds]; simp)
    have : isspace (d0 + 48) = false := by
      have h1 : ¬ (d0 + 48 = 32) := by omega
      have h2 : ¬ (d0 + 48 ≤ 13) := by omega
      simp [isspace, h1, h2]
    simp only [atoiSpaces, hc, this, Option.bind_eq_bind, Option.bind_some, Bool.false_eq_true,
      ↓reduceIte]
  unfold atoi
  rw [hsp]
  simp only [Option.bind_eq_bind, Option.bind_some]
  rw [digits_eq ds _ _ u y 93 0 (by rw [hmap']) hlt rfl (by
    unfold Spec.positional at hpos; rw [hpos]; exact hn) (by simp; omega)]
  unfold Spec.positional at hpos
  rw [hpos]

/-- Dimensions after one more bound. -/
def addDim (dims : List Nat) (n : Nat) : List Nat :=
  if dims.length < 4 then dims ++ [n]
  else dims.set (dims.length - 1) (u32 (dims[dims.length - 1]?.getD 0 * n))

theorem arrayLoop_eq : ∀ (ps : List (List Nat × Nat)) (fuel : Nat) (s u dims : List Nat)
    (cut : Option Nat), s = u ++ brackets (ps.map Prod.fst) → (∀ p ∈ ps, Spec.IsDecimal p.2 p.1 ∧
      p.2 ≤ 2147483647) → ps.length < fuel → ps ≠ [] →
    arrayLoop s fuel (some u.length) dims cut =
      some ((ps.map Prod.snd).foldl addDim dims, cut.or (some u.length)) := by
  intro ps
  induction ps with
  | nil => intro fuel s u dims cut _ _ _ h; exact absurd rfl h
  | cons p ps ih =>
    intro fuel s u dims cut hs hall hf _
    obtain ⟨d, n⟩ := p
    have hd : Spec.IsDecimal n d ∧ n ≤ 2147483647 := hall (d, n) List.mem_cons_self
    have hall := fun p hp => hall p (List.mem_cons_of_mem _ hp)
    · cases fuel with
      | zero => simp at hf
      | succ fuel =>
        have hs' : s = (u ++ [91]) ++ d ++ 93 :: brackets (ps.map Prod.fst) := by
          rw [hs]; simp [brackets]
        have hat : atoi s (u.length + 1) = some n := by
          have := atoi_eq (u ++ [91]) d (brackets (ps.map Prod.fst)) n hd.1 hd.2
          rw [← hs'] at this
          simpa using this
        have hdim : (if dims.length < 4 then some (dims ++ [n])
            else do
              let last ← dims[dims.length - 1]?
              some (dims.set (dims.length - 1) (u32 (last * n)))) = some (addDim dims n) := by
          unfold addDim
          by_cases h4 : dims.length < 4
          · simp [h4]
          · rw [if_neg h4, if_neg h4, List.getElem?_eq_getElem (by omega)]; rfl
        have hd91 : ∀ c ∈ d ++ [93], c ≠ 91 ∧ c ≠ 0 := by
          intro c hc
          rcases List.mem_append.1 hc with hc | hc
          · obtain ⟨xs, hmap, hlt, _⟩ := hd.1
            rw [hmap] at hc
            simp only [List.mem_map] at hc
            obtain ⟨a, ha, rfl⟩ := hc
            have := hlt a ha
            have h48 : '0'.toNat = 48 := rfl
            omega
          · simp at hc; omega
        simp only [arrayLoop, hat, Option.bind_eq_bind, Option.bind_some]
        simp only [Option.bind_eq_bind] at hdim
        by_cases hds : ps = []
        · subst hds
          have hnext : strchr s (s.length + 1) (u.length + 1) = some none := by
            have := strchr_miss (d ++ [93]) (s.length + 1) s (u ++ [91]) (by rw [hs']; simp [brackets])
              (fun h => (hd91 _ h).1 rfl) (fun h => (hd91 _ h).2 rfl)
              (by rw [hs']; simp; omega)
            simpa using this
          have hf1 : ∃ f, fuel = f + 1 := ⟨fuel - 1, by simp at hf; omega⟩
          obtain ⟨f, rfl⟩ := hf1
          by_cases h4 : dims.length < 4
          · simp only [h4, ↓reduceIte, Option.some.injEq] at hdim
            simp only [h4, ↓reduceIte, hnext, Option.bind_some, hdim, arrayLoop, List.map_cons, List.foldl_cons,
              List.map_nil, List.foldl_nil]
          · simp only [h4, ↓reduceIte] at hdim
            rw [List.getElem?_eq_getElem (by omega)] at hdim
            simp only [Option.bind_some, Option.some.injEq] at hdim
            simp only [h4, ↓reduceIte, List.getElem?_eq_getElem (show dims.length - 1 < dims.length by omega),
              Option.bind_some, hdim, hnext, arrayLoop, List.map_cons, List.foldl_cons, List.map_nil, List.foldl_nil]
        · obtain ⟨d1, ds1, hds1⟩ : ∃ a b, ps = a :: b := by
            cases ps with
            | nil => exact absurd rfl hds
            | cons a b => exact ⟨a, b, rfl⟩
          have hnext : strchr s (s.length + 1) (u.length + 1) =
              some (some (u ++ 91 :: (d ++ [93])).length) := by
            have := strchr_hit (d ++ [93]) (s.length + 1) s (u ++ [91])
              (d1.1 ++ 93 :: brackets (ds1.map Prod.fst)) (by rw [hs', hds1]; simp [brackets])
              (fun h => (hd91 _ h).1 rfl) (fun h => (hd91 _ h).2 rfl)
              (by rw [hs']; simp; omega)
            rw [List.length_append, List.length_singleton] at this
            rw [this]
            simp; omega
          have hrec := ih fuel s (u ++ 91 :: (d ++ [93])) (addDim dims n)
            (cut.or (some u.length)) (by rw [hs']; simp) hall (by simpa using hf) hds
          have hor : (cut.or (some u.length)).or (some (u ++ 91 :: (d ++ [93])).length) =
              cut.or (some u.length) := by cases cut <;> rfl
          rw [hor] at hrec
          by_cases h4 : dims.length < 4
          · simp only [h4, ↓reduceIte, Option.some.injEq] at hdim
            simp only [h4, ↓reduceIte, hnext, Option.bind_some, hdim, hrec, List.map_cons, List.foldl_cons]
          · simp only [h4, ↓reduceIte] at hdim
            rw [List.getElem?_eq_getElem (by omega)] at hdim
            simp only [Option.bind_some, Option.some.injEq] at hdim
            simp only [h4, ↓reduceIte, List.getElem?_eq_getElem (show dims.length - 1 < dims.length by omega),
              Option.bind_some, hdim, hnext, hrec, List.map_cons, List.foldl_cons]

theorem foldl_addDim_four (a b c d : Nat) : ∀ (ns : List Nat),
    ns.foldl addDim [a, b, c, d] =
      [a, b, c, ns.foldl (fun x y => x * y % 4294967296) d] := by
  intro ns
  induction ns generalizing d with
  | nil => rfl
  | cons n ns ih =>
    rw [List.foldl_cons, List.foldl_cons]
    have : addDim [a, b, c, d] n = [a, b, c, d * n % 4294967296] := by
      simp [addDim, u32]
    rw [this, ih]

theorem kept_eq (ns : List Nat) : ns.foldl addDim [] = kept ns := by
  match ns with
  | [] => rfl
  | [a] => rfl
  | [a, b] => rfl
  | [a, b, c] => rfl
  | [a, b, c, d] => rfl
  | a :: b :: c :: d :: e :: ns =>
    have h : (a :: b :: c :: d :: e :: ns).foldl addDim [] =
        (e :: ns).foldl addDim [a, b, c, d] := by
      simp only [List.foldl_cons]; rfl
    rw [h, foldl_addDim_four]
    simp [kept]

/-- C38.  A declaration of an array: from `name[d0]...[dk]` with decimal bounds the code
takes exactly the declared bounds (the fifth and later ones multiplied into the fourth) and
leaves the text before the first bracket; nothing outside the text is read.  `ps` pairs
the text of each bound with its value.  For a field detected as `char` array this holds
from two bounds on. -/
theorem C38_array_bounds (charArray : Bool) (base : List Nat) (ps : List (List Nat × Nat))
    (hb : 91 ∉ base) (h0 : 0 ∉ base) (hps : ps ≠ []) (hchar : charArray = true → 2 ≤ ps.length)
    (hall : ∀ p ∈ ps, Spec.IsDecimal p.2 p.1 ∧ p.2 ≤ 2147483647) :
    isArray charArray (base ++ brackets (ps.map Prod.fst)) =
      some (some (kept (ps.map Prod.snd)), base) := by
  obtain ⟨d1, ds1, hds1⟩ : ∃ a b, ps = a :: b := by
    cases ps with
    | nil => exact absurd rfl hps
    | cons a b => exact ⟨a, b, rfl⟩
  have hlen : (base ++ brackets (ps.map Prod.fst)).length ≠ 0 := by rw [hds1]; simp [brackets]
  have hhit : strchr (base ++ brackets (ps.map Prod.fst))
      ((base ++ brackets (ps.map Prod.fst)).length + 1) 0 = some (some base.length) := by
    have := strchr_hit base ((base ++ brackets (ps.map Prod.fst)).length + 1)
      (base ++ brackets (ps.map Prod.fst)) []
      (d1.1 ++ 93 :: brackets (ds1.map Prod.fst)) (by rw [hds1]; simp [brackets]) hb h0
      (by simp; omega)
    simpa using this
  have hbl : ∀ ps : List (List Nat × Nat), ps.length ≤ (brackets (ps.map Prod.fst)).length := by
    intro ps
    induction ps with
    | nil => simp
    | cons d ds ih =>
      have : brackets ((d :: ds).map Prod.fst) = 91 :: (d.1 ++ [93]) ++ brackets (ds.map Prod.fst) := by
        simp [brackets]
      rw [this]
      simp only [List.length_append, List.length_cons]
      omega
  have hloop := arrayLoop_eq ps ((base ++ brackets (ps.map Prod.fst)).length + 2) _ base [] none
    rfl hall (by have := hbl ps; rw [List.length_append]; omega) hps
  have hns : 0 < (kept (ps.map Prod.snd)).length := by
    rw [hds1]
    unfold kept
    split <;> simp
  unfold isArray
  rw [if_neg hlen, hhit]
  simp only [Option.bind_eq_bind, Option.bind_some, hloop, kept_eq, Option.none_or]
  have hlen2 : ¬ (charArray = true ∧ (kept (ps.map Prod.snd)).length = 1) := by
    rintro ⟨hc, h1⟩
    have h2 := hchar hc
    unfold kept at h1
    split at h1
    · simp at h1; omega
    · next h4 =>
      rw [List.length_append, List.length_take, List.length_singleton] at h1
      omega
  rw [if_pos ⟨hns, hlen2⟩]
  simp

/-- C38.  A one-dimensional `char` array is not treated as an array of elements (it is
loaded and saved as text), but its bounds are cut off all the same. -/
theorem C38_char_array (base d : List Nat) (n : Nat) (hb : 91 ∉ base) (h0 : 0 ∉ base)
    (hd : Spec.IsDecimal n d) (hn : n ≤ 2147483647) :
    isArray true (base ++ brackets [d]) = some (none, base) := by
  have hlen : (base ++ brackets [d]).length ≠ 0 := by simp [brackets]
  have hhit : strchr (base ++ brackets [d]) ((base ++ brackets [d]).length + 1) 0 =
      some (some base.length) := by
    have := strchr_hit base ((base ++ brackets [d]).length + 1) (base ++ brackets [d]) []
      (d ++ [93]) (by simp [brackets]) hb h0 (by simp; omega)
    simpa using this
  have hloop := arrayLoop_eq [(d, n)] ((base ++ brackets [d]).length + 2) _ base [] none rfl
    (by intro p hp; simp at hp; subst hp; exact ⟨hd, hn⟩) (by simp) (by simp)
  simp only [List.map_cons, List.map_nil] at hloop
  unfold isArray
  rw [if_neg hlen, hhit]
  simp only [Option.bind_eq_bind, Option.bind_some, hloop, kept_eq, Option.none_or]
  rw [if_neg (by simp [kept])]
  simp

/-- C38.  A declaration without brackets is not an array and is left as it is. -/
theorem C38_no_array (charArray : Bool) (s : List Nat) (hb : 91 ∉ s) (h0 : 0 ∉ s) :
    isArray charArray s = some (none, s) := by
  unfold isArray
  by_cases hlen : s.length = 0
  · rw [if_pos hlen]
  · have := strchr_miss s (s.length + 1) s [] rfl hb h0 (by omega)
    rw [if_neg hlen]
    simp only [List.length_nil] at this
    simp [this, arrayLoop]

/-- Non-vacuity: "int [2][3]". -/
example : isArray false (Spec.ascii "int [2][3]") = some (some [2, 3], Spec.ascii "int ") := by
  decide +kernel

example : Spec.ascii "int [2][3]" = Spec.ascii "int " ++ brackets [[50], [51]] ∧
    Spec.IsDecimal 2 [50] := by
  refine ⟨by decide +kernel, [2], rfl, ?_, rfl, by simp, by simp⟩
  intro d hd; simp at hd; omega

end Verif.Props.TypeName
