import Verif.Spec.FieldName
/-!
# C71, C72: names of void fields, and making fields void
-/
namespace Verif.Props.FieldName
open Verif.Model Verif.Model.FieldName Verif.Spec.FieldName

theorem valid_iff (c : Nat) : valid c = true ↔ IdChar c := by
  unfold valid IdChar isalnum isalpha isupper islower isdigit
  simp only [Bool.or_eq_true, Bool.and_eq_true, decide_eq_true_eq, beq_iff_eq]
  omega

theorem skipInvalid_eq {l : List Nat} {c : Nat} (hc : valid c = true) : ∀ (b : List Nat) (p : Nat), (∀ c ∈ b, ¬ IdChar c) →
    skipInvalid (b ++ c :: l) p = some (p + b.length) := by
  intro b
  induction b with
  | nil => intro p _; simp [skipInvalid, hc]
  | cons a b ih =>
    intro p h
    have ha : valid a = false := by
      have := h a (by simp)
      rw [← valid_iff] at this
      simpa using this
    simp only [List.cons_append, skipInvalid, ha, Bool.not_false, if_true, List.length_cons]
    rw [ih (p + 1) (fun c hc => h c (by simp [hc]))]
    congr 1
    omega

theorem skipInvalid_none : ∀ (b : List Nat) (p : Nat), (∀ c ∈ b, ¬ IdChar c) → skipInvalid b p = none := by
  intro b
  induction b with
  | nil => intro p _; rfl
  | cons a b ih =>
    intro p h
    have ha : valid a = false := by
      have := h a (by simp)
      rw [← valid_iff] at this
      simpa using this
    simp only [skipInvalid, ha, Bool.not_false, if_true]
    exact ih (p + 1) (fun c hc => h c (by simp [hc]))

theorem skipValid_eq {l : List Nat} {c : Nat} (hc : valid c = false) : ∀ (b : List Nat) (p : Nat), (∀ c ∈ b, IdChar c) →
    skipValid (b ++ c :: l) p = some (p + b.length) := by
  intro b
  induction b with
  | nil => intro p _; simp [skipValid, hc]
  | cons a b ih =>
    intro p h
    have ha : valid a = true := (valid_iff a).mpr (h a (by simp))
    simp only [List.cons_append, skipValid, ha, if_true, List.length_cons]
    rw [ih (p + 1) (fun c hc => h c (by simp [hc]))]
    congr 1
    omega

/-- **C71.** The name of a void field becomes the first word of the text given in its declaration.  At most one byte is
written: the one behind the word, and only if the text goes on there. -/
theorem C71_first_word (pre before name behind post : List Nat) (h : FirstWord before name behind)
    (hz : 0 ∉ before ∧ 0 ∉ name ∧ 0 ∉ behind) :
    ∃ block, normalize true (pre ++ (before ++ name ++ behind) ++ 0 :: post) (some pre.length) =
        some (block, some (pre.length + before.length)) ∧
      StringAt block (pre.length + before.length) name ∧
      block = pre ++ before ++ name ++ (if behind = [] then [] else 0 :: behind.tail) ++ 0 :: post := by
  obtain ⟨n, ns, rfl⟩ : ∃ n ns, name = n :: ns := by
    cases name with
    | nil => exact absurd rfl h.nonempty
    | cons n ns => exact ⟨n, ns, rfl⟩
  have hn : valid n = true := (valid_iff n).mpr (h.word n (by simp))
  -- the byte behind the word
  obtain ⟨e, tl, htl, he, hset⟩ : ∃ e tl, behind ++ 0 :: post = e :: tl ∧ valid e = false ∧
      ((if e ≠ 0 then 0 else e) :: tl = (if behind = [] then [] else 0 :: behind.tail) ++ 0 :: post) := by
    cases behind with
    | nil => exact ⟨0, post, rfl, by decide, by simp⟩
    | cons e tl =>
      refine ⟨e, tl ++ 0 :: post, rfl, ?_, ?_⟩
      · have := h.ends e rfl
        rw [← valid_iff] at this
        simpa using this
      · have : e ≠ 0 := by
          intro e0
          exact hz.2.2 (by simp [e0])
        simp [this]
  let b0 := pre ++ (before ++ (n :: ns) ++ behind) ++ 0 :: post
  have hb : b0 = pre ++ (before ++ (n :: ns ++ e :: tl)) := by
    simp only [b0, ← htl, List.append_assoc, List.cons_append]
  have hb2 : b0 = (pre ++ before ++ (n :: ns)) ++ e :: tl := by rw [hb]; simp
  have d0 : b0.drop pre.length = before ++ (n :: ns ++ e :: tl) := by rw [hb]; simp
  have d1 : b0.drop (pre.length + before.length) = n :: ns ++ e :: tl := by
    rw [← List.drop_drop, d0]; simp
  have hlen : (pre ++ before ++ (n :: ns)).length = pre.length + before.length + (n :: ns).length := by
    simp [Nat.add_assoc]
  have g2 : b0[pre.length + before.length + (n :: ns).length]? = some e := by
    rw [hb2, List.getElem?_append_right (by omega), hlen]
    simp
  have s0 : skipInvalid (b0.drop pre.length) pre.length = some (pre.length + before.length) := by
    rw [d0]; exact skipInvalid_eq hn before _ h.skipped
  have s1 : skipValid (b0.drop (pre.length + before.length)) (pre.length + before.length) =
      some (pre.length + before.length + (n :: ns).length) := by
    rw [d1]; exact skipValid_eq he (n :: ns) _ h.word
  obtain ⟨c0, hc0, hc0z⟩ : ∃ c0, b0[pre.length]? = some c0 ∧ c0 ≠ 0 := by
    rw [hb, List.getElem?_append_right (by omega), Nat.sub_self]
    cases before with
    | nil => exact ⟨n, by simp, fun e0 => hz.2.1 (by simp [e0])⟩
    | cons a as => exact ⟨a, by simp, fun e0 => hz.1 (by simp [e0])⟩
  have hres : (if e ≠ 0 then b0.set (pre.length + before.length + (n :: ns).length) 0 else b0) =
      (pre ++ before ++ (n :: ns)) ++ ((if behind = [] then [] else 0 :: behind.tail) ++ 0 :: post) := by
    rw [← hset]
    by_cases e0 : e = 0
    · simp only [e0, ne_eq, not_true, if_false]
      rw [hb2, e0]
    · simp only [e0, ne_eq, not_false_eq_true, if_true]
      rw [hb2, ← hlen, List.set_append_right _ _ (by omega), Nat.sub_self]
      rfl
  refine ⟨_, ?_, ?_, rfl⟩
  · have : normalize true b0 (some pre.length) = some ((if e ≠ 0 then b0.set (pre.length + before.length + (n :: ns).length) 0 else b0),
        some (pre.length + before.length)) := by
      simp only [normalize, hc0, Option.bind_eq_bind, Option.bind_some, hc0z, ne_eq, not_false_eq_true, and_self, if_true, s0, s1, g2]
    rw [this, hres, ← List.append_assoc]
  · refine ⟨hz.2.1, ?_⟩
    have : ∃ rest, (if behind = [] then [] else 0 :: behind.tail) ++ 0 :: post = 0 :: rest := by
      cases behind with
      | nil => exact ⟨post, rfl⟩
      | cons a l => exact ⟨l ++ 0 :: post, by simp⟩
    obtain ⟨rest, hrest⟩ := this
    refine ⟨rest, ?_⟩
    rw [List.append_assoc (pre ++ before ++ (n :: ns)), hrest]
    rw [List.append_assoc (pre ++ before), ← List.length_append, List.drop_left]

/-- **C71.** Every text with a letter, a digit or an underscore has a first word, so the theorem above applies to it. -/
theorem C71_word_exists (text : List Nat) (h : ∃ c ∈ text, IdChar c) :
    ∃ before name behind, text = before ++ name ++ behind ∧ FirstWord before name behind := by
  refine ⟨text.takeWhile (!valid ·), (text.dropWhile (!valid ·)).takeWhile valid, (text.dropWhile (!valid ·)).dropWhile valid, ?_, ?_⟩
  · rw [List.append_assoc, List.takeWhile_append_dropWhile, List.takeWhile_append_dropWhile]
  · constructor
    · intro c hc
      rw [← valid_iff]
      have := List.all_takeWhile (p := fun c => !valid c) (l := text)
      rw [List.all_eq_true] at this
      simpa using this c hc
    · intro c hc
      rw [← valid_iff]
      have := List.all_takeWhile (p := valid) (l := text.dropWhile (!valid ·))
      rw [List.all_eq_true] at this
      exact this c hc
    · obtain ⟨c, hc, hi⟩ := h
      induction text with
      | nil => cases hc
      | cons a l ih =>
        by_cases ha : valid a = true
        · simp [ha]
        · have ha : valid a = false := by simpa using ha
          simp only [List.dropWhile_cons, ha, Bool.not_false, if_true]
          refine ih ?_
          rcases List.mem_cons.mp hc with rfl | hc
          · rw [← valid_iff, ha] at hi; cases hi
          · exact hc
    · intro c hc
      rw [← valid_iff]
      have := List.head?_dropWhile_not valid (text.dropWhile (!valid ·))
      rw [hc] at this
      simpa using this

/-- **C71.** Names of other fields, empty names and missing names are left alone. -/
theorem C71_others (isVoid : Bool) (block : List Nat) (name : Option Nat)
    (h : name = none ∨ ∃ p c, name = some p ∧ block[p]? = some c ∧ (c = 0 ∨ isVoid = false)) :
    normalize isVoid block name = some (block, name) := by
  rcases h with rfl | ⟨p, c, rfl, hc, h⟩
  · rfl
  · rcases h with rfl | rfl <;> simp [normalize, hc]

/-- **C71.** Once the name is a word, doing this again changes nothing. -/
theorem C71_again (pre name post : List Nat) (h : ∀ c ∈ name, IdChar c) (hn : name ≠ []) :
    normalize true (pre ++ name ++ 0 :: post) (some pre.length) = some (pre ++ name ++ 0 :: post, some pre.length) := by
  have hz : 0 ∉ name := by
    intro h0
    have := h 0 h0
    unfold IdChar at this
    omega
  obtain ⟨b, h1, _, h3⟩ := C71_first_word pre [] name [] post ⟨by simp, h, hn, by simp⟩ ⟨by simp, hz, by simp⟩
  simp only [List.nil_append, List.append_nil, List.length_nil, Nat.add_zero, if_true] at h1 h3
  rw [h1, h3]

/-- **C71**, deviation: if the text has no letter, digit or underscore, the loop runs over its end: behind the block if
nothing valid follows in it, otherwise the name becomes a part of whatever is stored behind the text. -/
theorem C71_deviation_no_word (pre text post : List Nat) (ht : text ≠ []) (hz : 0 ∉ text) (h : ∀ c ∈ text, ¬ IdChar c) :
    ((∀ c ∈ post, ¬ IdChar c) → normalize true (pre ++ text ++ 0 :: post) (some pre.length) = none) ∧
    ∀ block p, normalize true (pre ++ text ++ 0 :: post) (some pre.length) = some (block, some p) → pre.length + text.length < p := by
  obtain ⟨a, as, rfl⟩ : ∃ a as, text = a :: as := by
    cases text with
    | nil => exact absurd rfl ht
    | cons a as => exact ⟨a, as, rfl⟩
  have ha : a ≠ 0 := fun e => hz (by simp [e])
  have g : (pre ++ (a :: as) ++ 0 :: post)[pre.length]? = some a := by
    rw [List.append_assoc, List.getElem?_append_right (by omega), Nat.sub_self]; rfl
  have d : (pre ++ (a :: as) ++ 0 :: post).drop pre.length = (a :: as) ++ 0 :: post := by
    rw [List.append_assoc, List.drop_left]
  have h0 : ¬ IdChar 0 := by unfold IdChar; omega
  constructor
  · intro hp
    have : skipInvalid ((a :: as) ++ 0 :: post) pre.length = none := by
      refine skipInvalid_none _ _ ?_
      intro c hc
      rcases List.mem_append.mp hc with hc | hc
      · exact h c hc
      · rcases List.mem_cons.mp hc with rfl | hc
        · exact h0
        · exact hp c hc
    simp only [normalize, g, Option.bind_eq_bind, Option.bind_some, ne_eq, ha, not_false_eq_true, and_self, if_true, d, this, Option.bind_none]
  · intro block p e
    simp only [normalize, g, Option.bind_eq_bind, Option.bind_some, ne_eq, ha, not_false_eq_true, and_self, if_true, d,
      Option.bind_eq_some_iff, Option.some.injEq, Prod.mk.injEq] at e
    obtain ⟨s, e1, t, _, c, _, _, e4⟩ := e
    subst e4
    -- the words behind the terminator
    have key : ∀ (b l : List Nat) (q s : Nat), (∀ c ∈ b, ¬ IdChar c) → skipInvalid (b ++ l) q = some s → q + b.length ≤ s := by
      intro b
      induction b with
      | nil =>
        intro l
        induction l with
        | nil => intro q s _ e; cases e
        | cons x l ih =>
          intro q s hb e
          simp only [List.nil_append, skipInvalid] at e
          split at e
          · have := ih (q + 1) s hb e
            simp only [List.length_nil, Nat.add_zero] at this ⊢
            omega
          · cases e; simp
      | cons x b ih =>
        intro l q s hb e
        have hx : valid x = false := by
          have := hb x (by simp)
          rw [← valid_iff] at this
          simpa using this
        simp only [List.cons_append, skipInvalid, hx, Bool.not_false, if_true] at e
        have := ih l (q + 1) s (fun c hc => hb c (by simp [hc])) e
        simp only [List.length_cons]
        omega
    have := key ((a :: as) ++ [0]) post pre.length s (by
      intro c hc
      rcases List.mem_append.mp hc with hc | hc
      · exact h c hc
      · simp only [List.mem_singleton] at hc; rw [hc]; exact h0) (by rw [← e1]; simp)
    simp only [List.length_append, List.length_cons, List.length_nil] at this ⊢
    omega

/- "(*f) (int)": the name is "f", a zero is written behind it -/
example : FirstWord [40, 42] [102] [41, 32, 40, 105, 110, 116, 41] := by
  constructor <;> simp [IdChar]
example : normalize true [40, 42, 102, 41, 32, 40, 105, 110, 116, 41, 0] (some 0) =
    some ([40, 42, 102, 0, 32, 40, 105, 110, 116, 41, 0], some 2) := by decide
/- "x": nothing is written; the text "()" -/
example : normalize true [120, 0] (some 0) = some ([120, 0], some 0) := by decide
example : normalize true [40, 41, 0] (some 0) = none := by decide
example : normalize true [40, 41, 0, 97, 0] (some 0) = some ([40, 41, 0, 97, 0], some 3) := by decide

/-! ### C72 -/

theorem voidField_eq (f : Fd) : voidField f = madeVoid f := by
  obtain ⟨n, t, a⟩ := f
  cases t <;> rfl

theorem voidField_name (f : Fd) : (voidField f).name = f.name := by
  obtain ⟨n, t, a⟩ := f
  cases t <;> rfl

theorem madeVoid_twice (f : Fd) : madeVoid (madeVoid f) = madeVoid f := by
  obtain ⟨n, t, a⟩ := f
  cases t <;> rfl

theorem voidByName_none {name : List Nat} : ∀ (fs : List Fd), name ∉ fs.map Fd.name → voidByName name fs = none
  | [] => by intro _; rfl
  | f :: fs => by
    intro h
    simp only [List.map_cons, List.mem_cons, not_or] at h
    rw [voidByName, if_neg (fun e => h.1 e.symm), voidByName_none fs h.2]
    rfl

theorem voidByName_some {name : List Nat} : ∀ (fs : List Fd), name ∈ fs.map Fd.name → (fs.map Fd.name).Nodup →
    voidByName name fs = some (fs.map fun f => if f.name = name then madeVoid f else f)
  | [] => by intro h; cases h
  | f :: fs => by
    intro h hd
    rw [List.map_cons, List.nodup_cons] at hd
    rw [voidByName]
    by_cases e : f.name = name
    · rw [if_pos e, List.map_cons, if_pos e, voidField_eq]
      congr 2
      have : ∀ g ∈ fs, (if g.name = name then madeVoid g else g) = g := by
        intro g hg
        refine if_neg fun e' => hd.1 ?_
        rw [e, ← e']
        exact List.mem_map.mpr ⟨g, hg, rfl⟩
      rw [List.map_congr_left this, List.map_id']
    · rw [if_neg e, List.map_cons, if_neg e, voidByName_some fs (by
        simp only [List.map_cons, List.mem_cons] at h
        rcases h with h | h
        · exact absurd h.symm e
        · exact h) hd.2]
      rfl

theorem map_names (name : List Nat) (fs : List Fd) :
    (fs.map fun f => if f.name = name then madeVoid f else f).map Fd.name = fs.map Fd.name := by
  rw [List.map_map]
  refine List.map_congr_left ?_
  intro f _
  simp only [Function.comp]
  split
  · rw [← voidField_eq, voidField_name]
  · rfl

/-- **C72.** After `MR_TYPE_VOID_FIELDS` exactly the listed fields are void, each remembers its type as if it had been listed once,
all others are unchanged, and the listed names without a field are reported, in order. -/
theorem C72_listed_fields (names : List (List Nat)) (fs : List Fd) (warn : List (List Nat)) (hd : (fs.map Fd.name).Nodup) :
    voidFields names fs warn = (fs.map fun f => if f.name ∈ names then madeVoid f else f,
      warn ++ names.filter fun n => decide (n ∉ fs.map Fd.name)) := by
  induction names generalizing fs warn with
  | nil => simp [voidFields]
  | cons n ns ih =>
    rw [voidFields]
    by_cases hn : n ∈ fs.map Fd.name
    · rw [voidByName_some fs hn hd]
      simp only
      rw [ih _ _ (by rw [map_names]; exact hd), map_names]
      congr 1
      · rw [List.map_map]
        refine List.map_congr_left ?_
        intro f _
        simp only [Function.comp, List.mem_cons]
        have hname : (madeVoid f).name = f.name := by rw [← voidField_eq, voidField_name]
        by_cases e : f.name = n
        · simp only [e, if_true, hname, true_or]
          split
          · exact madeVoid_twice f
          · rfl
        · simp only [e, if_false, false_or]
      · rw [List.filter_cons]
        simp [hn]
    · rw [voidByName_none fs hn]
      simp only
      rw [ih _ _ hd]
      congr 1
      · refine List.map_congr_left ?_
        intro f hf
        have : f.name ≠ n := fun e => hn (e ▸ List.mem_map.mpr ⟨f, hf, rfl⟩)
        simp [this]
      · rw [List.filter_cons]
        simp [hn]

/- `x` of type 7 and the pointer `p` are listed, `x` twice, and an unknown `z` -/
example : (([⟨[120], .other 7, .other 7⟩, ⟨[112], .pointer, .other 3⟩, ⟨[121], .array, .other 1⟩] : List Fd).map Fd.name).Nodup := by decide
example : voidFields [[120], [122], [112], [120]] [⟨[120], .other 7, .void⟩, ⟨[112], .pointer, .other 3⟩, ⟨[121], .array, .other 1⟩] [] =
    ([⟨[120], .void, .other 7⟩, ⟨[112], .void, .other 3⟩, ⟨[121], .array, .other 1⟩], [[122]]) := by decide

end Verif.Props.FieldName
