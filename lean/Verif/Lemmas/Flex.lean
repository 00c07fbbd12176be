import Verif.Model.Flex
/-!
# The longest match
-/
namespace Verif.Lemmas.Flex
open Verif.Model.Flex Verif.Model.Flex.Re

/-- the language of an expression -/
inductive Lang : Re → List Nat → Prop
  | eps : Lang eps []
  | cls {p : Nat → Bool} {c : Nat} : p c = true → Lang (cls p) [c]
  | seq {a b : Re} {s t : List Nat} : Lang a s → Lang b t → Lang (seq a b) (s ++ t)
  | left {a b : Re} {s : List Nat} : Lang a s → Lang (alt a b) s
  | right {a b : Re} {s : List Nat} : Lang b s → Lang (alt a b) s
  | nil {a : Re} : Lang (star a) []
  | more {a : Re} {s t : List Nat} : Lang a s → Lang (star a) t → Lang (star a) (s ++ t)

theorem lang_nullable (r : Re) : nullable r = true ↔ Lang r [] := by
  induction r with
  | empty => exact ⟨fun h => by simp [nullable] at h, fun h => by cases h⟩
  | eps => exact ⟨fun _ => .eps, fun _ => rfl⟩
  | cls p => exact ⟨fun h => by simp [nullable] at h, fun h => by cases h⟩
  | seq a b iha ihb =>
    simp only [nullable, Bool.and_eq_true, iha, ihb]
    constructor
    · rintro ⟨h1, h2⟩
      exact Lang.seq h1 h2
    · intro h
      generalize hs : ([] : List Nat) = s at h
      cases h with
      | seq h1 h2 =>
        obtain ⟨rfl, rfl⟩ := List.append_eq_nil_iff.1 hs.symm
        exact ⟨h1, h2⟩
  | alt a b iha ihb =>
    simp only [nullable, Bool.or_eq_true, iha, ihb]
    constructor
    · rintro (h | h)
      · exact .left h
      · exact .right h
    · intro h
      cases h with
      | left h => exact .inl h
      | right h => exact .inr h
  | star a _ => exact ⟨fun _ => .nil, fun _ => rfl⟩

theorem lang_deriv (c : Nat) (r : Re) : ∀ s : List Nat, Lang (deriv c r) s ↔ Lang r (c :: s) := by
  induction r with
  | empty => intro s; constructor <;> (intro h; cases h)
  | eps => intro s; constructor <;> (intro h; cases h)
  | cls p =>
    intro s
    simp only [deriv]
    constructor
    · intro h
      split at h
      · cases h with
        | eps => exact .cls ‹_›
      · cases h
    · intro h
      cases h with
      | cls hp => rw [if_pos hp]; exact .eps
  | seq a b iha ihb =>
    intro s
    have hsplit : Lang (seq a b) (c :: s) ↔ Lang (seq (deriv c a) b) s ∨ (Lang a [] ∧ Lang b (c :: s)) := by
      constructor
      · intro h
        generalize hx : c :: s = x at h
        cases h with
        | @seq _ _ s1 t1 h1 h2 =>
          cases s1 with
          | nil => right; rw [List.nil_append] at hx; subst hx; exact ⟨h1, h2⟩
          | cons d s1 =>
            left
            rw [List.cons_append] at hx
            obtain ⟨rfl, rfl⟩ := List.cons.inj hx
            exact .seq ((iha s1).2 h1) h2
      · rintro (h | ⟨h1, h2⟩)
        · cases h with
          | @seq _ _ s1 t1 h1 h2 => exact Lang.seq (s := c :: s1) ((iha s1).1 h1) h2
        · exact Lang.seq (s := []) h1 h2
    rw [hsplit]
    simp only [deriv]
    split
    · rename_i hn
      constructor
      · intro h
        cases h with
        | left h => exact .inl h
        | right h => exact .inr ⟨(lang_nullable a).1 hn, (ihb s).1 h⟩
      · rintro (h | ⟨_, h⟩)
        · exact .left h
        · exact .right ((ihb s).2 h)
    · rename_i hn
      constructor
      · exact .inl
      · rintro (h | ⟨h, _⟩)
        · exact h
        · exact absurd ((lang_nullable a).2 h) hn
  | alt a b iha ihb =>
    intro s
    simp only [deriv]
    constructor
    · intro h
      cases h with
      | left h => exact .left ((iha s).1 h)
      | right h => exact .right ((ihb s).1 h)
    · intro h
      cases h with
      | left h => exact .left ((iha s).2 h)
      | right h => exact .right ((ihb s).2 h)
  | star a iha =>
    intro s
    simp only [deriv]
    constructor
    · intro h
      cases h with
      | @seq _ _ s1 t1 h1 h2 => exact Lang.more (s := c :: s1) ((iha s1).1 h1) h2
    · intro h
      generalize hr : star a = r at h
      generalize hx : c :: s = x at h
      induction h with
      | @more a' s1 t1 h1 h2 _ ih2 =>
        cases hr
        cases s1 with
        | nil => exact ih2 rfl (by simpa using hx)
        | cons d s1 =>
          rw [List.cons_append] at hx
          obtain ⟨rfl, rfl⟩ := List.cons.inj hx
          exact .seq ((iha s1).2 h1) h2
      | nil => cases hx
      | _ => cases hr

/-- the derivatives of all rules by a text -/
def derivs (w : List Nat) (rs : List Re) : List Re := w.foldl (fun rs c => rs.map (deriv c)) rs

theorem derivs_length (w : List Nat) (rs : List Re) : (derivs w rs).length = rs.length := by
  induction w generalizing rs with
  | nil => rfl
  | cons c w ih => simp only [derivs, List.foldl_cons] at ih ⊢; rw [ih]; simp

theorem derivs_lang (w : List Nat) : ∀ (rs : List Re) (k : Nat) (r : Re) (s : List Nat), rs[k]? = some r →
    ∃ r', (derivs w rs)[k]? = some r' ∧ (Lang r' s ↔ Lang r (w ++ s)) := by
  induction w with
  | nil => intro rs k r s h; exact ⟨r, h, Iff.rfl⟩
  | cons c w ih =>
    intro rs k r s h
    obtain ⟨r', h1, h2⟩ := ih (rs.map (deriv c)) k (deriv c r) s (by rw [List.getElem?_map, h]; rfl)
    exact ⟨r', h1, h2.trans (lang_deriv c r (w ++ s))⟩

/-- no rule matches -/
def NoMatch (rs : List Re) (w : List Nat) : Prop := ∀ r ∈ rs, ¬ Lang r w

/-- rule `k` is the first that matches -/
def FirstMatch (rs : List Re) (w : List Nat) (k : Nat) : Prop :=
  (∃ r, rs[k]? = some r ∧ Lang r w) ∧ ∀ (j : Nat) (r : Re), j < k → rs[j]? = some r → ¬ Lang r w

theorem findIdx_none {rs : List Re} {w : List Nat} (h : NoMatch rs w) : (derivs w rs).findIdx? nullable = none := by
  rw [List.findIdx?_eq_none_iff]
  intro r' hr'
  obtain ⟨k, hk⟩ := List.mem_iff_getElem?.1 hr'
  have hlt : k < rs.length := by
    have := (List.getElem?_eq_some_iff.1 hk).1
    rwa [derivs_length] at this
  obtain ⟨r2, h1, h2⟩ := derivs_lang w rs k rs[k] [] (List.getElem?_eq_getElem hlt)
  rw [hk] at h1
  cases h1
  rw [List.append_nil] at h2
  cases hn : nullable r' with
  | false => rfl
  | true => exact absurd (h2.1 ((lang_nullable r').1 hn)) (h _ (List.getElem_mem hlt))

theorem findIdx_first {rs : List Re} {w : List Nat} {k : Nat} (h : FirstMatch rs w k) :
    (derivs w rs).findIdx? nullable = some k := by
  obtain ⟨⟨r, hr, hl⟩, hf⟩ := h
  rw [List.findIdx?_eq_some_iff_getElem]
  have hk := (List.getElem?_eq_some_iff.1 hr).1
  have hk' : k < (derivs w rs).length := by rw [derivs_length]; exact hk
  refine ⟨hk', ?_, fun j hj => ?_⟩
  · obtain ⟨r', h1, h2⟩ := derivs_lang w rs k r [] hr
    rw [List.append_nil] at h2
    rw [List.getElem?_eq_getElem hk'] at h1
    rw [Option.some.inj h1]
    exact (lang_nullable r').2 (h2.2 hl)
  · have hj' : j < rs.length := by omega
    obtain ⟨r', h1, h2⟩ := derivs_lang w rs j rs[j] [] (List.getElem?_eq_getElem hj')
    rw [List.append_nil] at h2
    rw [List.getElem?_eq_getElem (by rw [derivs_length]; exact hj')] at h1
    rw [Option.some.inj h1]
    cases hn : nullable r' with
    | false => simp
    | true => exact absurd (h2.1 ((lang_nullable r').1 hn)) (hf j _ hj (List.getElem?_eq_getElem hj'))

theorem longest_eq (rs : List Re) (inp : List Nat) (n : Nat) (best : Option (Nat × Nat)) :
    longest rs inp n best =
      match inp with
      | [] => if n = 0 then best else match rs.findIdx? nullable with
        | some k => some (n, k)
        | none => best
      | c :: t => longest (rs.map (deriv c)) t (n + 1) (if n = 0 then best else match rs.findIdx? nullable with
        | some k => some (n, k)
        | none => best) := by
  cases inp <;> (rw [longest.eq_def]; rfl)

theorem derivs_snoc (w : List Nat) (c : Nat) (rs : List Re) : (derivs w rs).map (deriv c) = derivs (w ++ [c]) rs := by
  simp [derivs, List.foldl_append]

/-- nothing longer matches: the result stays -/
theorem longest_keep (rs : List Re) (best : Option (Nat × Nat)) : ∀ (inp w : List Nat), w ≠ [] →
    (∀ e : List Nat, e <+: inp → NoMatch rs (w ++ e)) → longest (derivs w rs) inp w.length best = best := by
  intro inp
  induction inp with
  | nil =>
    intro w hw h
    have h0 := h [] (List.nil_prefix)
    rw [List.append_nil] at h0
    rw [longest_eq]
    simp only [findIdx_none h0]
    split <;> rfl
  | cons c t ih =>
    intro w hw h
    have h0 := h [] (List.nil_prefix)
    rw [List.append_nil] at h0
    rw [longest_eq]
    simp only [findIdx_none h0, ite_self, derivs_snoc]
    have := ih (w ++ [c]) (by simp) (fun e he => by
      rw [List.append_assoc]
      exact h _ (List.prefix_cons_inj c |>.2 he))
    rwa [List.length_append] at this

/-- a match of the current text after which nothing matches any more -/
theorem longest_here (rs : List Re) (k : Nat) (w rest : List Nat) (hw : w ≠ []) (hk : FirstMatch rs w k)
    (hmax : ∀ e : List Nat, e ≠ [] → e <+: rest → NoMatch rs (w ++ e)) (best : Option (Nat × Nat)) :
    longest (derivs w rs) rest w.length best = some (w.length, k) := by
  have hl : w.length ≠ 0 := fun h => hw (List.eq_nil_of_length_eq_zero h)
  rw [longest_eq]
  cases rest with
  | nil => simp only [findIdx_first hk, if_neg hl]
  | cons c t =>
    simp only [findIdx_first hk, if_neg hl, derivs_snoc]
    have := longest_keep rs (some (w.length, k)) t (w ++ [c]) (by simp) (fun e he => by
      rw [List.append_assoc]
      exact hmax _ (by simp) (List.prefix_cons_inj c |>.2 he))
    rwa [List.length_append] at this

theorem longest_pass (rs : List Re) (k : Nat) (rest : List Nat) : ∀ (todo w : List Nat) (best : Option (Nat × Nat)), w ++ todo ≠ [] →
    FirstMatch rs (w ++ todo) k → (∀ e : List Nat, e ≠ [] → e <+: rest → NoMatch rs ((w ++ todo) ++ e)) →
    longest (derivs w rs) (todo ++ rest) w.length best = some ((w ++ todo).length, k) := by
  intro todo
  induction todo with
  | nil =>
    intro w best h1 h2 h3
    rw [List.append_nil] at h1 h2 h3 ⊢
    exact longest_here rs k w rest h1 h2 h3 best
  | cons c t ih =>
    intro w best h1 h2 h3
    rw [List.cons_append, longest_eq]
    simp only [derivs_snoc]
    have e : w ++ c :: t = (w ++ [c]) ++ t := by simp
    rw [e] at h1 h2 h3 ⊢
    have := ih (w ++ [c]) (if w.length = 0 then best else match (derivs w rs).findIdx? nullable with
        | some k => some (w.length, k)
        | none => best) h1 h2 h3
    rw [List.length_append (as := w)] at this
    exact this

/-- **The longest match.** -/
theorem longest_ok (rs : List Re) (k : Nat) (w rest : List Nat) (hw : w ≠ []) (hk : FirstMatch rs w k)
    (hmax : ∀ e : List Nat, e ≠ [] → e <+: rest → NoMatch rs (w ++ e)) :
    longest rs (w ++ rest) 0 none = some (w.length, k) :=
  longest_pass rs k rest w [] none hw hk hmax

/-- more fuel does not change the result -/
theorem scan_mono (rs : List Re) : ∀ (f : Nat) (inp : List Nat) (ts : List (Nat × List Nat)), scan rs f inp = some ts →
    ∀ g, f ≤ g → scan rs g inp = some ts := by
  intro f
  induction f with
  | zero =>
    intro inp ts h g _
    cases inp with
    | nil => cases g <;> (simp only [scan] at h ⊢; exact h)
    | cons c t => simp [scan] at h
  | succ f ih =>
    intro inp ts h g hg
    obtain ⟨g, rfl⟩ : ∃ g', g = g' + 1 := ⟨g - 1, by omega⟩
    cases inp with
    | nil => simp only [scan] at h ⊢; exact h
    | cons c t =>
      simp only [scan] at h ⊢
      obtain ⟨⟨n, k⟩, h1, h2⟩ := Option.bind_eq_some_iff.1 h
      obtain ⟨ts', h3, h4⟩ := Option.bind_eq_some_iff.1 h2
      refine Option.bind_eq_some_iff.2 ⟨(n, k), h1, Option.bind_eq_some_iff.2 ⟨ts', ih _ _ h3 g (by omega), h4⟩⟩

theorem scan_step (rs : List Re) (k : Nat) (w rest : List Nat) (ts : List (Nat × List Nat)) (hw : w ≠ []) (hk : FirstMatch rs w k)
    (hmax : ∀ e : List Nat, e ≠ [] → e <+: rest → NoMatch rs (w ++ e)) (h : scanAll rs rest = some ts) :
    scanAll rs (w ++ rest) = some ((k, w) :: ts) := by
  unfold scanAll at h ⊢
  cases w with
  | nil => exact absurd rfl hw
  | cons c w =>
    have hl := longest_ok rs k (c :: w) rest hw hk hmax
    have : ((c :: w) ++ rest).length = (w.length + rest.length) + 1 := by simp
    rw [this, List.cons_append]
    simp only [scan]
    rw [List.cons_append] at hl
    rw [hl]
    simp only [Option.bind_eq_bind, Option.bind_some]
    rw [show c :: (w ++ rest) = (c :: w) ++ rest from rfl, List.drop_left, List.take_left]
    rw [scan_mono rs _ _ _ h _ (by omega)]
    rfl

/-! ### languages -/

theorem lang_cls {p : Nat → Bool} {w : List Nat} : Lang (.cls p) w ↔ ∃ c, w = [c] ∧ p c = true := by
  constructor
  · intro h
    cases h with
    | cls h => exact ⟨_, rfl, h⟩
  · rintro ⟨c, rfl, h⟩
    exact .cls h

theorem lang_one {a : Nat} {w : List Nat} : Lang (.one a) w ↔ w = [a] := by
  unfold Re.one
  rw [lang_cls]
  constructor
  · rintro ⟨c, rfl, h⟩
    rw [beq_iff_eq] at h
    rw [h]
  · rintro rfl
    exact ⟨a, rfl, by simp⟩

theorem lang_seq {a b : Re} {w : List Nat} : Lang (.seq a b) w ↔ ∃ s t, w = s ++ t ∧ Lang a s ∧ Lang b t := by
  constructor
  · intro h
    cases h with
    | seq h1 h2 => exact ⟨_, _, rfl, h1, h2⟩
  · rintro ⟨s, t, rfl, h1, h2⟩
    exact .seq h1 h2

theorem lang_alt {a b : Re} {w : List Nat} : Lang (.alt a b) w ↔ Lang a w ∨ Lang b w := by
  constructor
  · intro h
    cases h with
    | left h => exact .inl h
    | right h => exact .inr h
  · rintro (h | h)
    · exact .left h
    · exact .right h

theorem lang_eps {w : List Nat} : Lang .eps w ↔ w = [] := by
  constructor
  · intro h; cases h; rfl
  · rintro rfl; exact .eps

theorem lang_opt {a : Re} {w : List Nat} : Lang (.opt a) w ↔ Lang a w ∨ w = [] := by
  unfold Re.opt
  rw [lang_alt, lang_eps]

theorem lang_str {l w : List Nat} : Lang (.str l) w ↔ w = l := by
  induction l generalizing w with
  | nil => exact lang_eps
  | cons c l ih =>
    unfold Re.str
    rw [lang_seq]
    constructor
    · rintro ⟨s, t, rfl, h1, h2⟩
      rw [lang_one.1 h1, ih.1 h2]
      rfl
    · rintro rfl
      exact ⟨[c], l, rfl, lang_one.2 rfl, ih.2 rfl⟩

theorem lang_star_cls {p : Nat → Bool} {w : List Nat} (h : ∀ c ∈ w, p c = true) : Lang (.star (.cls p)) w := by
  induction w with
  | nil => exact .nil
  | cons c w ih => exact Lang.more (s := [c]) (.cls (h c (by simp))) (ih fun d hd => h d (by simp [hd]))

theorem lang_plus_cls {p : Nat → Bool} {w : List Nat} (hw : w ≠ []) (h : ∀ c ∈ w, p c = true) : Lang (.plus (.cls p)) w := by
  cases w with
  | nil => exact absurd rfl hw
  | cons c w => exact Lang.seq (s := [c]) (.cls (h c (by simp))) (lang_star_cls fun d hd => h d (by simp [hd]))

/-- all bytes of all matches have `p` -/
def Over (p : Nat → Prop) : Re → Prop
  | .empty => True
  | .eps => True
  | .cls q => ∀ c, q c = true → p c
  | .seq a b => Over p a ∧ Over p b
  | .alt a b => Over p a ∧ Over p b
  | .star a => Over p a

theorem lang_over {p : Nat → Prop} {r : Re} {w : List Nat} (h : Lang r w) (ho : Over p r) : ∀ c ∈ w, p c := by
  induction h with
  | eps => simp
  | cls h => simpa using ho _ h
  | seq _ _ ih1 ih2 =>
    intro c hc
    rcases List.mem_append.1 hc with hc | hc
    · exact ih1 ho.1 c hc
    · exact ih2 ho.2 c hc
  | left _ ih => exact ih ho.1
  | right _ ih => exact ih ho.2
  | nil => simp
  | more _ _ ih1 ih2 =>
    intro c hc
    rcases List.mem_append.1 hc with hc | hc
    · exact ih1 ho c hc
    · exact ih2 ho c hc

/-- the first byte of all non-empty matches has `p` -/
def First (p : Nat → Prop) : Re → Prop
  | .empty => True
  | .eps => True
  | .cls q => ∀ c, q c = true → p c
  | .seq a b => First p a ∧ (nullable a = true → First p b)
  | .alt a b => First p a ∧ First p b
  | .star a => First p a

theorem lang_first {p : Nat → Prop} {r : Re} {w : List Nat} (h : Lang r w) (ho : First p r) : ∀ c t, w = c :: t → p c := by
  induction h with
  | eps => intro c t h; cases h
  | cls h => intro c t e; cases e; exact ho _ h
  | @seq a b s u h1 _ ih1 ih2 =>
    intro c t e
    cases s with
    | nil => exact ih2 (ho.2 ((lang_nullable a).2 h1)) c t e
    | cons d s => cases e; exact ih1 ho.1 _ _ rfl
  | left _ ih => exact ih ho.1
  | right _ ih => exact ih ho.2
  | nil => intro c t h; cases h
  | @more a s u h1 _ ih1 ih2 =>
    intro c t e
    cases s with
    | nil => exact ih2 ho c t e
    | cons d s => cases e; exact ih1 ho _ _ rfl

/-! ### the scanner backwards -/

theorem longest_pos : ∀ (inp : List Nat) (rs : List Re) (n : Nat) (best : Option (Nat × Nat)) (m k : Nat),
    (∀ m k, best = some (m, k) → 1 ≤ m) → longest rs inp n best = some (m, k) → 1 ≤ m := by
  intro inp
  induction inp with
  | nil =>
    intro rs n best m k hb h
    rw [longest_eq] at h
    simp only at h
    split at h
    · exact hb _ _ h
    · split at h
      · cases h; omega
      · exact hb _ _ h
  | cons c t ih =>
    intro rs n best m k hb h
    rw [longest_eq] at h
    refine ih _ _ _ _ _ ?_ h
    intro m' k' h'
    split at h'
    · exact hb _ _ h'
    · split at h'
      · cases h'; omega
      · exact hb _ _ h'

/-- fuel beyond the length of the text is not needed -/
theorem scan_down (rs : List Re) : ∀ (f : Nat) (inp : List Nat) (ts : List (Nat × List Nat)), scan rs f inp = some ts →
    scanAll rs inp = some ts := by
  intro f
  induction f with
  | zero =>
    intro inp ts h
    cases inp with
    | nil => exact h
    | cons c t => simp [scan] at h
  | succ f ih =>
    intro inp ts h
    cases inp with
    | nil => simpa [scan, scanAll] using h
    | cons c t =>
      unfold scanAll
      rw [List.length_cons]
      simp only [scan] at h ⊢
      obtain ⟨⟨n, k⟩, h1, h2⟩ := Option.bind_eq_some_iff.1 h
      obtain ⟨ts', h3, h4⟩ := Option.bind_eq_some_iff.1 h2
      have hn := longest_pos _ _ _ _ _ _ (by intro m k h; cases h) h1
      refine Option.bind_eq_some_iff.2 ⟨(n, k), h1, Option.bind_eq_some_iff.2 ⟨ts', ?_, h4⟩⟩
      exact scan_mono rs _ _ _ (ih _ _ h3) _ (by simp; omega)

theorem scan_back (rs : List Re) (k : Nat) (w rest : List Nat) (ts : List (Nat × List Nat)) (hw : w ≠ []) (hk : FirstMatch rs w k)
    (hmax : ∀ e : List Nat, e ≠ [] → e <+: rest → NoMatch rs (w ++ e)) (h : scanAll rs (w ++ rest) = some ts) :
    ∃ ts', ts = (k, w) :: ts' ∧ scanAll rs rest = some ts' := by
  have hl := longest_ok rs k w rest hw hk hmax
  unfold scanAll at h
  cases w with
  | nil => exact absurd rfl hw
  | cons c w =>
    rw [List.cons_append] at hl
    rw [show ((c :: w) ++ rest).length = (w.length + rest.length) + 1 by simp, List.cons_append] at h
    simp only [scan] at h
    rw [hl] at h
    simp only [Option.bind_eq_bind, Option.bind_some] at h
    obtain ⟨ts', h3, h4⟩ := Option.bind_eq_some_iff.1 h
    rw [show c :: (w ++ rest) = (c :: w) ++ rest from rfl, List.drop_left] at h3
    rw [show c :: (w ++ rest) = (c :: w) ++ rest from rfl, List.take_left] at h4
    cases h4
    exact ⟨ts', rfl, scan_down rs _ _ _ h3⟩

end Verif.Lemmas.Flex
