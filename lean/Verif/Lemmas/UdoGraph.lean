import Verif.Lemmas.Udo
/-!
# The graph of types, and the search in it
-/
namespace Verif.Lemmas.Udo
open Verif.Model.Udo Verif.Spec.Udo

/-! ## the graph -/

theorem mem_structs {tds : List Td} {t : Nat} : t ∈ structs tds ↔ ∃ d, tds[t]? = some d ∧ d.struct = true := by
  simp only [structs, List.mem_filter, List.mem_range, Option.any_eq_true]
  constructor
  · exact fun h => h.2
  · rintro ⟨d, h1, h2⟩
    exact ⟨(List.getElem?_eq_some_iff.1 h1).1, d, h1, h2⟩

theorem structs_nodup (tds : List Td) : (structs tds).Nodup := List.nodup_range.sublist List.filter_sublist

theorem idx_iff {l : List Nat} {t k : Nat} (h : l.Nodup) : l.findIdx? (fun u => u == t) = some k ↔ l[k]? = some t := by
  induction l generalizing k with
  | nil => simp
  | cons a l ih =>
    obtain ⟨h1, h2⟩ := List.nodup_cons.1 h
    rw [List.findIdx?_cons]
    by_cases hat : a = t
    · subst hat
      simp only [beq_self_eq_true, if_true, Option.some.injEq]
      cases k with
      | zero => simp
      | succ k =>
        simp only [List.getElem?_cons_succ]
        constructor
        · intro h; omega
        · intro h; exact absurd (List.mem_of_getElem? h) h1
    · have : (a == t) = false := by simp [hat]
      rw [this]
      simp only [Bool.false_eq_true, if_false, Option.map_eq_some_iff]
      cases k with
      | zero => simp [hat]
      | succ k =>
        simp only [List.getElem?_cons_succ, Nat.add_right_cancel_iff, exists_eq_right]
        exact ih h2

theorem idx_none {l : List Nat} {t : Nat} (h : l.findIdx? (fun u => u == t) = none) : t ∉ l := by
  intro hm
  have := List.findIdx?_eq_none_iff.1 h t hm
  simp at this

/-- `j` is in the list of `k` -/
def In (refs : List (List Nat)) (k j : Nat) : Prop := ∃ r, refs[k]? = some r ∧ j ∈ r

theorem appendRef_ok {types : List Nat} (hn : types.Nodup) (i : Nat) (f : Fd) {refs : List (List Nat)} (hl : refs.length = types.length) :
    ∃ refs', appendRef types i f refs = some refs' ∧ refs'.length = types.length ∧
      ∀ k j, In refs' k j ↔ In refs k j ∨ j = i ∧ ∃ t, f.td = some t ∧ types[k]? = some t := by
  unfold appendRef
  cases htd : f.td with
  | none => exact ⟨refs, rfl, hl, fun k j => by simp⟩
  | some t =>
    simp only [Option.bind_some]
    cases hf : types.findIdx? (fun u => u == t) with
    | none =>
      refine ⟨refs, rfl, hl, fun k j => ?_⟩
      constructor
      · exact .inl
      · rintro (h | ⟨_, t', e, h⟩)
        · exact h
        · cases e
          exact absurd (List.mem_of_getElem? h) (idx_none hf)
    | some q =>
      have hq := (idx_iff hn).1 hf
      have hqn : q < refs.length := by
        rw [hl]
        exact (List.getElem?_eq_some_iff.1 hq).1
      simp only [List.getElem?_eq_getElem hqn, bind, Option.bind]
      refine ⟨_, rfl, by simp [hl], fun k j => ?_⟩
      by_cases hk : q = k
      · subst hk
        simp only [In, List.getElem?_set_self hqn, Option.some.injEq, exists_eq_left', List.mem_append, List.mem_singleton, List.getElem?_eq_getElem hqn, hq, and_true]
      · simp only [In, List.getElem?_set_ne hk]
        constructor
        · exact .inl
        · rintro (h | ⟨_, t', e, h⟩)
          · exact h
          · cases e
            rw [(idx_iff hn).2 h] at hf
            cases hf
            exact absurd rfl hk

theorem appendRefs_ok {types : List Nat} (hn : types.Nodup) (i : Nat) : ∀ (l : List Fd) (refs : List (List Nat)), refs.length = types.length →
    ∃ refs', appendRefs types i l refs = some refs' ∧ refs'.length = types.length ∧
      ∀ k j, In refs' k j ↔ In refs k j ∨ j = i ∧ ∃ f ∈ l, ∃ t, f.td = some t ∧ types[k]? = some t := by
  intro l
  induction l with
  | nil => intro refs hl; exact ⟨refs, rfl, hl, fun k j => by simp⟩
  | cons f l ih =>
    intro refs hl
    obtain ⟨r1, e1, l1, h1⟩ := appendRef_ok hn i f hl
    obtain ⟨r2, e2, l2, h2⟩ := ih r1 l1
    refine ⟨r2, by simp [appendRefs, e1, e2], l2, fun k j => ?_⟩
    rw [h2, h1]
    constructor
    · rintro ((h | ⟨h, t, ht⟩) | ⟨h, g, hg, ht⟩)
      · exact .inl h
      · exact .inr ⟨h, f, by simp, t, ht⟩
      · exact .inr ⟨h, g, by simp [hg], ht⟩
    · rintro (h | ⟨h, g, hg, ht⟩)
      · exact .inl (.inl h)
      · rcases List.mem_cons.1 hg with rfl | hg
        · exact .inl (.inr ⟨h, ht⟩)
        · exact .inr ⟨h, g, hg, ht⟩

theorem refLoop_ok {tds : List Td} {types : List Nat} (hn : types.Nodup) (ht : ∀ t ∈ types, ∃ d, tds[t]? = some d) : ∀ (l : List Nat) (refs : List (List Nat)),
    (∀ i ∈ l, i < types.length) → refs.length = types.length → ∃ refs', refLoop tds types l refs = some refs' ∧ refs'.length = types.length ∧
      ∀ k j, In refs' k j ↔ In refs k j ∨ j ∈ l ∧ ∃ u d f t, types[j]? = some u ∧ tds[u]? = some d ∧ f ∈ d.fields ∧ f.td = some t ∧ types[k]? = some t := by
  intro l
  induction l with
  | nil => intro refs _ hl; exact ⟨refs, rfl, hl, fun k j => by simp⟩
  | cons i l ih =>
    intro refs hi hl
    have hin := hi i (by simp)
    obtain ⟨d, hd⟩ := ht types[i] (List.getElem_mem hin)
    have hti : types[i]? = some types[i] := List.getElem?_eq_getElem hin
    obtain ⟨r1, e1, l1, h1⟩ := appendRefs_ok hn i d.fields refs hl
    obtain ⟨r2, e2, l2, h2⟩ := ih r1 (fun k hk => hi k (by simp [hk])) l1
    refine ⟨r2, by simp [refLoop, hti, hd, e1, e2], l2, fun k j => ?_⟩
    rw [h2, h1]
    constructor
    · rintro ((h | ⟨rfl, f, hf, t, ht⟩) | ⟨h, ht⟩)
      · exact .inl h
      · exact .inr ⟨by simp, _, d, f, t, hti, hd, hf, ht.1, ht.2⟩
      · exact .inr ⟨by simp [h], ht⟩
    · rintro (h | ⟨h, u, d', f, t, hu, hd', hf, ht⟩)
      · exact .inl (.inl h)
      · rcases List.mem_cons.1 h with rfl | h
        · rw [hti] at hu; cases hu
          rw [hd] at hd'; cases hd'
          exact .inl (.inr ⟨rfl, f, hf, t, ht⟩)
        · exact .inr ⟨h, u, d', f, t, hu, hd', hf, ht⟩

/-- the lists hold the types around a type -/
theorem buildRefs_ok (tds : List Td) : ∃ refs, buildRefs tds (structs tds) = some refs ∧ refs.length = (structs tds).length ∧
    ∀ k j, In refs k j ↔ ∃ t u, (structs tds)[k]? = some t ∧ (structs tds)[j]? = some u ∧ Around tds u t := by
  obtain ⟨r, e, hl, h⟩ := refLoop_ok (tds := tds) (structs_nodup tds) (fun t ht => (mem_structs.1 ht).imp fun _ h => h.1) (List.range (structs tds).length) (List.replicate (structs tds).length [])
    (fun i hi => List.mem_range.1 hi) (by simp)
  refine ⟨r, e, hl, fun k j => ?_⟩
  rw [h]
  constructor
  · rintro (⟨r, hr, hj⟩ | ⟨_, u, d, f, t, hu, hd, hf, hft, ht⟩)
    · have := List.eq_of_mem_replicate (List.mem_of_getElem? hr)
      subst this
      cases hj
    · obtain ⟨d', hd', hs⟩ := mem_structs.1 (List.mem_of_getElem? hu)
      rw [hd] at hd'; cases hd'
      exact ⟨t, u, ht, hu, d, f, hd, hs, hf, hft⟩
  · rintro ⟨t, u, ht, hu, d, f, hd, _, hf, hft⟩
    exact .inr ⟨List.mem_range.2 (List.getElem?_eq_some_iff.1 hu).1, u, d, f, t, hu, hd, hf, hft, ht⟩

/-! ## members -/

theorem find_iff {l : List Fd} (h : (l.map Fd.name).Nodup) {name : List Nat} {f : Fd} : l.find? (fun g => g.name == name) = some f ↔ f ∈ l ∧ f.name = name := by
  induction l with
  | nil => simp
  | cons a l ih =>
    obtain ⟨h1, h2⟩ := List.nodup_cons.1 h
    rw [List.find?_cons]
    by_cases ha : a.name = name
    · have : (a.name == name) = true := by simp [ha]
      simp only [this, Option.some.injEq, List.mem_cons]
      constructor
      · rintro rfl; exact ⟨.inl rfl, ha⟩
      · rintro ⟨rfl | hf, hn⟩
        · rfl
        · exact absurd (List.mem_map.2 ⟨f, hf, hn.trans ha.symm⟩) h1
    · have : (a.name == name) = false := by simp [ha]
      simp only [this, List.mem_cons]
      rw [ih h2]
      constructor
      · rintro ⟨h3, h4⟩; exact ⟨.inr h3, h4⟩
      · rintro ⟨rfl | hf, hn⟩
        · exact absurd hn ha
        · exact ⟨hf, hn⟩

theorem member_ok {tds : List Td} (hD : Described tds) (name : List Nat) {i t : Nat} (hi : (structs tds)[i]? = some t) :
    ∃ x, member tds (structs tds) name i = some x ∧ ∀ s, x = some s ↔ Member tds name t s := by
  obtain ⟨d, hd, hs⟩ := mem_structs.1 (List.mem_of_getElem? hi)
  have hnd := hD.names t d hd hs
  unfold member
  simp only [hi, hd, bind, Option.bind]
  cases hf : d.fields.find? (fun f => f.name == name) with
  | none =>
    refine ⟨none, rfl, fun s => ⟨(fun h => by cases h), ?_⟩⟩
    rintro ⟨d', f, u, e, hd', _, hm, hn, _⟩
    rw [hd] at hd'; cases hd'
    rw [(find_iff hnd).2 ⟨hm, hn⟩] at hf
    cases hf
  | some f =>
    obtain ⟨hm, hn⟩ := (find_iff hnd).1 hf
    simp only
    cases htd : f.td with
    | none =>
      refine ⟨none, rfl, fun s => ⟨(fun h => by cases h), ?_⟩⟩
      rintro ⟨d', f', u, e, hd', _, hm', hn', hu, _⟩
      rw [hd] at hd'; cases hd'
      rw [(find_iff hnd).2 ⟨hm', hn'⟩] at hf
      cases hf
      rw [htd] at hu; cases hu
    | some u =>
      have hr := hD.range t d f u hd hs hm htd
      simp only [List.getElem?_eq_getElem hr]
      refine ⟨_, rfl, fun s => ?_⟩
      constructor
      · intro h
        exact ⟨d, f, u, tds[u], hd, hs, hm, hn, htd, List.getElem?_eq_getElem hr, by cases h; rfl⟩
      · rintro ⟨d', f', u', e, hd', _, hm', hn', hu, he, h⟩
        rw [hd] at hd'; cases hd'
        rw [(find_iff hnd).2 ⟨hm', hn'⟩] at hf
        cases hf
        rw [htd] at hu; cases hu
        rw [List.getElem?_eq_getElem hr] at he; cases he
        rw [h]

/-! ## the search -/

theorem Reach.tail {mb : Nat → Option (Option Nat)} {refs : List (List Nat)} {i j k : Nat} {r : List Nat} (h : Reach mb refs i j) (hm : mb j = some none) (hr : refs[j]? = some r)
    (hk : k ∈ r) : Reach mb refs i k := by
  induction h with
  | refl => exact .step hm hr hk (.refl k)
  | step h1 h2 h3 _ ih => exact .step h1 h2 h3 (ih hm hr)

theorem no_member {tds : List Td} (hD : Described tds) (name : List Nat) {i t : Nat} (hi : (structs tds)[i]? = some t) : member tds (structs tds) name i = some none ↔ ∀ s, ¬ Member tds name t s := by
  obtain ⟨x, hx, h⟩ := member_ok hD name hi
  rw [hx]
  constructor
  · intro e s hs
    cases e
    cases (h s).2 hs
  · intro hn
    cases x with
    | none => rfl
    | some s => exact absurd ((h s).1 rfl) (hn s)

theorem setType_completed (s : Nat) (o : Over) : Completed s o (setType s o) := by
  unfold Completed setType
  cases h : o.type <;> simp [h]

section
variable {tds : List Td} (hD : Described tds) (name : List Nat) {refs : List (List Nat)} (hl : refs.length = (structs tds).length)
  (hR : ∀ k j, In refs k j ↔ ∃ t u, (structs tds)[k]? = some t ∧ (structs tds)[j]? = some u ∧ Around tds u t)
include hD hl hR

theorem graph : Graph (member tds (structs tds) name) refs (structs tds).length := by
  refine ⟨fun i hi => ?_, hl, fun i r k hr hk => ?_⟩
  · obtain ⟨x, hx, _⟩ := member_ok hD name (List.getElem?_eq_getElem hi)
    exact ⟨x, hx⟩
  · obtain ⟨t, u, _, hu, _⟩ := (hR i k).1 ⟨r, hr, hk⟩
    exact (List.getElem?_eq_some_iff.1 hu).1

theorem reach_scope {t0 i j t : Nat} (h : Reach (member tds (structs tds) name) refs i j) : (structs tds)[i]? = some t → Scope tds name t0 t →
    ∃ u, (structs tds)[j]? = some u ∧ Scope tds name t0 u := by
  induction h generalizing t with
  | refl => exact fun hi hs => ⟨t, hi, hs⟩
  | step hm hr hk _ ih =>
    intro hi hs
    obtain ⟨t', u, ht, hu, ha⟩ := (hR _ _).1 ⟨_, hr, hk⟩
    rw [hi] at ht; cases ht
    exact ih hu (.around hs ((no_member hD name hi).1 hm) ha)

theorem scope_reach {t i u : Nat} (hi : (structs tds)[i]? = some t) (h : Scope tds name t u) :
    ∃ j, (structs tds)[j]? = some u ∧ Reach (member tds (structs tds) name) refs i j := by
  induction h with
  | here => exact ⟨i, hi, .refl i⟩
  | around _ hno ha ih =>
    obtain ⟨j, hj, hre⟩ := ih
    obtain ⟨d, f, hd, hs, hf, htd⟩ := ha
    obtain ⟨k, hk⟩ := List.mem_iff_getElem?.1 (mem_structs.2 ⟨d, hd, hs⟩)
    obtain ⟨r, hr, hkr⟩ := (hR j k).2 ⟨_, _, hj, hk, d, f, hd, hs, hf, htd⟩
    exact ⟨k, hk, hre.tail ((no_member hD name hj).2 hno) hr hkr⟩

theorem discriminator_iff {t i s : Nat} (hi : (structs tds)[i]? = some t) :
    Discriminator tds name t s ↔ ∃ j, Reach (member tds (structs tds) name) refs i j ∧ member tds (structs tds) name j = some (some s) := by
  constructor
  · rintro ⟨u, hs, hm⟩
    obtain ⟨j, hj, hre⟩ := scope_reach hD name hl hR hi hs
    obtain ⟨x, hx, h⟩ := member_ok hD name hj
    exact ⟨j, hre, by rw [hx, (h s).2 hm]⟩
  · rintro ⟨j, hre, hm⟩
    obtain ⟨u, hu, hs⟩ := reach_scope hD name hl hR hre hi .here
    obtain ⟨x, hx, h⟩ := member_ok hD name hu
    rw [hx] at hm; cases hm
    exact ⟨u, hs, (h s).1 rfl⟩

/-- the types that are missing are set if the discriminators agree -/
theorem assignTypes_ok {t i : Nat} (hi : (structs tds)[i]? = some t) (l : List Over) : ∃ l', assignTypes tds (structs tds) refs i name l = some l' ∧
    (∀ s, Unique tds name t s → l' = l.map (setType s)) ∧ ((∀ s, ¬ Unique tds name t s) → l' = l) := by
  obtain ⟨ok, s', e, h1, h2⟩ := search (graph hD name hl hR) (List.getElem?_eq_some_iff.1 hi).1
  have hdi := fun s => discriminator_iff hD name hl hR (s := s) hi
  simp only [assignTypes, e, bind, Option.bind]
  cases ok with
  | false =>
    refine ⟨l, rfl, fun s hu => ?_, fun _ => rfl⟩
    obtain ⟨x, y, hne, hx, hy⟩ := h2 rfl
    exact absurd ((hu.2 x ((hdi x).2 hx)).trans (hu.2 y ((hdi y).2 hy)).symm) hne
  | true =>
    obtain ⟨h3, h4⟩ := h1 rfl
    cases hd : s'.disc with
    | none =>
      refine ⟨l, rfl, fun s hu => ?_, fun _ => rfl⟩
      obtain ⟨j, hj, hm⟩ := (hdi s).1 hu.1
      rw [hd] at h3
      cases h3 j s hj hm
    | some x =>
      have hx : Unique tds name t x := by
        refine ⟨(hdi x).2 (h4 x hd), fun r hr => ?_⟩
        obtain ⟨j, hj, hm⟩ := (hdi r).1 hr
        have := h3 j r hj hm
        rw [hd] at this; cases this
        rfl
      refine ⟨_, rfl, fun s hu => ?_, fun hn => absurd hx (hn x)⟩
      rw [hu.2 x hx.1]

theorem detect_ok {t i : Nat} (hi : (structs tds)[i]? = some t) (f : Fd) : ∃ f', detect tds (structs tds) refs i f = some f' ∧ Decided tds t f f' := by
  unfold detect
  cases ho : f.over with
  | none => exact ⟨f, rfl, ⟨rfl, rfl, rfl⟩, (fun _ _ _ h => by rw [ho] at h; cases h), fun _ => rfl⟩
  | some l =>
    cases htd : f.td with
    | none => exact ⟨f, rfl, ⟨rfl, rfl, rfl⟩, fun _ _ _ _ _ h => absurd htd h, fun _ => rfl⟩
    | some u =>
      cases hnt : f.note with
      | none => exact ⟨f, rfl, ⟨rfl, rfl, rfl⟩, (fun _ _ _ _ h => by rw [hnt] at h; cases h), fun _ => rfl⟩
      | some nm =>
        simp only
        by_cases hall : (l.all fun o => o.type.isSome) = true
        · rw [if_pos hall]
          refine ⟨f, rfl, ⟨rfl, rfl, rfl⟩, fun name' s l' h _ _ _ => ⟨l, ho, ?_⟩, fun _ => rfl⟩
          rw [ho] at h; cases h
          refine ⟨rfl, fun k o o' h1 h2 => ?_⟩
          rw [h1] at h2; cases h2
          have := List.all_eq_true.1 hall o (List.mem_of_getElem? h1)
          obtain ⟨x, hx⟩ := Option.isSome_iff_exists.1 this
          simp [Completed, hx]
        · rw [if_neg hall]
          obtain ⟨l', e, h1, h2⟩ := assignTypes_ok hD nm hl hR hi l
          simp only [e, bind, Option.bind]
          refine ⟨_, rfl, ⟨rfl, htd.symm, hnt.symm⟩, ?_, ?_⟩
          · intro name' s l'' h h3 _ hu
            rw [ho] at h; cases h
            rw [hnt] at h3; cases h3
            refine ⟨l', rfl, by rw [h1 s hu]; simp, fun k o o' h4 h5 => ?_⟩
            rw [h1 s hu, List.getElem?_map, h4] at h5
            cases h5
            exact setType_completed s o
          · intro hn
            have := h2 fun s => hn nm s hnt (by rw [htd]; exact fun h => by cases h)
            subst this
            cases f
            simp only at ho htd hnt
            subst ho htd hnt
            rfl

/-- the fields of a type afterwards -/
def Fields (tds : List Td) (t : Nat) (l l' : List Fd) : Prop :=
  l'.length = l.length ∧ ∀ (k : Nat) (f f' : Fd), l[k]? = some f → l'[k]? = some f' → Decided tds t f f'

theorem detectAll_ok {t i : Nat} (hi : (structs tds)[i]? = some t) : ∀ l, ∃ l', detectAll tds (structs tds) refs i l = some l' ∧ Fields tds t l l' := by
  intro l
  induction l with
  | nil => exact ⟨[], rfl, rfl, fun k f f' h => by simp at h⟩
  | cons f l ih =>
    obtain ⟨f', e1, h1⟩ := detect_ok hD hl hR hi f
    obtain ⟨l', e2, h2, h3⟩ := ih
    refine ⟨f' :: l', by simp [detectAll, e1, e2], by simp [h2], fun k g g' hg hg' => ?_⟩
    cases k with
    | zero =>
      simp only [List.getElem?_cons_zero, Option.some.injEq] at hg hg'
      subst hg hg'
      exact h1
    | succ k => exact h3 k g g' hg hg'

theorem foreachLoop_ok : ∀ (l : List Nat) (cur : List Td), l.Nodup → (∀ i ∈ l, i < (structs tds).length) → cur.length = tds.length →
    (∀ i ∈ l, ∀ t : Nat, (structs tds)[i]? = some t → cur[t]? = tds[t]?) →
    ∃ res, foreachLoop tds (structs tds) refs l cur = some res ∧ res.length = tds.length ∧
      (∀ i ∈ l, ∀ (t : Nat) (d : Td), (structs tds)[i]? = some t → tds[t]? = some d → ∃ d', res[t]? = some d' ∧ d'.str = d.str ∧ d'.struct = d.struct ∧ Fields tds t d.fields d'.fields) ∧
      ∀ t : Nat, (∀ i ∈ l, (structs tds)[i]? ≠ some t) → res[t]? = cur[t]? := by
  intro l
  induction l with
  | nil => intro cur _ _ hlen _; exact ⟨cur, rfl, hlen, (fun i hi => by cases hi), fun _ _ => rfl⟩
  | cons i l ih =>
    intro cur hnd hr hlen hcur
    obtain ⟨hni, hnl⟩ := List.nodup_cons.1 hnd
    have hin := hr i (by simp)
    obtain ⟨t, hi⟩ : ∃ t, (structs tds)[i]? = some t := ⟨_, List.getElem?_eq_getElem hin⟩
    obtain ⟨d, hd, hs⟩ := mem_structs.1 (List.mem_of_getElem? hi)
    have hct := hcur i (by simp) t hi
    rw [hd] at hct
    obtain ⟨fs, e1, h1⟩ := detectAll_ok hD hl hR hi d.fields
    have htl : t < cur.length := (List.getElem?_eq_some_iff.1 hct).1
    have hne : ∀ k ∈ l, (structs tds)[k]? ≠ some t := by
      intro k hk e
      have : k = i := by
        have h1 := (idx_iff (structs_nodup tds)).2 e
        have h2 := (idx_iff (structs_nodup tds)).2 hi
        rw [h1] at h2; cases h2; rfl
      exact hni (this ▸ hk)
    obtain ⟨res, e2, hlr, h2, h3⟩ := ih (cur.set t { d with fields := fs }) hnl (fun k hk => hr k (by simp [hk])) (by simp [hlen]) (by
      intro k hk u hu
      have : t ≠ u := by rintro rfl; exact hne k hk hu
      rw [List.getElem?_set_ne this]
      exact hcur k (by simp [hk]) u hu)
    refine ⟨res, by simp [foreachLoop, hi, hct, e1, e2], hlr, ?_, ?_⟩
    · intro k hk u d' hu hd'
      rcases List.mem_cons.1 hk with rfl | hk
      · rw [hi] at hu; cases hu
        rw [hd] at hd'; cases hd'
        refine ⟨{ d with fields := fs }, ?_, rfl, rfl, h1⟩
        rw [h3 t hne, List.getElem?_set_self htl]
      · exact h2 k hk u d' hu hd'
    · intro u hu
      rw [h3 u fun k hk => hu k (by simp [hk]), List.getElem?_set_ne]
      rintro rfl
      exact hu i (by simp) hi

end

end Verif.Lemmas.Udo
