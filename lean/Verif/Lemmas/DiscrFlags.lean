import Verif.Spec.Discr
/-!
# Lemmas about the flags of the types that may be discriminators
-/
namespace Verif.Lemmas.DiscrFlags
open Verif.Model.Discr Verif.Spec.Discr

variable {tds : List Td}

theorem nodup_len {l : List Nat} {n : Nat} (h : l.Nodup) (hr : ∀ x ∈ l, x < n) : l.length ≤ n := by
  have := h.length_le_of_subset (l₂ := List.range n) (fun x hx => List.mem_range.2 (hr x hx))
  simpa using this

theorem first_mem {d : Td} {f : Fd} (h : d.first = some f) : f ∈ d.fields := by
  unfold Td.first at h
  split at h
  · exact List.mem_of_mem_head? h
  · cases h

theorem valid_tdp (hV : Valid tds) {t u : Nat} {d : Td} {f : Fd} (hd : tds[t]? = some d) (hf : d.first = some f) (hu : f.tdp = some u) : u < tds.length :=
  (hV d (List.mem_of_getElem? hd) f (first_mem hf)).tdp u hu

/-- the types `l` have first fields and lead from `o` to `r` -/
inductive Path (tds : List Td) : Option Nat → List Nat → Option Nat → Prop
  | nil {o : Option Nat} : Path tds o [] o
  | cons {t : Nat} {d : Td} {f : Fd} {l : List Nat} {r : Option Nat} : tds[t]? = some d → d.first = some f → Path tds f.tdp l r → Path tds (some t) (t :: l) r

/-- the flags are right, but for the types `V` which are not yet decided -/
structure Good (tds : List Td) (fl : List Flags) (V : List Nat) : Prop where
  len : fl.length = tds.length
  done : ∀ (t : Nat) (f : Flags), fl[t]? = some f → t ∉ V → f.set = true → (f.ud = true ↔ Ends tds t)
  open_ : ∀ (t : Nat) (f : Flags), fl[t]? = some f → t ∈ V → f.set = true ∧ f.ud = false
  unset : ∀ (t : Nat) (f : Flags), fl[t]? = some f → f.set = false → f.ud = false
  range : ∀ t ∈ V, t < tds.length
  nodup : V.Nodup

theorem ends_first {t : Nat} {d : Td} {f : Fd} (hd : tds[t]? = some d) (hf : d.first = some f) (h : Ends tds t) : ∃ u, f.tdp = some u ∧ Ends tds u := by
  cases h with
  | here hd' hn => rw [hd] at hd'; cases hd'; rw [hf] at hn; cases hn
  | next hd' hf' hu h =>
    rw [hd] at hd'; cases hd'
    rw [hf] at hf'; cases hf'
    exact ⟨_, hu, h⟩

theorem path_ends {o : Option Nat} {l : List Nat} {q : Nat} (h : Path tds o l (some q)) (hq : Ends tds q) : (∃ t, o = some t ∧ Ends tds t) ∧ ∀ t ∈ l, Ends tds t := by
  generalize hr : some q = r at h
  induction h with
  | nil => exact ⟨⟨q, hr.symm, hq⟩, fun t ht => by cases ht⟩
  | cons hd hf _ ih =>
    obtain ⟨⟨u, h1, h2⟩, h3⟩ := ih hr
    have := Ends.next hd hf h1 h2
    refine ⟨⟨_, rfl, this⟩, fun t ht => ?_⟩
    rcases List.mem_cons.1 ht with rfl | ht
    · exact this
    · exact h3 t ht

theorem path_head {o : Option Nat} {l : List Nat} {r : Option Nat} (h : Path tds o l r) : o = r ∨ ∃ u ∈ l, o = some u := by
  cases h with
  | nil => exact .inl rfl
  | cons => exact .inr ⟨_, by simp, rfl⟩

theorem path_next {o : Option Nat} {l : List Nat} {r : Option Nat} (h : Path tds o l r) : ∀ t ∈ l, ∃ d f, tds[t]? = some d ∧ d.first = some f ∧ (f.tdp = r ∨ ∃ u ∈ l, f.tdp = some u) := by
  induction h with
  | nil => intro t ht; cases ht
  | cons hd hf hp ih =>
    intro t ht
    rcases List.mem_cons.1 ht with rfl | ht
    · refine ⟨_, _, hd, hf, (path_head hp).imp_right ?_⟩
      rintro ⟨u, hu, h⟩
      exact ⟨u, by simp [hu], h⟩
    · obtain ⟨d, f, h1, h2, h3⟩ := ih t ht
      refine ⟨d, f, h1, h2, h3.imp_right ?_⟩
      rintro ⟨u, hu, h⟩
      exact ⟨u, by simp [hu], h⟩

/-- types that lead only to each other and to types that end nowhere do not end -/
theorem not_ends {l : List Nat} (h : ∀ t ∈ l, ∃ d f, tds[t]? = some d ∧ d.first = some f ∧ ∀ u, f.tdp = some u → u ∈ l ∨ ¬ Ends tds u) : ∀ t ∈ l, ¬ Ends tds t := by
  intro t ht he
  induction he with
  | here hd hn =>
    obtain ⟨d, f, h1, h2, _⟩ := h _ ht
    rw [hd] at h1; cases h1
    rw [hn] at h2; cases h2
  | next hd hf hu he ih =>
    obtain ⟨d, f, h1, h2, h3⟩ := h _ ht
    rw [hd] at h1; cases h1
    rw [hf] at h2; cases h2
    rcases h3 _ hu with h | h
    · exact ih h
    · exact h he

theorem chase_ok (hV : Valid tds) : ∀ (fuel : Nat) (o : Option Nat) (fl : List Flags) (V : List Nat), Good tds fl V → (∀ t, o = some t → t < tds.length) → tds.length + 1 ≤ V.length + fuel →
    ∃ r fl' l, chase tds fuel o fl = some (r, fl') ∧ Good tds fl' (V ++ l) ∧ Path tds o l r ∧ (∀ q, r = some q → ∃ f, fl'[q]? = some f ∧ f.set = true)
      ∧ (∀ (t : Nat) (f : Flags), fl[t]? = some f → f.set = true → fl'[t]? = some f) ∧ (∀ t, o = some t → ∃ f, fl'[t]? = some f ∧ f.set = true) := by
  intro fuel
  induction fuel with
  | zero =>
    intro o fl V G _ hf
    have := nodup_len G.nodup G.range
    omega
  | succ fuel ih =>
    intro o fl V G ho hf
    cases o with
    | none => exact ⟨none, fl, [], by simp [chase], by simpa using G, .nil, (fun q h => by cases h), fun t f h _ => h, fun t h => by cases h⟩
    | some t =>
      have ht := ho t rfl
      obtain ⟨f, hfl⟩ : ∃ f, fl[t]? = some f := ⟨_, List.getElem?_eq_getElem (by rw [G.len]; exact ht)⟩
      by_cases hs : f.set = true
      · refine ⟨some t, fl, [], by simp [chase, hfl, hs], by simpa using G, .nil, ?_, (fun t f h _ => h), fun t h => by cases h; exact ⟨f, hfl, hs⟩⟩
        intro q hq
        cases hq
        exact ⟨f, hfl, hs⟩
      · have hs' : f.set = false := by simpa using hs
        have hud : f.ud = false := G.unset t f hfl hs'
        have htV : t ∉ V := fun h => hs (G.open_ t f hfl h).1
        have hlen : t < fl.length := by rw [G.len]; exact ht
        have hd : tds[t]? = some tds[t] := List.getElem?_eq_getElem ht
        generalize tds[t] = d at hd
        cases hx : d.first with
        | none =>
          have hget : ∀ (k : Nat), (fl.set t { set := true, ud := resolvable d.type })[k]? = if k = t then some { set := true, ud := resolvable d.type } else fl[k]? := by
            intro k
            by_cases hk : k = t
            · subst hk; simp [List.getElem?_set_self hlen]
            · rw [List.getElem?_set_ne (fun h => hk h.symm), if_neg hk]
          refine ⟨some t, fl.set t { set := true, ud := resolvable d.type }, [], by simp [chase, hfl, hs, hd, hx], ?_, .nil, ?_, ?_, ?_⟩
          · refine ⟨by simp [G.len], ?_, ?_, ?_, by simpa using G.range, by simpa using G.nodup⟩
            · intro k g hg hk hset
              rw [hget] at hg
              by_cases hkt : k = t
              · rw [if_pos hkt] at hg; cases hg
                subst hkt
                constructor
                · exact fun h => .here hd hx h
                · intro h
                  cases h with
                  | here hd' _ h => rw [hd] at hd'; cases hd'; exact h
                  | next hd' hf' => rw [hd] at hd'; cases hd'; rw [hx] at hf'; cases hf'
              · rw [if_neg hkt] at hg
                exact G.done k g hg (by simpa using hk) hset
            · intro k g hg hk
              rw [List.append_nil] at hk
              have hkt : k ≠ t := fun h => htV (h ▸ hk)
              rw [hget, if_neg hkt] at hg
              exact G.open_ k g hg hk
            · intro k g hg hset
              rw [hget] at hg
              by_cases hkt : k = t
              · rw [if_pos hkt] at hg; cases hg; cases hset
              · rw [if_neg hkt] at hg
                exact G.unset k g hg hset
          · intro q hq
            cases hq
            exact ⟨_, by rw [hget, if_pos rfl], rfl⟩
          · intro k g hg hset
            rw [hget]
            by_cases hkt : k = t
            · subst hkt; rw [hfl] at hg; cases hg; exact absurd hset hs
            · rw [if_neg hkt]; exact hg
          · intro k hk
            cases hk
            exact ⟨_, by rw [hget, if_pos rfl], rfl⟩
        | some x =>
          have hget : ∀ (k : Nat), (fl.set t { f with set := true })[k]? = if k = t then some { f with set := true } else fl[k]? := by
            intro k
            by_cases hk : k = t
            · subst hk; simp [List.getElem?_set_self hlen]
            · rw [List.getElem?_set_ne (fun h => hk h.symm), if_neg hk]
          have G1 : Good tds (fl.set t { f with set := true }) (V ++ [t]) := by
            refine ⟨by simp [G.len], ?_, ?_, ?_, ?_, ?_⟩
            · intro k g hg hk hset
              have hkt : k ≠ t := fun h => hk (by simp [h])
              rw [hget, if_neg hkt] at hg
              exact G.done k g hg (fun h => hk (by simp [h])) hset
            · intro k g hg hk
              rw [hget] at hg
              by_cases hkt : k = t
              · rw [if_pos hkt] at hg; cases hg
                exact ⟨rfl, hud⟩
              · rw [if_neg hkt] at hg
                exact G.open_ k g hg (by
                  rcases List.mem_append.1 hk with h | h
                  · exact h
                  · exact absurd (List.mem_singleton.1 h) hkt)
            · intro k g hg hset
              rw [hget] at hg
              by_cases hkt : k = t
              · rw [if_pos hkt] at hg; cases hg; cases hset
              · rw [if_neg hkt] at hg
                exact G.unset k g hg hset
            · intro k hk
              rcases List.mem_append.1 hk with h | h
              · exact G.range k h
              · rw [List.mem_singleton.1 h]; exact ht
            · rw [List.nodup_append]
              exact ⟨G.nodup, by simp, fun a ha b hb h => htV (by rw [List.mem_singleton.1 hb] at h; exact h ▸ ha)⟩
          obtain ⟨r, fl', l, e, G2, hp, hr, hkeep, _⟩ := ih x.tdp _ (V ++ [t]) G1 (fun u hu => valid_tdp hV hd hx hu) (by simp; omega)
          refine ⟨r, fl', t :: l, by simp [chase, hfl, hs, hd, hx, e], by simpa using G2, .cons hd hx hp, hr, ?_, ?_⟩
          · intro k g hg hset
            refine hkeep k g ?_ hset
            rw [hget]
            by_cases hkt : k = t
            · subst hkt; rw [hfl] at hg; cases hg; exact absurd hset hs
            · rw [if_neg hkt]; exact hg
          · intro k hk
            cases hk
            exact ⟨_, hkeep t _ (by rw [hget, if_pos rfl]) rfl, rfl⟩

theorem spread_ok {o : Option Nat} {l : List Nat} {q : Nat} (h : Path tds o l (some q)) : ∀ (fuel : Nat) (fl : List Flags), l.length < fuel → l.Nodup →
    (∀ t ∈ l, ∃ f, fl[t]? = some f ∧ f.set = true ∧ f.ud = false) → (∃ f, fl[q]? = some f ∧ f.ud = true) →
    ∃ fl', spread tds fuel o fl = some fl' ∧ fl'.length = fl.length ∧ (∀ (t : Nat), t ∉ l → fl'[t]? = fl[t]?) ∧ ∀ t ∈ l, fl'[t]? = some { set := true, ud := true } := by
  generalize hr : some q = r at h
  induction h with
  | nil =>
    rintro fuel fl hf _ _ ⟨f, h1, h2⟩
    obtain ⟨fuel, rfl⟩ : ∃ k, fuel = k + 1 := ⟨fuel - 1, by omega⟩
    subst hr
    exact ⟨fl, by simp [spread, h1, h2], rfl, fun _ _ => rfl, fun t ht => by cases ht⟩
  | @cons t d x l r hd hf _ ih =>
    rintro fuel fl hfu hnd hl hq
    obtain ⟨fuel, rfl⟩ : ∃ k, fuel = k + 1 := ⟨fuel - 1, by omega⟩
    obtain ⟨f, h1, h2, h3⟩ := hl t (by simp)
    obtain ⟨hn1, hn2⟩ := List.nodup_cons.1 hnd
    have hlen := (List.getElem?_eq_some_iff.1 h1).1
    have hq' : ∃ f', (fl.set t { f with ud := true })[q]? = some f' ∧ f'.ud = true := by
      obtain ⟨g, g1, g2⟩ := hq
      by_cases hqt : t = q
      · subst hqt; rw [h1] at g1; cases g1; rw [h3] at g2; cases g2
      · exact ⟨g, by rw [List.getElem?_set_ne hqt, g1], g2⟩
    obtain ⟨fl', e, e1, e2, e3⟩ := ih hr fuel (fl.set t { f with ud := true }) (by simp at hfu; omega) hn2 (by
      intro k hk
      obtain ⟨g, g1, g2, g3⟩ := hl k (by simp [hk])
      exact ⟨g, by rw [List.getElem?_set_ne (fun (h : t = k) => hn1 (by rw [h]; exact hk)), g1], g2, g3⟩) hq'
    refine ⟨fl', by simp [spread, h1, h3, hd, hf, e], by simpa using e1, ?_, ?_⟩
    · intro k hk
      rw [e2 k (fun h => hk (by simp [h])), List.getElem?_set_ne (fun h => hk (by simp [h]))]
    · intro k hk
      rcases List.mem_cons.1 hk with rfl | hk
      · rw [e2 k hn1, List.getElem?_set_self hlen]
        cases f
        simp only at h2
        subst h2
        rfl
      · exact e3 k hk

theorem isDiscriminator_ok (hV : Valid tds) {fl : List Flags} (G : Good tds fl []) {t : Nat} (ht : t < tds.length) : ∃ fl', isDiscriminator tds t fl = some fl' ∧ Good tds fl' [] ∧
    (∀ (k : Nat) (f : Flags), fl[k]? = some f → f.set = true → ∃ g, fl'[k]? = some g ∧ g.set = true) ∧ ∃ f, fl'[t]? = some f ∧ f.set = true := by
  obtain ⟨r, fl1, l, e, G1, hp, hr, hkeep, hself⟩ := chase_ok hV (tds.length + 1) (some t) fl [] G (fun u hu => by cases hu; exact ht) (by simp)
  simp only [List.nil_append] at G1
  have hset1 : ∀ (k : Nat) (f : Flags), fl[k]? = some f → f.set = true → ∃ g, fl1[k]? = some g ∧ g.set = true := fun k f h1 h2 => ⟨f, hkeep k f h1 h2, h2⟩
  have hself1 := hself t rfl
  have hno : (∀ t ∈ l, ¬ Ends tds t) → Good tds fl1 [] := by
    intro hn
    refine ⟨G1.len, fun k f hk _ hs => ?_, (fun k f _ h => by cases h), G1.unset, (fun k h => by cases h), List.nodup_nil⟩
    by_cases hkl : k ∈ l
    · have := (G1.open_ k f hk hkl).2
      rw [this]
      exact ⟨(fun h => by cases h), fun h => absurd h (hn k hkl)⟩
    · exact G1.done k f hk hkl hs
  cases r with
  | none =>
    refine ⟨fl1, by simp [isDiscriminator, e, settle], hno (not_ends fun k hk => ?_), hset1, hself1⟩
    obtain ⟨d, f, h1, h2, h3⟩ := path_next hp k hk
    refine ⟨d, f, h1, h2, fun u hu => ?_⟩
    rcases h3 with h3 | ⟨v, hv, h3⟩
    · rw [hu] at h3; cases h3
    · rw [hu] at h3; cases h3; exact .inl hv
  | some q =>
    obtain ⟨g, hg, hgs⟩ := hr q rfl
    cases hgu : g.ud with
    | false =>
      refine ⟨fl1, by simp [isDiscriminator, e, settle, hg, hgu], hno (not_ends fun k hk => ?_), hset1, hself1⟩
      obtain ⟨d, f, h1, h2, h3⟩ := path_next hp k hk
      refine ⟨d, f, h1, h2, fun u hu => ?_⟩
      rcases h3 with h3 | ⟨v, hv, h3⟩
      · rw [hu] at h3
        have huq : u = q := by simpa using h3
        rw [huq]
        by_cases hq : q ∈ l
        · exact .inl hq
        · refine .inr fun he => ?_
          rw [(G1.done q g hg hq hgs).2 he] at hgu; cases hgu
      · rw [hu] at h3; cases h3; exact .inl hv
    | true =>
      have hql : q ∉ l := fun h => by rw [(G1.open_ q g hg h).2] at hgu; cases hgu
      have hq := (G1.done q g hg hql hgs).1 hgu
      have hends := (path_ends hp hq).2
      have hll := nodup_len G1.nodup G1.range
      obtain ⟨fl2, e2, e3, e4, e5⟩ := spread_ok hp (tds.length + 1) fl1 (by omega) G1.nodup (by
        intro k hk
        obtain ⟨f, hf⟩ : ∃ f, fl1[k]? = some f := ⟨_, List.getElem?_eq_getElem (by rw [G1.len]; exact G1.range k hk)⟩
        exact ⟨f, hf, G1.open_ k f hf hk⟩) ⟨g, hg, hgu⟩
      have hmono : ∀ (k : Nat) (f : Flags), fl1[k]? = some f → f.set = true → ∃ g, fl2[k]? = some g ∧ g.set = true := by
        intro k f hk hs
        by_cases hkl : k ∈ l
        · exact ⟨_, e5 k hkl, rfl⟩
        · exact ⟨f, by rw [e4 k hkl, hk], hs⟩
      refine ⟨fl2, by simp [isDiscriminator, e, settle, hg, hgu, e2], ⟨e3.trans G1.len, ?_, (fun k f _ h => by cases h), ?_, (fun k h => by cases h), List.nodup_nil⟩, ?_, ?_⟩
      · intro k f hk _ hs
        by_cases hkl : k ∈ l
        · rw [e5 k hkl] at hk; cases hk
          exact ⟨fun _ => hends k hkl, fun _ => rfl⟩
        · rw [e4 k hkl] at hk
          exact G1.done k f hk hkl hs
      · intro k f hk hs
        by_cases hkl : k ∈ l
        · rw [e5 k hkl] at hk; cases hk; cases hs
        · rw [e4 k hkl] at hk
          exact G1.unset k f hk hs
      · intro k f h1 h2
        exact hmono k f (hkeep k f h1 h2) h2
      · obtain ⟨f, h1, h2⟩ := hself1
        exact hmono t f h1 h2

theorem flagsLoop_ok (hV : Valid tds) : ∀ (l : List Nat) (fl : List Flags), Good tds fl [] → (∀ t ∈ l, t < tds.length) → ∃ fl', flagsLoop tds l fl = some fl' ∧ Good tds fl' [] ∧
    (∀ (k : Nat) (f : Flags), fl[k]? = some f → f.set = true → ∃ g, fl'[k]? = some g ∧ g.set = true) ∧ ∀ t ∈ l, ∃ f, fl'[t]? = some f ∧ f.set = true
  | [], fl, G, _ => ⟨fl, rfl, G, fun k f h1 h2 => ⟨f, h1, h2⟩, fun t h => by cases h⟩
  | t :: l, fl, G, hl => by
    obtain ⟨fl1, e1, G1, k1, f1, h1, h2⟩ := isDiscriminator_ok hV G (hl t (by simp))
    obtain ⟨fl2, e2, G2, k2, h3⟩ := flagsLoop_ok hV l fl1 G1 (fun k hk => hl k (by simp [hk]))
    refine ⟨fl2, by simp [flagsLoop, e1, e2], G2, ?_, ?_⟩
    · intro k f ha hb
      obtain ⟨g, hc, hd⟩ := k1 k f ha hb
      exact k2 k g hc hd
    · intro k hk
      rcases List.mem_cons.1 hk with rfl | hk
      · exact k2 k f1 h1 h2
      · exact h3 k hk

theorem flags_ok (hV : Valid tds) : ∃ fl, flags tds = some fl ∧ fl.length = tds.length ∧ ∀ (t : Nat), t < tds.length → ∃ f, fl[t]? = some f ∧ (f.ud = true ↔ Ends tds t) := by
  have G0 : Good tds (List.replicate tds.length {}) [] := by
    have hrep : ∀ (t : Nat) (f : Flags), (List.replicate tds.length ({} : Flags))[t]? = some f → f = {} := by
      intro t f h
      rw [List.getElem?_replicate] at h
      split at h
      · cases h; rfl
      · cases h
    refine ⟨by simp, fun t f h _ hs => ?_, (fun t f _ h => by cases h), fun t f h _ => ?_, (fun t h => by cases h), List.nodup_nil⟩
    · rw [hrep t f h] at hs; cases hs
    · rw [hrep t f h]
  obtain ⟨fl, e, G, _, h⟩ := flagsLoop_ok hV (List.range tds.length) _ G0 (fun t ht => List.mem_range.1 ht)
  refine ⟨fl, e, G.len, fun t ht => ?_⟩
  obtain ⟨f, h1, h2⟩ := h t (List.mem_range.2 ht)
  exact ⟨f, h1, G.done t f h1 (by simp) h2⟩

end Verif.Lemmas.DiscrFlags
