import Verif.Lemmas.AnonUnion

/-
C50: extraction of anonymous unions.
-/
namespace Verif.Props.AnonUnion
open Verif.Model Verif.Model.AnonUnion Verif.Spec.AnonUnion Verif.Lemmas.AnonUnion Verif.Spec

/-- The state before the initialisation of the structure `t`, declared with the members
`d`: its field pointers lie in memory in the order of the declaration, followed by NULL;
all records are distinct; the descriptors for its unions are distinct from each other and
from `t`.  Unions are nested at most 16 deep (`MR_ANON_UNION_MAX_EMBEDED_LEVELS`,
/repo/src/metaresc.h:102) and there are at most 1000 records. -/
structure Declared (st : St) (t : Nat) (td : Td) (d : Decl) : Prop where
  type : st.tds[t]? = some td
  kind : td.kind = .struct ∨ td.kind = .union
  memory : ∃ P Q, st.mem = P ++ ((flat d).map some ++ none :: Q) ∧ P.length = td.fields
  records : Records st.fds st.tds td.name.length d
  distinct : (flat d).Nodup
  types : (t :: unionTypes st.fds d).Nodup
  levels : depth d ≤ 16
  size : (flat d).length ≤ 1000

/-- C50.  For every declaration, with anonymous unions anywhere and nested in each other,
initialisation ends without touching anything outside the array of the declaration or
writing over the end of a name buffer; the structure has exactly its own members in the
declared order, each union as one member; every union has exactly its own members in a
type of its own (`Extracted`), registered once, inner ones first; no other descriptor is
changed. -/
theorem C50_extract (st : St) (t : Nat) (td : Td) (d : Decl) (fuel : Nat) (h : Declared st t td d)
    (hf : (flat d).length < fuel) :
    ∃ st', initStruct fuel st t = some st' ∧
      st'.tds[t]? = some { td with count := (top d).length } ∧
      Holds st' { td with count := (top d).length } (top d) ∧
      Extracted st.fds st' td.name false 0 d ∧
      st'.added = st.added ++ unionTypes st.fds d ∧
      (∀ f, f ∉ flat d → st'.fds[f]? = st.fds[f]?) ∧
      (∀ u, u ≠ t → u ∉ unionTypes st.fds d → st'.tds[u]? = st.tds[u]?) := by
  obtain ⟨ht, hk, ⟨P, Q, hm, hP⟩, hrec, hnd, htnd, hlev, hsize⟩ := h
  obtain ⟨htu, hund⟩ := List.nodup_cons.1 htnd
  have htlt : t < st.tds.length := (List.getElem?_eq_some_iff.1 ht).1
  have hst := startStruct_eq st t td P Q (flat d) ht hm hP.symm
  have hcur : ∀ (d : Decl), Records st.fds st.tds td.name.length d → ∀ f ∈ flat d,
      ∃ fd, st.fds[f]? = some fd := by
    intro d
    induction d with
    | nil => intro _ f hf; simp [flat] at hf
    | field g r ih =>
      intro hr f hf
      obtain ⟨⟨fd, hfd, _⟩, hr⟩ := hr
      rcases List.mem_cons.1 hf with rfl | hf
      · exact ⟨fd, hfd⟩
      · exact ih hr f hf
    | union g b e r ihb ihr =>
      intro hr f hf
      obtain ⟨⟨hd, hhd, _⟩, ⟨ed, hed, _⟩, hrb, hrr⟩ := hr
      simp only [flat, List.mem_cons, List.mem_append] at hf
      rcases hf with rfl | hf | rfl | hf
      · exact ⟨hd, hhd⟩
      · exact ihb hrb f hf
      · exact ⟨ed, hed⟩
      · exact ihr hrr f hf
  obtain ⟨st', Y, e, m1, m2, m3, m4, m5, m6, m7⟩ := extract_decl st.fds st.tds td.name.length d fuel
    { st with tds := st.tds.set t { td with count := (flat d).length } } t 0 0
    { td with count := (flat d).length } false P Q hf
    (by show (st.tds.set t _)[t]? = _; rw [List.getElem?_set_self htlt]) (by simp)
    (by simp [hP]) hm
    (fun f hf => by
      obtain ⟨fd, hfd⟩ := hcur d hrec f hf
      exact ⟨fd, hfd, hfd⟩)
    hrec hnd hund htu
    (fun u hu => by
      show (st.tds.set t _)[u]? = _
      have hne : t ≠ u := by
        intro q
        subst q
        exact htu hu
      rw [List.getElem?_set_ne hne])
    (by simp) (by omega) (by omega)
  rw [Nat.zero_add] at e
  have hstruct : isStructType td.kind = true := by rcases hk with hk | hk <;> simp [isStructType, hk]
  refine ⟨st', ?_, ?_, ?_, m7.extracted, m6, m4, ?_⟩
  · simp only [initStruct, ht, Option.bind_eq_bind, Option.bind_some, hstruct, ↓reduceIte, hst, e]
  · rw [m3, Nat.zero_add]
  · refine ⟨rfl, fun k hk => ?_⟩
    show st'.mem[td.fields + k]? = _
    rw [m1, ← hP, List.getElem?_append_right (by omega),
      show P.length + k - P.length = k by omega]
    by_cases hk' : k < (top d).length
    · rw [List.getElem?_append_left (by simpa using hk'), List.getElem?_map,
        List.getElem?_eq_getElem hk']
      rfl
    · have : k = (top d).length := by omega
      subst this
      have := get_mid ((top d).map some) (Y ++ Q) (none : Option Nat)
      rw [List.length_map] at this
      rw [this]; simp
  · intro u hu1 hu2
    rw [m5 u hu1 hu2]
    show (st.tds.set t _)[u]? = _
    rw [List.getElem?_set_ne (Ne.symm hu1)]

/-! ## Names -/

def nameOf (st : St) (u : Nat) : List Nat := ((st.tds[u]?).map Td.name).getD []

theorem ascii_t : ascii "_t" = [95, 116] := by decide +kernel
theorem ascii_u : ascii "_" = [95] := by decide +kernel

theorem decimal_digits {n : Nat} {ds : List Nat} (h : IsDecimal n ds) : ∀ c ∈ ds, c ≠ 95 := by
  obtain ⟨xs, rfl, hlt, _⟩ := h
  intro c hc
  simp only [List.mem_map] at hc
  obtain ⟨a, ha, rfl⟩ := hc
  have := hlt a ha
  have h48 : '0'.toNat = 48 := rfl
  omega

theorem decimal_unique {n m : Nat} {ds : List Nat} (h : IsDecimal n ds) (h' : IsDecimal m ds) : n = m := by
  obtain ⟨xs, e, _, hp, _⟩ := h
  obtain ⟨ys, e', _, hp', _⟩ := h'
  rw [e] at e'
  have : xs = ys := by
    have hinj : ∀ (xs ys : List Nat), xs.map (· + '0'.toNat) = ys.map (· + '0'.toNat) → xs = ys := by
      intro xs
      induction xs with
      | nil => intro ys h; cases ys with
        | nil => rfl
        | cons y ys => simp at h
      | cons x xs ih =>
        intro ys h
        cases ys with
        | nil => simp at h
        | cons y ys =>
          simp only [List.map_cons, List.cons.injEq] at h
          rw [ih ys h.2, show x = y by omega]
    exact hinj xs ys e'
  rw [← hp, ← hp', this]

theorem until_underscore : ∀ (a b x y : List Nat), (∀ c ∈ a, c ≠ 95) → (∀ c ∈ b, c ≠ 95) →
    a ++ 95 :: x = b ++ 95 :: y → a = b := by
  intro a
  induction a with
  | nil =>
    intro b x y _ hb h
    cases b with
    | nil => rfl
    | cons c b =>
      simp only [List.nil_append, List.cons_append, List.cons.injEq] at h
      exact absurd h.1.symm (hb c List.mem_cons_self)
  | cons c a ih =>
    intro b x y ha hb h
    cases b with
    | nil =>
      simp only [List.nil_append, List.cons_append, List.cons.injEq] at h
      exact absurd h.1 (ha c List.mem_cons_self)
    | cons d b =>
      simp only [List.cons_append, List.cons.injEq] at h
      rw [h.1, ih b x y (fun z hz => ha z (List.mem_cons_of_mem _ hz))
        (fun z hz => hb z (List.mem_cons_of_mem _ hz)) h.2]

/-- Every union below index `i` of a type named `name` is named `name_n_t...` with
`n ≥ i`. -/
theorem names_form (fds : List Fd) (st : St) : ∀ (d : Decl) (name : List Nat) (inner : Bool) (i : Nat),
    Extracted fds st name inner i d → ∀ u ∈ unionTypes fds d, ∃ n ds rest, i ≤ n ∧ IsDecimal n ds ∧
      nameOf st u = name ++ 95 :: (ds ++ 95 :: 116 :: rest) := by
  intro d
  induction d with
  | nil => intro _ _ _ _ u hu; simp [unionTypes] at hu
  | field f r ih =>
    intro name inner i h u hu
    obtain ⟨n, ds, rest, hn, hd, e⟩ := ih name inner (i + 1) h.2 u hu
    exact ⟨n, ds, rest, by omega, hd, e⟩
  | union g b e r ihb ihr =>
    intro name inner i h u hu
    obtain ⟨⟨hd, ed, td, digits, o, a1, _, a3, _, _, a6, _, a8, _, _, _, a12⟩, hr⟩ := h
    have hres : resOf fds g = hd.res := by simp [resOf, a1]
    simp only [unionTypes, hres, List.mem_append, List.mem_cons] at hu
    rcases hu with hu | rfl | hu
    · obtain ⟨n, ds, rest, _, _, e⟩ := ihb td.name true 0 a12 u hu
      rw [a8, ascii_u, ascii_t] at e
      refine ⟨i, digits, 95 :: (ds ++ 95 :: 116 :: rest), Nat.le_refl _, a3, ?_⟩
      rw [e]; simp
    · refine ⟨i, digits, [], Nat.le_refl _, a3, ?_⟩
      unfold nameOf
      rw [a6]
      simp [a8, ascii_u, ascii_t]
    · obtain ⟨n, ds, rest, hn, hd, e⟩ := ihr name inner (i + 1) hr u hu
      exact ⟨n, ds, rest, by omega, hd, e⟩

theorem names_nodup (fds : List Fd) (st : St) : ∀ (d : Decl) (name : List Nat) (inner : Bool) (i : Nat),
    Extracted fds st name inner i d → ((unionTypes fds d).map (nameOf st)).Nodup := by
  intro d
  induction d with
  | nil => intro _ _ _ _; simp [unionTypes]
  | field f r ih => intro name inner i h; exact ih name inner (i + 1) h.2
  | union g b e r ihb ihr =>
    intro name inner i h
    have h0 := h
    obtain ⟨⟨hd, ed, td, digits, o, a1, _, a3, _, _, a6, _, a8, _, _, _, a12⟩, hr⟩ := h
    have hres : resOf fds g = hd.res := by simp [resOf, a1]
    have hself : nameOf st hd.res = td.name := by unfold nameOf; rw [a6]; rfl
    have hform := names_form fds st r name inner (i + 1) hr
    have hbody := names_form fds st b td.name true 0 a12
    -- names that start with the name of this union
    have hdiff : ∀ u ∈ unionTypes fds r, ∀ rest, nameOf st u ≠ td.name ++ rest := by
      intro u hu rest hh
      obtain ⟨n, ds, rest', hn, hds, e⟩ := hform u hu
      rw [e, a8, ascii_u, ascii_t] at hh
      simp only [List.append_assoc, List.cons_append, List.nil_append, List.append_cancel_left_eq,
        List.cons.injEq, true_and] at hh
      have := until_underscore ds digits _ _ (decimal_digits hds) (decimal_digits a3) hh
      subst this
      have := decimal_unique hds a3
      omega
    simp only [unionTypes, hres, List.map_append, List.map_cons]
    rw [List.nodup_append]
    refine ⟨ihb td.name true 0 a12, List.nodup_cons.2 ⟨?_, ihr name inner (i + 1) hr⟩, ?_⟩
    · intro hm
      obtain ⟨u, hu, e⟩ := List.mem_map.1 hm
      exact hdiff u hu [] (by rw [e, hself]; simp)
    · intro x hx y hy
      obtain ⟨u, hu, rfl⟩ := List.mem_map.1 hx
      obtain ⟨n, ds, rest, _, _, e⟩ := hbody u hu
      rcases List.mem_cons.1 hy with rfl | hy
      · rw [hself, e]
        intro hh
        have := congrArg List.length hh
        simp at this
      · obtain ⟨v, hv, rfl⟩ := List.mem_map.1 hy
        intro hh
        exact hdiff v hv _ (by rw [← hh, e])

/-- C50.  The types made for the unions of a structure have pairwise different names, all
different from the name of the structure, so that each is found by its own name. -/
theorem C50_names_distinct (st : St) (t : Nat) (td : Td) (d : Decl) (fuel : Nat) (h : Declared st t td d)
    (hf : (flat d).length < fuel) (st' : St) (he : initStruct fuel st t = some st') :
    (td.name :: (unionTypes st.fds d).map (nameOf st')).Nodup := by
  obtain ⟨st1, e, _, _, hx, _⟩ := C50_extract st t td d fuel h hf
  rw [he] at e; cases e
  refine List.nodup_cons.2 ⟨?_, names_nodup _ _ _ _ _ _ hx⟩
  intro hm
  obtain ⟨u, hu, e⟩ := List.mem_map.1 hm
  obtain ⟨n, ds, rest, _, _, e'⟩ := names_form _ _ _ _ _ _ hx u hu
  rw [e'] at e
  have := congrArg List.length e
  simp at this

/-! ## Example -/

def fld (offset size : Nat) : Fd := ⟨.other, [120], 2, [], size, offset, 0, 0, 0, 0⟩
def hdr (res : Nat) : Fd := ⟨.anonUnion, [], 98, [], 0, 0, 0, res, 7, 0⟩
def fin (info : Nat) : Fd := ⟨.endAnonUnion, [], 0, [], 0, 0, info, info + 1, info + 2, info + 3⟩

/-- `struct s { x; union { y; union { z; }; w; }; v; }`: ten records. -/
def demo : St :=
  { fds := [fld 0 4, hdr 1, fld 8 4, hdr 2, fld 8 2, fin 100, fld 8 8, fin 200, fld 16 4],
    tds := [⟨.struct, [115], 2, 20, 0, 0, 0⟩, ⟨.other, [], 130, 0, 0, 0, 0⟩, ⟨.other, [], 130, 0, 0, 0, 0⟩],
    mem := [some 0, some 1, some 2, some 3, some 4, some 5, some 6, some 7, some 8, none],
    added := [] }

def demoDecl : Decl :=
  .field 0 (.union 1 (.field 2 (.union 3 (.field 4 .nil) 5 (.field 6 .nil))) 7 (.field 8 .nil))

/-- Non-vacuity: the declaration meets the hypotheses. -/
example : Declared demo 0 ⟨.struct, [115], 2, 20, 0, 0, 0⟩ demoDecl where
  type := rfl
  kind := Or.inl rfl
  memory := ⟨[], [], rfl, rfl⟩
  records := by
    refine ⟨⟨_, rfl, by decide, by decide, by decide⟩, ⟨_, rfl, Or.inl rfl, rfl, rfl, rfl, _, rfl, rfl⟩,
      ⟨_, rfl, rfl, rfl, rfl⟩, ⟨⟨_, rfl, by decide, by decide, by decide⟩,
        ⟨_, rfl, Or.inl rfl, rfl, rfl, rfl, _, rfl, rfl⟩, ⟨_, rfl, rfl, rfl, rfl⟩,
        ⟨⟨_, rfl, by decide, by decide, by decide⟩, trivial⟩,
        ⟨⟨_, rfl, by decide, by decide, by decide⟩, trivial⟩⟩,
      ⟨⟨_, rfl, by decide, by decide, by decide⟩, trivial⟩⟩
  distinct := by decide
  types := by decide
  levels := by decide
  size := by decide

/-- What it becomes: the structure has the members x, union, v. -/
example : (initStruct 20 demo 0).map (fun st => (st.mem, st.added)) =
    some ([some 0, some 1, some 8, none, some 2, some 3, some 6, none, some 4, none], [2, 1]) := by
  decide +kernel

/-- A header without an end record: the extraction stops and leaves the declaration as it
is; the failure is not reported to anyone. -/
theorem C50_deviation_unbalanced :
    initStruct 20 { demo with mem := [some 0, some 1, some 2, none] } 0 =
      some { demo with mem := [some 0, some 1, some 2, none],
                       tds := demo.tds.set 0 ⟨.struct, [115], 2, 20, 0, 0, 3⟩ } := by
  decide +kernel

end Verif.Props.AnonUnion
