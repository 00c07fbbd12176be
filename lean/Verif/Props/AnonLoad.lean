import Verif.Model.AnonLoad
import Verif.Spec.AnonLoad
/-!
# C78: parts of a C initializer reach the right fields
-/
namespace Verif.Props.AnonLoad
open Verif.Model.AnonLoad Verif.Spec.AnonLoad

theorem find_of {fs : List Field} (hd : Distinct fs) {k : Nat} {f : Field} (h : fs[k]? = some f) :
    fs.findIdx? (fun g => g.name == f.name) = some k := by
  rw [List.findIdx?_eq_some_iff_getElem]
  obtain ⟨hk, he⟩ := List.getElem?_eq_some_iff.1 h
  refine ⟨hk, by simp [he], ?_⟩
  intro j hj
  have hjl : j < fs.length := by omega
  have : fs[j].name ≠ f.name := by
    intro e
    have := hd j k fs[j] f (List.getElem?_eq_getElem hjl) h e
    omega
  simpa using this

theorem select_named {fs : List Field} (hd : Distinct fs) {k : Nat} {f : Field} (h : fs[k]? = some f) (cur : Option Nat) :
    select fs cur (some f.name) = k := by
  simp [select, find_of hd h]

theorem find_name {fs : List Field} {n : String} {k : Nat} (h : fs.findIdx? (fun g => g.name == n) = some k) :
    ∃ f, fs[k]? = some f ∧ f.name = n := by
  rw [List.findIdx?_eq_some_iff_getElem] at h
  obtain ⟨hk, he, -⟩ := h
  exact ⟨fs[k], List.getElem?_eq_getElem hk, by simpa using he⟩

theorem marker_iff {fs : List Field} {k : Nat} {f : Field} (h : fs[k]? = some f) (n : Node) (rest : List Node) :
    marker f n rest = true ↔ Announces fs k n rest := by
  cases rest with
  | nil => simp [marker, Announces]
  | cons m r => simp [marker, Announces, h, and_assoc]

theorem for_select {fs : List Field} (hd : Distinct fs) {cur : Option Nat} {n : Node} {k : Nat} (h : For fs cur n k) :
    select fs cur n.name = k ∧ ∃ f, fs[k]? = some f ∧ mismatch f n.name = false := by
  rcases h with ⟨f, hf, hn⟩ | ⟨hn, hk, h⟩
  · rw [hn]
    exact ⟨select_named hd hf cur, f, hf, by simp [mismatch]⟩
  · rw [hn]
    refine ⟨?_, fs[k], List.getElem?_eq_getElem hk, by simp [mismatch]⟩
    rcases h with ⟨rfl, rfl⟩ | ⟨j, rfl, rfl⟩ <;> rfl

theorem complete {fs : List Field} (hd : Distinct fs) {cur : Option Nat} {nodes : List Node} {ds : List Dest}
    (h : Init fs cur nodes ds) : route fs cur none nodes = some ds := by
  induction h with
  | done cur => rfl
  | value cur n rest k ds hfor hann _ ih =>
    obtain ⟨hs, f, hf, hm⟩ := for_select hd hfor
    have hmk : marker f n rest = false := by
      rw [← Bool.not_eq_true, marker_iff hf]; exact hann
    simp [route, hs, hf, hm, hmk, ih]
  | union cur n m rest k f ds hfor hf ha hk he hmn hb _ ih =>
    obtain ⟨hs, f', hf', hm⟩ := for_select hd hfor
    obtain rfl : f = f' := by rw [hf] at hf'; exact Option.some.inj hf'
    have h1 : marker f n (m :: rest) = true := by simp [marker, ha, hk, he, hmn]
    have h2 : marker f m rest = false := by
      have : m.emptyText = false := hb
      simp [marker, this]
    have h3 : mismatch f (some f.name) = false := by simp [mismatch]
    simp [route, hs, hf, hm, h1, h2, h3, select_named hd hf, ih]

/-- a node that was let through is for the field -/
theorem select_for {fs : List Field} (hu : ∀ f ∈ fs, f.unnamed = false) {cur : Option Nat} {n : Node} {f : Field}
    (hf : fs[select fs cur n.name]? = some f) (hm : mismatch f n.name = false) : For fs cur n (select fs cur n.name) := by
  cases hn : n.name with
  | some s =>
    left
    rw [hn] at hf hm
    have hun := hu f (List.mem_of_getElem? hf)
    simp only [mismatch, hun, Bool.not_false, Bool.true_and, bne_eq_false_iff_eq] at hm
    exact ⟨f, hf, by rw [hm] at hn; exact hn⟩
  | none =>
    right
    rw [hn] at hf
    refine ⟨hn, (List.getElem?_eq_some_iff.1 hf).1, ?_⟩
    cases cur with
    | none => exact Or.inl ⟨rfl, rfl⟩
    | some j => exact Or.inr ⟨j, rfl, rfl⟩

theorem clear_tail {fs : List Field} {n : Node} {l : List Node} (h : Clear fs (n :: l)) : Clear fs l := by
  intro hx i a b ha hb
  exact h hx (i + 1) a b (by simpa using ha) (by simpa using hb)

theorem sound {fs : List Field} (hd : Distinct fs) (hu : ∀ f ∈ fs, f.unnamed = false) :
    ∀ (len : Nat) (nodes : List Node), nodes.length ≤ len → Clear fs nodes → ∀ (cur : Option Nat) (ds : List Dest),
      route fs cur none nodes = some ds → Init fs cur nodes ds := by
  intro len
  induction len with
  | zero =>
    intro nodes hl _ cur ds h
    obtain rfl : nodes = [] := List.length_eq_zero_iff.1 (by omega)
    cases h
    exact .done cur
  | succ len ih =>
    intro nodes hl hc cur ds h
    cases nodes with
    | nil => cases h; exact .done cur
    | cons n rest =>
      simp only [route] at h
      cases hf : fs[select fs cur n.name]? with
      | none => rw [hf] at h; cases h
      | some f =>
        rw [hf] at h
        simp only at h
        by_cases hm : mismatch f n.name = true
        · rw [if_pos hm] at h; cases h
        rw [if_neg hm] at h
        have hfor := select_for hu hf (by simpa using hm)
        by_cases hk : marker f n rest = true
        · rw [if_pos hk] at h
          obtain ⟨⟨f', hf', ha⟩, hkids, he, m, r, hr, hmn⟩ := (marker_iff hf n rest).1 hk
          obtain rfl : f = f' := by rw [hf] at hf'; exact Option.some.inj hf'
          subst hr
          have hb : Braces m := hc ⟨f, List.mem_of_getElem? hf, ha⟩ 0 n m (by simp) (by simp) he hmn
          have hb' : m.emptyText = false := hb
          have h2 : marker f m r = false := by simp [marker, hb']
          have h3 : mismatch f (some f.name) = false := by simp [mismatch]
          simp only [route, select_named hd hf, hf, h2, h3, Bool.false_eq_true, if_false, Option.map_map,
            Option.map_eq_some_iff] at h
          obtain ⟨ds', hds, rfl⟩ := h
          have := ih r (by simp at hl; omega) (clear_tail (clear_tail hc)) _ _ hds
          exact .union cur n m r _ f ds' hfor hf ha hkids he hmn hb this
        · rw [if_neg hk, Option.map_eq_some_iff] at h
          obtain ⟨ds', hds, rfl⟩ := h
          have := ih rest (by simp at hl; omega) (clear_tail hc) _ _ hds
          exact .value cur n rest _ ds' hfor (by rwa [marker_iff hf] at hk) this

/-- **C78**: parts of a document for a structure with distinct names of fields go where the rules of C initializers say, in any order,
with and without names; documents for which these rules say nothing are refused. -/
theorem C78_initializer {fs : List Field} (hd : Distinct fs) (hu : ∀ f ∈ fs, f.unnamed = false) {nodes : List Node}
    (hc : Clear fs nodes) (ds : List Dest) : loadStruct fs nodes = some ds ↔ Init fs none nodes ds :=
  ⟨sound hd hu _ nodes (Nat.le_refl _) hc none ds, complete hd⟩

/-- **C78**: accepting does not depend on fields being named: what the rules say is what happens, for any structure with distinct names -/
theorem C78_accepted {fs : List Field} (hd : Distinct fs) {nodes : List Node} {ds : List Dest} (h : Init fs none nodes ds) :
    loadStruct fs nodes = some ds := complete hd h

theorem written_init {fs : List Field} : ∀ (l : List (Nat × Field × Bool × Bool)), (∀ x ∈ l, fs[x.1]? = some x.2.1) →
    ∀ cur, Init fs cur (l.flatMap fun x => written x.2.1 x.2.2) (l.flatMap fun x => home x.1 x.2.1) := by
  intro l
  induction l with
  | nil => intro _ cur; exact .done cur
  | cons x l ih =>
    intro h cur
    obtain ⟨k, f, v⟩ := x
    have hf : fs[k]? = some f := h (k, f, v) (by simp)
    have hrest := ih (fun y hy => h y (by simp [hy])) (some k)
    have hfor : ∀ n : Node, n.name = some f.name → For fs cur n k := fun n hn => Or.inl ⟨f, hf, hn⟩
    simp only [List.flatMap_cons, written, home]
    by_cases ha : f.anon = true
    · simp only [ha, if_true, List.cons_append, List.nil_append]
      exact .union cur _ _ _ k f _ (hfor _ rfl) hf ha rfl rfl rfl rfl hrest
    · rw [if_neg ha, if_neg ha]
      refine .value cur _ _ k _ (hfor _ rfl) ?_ hrest
      rintro ⟨⟨f', hf', ha'⟩, -⟩
      rw [hf] at hf'
      cases hf'
      exact ha ha'

/-- **C78**: whatever fields of a structure were written to a C initializer, in whatever order and with whatever values, every value is
loaded into the field it was written for, the ones of anonymous unions included. -/
theorem C78_read_back {fs : List Field} (hd : Distinct fs) (l : List (Nat × Field × Bool × Bool))
    (hl : ∀ x ∈ l, fs[x.1]? = some x.2.1) :
    loadStruct fs (l.flatMap fun x => written x.2.1 x.2.2) = some (l.flatMap fun x => home x.1 x.2.1) :=
  complete hd (written_init l hl none)

theorem init_names {fs : List Field} {cur : Option Nat} {nodes : List Node} {ds : List Dest} (h : Init fs cur nodes ds) :
    ∀ n ∈ nodes, ∀ s, n.name = some s → ∃ f ∈ fs, f.name = s := by
  have key : ∀ cur n k, For fs cur n k → ∀ s, n.name = some s → ∃ f ∈ fs, f.name = s := by
    rintro cur n k (⟨f, hf, hn⟩ | ⟨hn, -⟩) s hs
    · rw [hn] at hs
      exact ⟨f, List.mem_of_getElem? hf, Option.some.inj hs⟩
    · rw [hn] at hs; cases hs
  induction h with
  | done cur => simp
  | value cur n rest k ds hfor _ _ ih =>
    intro x hx
    rcases List.mem_cons.1 hx with rfl | hx
    · exact key _ _ _ hfor
    · exact ih x hx
  | union cur n m rest k f ds hfor _ _ _ _ hmn _ _ ih =>
    intro x hx
    rcases List.mem_cons.1 hx with rfl | hx
    · exact key _ _ _ hfor
    · rcases List.mem_cons.1 hx with rfl | hx
      · intro s hs; rw [hmn] at hs; cases hs
      · exact ih x hx

/-- **C78**: a document with a name the structure does not have is refused -/
theorem C78_unknown_name {fs : List Field} (hd : Distinct fs) (hu : ∀ f ∈ fs, f.unnamed = false) {nodes : List Node}
    (hc : Clear fs nodes) {n : Node} (hn : n ∈ nodes) {s : String} (hs : n.name = some s) (hf : ∀ f ∈ fs, f.name ≠ s) :
    loadStruct fs nodes = none := by
  cases h : loadStruct fs nodes with
  | none => rfl
  | some ds =>
    obtain ⟨f, hmem, he⟩ := init_names ((C78_initializer hd hu hc ds).1 h) n hn s hs
    exact absurd he (hf f hmem)

/-- a structure with an anonymous union between two fields -/
def exFields : List Field := [⟨"x", false, false⟩, ⟨"u", false, true⟩, ⟨"y", false, false⟩]

theorem exDistinct : Distinct exFields := by
  intro i j f g hf hg h
  match i, j with
  | 0, 0 | 1, 1 | 2, 2 => rfl
  | 0, 1 | 0, 2 | 1, 0 | 1, 2 | 2, 0 | 2, 1 => simp [exFields] at hf hg; subst hf; subst hg; revert h; decide
  | i + 3, _ => simp [exFields] at hf
  | 0, j + 3 | 1, j + 3 | 2, j + 3 => simp [exFields] at hg

/-- `{ .y = "", .u = "", { … }, 5 }`: the last value is for the field after the union -/
example : loadStruct exFields [⟨some "y", false, true⟩, ⟨some "u", false, true⟩, ⟨none, true, false⟩, ⟨none, false, false⟩] =
    some [.into 2, .announces 1, .into 1, .into 2] := by decide

example : loadStruct exFields (([(0, ⟨"x", false, false⟩, false, true), (1, ⟨"u", false, true⟩, true, false),
    (2, ⟨"y", false, false⟩, false, false)] : List (Nat × Field × Bool × Bool)).flatMap fun x => written x.2.1 x.2.2) =
    some [.into 0, .announces 1, .into 1, .into 2] :=
  C78_read_back exDistinct _ (by decide)

example : loadStruct exFields [⟨some "x", false, false⟩, ⟨some "z", false, false⟩] = none :=
  C78_unknown_name exDistinct (by decide) (n := ⟨some "z", false, false⟩) (s := "z")
    (by
      intro _ i n m hi _ he
      match i with
      | 0 | 1 => simp at hi; subst hi; cases he
      | i + 2 => simp at hi)
    (by decide) rfl (by decide)

/-- a document for another type is taken for a field without a name (`MR_…` with an empty name, or found in DWARF as such): the unknown
name `z` is accepted and the value stored in the field after `x` -/
theorem C78_deviation_unnamed_field :
    loadStruct [⟨"x", false, false⟩, ⟨"", true, false⟩] [⟨some "x", false, false⟩, ⟨some "z", false, false⟩] =
      some [.into 0, .into 1] := by decide

end Verif.Props.AnonLoad
