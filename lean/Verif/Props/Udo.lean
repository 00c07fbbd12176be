import Verif.Lemmas.UdoGraph
/-!
# C62: overrides of unions get the type of the discriminator
-/
namespace Verif.Props.Udo
open Verif.Model.Udo Verif.Spec.Udo Verif.Lemmas.Udo

/-- C62.  Whatever types there are, also those that contain pointers to each other, `mr_udo_init` comes to an end without
undefined behaviour.  For every field of every structure and union: if all discriminators that can be meant have the same
type, overrides without a type get this type; in all other cases nothing changes.  Nothing but overrides changes at all. -/
theorem C62_types_of_overrides {tds : List Td} (hD : Described tds) : ∃ tds', udoInit true tds = some tds' ∧ tds'.length = tds.length ∧
    ∀ (t : Nat) (d : Td), tds[t]? = some d → ∃ d', tds'[t]? = some d' ∧ d'.str = d.str ∧ d'.struct = d.struct ∧ d'.fields.length = d.fields.length ∧ (d.struct = false → d' = d) ∧
      (d.struct = true → ∀ (k : Nat) (f f' : Fd), d.fields[k]? = some f → d'.fields[k]? = some f' → Decided tds t f f') := by
  obtain ⟨refs, e1, hl, hR⟩ := buildRefs_ok tds
  obtain ⟨res, e2, hlr, h1, h2⟩ := foreachLoop_ok hD hl hR (List.range (structs tds).length) tds List.nodup_range (fun i hi => List.mem_range.1 hi) rfl (fun _ _ _ _ => rfl)
  refine ⟨res, by simp [udoInit, e1, e2], hlr, fun t d hd => ?_⟩
  cases hs : d.struct with
  | true =>
    obtain ⟨i, hi⟩ := List.mem_iff_getElem?.1 (mem_structs.2 ⟨d, hd, hs⟩)
    obtain ⟨d', hd', h3, h4, h5, h6⟩ := h1 i (List.mem_range.2 (List.getElem?_eq_some_iff.1 hi).1) t d hi hd
    exact ⟨d', hd', h3, h4.trans hs, h5, (fun h => by cases h), fun _ => h6⟩
  | false =>
    refine ⟨d, ?_, rfl, hs, rfl, fun _ => rfl, fun h => by cases h⟩
    rw [h2 t, hd]
    intro i _ hi
    obtain ⟨d', hd', hs'⟩ := mem_structs.1 (List.mem_of_getElem? hi)
    rw [hd] at hd'; cases hd'
    rw [hs] at hs'; cases hs'

/-- without memory for the graph nothing changes -/
theorem C62_no_memory (tds : List Td) : udoInit false tds = some tds := rfl

/-! ## examples -/

namespace Example

def ascii (s : String) : List Nat := s.toList.map Char.toNat

/-- `int`, an enumeration, a union; the names are at 100, 101, 102 -/
def tInt : Td := { str := 100, struct := false }
def tKind : Td := { str := 101, struct := false }
def tUnion : Td := { str := 102, fields := [{ name := ascii "x", td := some 0 }, { name := ascii "y", td := some 0 }] }

/-- `struct node { struct node * next; union u value; }`: `kind` is the discriminator of `value`; the second override has a
type -/
def tNode : Td := { str := 103, fields := [{ name := ascii "next", td := some 3 },
  { name := ascii "value", td := some 2, note := some (ascii "kind"), over := some [{ value := 5 }, { value := 6, type := some 100, typed := true }] }] }

/-- `struct list { enum kind kind; struct node * head; }` -/
def tList : Td := { str := 104, fields := [{ name := ascii "kind", td := some 1 }, { name := ascii "head", td := some 3 }] }

/-- `struct ring { enum kind kind; struct node first; struct list * list; }` -/
def tRing : Td := { str := 105, fields := [{ name := ascii "kind", td := some 1 }, { name := ascii "first", td := some 3 }, { name := ascii "list", td := some 4 }] }

/-- `struct odd { int kind; struct node node; }` -/
def tOdd : Td := { str := 106, fields := [{ name := ascii "kind", td := some 0 }, { name := ascii "node", td := some 3 }] }

def good : List Td := [tInt, tKind, tUnion, tNode, tList, tRing]

/-- the overrides of `value` afterwards -/
def run (tds : List Td) : Option (List Over) := do (← (← (← udoInit true tds)[3]?).fields[1]?).over

/-- both structures around the node have the enumeration as `kind` -/
example : run good = some [{ value := 5, type := some 101, typed := true }, { value := 6, type := some 100, typed := true }] := by decide +kernel

/-- with the third one the type is not known -/
example : run (good ++ [tOdd]) = some [{ value := 5 }, { value := 6, type := some 100, typed := true }] := by decide +kernel

/-- there is no `kind` -/
example : run [tInt, tKind, tUnion, tNode] = some [{ value := 5 }, { value := 6, type := some 100, typed := true }] := by decide +kernel

theorem described_of {tds : List Td} (h1 : ∀ d ∈ tds, d.struct = true → ∀ f ∈ d.fields, f.td.all (fun u => decide (u < tds.length)) = true)
    (h2 : ∀ d ∈ tds, d.struct = true → (d.fields.map Fd.name).Nodup) : Described tds := by
  refine ⟨fun t d f u hd hs hf hu => ?_, fun t d hd hs => h2 d (List.mem_of_getElem? hd) hs⟩
  have := h1 d (List.mem_of_getElem? hd) hs f hf
  rw [hu] at this
  simpa using this

theorem good_ok : Described good := described_of (by decide +kernel) (by decide +kernel)
theorem odd_ok : Described (good ++ [tOdd]) := described_of (by decide +kernel) (by decide +kernel)

/-- the hypotheses of the theorem hold, and the enumeration is the type all discriminators of the node have -/
example : ∃ tds', udoInit true good = some tds' ∧ tds'.length = 6 := by
  obtain ⟨tds', h1, h2, _⟩ := C62_types_of_overrides good_ok
  exact ⟨tds', h1, h2⟩

theorem node_no_kind (tds : List Td) (h : tds[3]? = some tNode) (s : Nat) : ¬ Member tds (ascii "kind") 3 s := by
  rintro ⟨d, f, u, e, hd, _, hf, hn, _⟩
  rw [h] at hd; cases hd
  have : ∀ f ∈ tNode.fields, f.name ≠ ascii "kind" := by decide +kernel
  exact this f hf hn

/-- the first structure around the node -/
theorem list_scope : Scope good (ascii "kind") 3 4 :=
  .around .here (node_no_kind good rfl) ⟨tList, _, rfl, rfl, by show _ ∈ [_, _]; exact List.mem_cons_of_mem _ (List.mem_singleton.2 rfl), rfl⟩

example : Unique good (ascii "kind") 3 101 := by
  refine ⟨⟨4, list_scope, tList, _, 1, tKind, rfl, rfl, List.mem_cons_self, rfl, rfl, rfl, rfl⟩, ?_⟩
  rintro r ⟨u, _, d, f, v, e, hd, hs, hf, hn, hv, he, rfl⟩
  have : ∀ d ∈ good, d.struct = true → ∀ f ∈ d.fields, f.name = ascii "kind" → f.td = some 1 := by decide +kernel
  have := this d (List.mem_of_getElem? hd) hs f hf hn
  rw [this] at hv; cases hv
  cases he
  rfl

/-- two discriminators with different types -/
example : ∀ s, ¬ Unique (good ++ [tOdd]) (ascii "kind") 3 s := by
  intro s h
  have h1 : Discriminator (good ++ [tOdd]) (ascii "kind") 3 101 :=
    ⟨4, .around .here (node_no_kind _ rfl) ⟨tList, _, rfl, rfl, List.mem_cons_of_mem _ (List.mem_singleton.2 rfl), rfl⟩, tList, _, 1, tKind, rfl, rfl, List.mem_cons_self, rfl, rfl, rfl, rfl⟩
  have h2 : Discriminator (good ++ [tOdd]) (ascii "kind") 3 100 :=
    ⟨6, .around .here (node_no_kind _ rfl) ⟨tOdd, _, rfl, rfl, List.mem_cons_of_mem _ (List.mem_singleton.2 rfl), rfl⟩, tOdd, _, 0, tInt, rfl, rfl, List.mem_cons_self, rfl, rfl, rfl, rfl⟩
  have := (h.2 _ h1).trans (h.2 _ h2).symm
  cases this

end Example

end Verif.Props.Udo
