import Verif.Lemmas.Print
import Verif.Props.Json
import Verif.Props.Cinit
import Verif.Props.Scm
import Verif.Props.Xml1
import Verif.Lemmas.YamlPrint
/-!
# C66: a printed value is the whole document

`MR_PRINT` prints structures, arrays and what pointers lead to as documents.  It removes the last character of
the document, which should be the final line feed.
* `C66_whole_document`: a document that ends with a line feed is printed completely, without the line feed.
* `C66_address`: the address is the one of the value.
* `C66_json`, `C66_cinit`, `C66_xml1`: JSON documents, C initializers and XML documents always end with one.
* `C66_scm_partial`: Scheme documents do if the value has parts.
* `C66_deviation_scm_number`, `C66_deviation_empty`: for other values the last character of the value is lost.
-/
namespace Verif.Props.Print
open Verif.Model Verif.Model.Ptrs Verif.Model.Print Verif.Spec.Ptrs Verif.Spec.Print Verif.Lemmas.Print

/-- Printing a value prints the address and the type in full, whatever the address and however long the name of
the type, followed by the document without its final line feed. -/
theorem C66_whole_document (value : Nat) (h0 : value ≠ 0) (hv : value < 2 ^ 64) (type : List Nat) (pointer array cinit : Bool) (body : List Nat) :
    printPointer value (some type) pointer array cinit (some (body ++ [10])) = some (before value type pointer array cinit ++ body) := by
  have hl := address_length hv
  have h1 : snprintf (bufSize type) (address value ++ [32]) = address value ++ [32] :=
    snprintf_all (by simp [bufSize]; omega)
  have h2 : snprintf (bufSize type) (address value ++ [32, 40] ++ type ++ (if array then [91, 93] else []) ++ [41]) =
      address value ++ [32, 40] ++ type ++ (if array then [91, 93] else []) ++ [41] :=
    snprintf_all (by cases array <;> simp [bufSize] <;> omega)
  unfold printPointer before
  rw [if_neg h0]
  dsimp only
  rw [h1, h2]
  cases pointer <;> cases cinit <;> simp

/-- The address that is printed is the address of the value. -/
theorem C66_address (value : Nat) (h0 : value ≠ 0) (hv : value < 2 ^ 64) : IsAddress value (address value) := by
  have hlt : value < 16 ^ 33 := Nat.lt_trans hv (by decide)
  obtain ⟨h1, h2, h3⟩ := Lemmas.ScmTok.radix_spec 32 value hlt
  refine ⟨Scanf.radix 16 33 value, h1, h2, fun h => ?_, ?_⟩
  · have := Lemmas.YamlPrint.radix_head 32 value hlt h
    rw [this] at h2
    exact h0 (by simpa [Spec.positional] using h2.symm)
  · have hmap : (Scanf.radix 16 33 value).map (Scanf.digitChar false) =
        (Scanf.radix 16 33 value).map (fun d => (Spec.ascii "0123456789abcdef").getD d 0) :=
      List.map_congr_left fun d hd => Lemmas.YamlPrint.digit_table d (h1 d hd)
    simp only [address, Scanf.printRadix, Nat.zero_sub, List.replicate_zero, List.nil_append, hmap]
    rfl

/-- NULL, and values that cannot be written or have an unknown type, are printed as what they are. -/
theorem C66_null_and_unknown (value : Nat) (type : Option (List Nat)) (pointer array cinit : Bool) (doc : Option (List Nat)) :
    printPointer 0 type pointer array cinit doc = some ("(null)".toList.map Char.toNat) ∧
    (value ≠ 0 → type = none ∨ doc = none → printPointer value type pointer array cinit doc = some (address value)) := by
  refine ⟨by simp [printPointer], fun h0 h => ?_⟩
  unfold printPointer
  rw [if_neg h0]
  rcases h with rfl | rfl
  · rfl
  · cases type <;> rfl

/-- Every JSON document ends with a line feed. -/
theorem C66_json (ra : List Pd) (info : List Json.Info) (k : Forest)
    (h : Rep ra 0 1 (.cons 1 k .nil)) (hn : (1 :: k.nodes).Nodup) (text : List Nat) (ht : Json.jsonSave ra info = some text) :
    ∃ body, text = body ++ [10] := by
  unfold Json.jsonSave at ht
  simp only [Option.bind_eq_bind, Option.bind_eq_some_iff, Option.some.injEq] at ht
  obtain ⟨⟨ok, s⟩, h1, h2⟩ := ht
  obtain ⟨t, b, _, h4⟩ := dfs_last _ (Props.Json.printNode_keeps info) ra _ k h hn (by
    intro t x b t' _ _ hx
    unfold Json.printNode at hx
    cases hx2 : x.2.2 <;> rw [hx2] at hx <;> obtain ⟨a, _, h2⟩ := Option.bind_eq_some_iff.1 hx <;> cases h2 <;> exact ⟨rfl, rfl⟩) h1
  simp only [Json.printNode, Json.postPrint, Option.bind_eq_bind, Option.bind_eq_some_iff, Option.some.injEq, Prod.mk.injEq] at h4
  obtain ⟨o, ⟨pd, _, h5⟩, _, h6⟩ := h4
  exact ⟨_, by rw [← h2, ← h6, ← h5]⟩

/-- Every C initializer ends with a line feed. -/
theorem C66_cinit (ra : List Pd) (info : List Cinit.Info) (k : Forest)
    (h : Rep ra 0 1 (.cons 1 k .nil)) (hn : (1 :: k.nodes).Nodup) (text : List Nat) (ht : Cinit.cinitSave ra info = some text) :
    ∃ body, text = body ++ [10] := by
  unfold Cinit.cinitSave at ht
  simp only [Option.bind_eq_bind, Option.bind_eq_some_iff, Option.some.injEq] at ht
  obtain ⟨⟨ok, s⟩, h1, h2⟩ := ht
  obtain ⟨t, b, _, h4⟩ := dfs_last _ (Props.Cinit.printNode_keeps info) ra _ k h hn (by
    intro t x b t' _ _ hx
    unfold Cinit.printNode at hx
    cases hx2 : x.2.2 <;> rw [hx2] at hx <;> obtain ⟨a, _, h2⟩ := Option.bind_eq_some_iff.1 hx <;> cases h2 <;> exact ⟨rfl, rfl⟩) h1
  simp only [Cinit.printNode, Cinit.postPrint, Option.bind_eq_bind, Option.bind_eq_some_iff, Option.some.injEq, Prod.mk.injEq] at h4
  obtain ⟨o, ⟨pd, _, h5⟩, _, h6⟩ := h4
  exact ⟨_, by rw [← h2, ← h6, ← h5]⟩

/-- Every XML document ends with a line feed. -/
theorem C66_xml1 (ra : List Pd) (info : List Json.Info) (text : List Nat) (ht : Xml1.xmlSave ra info = some text) :
    ∃ body, text = body ++ [10] := by
  unfold Xml1.xmlSave at ht
  simp only [Option.bind_eq_bind, Option.bind_eq_some_iff, Option.some.injEq] at ht
  obtain ⟨s, _, h⟩ := ht
  exact ⟨_, h.symm⟩

/-- A Scheme document ends with a line feed if the value has parts (or its name is written).  Missing: values
without parts, see the deviations.  (The two types that are excluded have no writer and are never saved.) -/
theorem C66_scm_partial (ra : List Pd) (info : List Scm.Info) (k : Forest)
    (h : Rep ra 0 1 (.cons 1 k .nil)) (hn : (1 :: k.nodes).Nodup)
    (hty : ∀ (i : Nat) (pd : Pd), i ∈ 1 :: k.nodes → ra[i]? = some pd → pd.ty ≠ .endAnonUnion ∧ pd.ty ≠ .last)
    (hroot : k ≠ .nil ∨ ∃ x, info[1]? = some x ∧ x.unnamed = false)
    (text : List Nat) (ht : Scm.scmSave ra info = some text) :
    ∃ body, text = body ++ [10] := by
  unfold Scm.scmSave at ht
  simp only [Option.bind_eq_bind, Option.bind_eq_some_iff, Option.some.injEq] at ht
  obtain ⟨⟨ok, s⟩, h1, h2⟩ := ht
  obtain ⟨t, b, h3, h4⟩ := dfs_last _ (Props.Scm.printNode_keeps info) ra _ k h hn (by
    intro t x b t' hmem hra hx
    unfold Scm.printNode at hx
    cases hx2 : x.2.2 with
    | post =>
      rw [hx2] at hx
      obtain ⟨a, _, h2⟩ := Option.bind_eq_some_iff.1 hx
      cases h2; exact ⟨rfl, rfl⟩
    | pre =>
      rw [hx2] at hx
      simp only [Option.bind_eq_bind, Option.bind_eq_some_iff, Option.some.injEq, Prod.mk.injEq] at hx
      obtain ⟨⟨ok, out⟩, hp, hb, ht'⟩ := hx
      refine ⟨?_, by rw [← ht']⟩
      rw [← hb]
      simp only [Scm.prePrint, Option.bind_eq_bind, Option.bind_eq_some_iff] at hp
      obtain ⟨pd, hpd, _, _, _, _, _, _, o, ho, hr⟩ := hp
      rw [hra] at hpd
      obtain ⟨g1, g2⟩ := hty _ _ hmem hpd
      cases o with
      | some t => simp only [Option.some.injEq, Prod.mk.injEq] at hr; exact hr.1.symm
      | none =>
        exfalso
        unfold Scm.handler at ho
        split at ho <;> first | contradiction | (simp at ho; done) | (split at ho <;> simp at ho; done) | skip) h1
  simp only [Scm.printNode, Scm.postPrint, Option.bind_eq_bind, Option.bind_eq_some_iff, Option.some.injEq, Prod.mk.injEq] at h4
  obtain ⟨o, ⟨pd, hpd, x, hx, h5⟩, _, h6⟩ := h4
  have hcond : x.unnamed = false ∨ (pd.firstChild ≠ 0 ∧ Scm.isRef pd = false) := by
    rcases hroot with hk | ⟨y, hy, hu⟩
    · right
      obtain ⟨_, _, pd', hpd', _, hr, _⟩ := h
      rw [h3, hpd'] at hpd
      cases hpd
      have hne : kidsHead pd ≠ 0 := by
        cases k with
        | nil => exact absurd rfl hk
        | cons i k s => obtain ⟨e, h0, _⟩ := hr; rw [e]; exact h0
      unfold kidsHead at hne
      by_cases hr : (pd.ref || pd.cref) = true
      · rw [if_pos hr] at hne; exact absurd rfl hne
      · rw [if_neg hr] at hne
        exact ⟨hne, by unfold Scm.isRef; simpa using hr⟩
    · left; rw [hx] at hy; cases hy; exact hu
  rw [if_pos hcond, Option.some.injEq] at h5
  rw [← h2, ← h6, ← h5]
  -- the line feed at the beginning is removed
  cases hf : Scm.fresh? t.2 0 with
  | nil => exact ⟨if x.unnamed = false ∧ Scm.isRef pd = false ∧ pd.firstChild ≠ 0 then [41] else [], by simp⟩
  | cons a l => exact ⟨l ++ 41 :: (if x.unnamed = false ∧ Scm.isRef pd = false ∧ pd.firstChild ≠ 0 then [41] else []), by simp⟩

/-! ## deviations -/

/-- In the Scheme notation a number loses its last digit when it is printed through a pointer, whatever the
number: the document is the number without a line feed. -/
theorem C66_deviation_scm_number (value : Nat) (h0 : value ≠ 0) (hv : value < 2 ^ 64) (type : List Nat) (v : Int) :
    Scm.scmSave [{}, { ty := .int32, idx := 1 }] [{}, { leaf := .int v }] = some (Enum.fmtInt v) ∧
    printPointer value (some type) true false false (some (Enum.fmtInt v)) =
      some (address value ++ [32] ++ (Enum.fmtInt v).dropLast) ∧
    (Enum.fmtInt v).dropLast ≠ Enum.fmtInt v := by
  have hne : Enum.fmtInt v ≠ [] := by
    unfold Enum.fmtInt Scanf.printRadix
    rw [Scanf.radix]
    split <;> split <;> simp
  refine ⟨rfl, ?_, fun he => ?_⟩
  rotate_left
  · have := congrArg List.length he
    rw [List.length_dropLast] at this
    have := List.length_pos_iff.2 hne
    omega
  have hl := address_length hv
  have h1 : snprintf (bufSize type) (address value ++ [32]) = address value ++ [32] :=
    snprintf_all (by simp [bufSize]; omega)
  unfold printPointer
  rw [if_neg h0]
  dsimp only
  rw [h1]
  simp [hne]

/-- the number 42 at 0x1000 is printed as `0x1000 4` -/
theorem C66_deviation_scm_42 :
    (Scm.scmSave [{}, { ty := .int32, idx := 1 }] [{}, { leaf := .int 42 }]).bind
      (fun doc => printPointer 4096 (some ("int32_t".toList.map Char.toNat)) true false false (some doc)) =
      some ("0x1000 4".toList.map Char.toNat) := by decide +kernel

/-- A value of a type without a writer gives an empty Scheme document, and a zero is written in front of it, out
of its bounds. -/
theorem C66_deviation_empty :
    Scm.scmSave [{}, { ty := .none, idx := 1 }] [{}, {}] = some [] ∧
    ∀ value type pointer array cinit, value ≠ 0 → printPointer value (some type) pointer array cinit (some []) = none := by
  refine ⟨by decide +kernel, fun value type pointer array cinit h => ?_⟩
  unfold printPointer
  rw [if_neg h]
  cases pointer <;> cases cinit <;> rfl

/-! ## the hypotheses can be met -/

/-- a structure of two numbers -/
def ra : List Pd :=
  [{}, { ty := .struct, firstChild := 2, idx := 1 }, { ty := .int32, parent := 1, next := 3, idx := 2 }, { ty := .int32, parent := 1, idx := 3 }]

theorem ra_tree : Rep ra 0 1 (.cons 1 (.cons 2 .nil (.cons 3 .nil .nil)) .nil) :=
  ⟨rfl, by decide, _, rfl, rfl, ⟨rfl, by decide, _, rfl, rfl, rfl, ⟨rfl, by decide, _, rfl, rfl, rfl, rfl⟩⟩, rfl⟩

example : ∃ body, "{\n  \"x\": 5,\n  \"y\": 7\n}\n".toList.map Char.toNat = body ++ [10] :=
  C66_json ra [{}, {}, { name := [120], unnamed := false, leaf := .int 5 }, { name := [121], unnamed := false, leaf := .int 7 }] _ ra_tree
    (by decide) _ (by decide +kernel)

example : ∃ body, "{\n  .x = 5,\n  .y = 7\n}\n".toList.map Char.toNat = body ++ [10] :=
  C66_cinit ra [{}, {}, { name := [120], unnamed := false, leaf := .int 5 }, { name := [121], unnamed := false, leaf := .int 7 }] _ ra_tree
    (by decide) _ (by decide +kernel)

example : ∃ body, "(\n  (x . 5)\n  (y . 7)\n)\n".toList.map Char.toNat = body ++ [10] :=
  C66_scm_partial ra [{}, {}, { name := [120], unnamed := false, leaf := .int 5 }, { name := [121], unnamed := false, leaf := .int 7 }] _ ra_tree
    (by decide) (by
      intro i pd hi hpd
      simp only [Forest.nodes, List.mem_cons, List.not_mem_nil, or_false, List.append_nil, List.nil_append, List.mem_append] at hi
      rcases hi with rfl | rfl | rfl <;> cases hpd <;> decide) (.inl (fun h => by cases h)) _ (by decide +kernel)

example : ∃ text, Xml1.xmlSave ra [{}, { name := [112] }, { name := [120], leaf := .int 5 }, { name := [121], leaf := .int 7 }] = some text := by
  exact ⟨_, rfl⟩

/-- `0x1000 (point_t){...}` -/
example : printPointer 4096 (some ("point_t".toList.map Char.toNat)) true false true (some ("{\n  .x = 5,\n  .y = 7\n}\n".toList.map Char.toNat)) =
    some ("0x1000 (point_t){\n  .x = 5,\n  .y = 7\n}".toList.map Char.toNat) :=
  (C66_whole_document 4096 (by decide) (by decide) _ true false true ("{\n  .x = 5,\n  .y = 7\n}".toList.map Char.toNat)).trans (by decide +kernel)

end Verif.Props.Print
