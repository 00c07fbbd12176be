import Verif.Lemmas.JsonPrint
import Verif.Props.Dfs
/-!
# C43: JSON documents

`jsonSave ra info` is the document written for the nodes `ra` with the values `info`; `Loads known text ptrs data`
says that the reader accepts the text and which nodes it leaves.  Spec/Json.lean says what has to be read back.
-/
namespace Verif.Props.Json
open Verif.Model Verif.Model.Ptrs Verif.Model.Json Verif.Spec Verif.Spec.Ptrs Verif.Spec.Json Verif.Lemmas.JsonLex Verif.Lemmas.JsonLoad

/-! ## a document has one meaning -/

/-- the next token is not a comma -/
def NoComma (r : List Tok) : Prop := ∀ t, r ≠ .comma :: t

theorem element_start {known : List Nat → Bool} {nt : NT} {s s' : St} {inp rest : List Tok} (h : Derives known nt s inp s' rest) :
    (nt = .members ∨ nt = .member → ∀ t, inp ≠ .rbrace :: t) ∧
    (nt = .elements ∨ nt = .element ∨ nt = .value → ∀ t, inp ≠ .rbracket :: t) ∧
    (nt = .object → ∃ t, inp = .lbrace :: t) ∧ (nt = .array → ∃ t, inp = .lbracket :: t) := by
  induction h with
  | element _ _ _ ih => exact ⟨fun h => by simp at h, fun _ => ih.2.1 (by simp), fun h => by simp at h, fun h => by simp at h⟩
  | object _ ih =>
    refine ⟨fun h => by simp at h, fun _ t e => ?_, fun h => by simp at h, fun h => by simp at h⟩
    obtain ⟨u, hu⟩ := ih.2.2.1 rfl
    rw [hu] at e; cases e
  | array _ ih =>
    refine ⟨fun h => by simp at h, fun _ t e => ?_, fun h => by simp at h, fun h => by simp at h⟩
    obtain ⟨u, hu⟩ := ih.2.2.2 rfl
    rw [hu] at e; cases e
  | @scalar s s' t rest h =>
    refine ⟨fun h => by simp at h, fun _ u e => ?_, fun h => by simp at h, fun h => by simp at h⟩
    cases e
    simp [Json.scalar] at h
  | emptyObject => exact ⟨fun h => by simp at h, fun h => by simp at h, fun _ => ⟨_, rfl⟩, fun h => by simp at h⟩
  | fullObject _ _ => exact ⟨fun h => by simp at h, fun h => by simp at h, fun _ => ⟨_, rfl⟩, fun h => by simp at h⟩
  | lastMember _ ih => exact ⟨fun _ => ih.1 (by simp), fun h => by simp at h, fun h => by simp at h, fun h => by simp at h⟩
  | moreMembers _ _ ih _ => exact ⟨fun _ => ih.1 (by simp), fun h => by simp at h, fun h => by simp at h, fun h => by simp at h⟩
  | member _ _ _ => exact ⟨fun _ t e => (nomatch e), fun h => by simp at h, fun h => by simp at h, fun h => by simp at h⟩
  | emptyArray => exact ⟨fun h => by simp at h, fun h => by simp at h, fun h => by simp at h, fun _ => ⟨_, rfl⟩⟩
  | fullArray _ _ => exact ⟨fun h => by simp at h, fun h => by simp at h, fun h => by simp at h, fun _ => ⟨_, rfl⟩⟩
  | lastElement _ ih => exact ⟨fun h => by simp at h, fun _ => ih.2.1 (by simp), fun h => by simp at h, fun h => by simp at h⟩
  | moreElements _ _ ih _ => exact ⟨fun h => by simp at h, fun _ => ih.2.1 (by simp), fun h => by simp at h, fun h => by simp at h⟩

theorem scalar_not_open {s s' : St} {t : Tok} (h : Json.scalar s t = some s') : t ≠ .lbrace ∧ t ≠ .lbracket := by
  constructor <;> (rintro rfl; simp [Json.scalar] at h)

theorem derives_unique {known : List Nat → Bool} {nt : NT} {s s1 : St} {inp r1 : List Tok} (h : Derives known nt s inp s1 r1) :
    ∀ s2 r2, Derives known nt s inp s2 r2 → (nt = .members ∨ nt = .elements → NoComma r1 ∧ NoComma r2) → s1 = s2 ∧ r1 = r2 := by
  induction h with
  | element hp _ hq ih =>
    intro s2 r2 h2 _
    cases h2 with
    | element hp' hv' hq' =>
      rw [hp] at hp'; cases hp'
      obtain ⟨rfl, rfl⟩ := ih _ _ hv' (by simp)
      rw [hq] at hq'; cases hq'
      exact ⟨rfl, rfl⟩
  | object ho ih =>
    intro s2 r2 h2 _
    obtain ⟨t, ht⟩ := (element_start ho).2.2.1 rfl
    subst ht
    cases h2 with
    | object h => exact ih _ _ h (by simp)
    | array h => obtain ⟨u, hu⟩ := (element_start h).2.2.2 rfl; cases hu
    | scalar h => exact absurd rfl (scalar_not_open h).1
  | array ho ih =>
    intro s2 r2 h2 _
    obtain ⟨t, ht⟩ := (element_start ho).2.2.2 rfl
    subst ht
    cases h2 with
    | array h => exact ih _ _ h (by simp)
    | object h => obtain ⟨u, hu⟩ := (element_start h).2.2.1 rfl; cases hu
    | scalar h => exact absurd rfl (scalar_not_open h).2
  | scalar hs =>
    intro s2 r2 h2 _
    cases h2 with
    | array h =>
      obtain ⟨u, hu⟩ := (element_start h).2.2.2 rfl
      cases hu
      exact absurd rfl (scalar_not_open hs).2
    | object h =>
      obtain ⟨u, hu⟩ := (element_start h).2.2.1 rfl
      cases hu
      exact absurd rfl (scalar_not_open hs).1
    | scalar h => rw [hs] at h; cases h; exact ⟨rfl, rfl⟩
  | emptyObject =>
    intro s2 r2 h2 _
    cases h2 with
    | emptyObject => exact ⟨rfl, rfl⟩
    | fullObject h => exact absurd rfl ((element_start h).1 (.inl rfl) _)
  | fullObject hm ih =>
    intro s2 r2 h2 _
    cases h2 with
    | emptyObject => exact absurd rfl ((element_start hm).1 (.inl rfl) _)
    | fullObject h =>
      obtain ⟨rfl, h3⟩ := ih _ _ h (fun _ => ⟨fun t e => (nomatch e), fun t e => (nomatch e)⟩)
      cases h3
      exact ⟨rfl, rfl⟩
  | lastMember hm ih =>
    intro s2 r2 h2 hc
    cases h2 with
    | lastMember h => exact ih _ _ h (by simp)
    | moreMembers h _ =>
      obtain ⟨rfl, h3⟩ := ih _ _ h (by simp)
      exact absurd h3 ((hc (.inl rfl)).1 _)
  | moreMembers hm _ ih1 ih2 =>
    intro s2 r2 h2 hc
    cases h2 with
    | lastMember h =>
      obtain ⟨rfl, h3⟩ := ih1 _ _ h (by simp)
      exact absurd h3.symm ((hc (.inl rfl)).2 _)
    | moreMembers h h' =>
      obtain ⟨rfl, h3⟩ := ih1 _ _ h (by simp)
      cases h3
      exact ih2 _ _ h' hc
  | member _ hm ih =>
    intro s2 r2 h2 _
    cases h2 with
    | member h h' =>
      obtain ⟨rfl, rfl⟩ := ih _ _ h (by simp)
      rw [hm] at h'; cases h'
      exact ⟨rfl, rfl⟩
  | emptyArray =>
    intro s2 r2 h2 _
    cases h2 with
    | emptyArray => exact ⟨rfl, rfl⟩
    | fullArray h => exact absurd rfl ((element_start h).2.1 (.inl rfl) _)
  | fullArray hm ih =>
    intro s2 r2 h2 _
    cases h2 with
    | emptyArray => exact absurd rfl ((element_start hm).2.1 (.inl rfl) _)
    | fullArray h =>
      obtain ⟨rfl, h3⟩ := ih _ _ h (fun _ => ⟨fun t e => (nomatch e), fun t e => (nomatch e)⟩)
      cases h3
      exact ⟨rfl, rfl⟩
  | lastElement hm ih =>
    intro s2 r2 h2 hc
    cases h2 with
    | lastElement h => exact ih _ _ h (by simp)
    | moreElements h _ =>
      obtain ⟨rfl, h3⟩ := ih _ _ h (by simp)
      exact absurd h3 ((hc (.inr rfl)).1 _)
  | moreElements hm _ ih1 ih2 =>
    intro s2 r2 h2 hc
    cases h2 with
    | lastElement h =>
      obtain ⟨rfl, h3⟩ := ih1 _ _ h (by simp)
      exact absurd h3.symm ((hc (.inr rfl)).2 _)
    | moreElements h h' =>
      obtain ⟨rfl, h3⟩ := ih1 _ _ h (by simp)
      cases h3
      exact ih2 _ _ h' hc

/-- **C43.** The grammar is unambiguous: whatever text is loaded, the nodes left by the reader are determined by it. -/
theorem C43_one_meaning (known : List Nat → Bool) (text : List Nat) (p1 p2 : Ptrs) (d1 d2 : List Loaded)
    (h1 : Loads known text p1 d1) (h2 : Loads known text p2 d2) : p1 = p2 ∧ d1 = d2 := by
  obtain ⟨t1, s1, a1, b1, rfl, rfl⟩ := h1
  obtain ⟨t2, s2, a2, b2, rfl, rfl⟩ := h2
  rw [a1] at a2
  cases a2
  obtain ⟨rfl, _⟩ := derives_unique b1 _ _ b2 (by simp)
  exact ⟨rfl, rfl⟩

/-! ## the document is read back -/

theorem printNode_keeps (info : List Info) : KeepsLinks (printNode info) := by
  intro s i l o ok s' h
  unfold printNode at h
  cases o with
  | pre =>
    obtain ⟨a, _, h2⟩ := Option.bind_eq_some_iff.1 h
    cases h2; rfl
  | post =>
    obtain ⟨a, _, h2⟩ := Option.bind_eq_some_iff.1 h
    cases h2; rfl

/-- **C43.** Every tree of nodes that can be written is written without error, and reading the document leaves the
same tree: one node for every node of the document, numbered in document order, below the same parent in the same
order, with the same name, reference, NULL mark or value.  (By `C43_one_meaning` the reader cannot leave anything
else.) -/
theorem C43_read_back (known : List Nat → Bool) (ra : List Pd) (info : List Info) (k : Forest)
    (h : Rep ra 0 1 (.cons 1 k .nil)) (hn : (1 :: k.nodes).Nodup) (hw : Writable known ra info (1 :: k.nodes)) :
    ∃ text ptrs data, jsonSave ra info = some text ∧ Loads known text ptrs data ∧
      ptrs.ra.length = 1 + (1 :: k.nodes).length ∧ data.length = 1 + (1 :: k.nodes).length ∧
      Rep ptrs.ra 0 1 (number 1 (.cons 1 k .nil)) ∧
      ∀ (j i : Nat), (1 :: k.nodes)[j]? = some i → ∃ pd x q y, ra[i]? = some pd ∧ info[i]? = some x ∧
        ptrs.ra[j + 1]? = some q ∧ q.idx = j + 1 ∧ data[j + 1]? = some y ∧ SameNode ra pd x y := by
  have hnodes : (Forest.cons 1 k .nil).nodes = 1 :: k.nodes := by simp [Forest.nodes]
  obtain ⟨D, text, h1, h2, h3, h4, h5, h6, h7⟩ := Lemmas.JsonPrint.print_forest known ra info (.cons 1 k .nil) 0 1 0 false h
    (by rw [hnodes]; exact hn) (by rw [hnodes]; exact hw) (.inl rfl) ⟨fun ⟨h, _⟩ => absurd rfl h, fun h => by cases h⟩
  obtain ⟨r, _, hcall⟩ := h5 ([], fun _ => none) []
  have hsave : jsonSave ra info = some text := by
    unfold jsonSave
    rw [Props.Dfs.C28_from_root _ (printNode_keeps info) _ _ _ _ h hn]
    rw [List.append_nil] at hcall
    rw [hcall]
    simp [callAll]
  cases D with
  | nil => simp [DF.shape] at h3
  | cons name b dk ds =>
    have hds : ds = .nil := by
      have := h2 1
      simp only [DF.shape, number] at this
      injection this with _ _ h'
      exact shape_nil.1 (Lemmas.TopDown.number_nil.1 h')
    subst hds
    have hname : name = none := by simpa [DF.WF] using h1.1
    subst hname
    obtain ⟨lc, hd⟩ := build_root known b dk h1
    have hl : lex text = some (DF.cons none b dk .nil).toks := by
      have := h6 [] [] (by decide +kernel)
      simpa using this
    refine ⟨text, _, _, hsave, ⟨_, _, hl, hd, rfl, rfl⟩, ?_, ?_, ?_, ?_⟩
    · simp only [List.length_cons, Lemmas.TopDown.canon_length, h4, hnodes]; omega
    · simp only [List.length_cons, data_length, h4, hnodes]; omega
    · have := Lemmas.TopDown.canon_rep (DF.cons none b dk .nil).shape [{}] [] 0 (by simp)
      simp only [List.length_cons, List.length_nil, Nat.zero_add, List.append_nil] at this
      rw [h2 1] at this
      rw [if_neg (fun e => by simp [DF.shape] at e)] at this
      exact this
    · intro j i hj
      obtain ⟨pd, x, y, a1, a2, a3, a4⟩ := h7 j i (by rw [hnodes]; exact hj)
      have hlt : j < (Lemmas.TopDown.canon 0 1 (DF.cons none b dk .nil).shape).length := by
        rw [Lemmas.TopDown.canon_length, h4, hnodes]
        exact (List.getElem?_eq_some_iff.1 hj).1
      refine ⟨pd, x, _, y, a1, a2, by rw [List.getElem?_cons_succ]; exact List.getElem?_eq_getElem hlt, ?_, by rw [List.getElem?_cons_succ]; exact a3, a4⟩
      have := (Lemmas.TopDown.canon_idx _ _ _ _ _ (List.getElem?_eq_getElem hlt)).1
      omega

/-- **C43.** If the nodes are numbered in document order (as `mr_save` numbers them), a reference read back is the
index of the node that was read for the target of the reference: sharing and cycles are kept. -/
theorem C43_references (known : List Nat → Bool) (ra : List Pd) (info : List Info) (k : Forest)
    (h : Rep ra 0 1 (.cons 1 k .nil)) (hn : (1 :: k.nodes).Nodup) (hw : Writable known ra info (1 :: k.nodes))
    (hids : ∀ j x : Nat, (1 :: k.nodes)[j]? = some x → (ra[x]?).map Pd.idx = some (j + 1))
    (text : List Nat) (ht : jsonSave ra info = some text) (ptrs : Ptrs) (data : List Loaded) (hl : Loads known text ptrs data)
    (i j t u : Nat) (pd : Pd) (hi : (1 :: k.nodes)[i]? = some j) (hj : ra[j]? = some pd) (hr : (pd.ref || pd.cref) = true)
    (hu : (1 :: k.nodes)[u]? = some t) (htg : pd.firstChild = t) :
    ∃ y : Loaded, data[i + 1]? = some y ∧ y.null = false ∧
      y.value = .int (word (if pd.cref then - ((u + 1 : Nat) : Int) else ((u + 1 : Nat) : Int))) ∧
      ∃ q : Pd, ptrs.ra[u + 1]? = some q ∧ q.idx = u + 1 := by
  obtain ⟨text', ptrs', data', h1, h2, _, _, _, h6⟩ := C43_read_back known ra info k h hn hw
  rw [ht] at h1; cases h1
  obtain ⟨rfl, rfl⟩ := C43_one_meaning _ _ _ _ _ _ hl h2
  obtain ⟨pd', x, q, y, a1, a2, a3, a4, a5, a6⟩ := h6 i j hi
  rw [hj] at a1; cases a1
  obtain ⟨_, _, q', _, _, _, b3, b4, _, _⟩ := h6 u t hu
  obtain ⟨tp, c1, c2, c3⟩ := a6.ref hr
  have := hids u t hu
  rw [← htg, c1] at this
  have hidx : tp.idx = u + 1 := by simpa using this
  rw [hidx] at c3
  exact ⟨y, a5, c2, c3, q', b3, b4⟩

/-! ## non-vacuity -/

namespace Example

/-- `struct { int n; char * s; list * next; int a[2]; }` where `next` refers to the structure -/
def ra : List Pd :=
  [ {},
    { ty := .struct, parent := 0, firstChild := 2, idx := 1, refd := true },
    { ty := .int32, parent := 1, next := 3, idx := 2 },
    { ty := .string, parent := 1, next := 4, idx := 3 },
    { ty := .pointer, parent := 1, next := 5, idx := 4, ref := true, firstChild := 1 },
    { ty := .array, parent := 1, firstChild := 6, idx := 5 },
    { ty := .int32, parent := 5, next := 7, idx := 6 },
    { ty := .bool, parent := 5, idx := 7 } ]

def info : List Info :=
  [ {},
    {},
    { name := ascii "n", unnamed := false, leaf := .int (-5) },
    { name := ascii "s", unnamed := false, leaf := .text (ascii "a\"b") },
    { name := ascii "next", unnamed := false },
    { name := ascii "a", unnamed := false },
    { leaf := .int 7 },
    { leaf := .bool true } ]

def kids : Forest := .cons 2 .nil (.cons 3 .nil (.cons 4 .nil (.cons 5 (.cons 6 .nil (.cons 7 .nil .nil)) .nil)))

example : Rep ra 0 1 (.cons 1 kids .nil) := by simp [Rep, ra, kids, kidsHead]
example : (1 :: kids.nodes).Nodup := by decide
example : ∀ j x : Nat, (1 :: kids.nodes)[j]? = some x → (ra[x]?).map Pd.idx = some (j + 1) := by
  intro j x h
  match j with
  | 0 | 1 | 2 | 3 | 4 | 5 | 6 => cases h; rfl
  | n + 7 => simp [kids, Forest.nodes] at h

example : Writable (fun _ => true) ra info (1 :: kids.nodes) := by
  have hm : ∀ pd : Pd, pd.parent = 1 → isMember ra pd := fun pd h => ⟨by omega, by rw [h]; exact ⟨_, rfl, rfl⟩⟩
  have hnm : ∀ pd : Pd, pd.parent ≠ 1 → pd.parent = 0 ∨ pd.parent = 5 → ¬ isMember ra pd := by
    rintro pd _ (h0 | h5) ⟨a, b, c, d⟩
    · exact a h0
    · rw [h5] at c; cases c; simp [structLike] at d
  intro i hi pd hpd
  simp only [kids, Forest.nodes, List.cons_append, List.nil_append, List.mem_cons, List.not_mem_nil, or_false] at hi
  rcases hi with rfl | rfl | rfl | rfl | rfl | rfl | rfl <;> cases hpd <;> refine ⟨_, rfl, ?_, fun _ => rfl⟩
  · exact ⟨by simp, fun h => absurd h (hnm _ (by simp) (by simp)), by simp, by simp [compound, structLike], by simp, by simp [compound, structLike]⟩
  · exact ⟨fun _ => hm _ rfl, fun _ => by decide, by simp, by simp, by simp, fun _ _ _ => by simp [LeafOK]⟩
  · exact ⟨fun _ => hm _ rfl, fun _ => by decide, by simp, by simp, by simp, fun _ _ _ => by unfold LeafOK; decide⟩
  · exact ⟨fun _ => hm _ rfl, fun _ => by decide, fun _ => ⟨_, rfl, by decide⟩, by simp, by simp, by simp⟩
  · exact ⟨fun _ => hm _ rfl, fun _ => by decide, by simp, by simp [compound], by simp, by simp [compound]⟩
  · exact ⟨by simp, fun h => absurd h (hnm _ (by simp) (by simp)), by simp, by simp, by simp, fun _ _ _ => by simp [LeafOK]⟩
  · exact ⟨by simp, fun h => absurd h (hnm _ (by simp) (by simp)), by simp, by simp, by simp, fun _ _ _ => by simp [LeafOK]⟩

/-- the document of the example -/
def doc : List Nat := ascii "{\n  \"n\": -5,\n  \"s\": \"a\\\"b\",\n  \"next\": 1,\n  \"a\": [\n    7,\n    true\n  ]\n}\n"

example : jsonSave ra info = some doc := by decide +kernel

end Example

/-! ## where values are lost -/

/-- A floating point number that `printf` writes as `-0` (minus zero; it is not among the values of `LeafOK`) is
written and then read as the integer 0: its sign is lost. -/
theorem C43_deviation_negative_zero :
    jsonSave [{}, { ty := .double }] [{}, { leaf := .real (ascii "-0") }] = some (ascii "-0\n") ∧
    ∃ ptrs, Loads (fun _ => true) (ascii "-0\n") ptrs [{}, { value := .int 0 }] ∧ Loads (fun _ => true) (ascii "0\n") ptrs [{}, { value := .int 0 }] := by
  have h : ∃ s1 s2 s3, push start = some s1 ∧ Json.scalar s1 (.int 0) = some s2 ∧ pop s2 = some s3 ∧ s3.data = [{}, { value := .int 0 }] :=
    ⟨_, _, _, rfl, rfl, rfl, rfl⟩
  obtain ⟨s1, s2, s3, a, b, c, d⟩ := h
  refine ⟨by decide +kernel, s3.ptrs, ⟨[.int 0], s3, by decide +kernel, .element a (.scalar b) c, rfl, d⟩,
    ⟨[.int 0], s3, by decide +kernel, .element a (.scalar b) c, rfl, d⟩⟩

end Verif.Props.Json
