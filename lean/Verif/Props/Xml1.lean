import Verif.Lemmas.Xml1Print
import Verif.Props.Dfs
/-!
# C56: XML documents

`xmlSave ra info` is the document written for the nodes `ra` with the values `info`; `Loads known text ptrs data`
says that the reader accepts the text and which nodes it leaves.  Spec/Xml1.lean says what has to be read back.
-/
namespace Verif.Props.Xml1
open Verif.Model Verif.Model.Ptrs Verif.Model.Xml1 Verif.Spec Verif.Spec.Ptrs Verif.Spec.Xml1 Verif.Lemmas.Xml1Load
open Verif.Model.Json (Leaf Info)

/-! ## a document has one meaning -/

theorem tag_start {known : List Nat → Bool} {s s' : St} {inp rest : List Tok} (h : Derives known .tag s inp s' rest) : ∃ n t, inp = .openTag n :: t := by
  cases h <;> exact ⟨_, _, rfl⟩

theorem derives_unique {known : List Nat → Bool} {nt : NT} {s s1 : St} {inp r1 : List Tok} (h : Derives known nt s inp s1 r1) :
    ∀ s2 r2, Derives known nt s inp s2 r2 → (nt = .properties → ∀ t, r1 ≠ .ws :: t ∧ r2 ≠ .ws :: t) →
      (nt = .nested → ∀ n t, r1 ≠ .openTag n :: t ∧ r2 ≠ .openTag n :: t) → s1 = s2 ∧ r1 = r2 := by
  induction h with
  | empty hp hq _ hf ih =>
    intro s2 r2 h2 _ _
    cases h2 with
    | empty hp' hq' _ hf' =>
      rw [hp] at hp'; cases hp'
      obtain ⟨rfl, h3⟩ := ih _ _ hq' (fun _ t => ⟨(fun e => nomatch e), (fun e => nomatch e)⟩) (by simp)
      cases h3
      rw [hf] at hf'; cases hf'
      exact ⟨rfl, rfl⟩
    | full hp' hq' _ _ _ =>
      rw [hp] at hp'; cases hp'
      obtain ⟨_, h3⟩ := ih _ _ hq' (fun _ t => ⟨(fun e => nomatch e), (fun e => nomatch e)⟩) (by simp)
      cases h3
  | full hp hq hn _ hf ih1 ih2 =>
    intro s2 r2 h2 _ _
    cases h2 with
    | empty hp' hq' _ hf' =>
      rw [hp] at hp'; cases hp'
      obtain ⟨_, h3⟩ := ih1 _ _ hq' (fun _ t => ⟨(fun e => nomatch e), (fun e => nomatch e)⟩) (by simp)
      cases h3
    | full hp' hq' hn' _ hf' =>
      rw [hp] at hp'; cases hp'
      obtain ⟨rfl, h3⟩ := ih1 _ _ hq' (fun _ t => ⟨(fun e => nomatch e), (fun e => nomatch e)⟩) (by simp)
      cases h3
      obtain ⟨rfl, h4⟩ := ih2 _ _ hn' (by simp) (fun _ n t => ⟨(fun e => nomatch e), (fun e => nomatch e)⟩)
      cases h4
      rw [hf] at hf'; cases hf'
      exact ⟨rfl, rfl⟩
  | noProperty =>
    intro s2 r2 h2 hc _
    cases h2 with
    | noProperty => exact ⟨rfl, rfl⟩
    | property _ _ => exact absurd rfl (hc rfl _).1
  | property hp _ ih =>
    intro s2 r2 h2 hc hd
    cases h2 with
    | noProperty => exact absurd rfl (hc rfl _).2
    | property hp' h' =>
      rw [hp] at hp'; cases hp'
      exact ih _ _ h' hc hd
  | noTag =>
    intro s2 r2 h2 _ hd
    cases h2 with
    | noTag => exact ⟨rfl, rfl⟩
    | tags h _ =>
      obtain ⟨n, t, rfl⟩ := tag_start h
      exact absurd rfl (hd rfl _ _).1
  | tags ht _ ih1 ih2 =>
    intro s2 r2 h2 hc hd
    cases h2 with
    | noTag =>
      obtain ⟨n, t, rfl⟩ := tag_start ht
      exact absurd rfl (hd rfl _ _).2
    | tags h h' =>
      obtain ⟨rfl, rfl⟩ := ih1 _ _ h (by simp) (by simp)
      exact ih2 _ _ h' hc hd

/-- **C56.** The grammar is unambiguous: whatever text is loaded, the nodes left by the reader are determined by it. -/
theorem C56_one_meaning (known : List Nat → Bool) (text : List Nat) (p1 p2 : Ptrs) (d1 d2 : List Loaded)
    (h1 : Loads known text p1 d1) (h2 : Loads known text p2 d2) : p1 = p2 ∧ d1 = d2 := by
  obtain ⟨t1, i1, s1, a1, b1, c1, rfl, rfl⟩ := h1
  obtain ⟨t2, i2, s2, a2, b2, c2, rfl, rfl⟩ := h2
  rw [a1] at a2
  cases a2
  rw [b1] at b2
  cases b2
  obtain ⟨rfl, _⟩ := derives_unique c1 _ _ c2 (by simp) (by simp)
  exact ⟨rfl, rfl⟩

/-! ## the document is read back -/

theorem printNode_keeps (info : List Info) : KeepsLinks (printNode info) := by
  intro s i l o ok s' h
  unfold printNode at h
  cases o with
  | pre =>
    obtain ⟨a, _, h2⟩ := Option.bind_eq_some_iff.1 h
    cases h2; rfl
  | post =>
    obtain ⟨a, _, h2⟩ := Option.bind_eq_some_iff.1 h
    cases h2; rfl

theorem lex_header {lead rest : List Nat} {ts : List Tok} (hs : ∀ c ∈ lead, isspace c = true) (ho : Lemmas.Xml1Lex.Opens rest) (h : lex rest = some ts) :
    lex (header ++ (lead ++ rest)) = some (.docOpen :: .ws :: .id (ascii "version") :: .assign :: .prop (ascii "1.0") :: .docClose :: ts) := by
  have h1 := Lemmas.Xml1Lex.lex_docClose (fun c hc => (Lemmas.Xml1Print.space_lt (hs c hc)).1) ho h
  have hn : Name (ascii "version") := by unfold Name; exact ⟨⟨118, by decide, .inl (by decide)⟩, by decide⟩
  have h2 := Lemmas.Xml1Lex.lex_attr (v := ascii "1.0") hn (by decide) h1
  have h3 := Lemmas.Xml1Lex.lex_docOpen h2
  have e : header ++ (lead ++ rest) = 60 :: 63 :: 120 :: 109 :: 108 :: (attr (ascii "version") (ascii "1.0") ++ 63 :: 62 :: (lead ++ rest)) := by
    have : header = 60 :: 63 :: 120 :: 109 :: 108 :: (attr (ascii "version") (ascii "1.0") ++ [63, 62]) := by decide
    rw [this]
    simp
  rw [e]
  exact h3

/-- **C56.** Every tree of nodes that can be written is written without error, and reading the document leaves the
same tree: one node for every node of the document, created in document order, below the same parent in the same
order, with the same name, the same marks of references and of their targets, the same public indices, NULL mark
and value.  (By `C56_one_meaning` the reader cannot leave anything else.) -/
theorem C56_read_back (known : List Nat → Bool) (ra : List Pd) (info : List Info) (k : Forest)
    (h : Rep ra 0 1 (.cons 1 k .nil)) (hn : (1 :: k.nodes).Nodup) (hw : Writable known ra info (1 :: k.nodes)) :
    ∃ text ptrs data, xmlSave ra info = some text ∧ Loads known text ptrs data ∧
      ptrs.ra.length = 1 + (1 :: k.nodes).length ∧ data.length = 1 + (1 :: k.nodes).length ∧
      Rep ptrs.ra 0 1 (Ptrs.number 1 (.cons 1 k .nil)) ∧
      ∀ (j i : Nat), (1 :: k.nodes)[j]? = some i → ∃ pd x q y, ra[i]? = some pd ∧ info[i]? = some x ∧
        ptrs.ra[j + 1]? = some q ∧ data[j + 1]? = some y ∧ SameNode ra pd x q y := by
  have hnodes : (Forest.cons 1 k .nil).nodes = 1 :: k.nodes := by simp [Forest.nodes]
  obtain ⟨text, _, h5, h6⟩ := Lemmas.Xml1Print.print_forest known ra info (.cons 1 k .nil) 0 1 0 h
    (by rw [hnodes]; exact hn) (by rw [hnodes]; exact hw)
  obtain ⟨r, _, hcall⟩ := h5 (header, fun _ => false) []
  have hsave : xmlSave ra info = some (header ++ (text ++ [10])) := by
    unfold xmlSave
    rw [Props.Dfs.C28_from_root _ (printNode_keeps info) _ _ _ _ h hn]
    rw [List.append_nil] at hcall
    rw [hcall]
    simp [callAll]
  obtain ⟨lead, body, D, e1, e2, e3, h1, h2, h3, h4, hlex, h7⟩ := h6 [10] (by decide)
  cases D with
  | nil => simp [DF.shape] at h3
  | cons e dk ds =>
    have hds : ds = .nil := by
      have := h2 1
      simp only [DF.shape, Ptrs.number] at this
      injection this with _ _ h'
      exact shape_nil.1 (Lemmas.TopDown.number_nil.1 h')
    subst hds
    obtain ⟨lc, hd⟩ := build_root known e dk h1
    have hl : lex (header ++ (text ++ [10])) = some (.docOpen :: .ws :: .id (ascii "version") :: .assign :: .prop (ascii "1.0") :: .docClose :: (DF.cons e dk .nil).toks) := by
      have := hlex [] [] (.inl rfl) (by decide +kernel)
      rw [List.append_nil, List.append_nil] at this
      rw [e1]
      exact lex_header e2 e3 this
    refine ⟨_, _, _, hsave, ⟨_, _, _, hl, rfl, hd, rfl, rfl⟩, ?_, ?_, ?_, ?_⟩
    · simp only [List.length_cons, canon_length, h4, hnodes]; omega
    · simp only [List.length_cons, data_length, h4, hnodes]; omega
    · have := canon_rep known (DF.cons e dk .nil) [{}] [] 0 h1 (by simp)
      simp only [List.length_cons, List.length_nil, Nat.zero_add, List.append_nil] at this
      rw [h2 1] at this
      rw [if_neg (fun e => by simp [DF.shape] at e)] at this
      exact this
    · intro j i hj
      obtain ⟨pd, x, el, a1, a2, a3, body, after, rfl, a4, a5⟩ := h7 j i (by rw [hnodes]; exact hj)
      obtain ⟨q, b1, b2, b3, b4, b5, b6⟩ := Lemmas.Xml1Print.canon_get known _ 0 1 j _ h1 a3
      refine ⟨pd, x, q, (Lemmas.Xml1Print.el ra pd x body after).data, a1, a2, by rw [List.getElem?_cons_succ]; exact b1, ?_, ?_⟩
      · rw [List.getElem?_cons_succ, Lemmas.Xml1Print.els_data, List.getElem?_map, a3]
        rfl
      · have hok := hw i (List.mem_of_getElem? hj) pd a1
        obtain ⟨x', hx', hok, _⟩ := hok
        refine ⟨rfl, rfl, ?_, ?_, ?_, ?_, ?_, fun h1 h2 h3 => ⟨_, rfl, a4 h1 h2 h3⟩, fun h => ⟨_, rfl, a5 h⟩⟩
        · rw [b2]
          simp only [Lemmas.Xml1Print.el]
          cases pd.ref <;> rfl
        · rw [b3]
          simp only [Lemmas.Xml1Print.el]
          cases pd.cref <;> rfl
        · intro hr
          obtain ⟨t, ht, _⟩ := hok.ref hr
          refine ⟨t, ht, ?_⟩
          rw [b6]
          · simp only [Lemmas.Xml1Print.el, Lemmas.Xml1Print.tgt, ht]
            cases hp : pd.ref <;> cases hq : pd.cref
            · simp [hp, hq] at hr
            all_goals rfl
          · simp only [El.isRef, Lemmas.Xml1Print.el]
            cases hp : pd.ref <;> cases hq : pd.cref
            · simp [hp, hq] at hr
            all_goals rfl
        · rw [b4]
          simp only [Lemmas.Xml1Print.el]
          cases pd.refd <;> rfl
        · rw [b5]
          simp only [Lemmas.Xml1Print.el]
          cases pd.refd <;> rfl

/-- **C56.** If the targets of references are marked and no two marked nodes have the same public index (as `mr_save`
leaves them), a reference read back leads to the node that was read for its target and to no other: sharing and
cycles are kept. -/
theorem C56_references (known : List Nat → Bool) (ra : List Pd) (info : List Info) (k : Forest)
    (h : Rep ra 0 1 (.cons 1 k .nil)) (hn : (1 :: k.nodes).Nodup) (hw : Writable known ra info (1 :: k.nodes))
    (hids : ∀ (x y : Nat) (px py : Pd), x ∈ 1 :: k.nodes → y ∈ 1 :: k.nodes → ra[x]? = some px → ra[y]? = some py → px.refd = true → py.refd = true →
      px.idx = py.idx → x = y)
    (text : List Nat) (ht : xmlSave ra info = some text) (ptrs : Ptrs) (data : List Loaded) (hl : Loads known text ptrs data)
    (i j t u : Nat) (pd tp : Pd) (hi : (1 :: k.nodes)[i]? = some j) (hj : ra[j]? = some pd) (hr : (pd.ref || pd.cref) = true)
    (hu : (1 :: k.nodes)[u]? = some t) (htg : pd.firstChild = t) (htp : ra[t]? = some tp) (hm : tp.refd = true) :
    ∃ q : Pd, ptrs.ra[i + 1]? = some q ∧ q.ref = pd.ref ∧ q.cref = pd.cref ∧
      ∀ (v : Nat) (z : Pd), v < (1 :: k.nodes).length → ptrs.ra[v + 1]? = some z → ((z.refd = true ∧ z.idx = q.firstChild) ↔ v = u) := by
  obtain ⟨text', ptrs', data', h1, h2, _, _, _, h6⟩ := C56_read_back known ra info k h hn hw
  rw [ht] at h1; cases h1
  obtain ⟨rfl, rfl⟩ := C56_one_meaning _ _ _ _ _ _ hl h2
  obtain ⟨pd', x, q, y, a1, a2, a3, a4, a5⟩ := h6 i j hi
  rw [hj] at a1; cases a1
  obtain ⟨tp', b1, b2⟩ := a5.target hr
  rw [htg, htp] at b1; cases b1
  refine ⟨q, a3, a5.ref, a5.cref, fun v z hv hz => ?_⟩
  obtain ⟨w, hwv⟩ : ∃ w, (1 :: k.nodes)[v]? = some w := ⟨_, List.getElem?_eq_getElem hv⟩
  obtain ⟨pw, xw, qw, yw, c1, c2, c3, c4, c5⟩ := h6 v w hwv
  rw [hz] at c3; cases c3
  rw [c5.refd, c5.idx, b2]
  constructor
  · rintro ⟨d1, d2⟩
    rw [if_pos d1] at d2
    have := hids w t pw tp (List.mem_of_getElem? hwv) (List.mem_of_getElem? hu) c1 htp d1 hm d2
    subst this
    exact (List.getElem?_inj hv hn).1 (hwv.trans hu.symm)
  · rintro rfl
    rw [hwv] at hu
    cases hu
    rw [c1] at htp; cases htp
    simp [hm]

/-! ## non-vacuity -/

namespace Example

/-- `struct { int n; char * s; list * next; int a[2]; void * p; }` where `next` refers to the structure -/
def ra : List Pd :=
  [ {},
    { ty := .struct, parent := 0, firstChild := 2, idx := 1, refd := true },
    { ty := .int32, parent := 1, next := 3, idx := 2 },
    { ty := .string, parent := 1, next := 4, idx := 3 },
    { ty := .pointer, parent := 1, next := 5, idx := 4, ref := true, firstChild := 1 },
    { ty := .array, parent := 1, firstChild := 6, next := 8, idx := 5 },
    { ty := .int32, parent := 5, next := 7, idx := 6 },
    { ty := .bool, parent := 5, idx := 7 },
    { ty := .pointer, parent := 1, idx := 8 } ]

def info : List Info :=
  [ {},
    { name := ascii "list" },
    { name := ascii "n", leaf := .int (-5) },
    { name := ascii "s", leaf := .text (ascii "a<b ") },
    { name := ascii "next" },
    { name := ascii "a" },
    { name := ascii "a", leaf := .int 7 },
    { name := ascii "a", leaf := .bool true },
    { name := ascii "p", null := true } ]

def kids : Forest := .cons 2 .nil (.cons 3 .nil (.cons 4 .nil (.cons 5 (.cons 6 .nil (.cons 7 .nil .nil)) (.cons 8 .nil .nil))))

example : Rep ra 0 1 (.cons 1 kids .nil) := by simp [Rep, ra, kids, kidsHead]
example : (1 :: kids.nodes).Nodup := by decide

example : Writable (fun _ => true) ra info (1 :: kids.nodes) := by
  have hname : ∀ s, s ∈ [ascii "list", ascii "n", ascii "s", ascii "next", ascii "a", ascii "p"] → Name s := by
    intro s hs
    simp only [List.mem_cons, List.not_mem_nil, or_false] at hs
    rcases hs with rfl | rfl | rfl | rfl | rfl | rfl <;> unfold Name <;> exact ⟨⟨_, rfl, .inl (by decide)⟩, by decide⟩
  intro i hi pd hpd
  simp only [kids, Forest.nodes, List.cons_append, List.nil_append, List.mem_cons, List.not_mem_nil, or_false] at hi
  rcases hi with rfl | rfl | rfl | rfl | rfl | rfl | rfl | rfl <;> cases hpd <;> refine ⟨_, rfl, ?_, rfl⟩
  · exact ⟨hname _ (by simp), by simp, by simp, by simp [valued, structLike], by simp [valued, structLike]⟩
  · exact ⟨hname _ (by simp), by simp, by simp, by simp, fun _ _ _ => by simp [LeafOK]⟩
  · exact ⟨hname _ (by simp), by simp, by simp, by simp, fun _ _ _ => by unfold LeafOK; decide⟩
  · exact ⟨hname _ (by simp), fun _ => ⟨_, rfl, by decide⟩, by simp, by simp, by simp⟩
  · exact ⟨hname _ (by simp), by simp, by simp, by simp [valued], by simp [valued]⟩
  · exact ⟨hname _ (by simp), by simp, by simp, by simp, fun _ _ _ => by simp [LeafOK]⟩
  · exact ⟨hname _ (by simp), by simp, by simp, by simp, fun _ _ _ => by simp [LeafOK]⟩
  · exact ⟨hname _ (by simp), by simp, by simp, by simp, by simp⟩

example : ∀ (x y : Nat) (px py : Pd), x ∈ 1 :: kids.nodes → y ∈ 1 :: kids.nodes → ra[x]? = some px → ra[y]? = some py → px.refd = true → py.refd = true →
    px.idx = py.idx → x = y := by
  intro x y px py hx hy hpx hpy h1 h2 _
  have key : ∀ (x : Nat) (px : Pd), x ∈ 1 :: kids.nodes → ra[x]? = some px → px.refd = true → x = 1 := by
    intro x px hx hp hr
    simp only [kids, Forest.nodes, List.cons_append, List.nil_append, List.mem_cons, List.not_mem_nil, or_false] at hx
    rcases hx with rfl | rfl | rfl | rfl | rfl | rfl | rfl | rfl <;> cases hp <;> first | rfl | cases hr
  rw [key x px hx hpx h1, key y py hy hpy h2]

/-- the document of the example -/
def doc : List Nat := ascii "<?xml version=\"1.0\"?>\n<list ref_idx=\"1\">\n  <n>-5</n>\n  <s>a&lt;b </s>\n  <next ref=\"1\"/>\n  <a>\n    <a>7</a>\n    <a>true</a>\n  </a>\n  <p isnull=\"true\"/>\n</list>\n"

example : xmlSave ra info = some doc := by decide +kernel

end Example

/-! ## documents the reader does not survive -/

/-- `<?xml?><a ref="99999"><b/></a>` -/
def badDoc : List Nat := ascii "<?xml?><a ref=\"99999\"><b/></a>"

/-- A reference that has children, in a document from somewhere else: the attribute has stored the index of the target
where the index of the first child is expected; to add the child, the reader reads the descriptor 99999 of an array of
three (src/metaresc.c:624–643 `mr_last_child_for_parent`).  There is no derivation of the document, because the action
of the second tag has no result: the read is outside of the array. -/
theorem C56_deviation_reference_with_children :
    lex badDoc = some [.docOpen, .docClose, .openTag [97], .ws, .id sRef, .assign, .prop (ascii "99999"), .content [], .openTag [98], .closeEmpty [],
      .closeTag [97], .content []] ∧
    ∃ s1 s2, push start = some s1 ∧ Xml1.property s1 sRef (ascii "99999") = some s2 ∧ s2.ptrs.ra.length = 2 ∧ push s2 = none ∧
      ∀ known ptrs data, ¬ Loads known badDoc ptrs data := by
  have hlex : lex badDoc = some [.docOpen, .docClose, .openTag [97], .ws, .id sRef, .assign, .prop (ascii "99999"), .content [], .openTag [98], .closeEmpty [],
      .closeTag [97], .content []] := by decide +kernel
  obtain ⟨s1, s2, h1, h2, h3, h4⟩ : ∃ s1 s2, push start = some s1 ∧ Xml1.property s1 sRef (ascii "99999") = some s2 ∧ s2.ptrs.ra.length = 2 ∧ push s2 = none :=
    ⟨_, _, rfl, rfl, rfl, by decide +kernel⟩
  refine ⟨hlex, s1, s2, h1, h2, h3, h4, ?_⟩
  rintro known ptrs data ⟨toks, inp, s, a1, a2, a3, _, _⟩
  rw [hlex] at a1
  cases a1
  cases a2
  cases a3 with
  | empty hp hq =>
    cases hq with
    | property h hq => cases hq
  | full hp hq hn =>
    rw [h1] at hp; cases hp
    cases hq with
    | property h hq =>
      rw [h2] at h; cases h
      cases hq
      cases hn with
      | tags ht _ =>
        cases ht with
        | empty hp => rw [h4] at hp; cases hp
        | full hp => rw [h4] at hp; cases hp

/-- An empty attribute is taken for the index 0 (src/xml1_load.y:23–36 `load_idx` does not test that there is a digit). -/
theorem C56_deviation_empty_index : loadIdx [] = some 0 ∧ loadIdx (ascii "  ") = some 0 := by decide

end Verif.Props.Xml1
