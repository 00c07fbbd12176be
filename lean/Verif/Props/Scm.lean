import Verif.Lemmas.ScmPrint
import Verif.Props.Dfs
/-!
# C58: Scheme documents

`scmSave ra info` is the document written for the nodes `ra` with the values `info`; `Loads known text ptrs data` says
that the reader accepts the text and which nodes it leaves; `known` are the names of fields the reader knows.
Spec/Scm.lean says what has to be read back.
-/
namespace Verif.Props.Scm
open Verif.Model Verif.Model.Ptrs Verif.Model.Scm Verif.Spec Verif.Spec.Ptrs Verif.Spec.Scm Verif.Lemmas.ScmLoad
open Verif.Spec.Xml1 (Name)
open Verif.Spec.Json (Digit)

/-! ## a document has one meaning -/

/-- first tokens that no node has -/
def Bad : Tok → Bool
  | .rpar | .ws | .id _ | .dot | .error => true
  | _ => false

theorem start_ok {w : List Nat → Bool} {nt : NT} {s s' : St} {inp rest : List Tok} (h : Derives w nt s inp s' rest) :
    nt ≠ .list → (∀ b t, Bad b = true → inp ≠ b :: t) ∧ (nt = .value → ∀ id v t, inp ≠ .ivalue id v :: t) := by
  induction h with
  | scm _ _ _ ih => intro _; exact ⟨(ih (by decide)).1, (fun e => by cases e)⟩
  | plain _ ih => intro _; exact ⟨(ih (by decide)).1, (fun e => by cases e)⟩
  | attr => intro _; exact ⟨(fun b t hb e => by cases e; cases hb), (fun e => by cases e)⟩
  | compound => intro _; exact ⟨(fun b t hb e => by cases e; cases hb), (fun _ _ _ _ e => by cases e)⟩
  | named => intro _; exact ⟨(fun b t hb e => by cases e; cases hb), (fun _ _ _ _ e => by cases e)⟩
  | @scalar s s1 t rest hs =>
    intro _
    refine ⟨fun b t' hb e => ?_, fun _ id v t' e => ?_⟩
    · cases e
      revert hb hs
      cases t <;> simp [Bad, Scm.scalar]
    · cases e
      simp [Scm.scalar] at hs
  | noItem => intro h; exact absurd rfl h
  | items => intro h; exact absurd rfl h

theorem no_bad {w : List Nat → Bool} {nt : NT} {s s' : St} {b : Tok} {t rest : List Tok} (h : Derives w nt s (b :: t) s' rest) (hn : nt ≠ .list) (hb : Bad b = true) : False :=
  (start_ok h hn).1 b t hb rfl

theorem not_list_id {w : List Nat → Bool} {s s' : St} {n : List Nat} {t rest : List Tok} : ¬ Derives w .list s (.id n :: t) s' (.rpar :: rest) := by
  intro h
  generalize hi : (Tok.id n :: t : List Tok) = inp at h
  generalize hr : (Tok.rpar :: rest : List Tok) = r at h
  cases h with
  | noItem => rw [← hi] at hr; cases hr
  | items h' => rw [← hi] at h'; exact no_bad h' (by decide) rfl

theorem derives_unique {w : List Nat → Bool} {nt : NT} {s s1 : St} {inp r1 : List Tok} (h : Derives w nt s inp s1 r1) :
    ∀ s2 r2, Derives w nt s inp s2 r2 → (nt = .list → (∃ t, r1 = .rpar :: t) ∧ ∃ t, r2 = .rpar :: t) → s1 = s2 ∧ r1 = r2 := by
  induction h with
  | scm hp _ hq ih =>
    intro s2 r2 h2 _
    cases h2 with
    | scm hp' h' hq' =>
      rw [hp] at hp'; cases hp'
      obtain ⟨rfl, rfl⟩ := ih _ _ h' (by simp)
      rw [hq] at hq'; cases hq'
      exact ⟨rfl, rfl⟩
  | attr _ ha ih =>
    intro s2 r2 h2 _
    cases h2 with
    | attr h' ha' =>
      obtain ⟨rfl, rfl⟩ := ih _ _ h' (by simp)
      rw [ha] at ha'; cases ha'
      exact ⟨rfl, rfl⟩
    | plain h' => exact absurd rfl ((start_ok h' (by decide)).2 rfl _ _ _)
  | plain hv ih =>
    intro s2 r2 h2 _
    cases h2 with
    | attr => exact absurd rfl ((start_ok hv (by decide)).2 rfl _ _ _)
    | plain h' => exact ih _ _ h' (by simp)
  | compound hl ih =>
    intro s2 r2 h2 _
    cases h2 with
    | compound h' =>
      obtain ⟨rfl, h3⟩ := ih _ _ h' (fun _ => ⟨⟨_, rfl⟩, _, rfl⟩)
      cases h3
      exact ⟨rfl, rfl⟩
    | named h' => exact absurd hl not_list_id
    | scalar hs => simp [Scm.scalar] at hs
  | named hv hn ih =>
    intro s2 r2 h2 _
    cases h2 with
    | compound h' => exact absurd h' not_list_id
    | named h' hn' =>
      obtain ⟨rfl, h3⟩ := ih _ _ h' (by simp)
      cases h3
      rw [hn] at hn'; cases hn'
      exact ⟨rfl, rfl⟩
    | scalar hs => simp [Scm.scalar] at hs
  | scalar hs =>
    intro s2 r2 h2 _
    cases h2 with
    | compound h' => simp [Scm.scalar] at hs
    | named h' => simp [Scm.scalar] at hs
    | scalar hs' =>
      rw [hs] at hs'; cases hs'
      exact ⟨rfl, rfl⟩
  | noItem =>
    intro s2 r2 h2 hc
    obtain ⟨t, ht⟩ := (hc rfl).1
    cases h2 with
    | noItem => exact ⟨rfl, rfl⟩
    | items h' => rw [ht] at h'; exact absurd h' (fun h => no_bad h (by decide) rfl)
  | items hi hws hl ih1 ih2 =>
    intro s2 r2 h2 hc
    obtain ⟨⟨t, ht⟩, t', ht'⟩ := hc rfl
    subst ht
    cases h2 with
    | noItem => rw [ht'] at hi; exact absurd hi (fun h => no_bad h (by decide) rfl)
    | items h' hws' hl' =>
      subst ht'
      obtain ⟨rfl, rfl⟩ := ih1 _ _ h' (by simp)
      have nows : ∀ {s s' : St} {u r : List Tok}, ¬ Derives w .list s (.ws :: u) s' (.rpar :: r) := by
        intro s s' u r h
        generalize hi : (Tok.ws :: u : List Tok) = inp at h
        generalize hr : (Tok.rpar :: r : List Tok) = rr at h
        cases h with
        | noItem => rw [← hi] at hr; cases hr
        | items h' => rw [← hi] at h'; exact no_bad h' (by decide) rfl
      rcases hws with e | e <;> rcases hws' with e' | e'
      · rw [← e'] at hl'
        rw [← e] at ih2
        exact ih2 _ _ hl' (fun _ => ⟨⟨_, rfl⟩, _, rfl⟩)
      · rw [← e, e'] at hl
        exact absurd hl nows
      · rw [← e', e] at hl'
        exact absurd hl' nows
      · rw [e] at e'
        cases e'
        exact ih2 _ _ hl' (fun _ => ⟨⟨_, rfl⟩, _, rfl⟩)

/-- **C58.** The grammar is unambiguous: whatever text is loaded, the nodes left by the reader are determined by it. -/
theorem C58_one_meaning (known : List Nat → Bool) (text : List Nat) (p1 p2 : Ptrs) (d1 d2 : List Loaded)
    (h1 : Loads known text p1 d1) (h2 : Loads known text p2 d2) : p1 = p2 ∧ d1 = d2 := by
  obtain ⟨t1, i1, s1, r1, a1, b1, c1, _, rfl, rfl⟩ := h1
  obtain ⟨t2, i2, s2, r2, a2, b2, c2, _, rfl, rfl⟩ := h2
  rw [a1] at a2
  cases a2
  have hi : i1 = i2 := by
    rcases b1 with e | e <;> rcases b2 with e' | e'
    · rw [← e, e']
    · rw [← e, e'] at c1; exact absurd c1 (fun h => no_bad h (by decide) rfl)
    · rw [← e', e] at c2; exact absurd c2 (fun h => no_bad h (by decide) rfl)
    · rw [e] at e'; cases e'; rfl
  subst hi
  obtain ⟨rfl, _⟩ := derives_unique c1 _ _ c2 (by simp)
  exact ⟨rfl, rfl⟩

/-! ## the document is read back -/

theorem printNode_keeps (info : List Info) : KeepsLinks (printNode info) := by
  intro s i l o ok s' h
  unfold printNode at h
  cases o with
  | pre =>
    obtain ⟨a, _, h2⟩ := Option.bind_eq_some_iff.1 h
    cases h2; rfl
  | post =>
    obtain ⟨a, _, h2⟩ := Option.bind_eq_some_iff.1 h
    cases h2; rfl

/-- **C58.** Every tree of nodes that can be written is written without error, and reading the document leaves the
same tree: one node for every node of the document, created in document order, below the same parent in the same
order, with the same name (where it is written), the same marks of references and of their targets, the same public
indices, NULL mark and value.  (By `C58_one_meaning` the reader cannot leave anything else.) -/
theorem C58_read_back (known : List Nat → Bool) (ra : List Pd) (info : List Info) (k : Forest)
    (h : Rep ra 0 1 (.cons 1 k .nil)) (hn : (1 :: k.nodes).Nodup) (hw : Writable known ra info (1 :: k.nodes)) :
    ∃ text ptrs data, scmSave ra info = some text ∧ Loads known text ptrs data ∧
      ptrs.ra.length = 1 + (1 :: k.nodes).length ∧ data.length = 1 + (1 :: k.nodes).length ∧
      Rep ptrs.ra 0 1 (Ptrs.number 1 (.cons 1 k .nil)) ∧
      ∀ (j i : Nat), (1 :: k.nodes)[j]? = some i → ∃ pd x q y, ra[i]? = some pd ∧ info[i]? = some x ∧
        ptrs.ra[j + 1]? = some q ∧ data[j + 1]? = some y ∧ SameNode ra pd x q y := by
  have hnodes : (Forest.cons 1 k .nil).nodes = 1 :: k.nodes := by simp [Forest.nodes]
  obtain ⟨sep, core, bo, D, hT, hR⟩ := Lemmas.ScmPrint.print_forest known ra info (.cons 1 k .nil) 0 1 0 h
    (by rw [hnodes]; exact hn) (.inl ⟨rfl, fun _ _ _ e => by cases e; rfl⟩) (by rw [hnodes]; exact hw) (by simp)
  have hcall := hT.call [] true [] (by unfold Lemmas.ScmPrint.NL; simp)
  obtain ⟨c, sp, hsp⟩ : ∃ c sp, sep true = c :: sp := by
    cases hs : sep true with
    | nil => exact absurd hs hT.first
    | cons c sp => exact ⟨c, sp, rfl⟩
  have hspace : ∀ c ∈ sp, isspace c = true := fun c hc => hT.space true c (by rw [hsp]; simp [hc])
  have hsave : scmSave ra info = some (sp ++ (core ++ Lemmas.ScmPrint.nl bo)) := by
    unfold scmSave
    rw [Props.Dfs.C28_from_root _ (printNode_keeps info) _ _ _ _ h hn]
    rw [List.append_nil] at hcall
    rw [show ([10] : List Nat) = [] ++ Lemmas.ScmPrint.nl true from rfl, hcall, hsp]
    simp [callAll]
  -- the end of the document
  have hend : ∃ r, Ws r [] ∧ lex (core ++ Lemmas.ScmPrint.nl bo) = some (D.toks ++ r) := by
    cases bo with
    | true =>
      have h10 : lex [10] = some [.ws] := by
        have := Lemmas.ScmLex.lex_ws (w := [10]) (rest := []) (ts := []) (by simp) (by simp [isspace]) (.inl rfl) rfl
        exact this
      refine ⟨[.ws], .inr rfl, hT.lex [10] _ (fun c t e => by cases e; exact .inl rfl) h10⟩
    | false => exact ⟨[], .inl rfl, hT.lex [] [] (fun c t e => by cases e) rfl⟩
  obtain ⟨r, hr, hlex⟩ := hend
  have hlex2 : ∃ toks, lex (sp ++ (core ++ Lemmas.ScmPrint.nl bo)) = some toks ∧ Ws toks (D.toks ++ r) := by
    by_cases h0 : sp = []
    · rw [h0, List.nil_append]
      exact ⟨_, hlex, .inl rfl⟩
    · exact ⟨_, Lemmas.ScmLex.lex_ws h0 hspace (.inr (hT.head _)) hlex, .inr rfl⟩
  obtain ⟨toks, ht1, ht2⟩ := hlex2
  have h1 := hR.wf
  have h2 := hR.number
  have h4 := hR.length
  cases D with
  | nil => have := hR.empty; simp [DF.shape] at this
  | cons e dk ds =>
    have hds : ds = .nil := by
      have := h2 1
      simp only [DF.shape, Ptrs.number] at this
      injection this with _ _ h'
      exact shape_nil.1 (Lemmas.TopDown.number_nil.1 h')
    subst hds
    obtain ⟨lc, hd⟩ := build_root known e dk r h1
    refine ⟨_, _, _, hsave, ⟨_, _, _, _, ht1, ht2, hd, hr, rfl, rfl⟩, ?_, ?_, ?_, ?_⟩
    · show (({} : Pd) :: canon 0 1 (.cons e dk .nil)).length = _
      simp only [List.length_cons, canon_length, h4, hnodes]; omega
    · show (({} : Loaded) :: DF.data (.cons e dk .nil)).length = _
      simp only [List.length_cons, data_length, h4, hnodes]; omega
    · have := canon_rep known (DF.cons e dk .nil) [{}] [] 0 h1 (by simp)
      simp only [List.length_cons, List.length_nil, Nat.zero_add, List.append_nil] at this
      rw [h2 1] at this
      rw [if_neg (fun e => by simp [DF.shape] at e)] at this
      exact this
    · intro j i hj
      obtain ⟨pd, x, el, a1, a2, a3, body, rfl, a4⟩ := hR.same j i (by rw [hnodes]; exact hj)
      obtain ⟨q, b1, b2, b3, b4, b5, b6⟩ := Lemmas.ScmPrint.canon_get known _ 0 1 j _ h1 a3
      refine ⟨pd, x, q, (Lemmas.ScmPrint.el ra pd x body).data, a1, a2, ?_, ?_, ?_⟩
      · show (({} : Pd) :: canon 0 1 (.cons e dk .nil))[j + 1]? = _
        rw [List.getElem?_cons_succ]; exact b1
      · show (({} : Loaded) :: DF.data (.cons e dk .nil))[j + 1]? = _
        rw [List.getElem?_cons_succ, Lemmas.ScmPrint.els_data, List.getElem?_map, a3]
        rfl
      · have hok := hw i (List.mem_of_getElem? hj) pd a1
        obtain ⟨x', hx', hok, _⟩ := hok
        refine ⟨rfl, ?_, ?_, ?_, ?_, ?_, a4.null, a4.list, a4.leaf⟩
        · rw [b2]
          simp only [Lemmas.ScmPrint.el]
          cases pd.ref <;> rfl
        · rw [b3]
          simp only [Lemmas.ScmPrint.el]
          cases pd.cref <;> rfl
        · intro hr
          obtain ⟨_, _, t, ht, _⟩ := hok.ref hr
          refine ⟨t, ht, ?_⟩
          rw [b6]
          · simp only [Lemmas.ScmPrint.el, Lemmas.ScmPrint.tgt, ht]
            cases hp : pd.ref <;> cases hq : pd.cref
            · simp [hp, hq] at hr
            all_goals rfl
          · simp only [El.isRef, Lemmas.ScmPrint.el]
            cases hp : pd.ref <;> cases hq : pd.cref
            · simp [hp, hq] at hr
            all_goals rfl
        · rw [b4]
          simp only [Lemmas.ScmPrint.el]
          cases pd.refd <;> rfl
        · rw [b5]
          simp only [Lemmas.ScmPrint.el]
          cases pd.refd <;> rfl

/-- **C58.** If the targets of references are marked and no two marked nodes have the same public index (as `mr_save`
leaves them), a reference read back leads to the node that was read for its target and to no other: sharing and
cycles are kept. -/
theorem C58_references (known : List Nat → Bool) (ra : List Pd) (info : List Info) (k : Forest)
    (h : Rep ra 0 1 (.cons 1 k .nil)) (hn : (1 :: k.nodes).Nodup) (hw : Writable known ra info (1 :: k.nodes))
    (hids : ∀ (x y : Nat) (px py : Pd), x ∈ 1 :: k.nodes → y ∈ 1 :: k.nodes → ra[x]? = some px → ra[y]? = some py → px.refd = true → py.refd = true →
      px.idx = py.idx → x = y)
    (text : List Nat) (ht : scmSave ra info = some text) (ptrs : Ptrs) (data : List Loaded) (hl : Loads known text ptrs data)
    (i j t u : Nat) (pd tp : Pd) (hi : (1 :: k.nodes)[i]? = some j) (hj : ra[j]? = some pd) (hr : (pd.ref || pd.cref) = true)
    (hu : (1 :: k.nodes)[u]? = some t) (htg : pd.firstChild = t) (htp : ra[t]? = some tp) (hm : tp.refd = true) :
    ∃ q : Pd, ptrs.ra[i + 1]? = some q ∧ q.ref = pd.ref ∧ q.cref = pd.cref ∧
      ∀ (v : Nat) (z : Pd), v < (1 :: k.nodes).length → ptrs.ra[v + 1]? = some z → ((z.refd = true ∧ z.idx = q.firstChild) ↔ v = u) := by
  obtain ⟨text', ptrs', data', h1, h2, _, _, _, h6⟩ := C58_read_back known ra info k h hn hw
  rw [ht] at h1; cases h1
  obtain ⟨rfl, rfl⟩ := C58_one_meaning _ _ _ _ _ _ hl h2
  obtain ⟨pd', x, q, y, a1, a2, a3, a4, a5⟩ := h6 i j hi
  rw [hj] at a1; cases a1
  obtain ⟨tp', b1, b2⟩ := a5.target hr
  rw [htg, htp] at b1; cases b1
  refine ⟨q, a3, a5.ref, a5.cref, fun v z hv hz => ?_⟩
  obtain ⟨m, hwv⟩ : ∃ m, (1 :: k.nodes)[v]? = some m := ⟨_, List.getElem?_eq_getElem hv⟩
  obtain ⟨pw, xw, qw, yw, c1, c2, c3, c4, c5⟩ := h6 v m hwv
  rw [hz] at c3; cases c3
  rw [c5.refd, c5.idx, b2]
  constructor
  · rintro ⟨d1, d2⟩
    rw [if_pos d1] at d2
    have := hids m t pw tp (List.mem_of_getElem? hwv) (List.mem_of_getElem? hu) c1 htp d1 hm d2
    subst this
    exact (List.getElem?_inj hv hn).1 (hwv.trans hu.symm)
  · rintro rfl
    rw [hwv] at hu
    cases hu
    rw [c1] at htp; cases htp
    simp [hm]

/-! ## non-vacuity -/

namespace Example

/-- `struct { int n; char * s; list * next; list * first; char c; void * p; struct {} e; bool b; }` where `next` refers
to the structure and `first` points to a structure with an enumeration value and an array of two numbers -/
def ra : List Pd :=
  [ {},
    { ty := .struct, parent := 0, firstChild := 2, idx := 1, refd := true },
    { ty := .int32, parent := 1, next := 3, idx := 2 },
    { ty := .string, parent := 1, next := 4, idx := 3 },
    { ty := .pointer, parent := 1, next := 5, idx := 4, ref := true, firstChild := 1 },
    { ty := .pointer, parent := 1, firstChild := 6, next := 11, idx := 5 },
    { ty := .struct, parent := 5, firstChild := 7, idx := 6 },
    { ty := .enum, parent := 6, next := 8, idx := 7 },
    { ty := .array, parent := 6, idx := 8, firstChild := 9 },
    { ty := .float, parent := 8, next := 10, idx := 9 },
    { ty := .float, parent := 8, idx := 10 },
    { ty := .char, parent := 1, next := 12, idx := 11 },
    { ty := .pointer, parent := 1, next := 13, idx := 12 },
    { ty := .struct, parent := 1, next := 14, idx := 13 },
    { ty := .bool, parent := 1, idx := 14 } ]

def info : List Info :=
  [ {},
    { name := ascii "list" },
    { name := ascii "n", unnamed := false, leaf := .int (-5) },
    { name := ascii "s", unnamed := false, leaf := .text (ascii "a\"\n") },
    { name := ascii "next", unnamed := false },
    { name := ascii "first", unnamed := false },
    { },
    { name := ascii "color", unnamed := false, leaf := .quoted (ascii "RED") },
    { name := ascii "x", unnamed := false },
    { leaf := .real (ascii "1.5e-3") },
    { leaf := .real (ascii "2.5") },
    { name := ascii "c", unnamed := false, leaf := .char 10 },
    { name := ascii "p", unnamed := false, null := true },
    { name := ascii "e", unnamed := false },
    { name := ascii "b", unnamed := false, leaf := .bool true } ]

def kids : Forest := .cons 2 .nil (.cons 3 .nil (.cons 4 .nil (.cons 5 (.cons 6 (.cons 7 .nil (.cons 8 (.cons 9 .nil (.cons 10 .nil .nil)) .nil)) .nil)
  (.cons 11 .nil (.cons 12 .nil (.cons 13 .nil (.cons 14 .nil .nil)))))))

example : Rep ra 0 1 (.cons 1 kids .nil) := by simp [Rep, ra, kids, kidsHead]
example : (1 :: kids.nodes).Nodup := by decide

instance (n : List Nat) : Decidable (Reserved n) := by unfold Reserved; infer_instance

example : Writable (fun _ => true) ra info (1 :: kids.nodes) := by
  have hname : ∀ s, s ∈ [ascii "n", ascii "s", ascii "next", ascii "first", ascii "color", ascii "x", ascii "c", ascii "p", ascii "e", ascii "b"] → Ident s := by
    intro s hs
    simp only [List.mem_cons, List.not_mem_nil, or_false] at hs
    rcases hs with rfl | rfl | rfl | rfl | rfl | rfl | rfl | rfl | rfl | rfl <;> unfold Ident Name <;> exact ⟨⟨⟨_, rfl, .inl (by decide)⟩, by decide⟩, by decide⟩
  intro i hi pd hpd
  simp only [kids, Forest.nodes, List.cons_append, List.nil_append, List.mem_cons, List.not_mem_nil, or_false] at hi
  rcases hi with rfl | rfl | rfl | rfl | rfl | rfl | rfl | rfl | rfl | rfl | rfl | rfl | rfl | rfl <;> cases hpd <;> refine ⟨_, rfl, ?_, fun _ => rfl⟩
  · exact ⟨by simp, by simp, by simp, by simp [compound, Nil], by simp, by simp, by simp [compound]⟩
  · exact ⟨fun _ => hname _ (by simp), by simp, by simp, by simp, by simp, by simp, fun _ _ => by simp [LeafOK]⟩
  · exact ⟨fun _ => hname _ (by simp), by simp, by simp, by simp, by simp, by simp, fun _ _ => by unfold LeafOK; decide⟩
  · exact ⟨fun _ => hname _ (by simp), fun _ => ⟨.inl rfl, by simp, _, rfl, by decide⟩, by simp, by simp, by simp [Nil], by simp, by simp [Nil]⟩
  · exact ⟨fun _ => hname _ (by simp), by simp, by simp, by simp [compound, Nil], by simp, by simp, by simp [compound]⟩
  · exact ⟨by simp, by simp, by simp, by simp [compound, Nil], by simp, by simp, by simp [compound]⟩
  · exact ⟨fun _ => hname _ (by simp), by simp, by simp, by simp, by simp, by simp, fun _ _ => by unfold LeafOK; decide⟩
  · exact ⟨fun _ => hname _ (by simp), by simp, by simp, by simp [compound, Nil], by simp, by simp, by simp [compound]⟩
  · refine ⟨by simp, by simp, by simp, by simp, by simp, by simp, fun _ _ => .inl ?_⟩
    exact ⟨[], ascii "1.5e-3", by decide, .inl rfl, .inr (.inr ⟨ascii "1", ascii ".5", ascii "e-3", by decide, by decide, by unfold Digit; decide, by decide,
      .inr ⟨ascii "5", by decide, by unfold Digit; decide⟩, .inr ⟨101, [45], ascii "3", by decide, .inl rfl, .inr (.inl rfl), by decide, by unfold Digit; decide⟩⟩)⟩
  · refine ⟨by simp, by simp, by simp, by simp, by simp, by simp, fun _ _ => .inl ?_⟩
    exact ⟨[], ascii "2.5", by decide, .inl rfl, .inr (.inr ⟨ascii "2", ascii ".5", [], by decide, by decide, by unfold Digit; decide, by decide,
      .inr ⟨ascii "5", by decide, by unfold Digit; decide⟩, .inl rfl⟩)⟩
  · exact ⟨fun _ => hname _ (by simp), by simp, by simp, by simp, by simp, by simp, fun _ _ => by simp [LeafOK]⟩
  · exact ⟨fun _ => hname _ (by simp), by simp, by simp, by simp, by simp [Nil], by simp, by simp [Nil]⟩
  · exact ⟨fun _ => hname _ (by simp), by simp, by simp, by simp, by simp, by simp, by simp [compound]⟩
  · exact ⟨fun _ => hname _ (by simp), by simp, by simp, by simp, by simp, by simp, fun _ _ => by simp [LeafOK]⟩

example : ∀ (x y : Nat) (px py : Pd), x ∈ 1 :: kids.nodes → y ∈ 1 :: kids.nodes → ra[x]? = some px → ra[y]? = some py → px.refd = true → py.refd = true →
    px.idx = py.idx → x = y := by
  intro x y px py hx hy hpx hpy h1 h2 _
  have key : ∀ (x : Nat) (px : Pd), x ∈ 1 :: kids.nodes → ra[x]? = some px → px.refd = true → x = 1 := by
    intro x px hx hp hr
    simp only [kids, Forest.nodes, List.cons_append, List.nil_append, List.mem_cons, List.not_mem_nil, or_false] at hx
    rcases hx with rfl | rfl | rfl | rfl | rfl | rfl | rfl | rfl | rfl | rfl | rfl | rfl | rfl | rfl <;> cases hp <;> first | rfl | cases hr
  rw [key x px hx hpx h1, key y py hy hpy h2]

/-- the document of the example -/
def doc : List Nat := ascii ";(ref_idx . 1)\n(\n  (n . -5)\n  (s . \"a\\\"\\n\")\n  ;(ref . 1)\n  (next . nil)\n  (first . ((\n      (color . \"RED\")\n      (x . (1.5e-3 2.5))\n    )\n  ))\n  (c . #\\x0a)\n  (p . nil)\n  (e . ())\n  (b . t)\n)\n"

example : scmSave ra info = some doc := by decide +kernel

end Example

/-! ## documents that are not read back -/

/-- a list of one node, which does not start like a node -/
theorem one_field {w : List Nat → Bool} {b : List Tok} (hb : ∀ s s' r, ¬ Derives w .value s b s' r) (hi : ∀ id v t, b ≠ .ivalue id v :: t) (hc : ∀ t, b ≠ .rpar :: t) (hn : ∀ n t, b ≠ .id n :: t)
    (s s' : St) (r : List Tok) : ¬ Derives w .scm s (.lpar :: b) s' r := by
  intro h
  have hscm : ∀ s s' r, ¬ Derives w .scm s b s' r := by
    intro s s' r h
    cases h with
    | scm _ h _ =>
      generalize he : b = inp at h
      cases h with
      | plain h => subst he; exact hb _ _ _ h
      | attr => exact hi _ _ _ he
  cases h with
  | scm _ h _ =>
    generalize he : (Tok.lpar :: b : List Tok) = inp at h
    cases h with
    | attr => cases he
    | plain h =>
      cases h with
      | compound h =>
        cases he
        generalize hr : (Tok.rpar :: _ : List Tok) = rr at h
        cases h with
        | noItem => exact hc _ hr.symm
        | items h' => exact hscm _ _ _ h'
      | named h => cases he; exact hn _ _ rfl
      | scalar hs => cases he; simp [Scm.scalar] at hs

theorem value_dot {w : List Nat → Bool} {v : Nat} {rest : List Tok} (s s' : St) (r : List Tok) : ¬ Derives w .value s (.lpar :: .int v :: .dot :: rest) s' r := by
  intro h
  cases h with
  | compound h =>
    generalize hr : (Tok.rpar :: _ : List Tok) = rr at h
    cases h with
    | noItem => cases hr
    | items h1 h2 h3 =>
      cases h1 with
      | scm _ h1 _ =>
        cases h1 with
        | plain h1 =>
          cases h1 with
          | scalar =>
            rcases h2 with h2 | h2
            · subst h2
              cases h3 with
              | noItem => cases hr
              | items h3 => exact no_bad h3 (by decide) rfl
            · cases h2
  | scalar hs => simp [Scm.scalar] at hs

/-- A structure with a field `t`, `{ .t = 5 }` -/
def fieldRa : List Pd := [{}, { ty := .struct, firstChild := 2, idx := 1 }, { ty := .int32, parent := 1, idx := 2 }]
def fieldInfo : List Info := [{}, {}, { name := ascii "t", unnamed := false, leaf := .int 5 }]

/-- A field that is called `t` (or `nil`, `nan`, `inf`) is written, but the document cannot be read: the scanner takes
the name for the value true (src/scm_load.l:65), where the grammar expects an identifier (src/scm_load.y:190). -/
theorem C58_deviation_field_named_t :
    ∃ text, scmSave fieldRa fieldInfo = some text ∧ text = ascii "(\n  (t . 5)\n)\n" ∧ ∀ known ptrs data, ¬ Loads known text ptrs data := by
  have hsave : scmSave fieldRa fieldInfo = some (ascii "(\n  (t . 5)\n)\n") := by decide +kernel
  have hlex : lex (ascii "(\n  (t . 5)\n)\n") = some [.lpar, .lpar, .int 1, .dot, .int 5, .rpar, .rpar, .ws] := by decide +kernel
  refine ⟨_, hsave, rfl, ?_⟩
  rintro known ptrs data ⟨toks, inp, s, rest, h1, h2, h3, _⟩
  rw [hlex] at h1
  cases h1
  rcases h2 with h2 | h2
  · subst h2
    exact one_field value_dot (by simp) (by simp) (by simp) _ _ _ h3
  · cases h2

/-- A structure with a pointer to something that is not saved (as `void *` is) -/
def voidRa : List Pd := [{}, { ty := .struct, firstChild := 2, idx := 1 }, { ty := .pointer, parent := 1, idx := 2 }]
def voidInfo : List Info := [{}, {}, { name := ascii "p", unnamed := false }]

/-- A pointer that is not NULL, not a reference and has no target node is written without a value, and the document
cannot be read. -/
theorem C58_deviation_pointer_without_target :
    ∃ text, scmSave voidRa voidInfo = some text ∧ text = ascii "(\n  (p . )\n)\n" ∧ ∀ known ptrs data, ¬ Loads known text ptrs data := by
  have hsave : scmSave voidRa voidInfo = some (ascii "(\n  (p . )\n)\n") := by decide +kernel
  have hlex : lex (ascii "(\n  (p . )\n)\n") = some [.lpar, .lpar, .id [112], .dot, .rpar, .rpar, .ws] := by decide +kernel
  refine ⟨_, hsave, rfl, ?_⟩
  rintro known ptrs data ⟨toks, inp, s, rest, h1, h2, h3, _⟩
  rw [hlex] at h1
  cases h1
  rcases h2 with h2 | h2
  · subst h2
    refine one_field (fun s s' r h => ?_) (by simp) (by simp) (by simp) _ _ _ h3
    cases h with
    | compound h => exact not_list_id h
    | named h => exact no_bad h (by decide) rfl
    | scalar hs => simp [Scm.scalar] at hs
  · cases h2

/-- The negative zero is read back as the integer 0, without its sign. -/
theorem C58_deviation_negative_zero :
    ∃ text, scmSave [{}, { ty := .double, idx := 1 }] [{}, { leaf := .real (ascii "-0") }] = some text ∧
      ∀ known, ∃ ptrs data, Loads known text ptrs data ∧ ∃ y, data[1]? = some y ∧ y.value = .int 0 := by
  have hsave : scmSave [{}, { ty := .double, idx := 1 }] [{}, { leaf := .real (ascii "-0") }] = some (ascii "-0") := by decide +kernel
  refine ⟨_, hsave, fun known => ?_⟩
  have hlex : lex (ascii "-0") = some [.int 0] := by decide +kernel
  have hwf : DF.WF known (.cons (⟨none, none, none, none, .tok (.int 0) false (.int 0)⟩ : El) .nil .nil) :=
    ⟨⟨(fun p h => by cases h), rfl⟩, (fun _ => rfl), rfl, trivial, trivial⟩
  obtain ⟨lc, hd⟩ := build_root known _ _ [] hwf
  exact ⟨_, _, ⟨_, _, _, _, hlex, .inl rfl, hd, .inl rfl, rfl, rfl⟩, _, rfl, rfl⟩

end Verif.Props.Scm
