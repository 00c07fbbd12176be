import Verif.Lemmas.CinitPrint
import Verif.Props.Dfs
/-!
# C57: C initializers

`cinitSave ra info` is the document written for the nodes `ra` with the values `info`; `Loads w text ptrs data` says
that the reader accepts the text and which nodes it leaves; `w` is what the reader knows about fields, types and
constants.  Spec/Cinit.lean says what has to be read back.
-/
namespace Verif.Props.Cinit
open Verif.Model Verif.Model.Ptrs Verif.Model.Cinit Verif.Spec Verif.Spec.Ptrs Verif.Spec.Cinit Verif.Lemmas.CinitLoad
open Verif.Spec.Xml1 (Name)
open Verif.Spec.Json (Digit)

variable {K : Value.Floats}

/-! ## a document has one meaning -/

theorem no_expr {w : World} {u : List (Value.Tok K)} {v : Value.Value K} (h : Value.parse K w.env u none [] = some (some v)) : u ≠ [] := by
  rintro rfl
  simp [Value.parse] at h

theorem not_rbrace {w : World} {nt : NT} {s s' : St K} {inp rest : List (Tok K)} (h : Derives w nt s inp s' rest) : nt ≠ .list → ∀ t, inp ≠ .rbrace :: t := by
  induction h with
  | cinit _ _ _ ih => intro _; exact ih (by decide)
  | attr => intro _ t e; cases e
  | plain _ ih => intro _; exact ih (by decide)
  | cast => intro _ t e; cases e
  | compound => intro _ t e; cases e
  | @expr s s1 u v v' rest hr hp hk hs =>
    intro _ t e
    cases u with
    | nil => exact no_expr hp rfl
    | cons a u => cases e
  | @scalar s s1 t rest hs =>
    intro _ t' e
    cases e
    simp [Cinit.scalar] at hs
  | noItem => intro h; exact absurd rfl h
  | lastItem => intro h; exact absurd rfl h
  | items => intro h; exact absurd rfl h
  | element _ ih => intro _; exact ih (by decide)
  | member => intro _ t e; cases e

/-- the tokens of an expression end where they can end -/
theorem split_expr : ∀ {u1 u2 : List (Value.Tok K)} {r1 r2 : List (Tok K)}, exprHead r1 = false → exprHead r2 = false →
    u1.map Tok.e ++ r1 = u2.map Tok.e ++ r2 → u1 = u2 ∧ r1 = r2
  | [], [], _, _, _, _, e => ⟨rfl, e⟩
  | [], b :: u2, r1, r2, h1, _, e => by
    have e : r1 = Tok.e b :: (u2.map Tok.e ++ r2) := e
    rw [e] at h1; cases h1
  | a :: u1, [], r1, r2, _, h2, e => by
    have e : Tok.e a :: (u1.map Tok.e ++ r1) = r2 := e
    rw [← e] at h2; cases h2
  | a :: u1, b :: u2, r1, r2, h1, h2, e => by
    simp only [List.map_cons, List.cons_append, List.cons.injEq, Tok.e.injEq] at e
    obtain ⟨h3, h4⟩ := split_expr h1 h2 e.2
    exact ⟨by rw [e.1, h3], h4⟩

/-- first tokens of a value -/
theorem value_start {w : World} {s s' : St K} {inp rest : List (Tok K)} (h : Derives w .value s inp s' rest) :
    (∀ id v t, inp ≠ .ivalue id v :: t) ∧ (∀ ty t, inp ≠ .cast ty :: t) ∧ ∀ t, inp ≠ .dot :: t := by
  cases h with
  | compound => exact ⟨(fun _ _ _ e => by cases e), (fun _ _ e => by cases e), (fun _ e => by cases e)⟩
  | @expr _ _ u v _ _ _ hp =>
    cases u with
    | nil => exact absurd rfl (no_expr hp)
    | cons a u => exact ⟨(fun _ _ _ e => by cases e), (fun _ _ e => by cases e), (fun _ e => by cases e)⟩
  | scalar hs => exact ⟨(fun _ _ _ e => by cases e; simp [Cinit.scalar] at hs), (fun _ _ e => by cases e; simp [Cinit.scalar] at hs), (fun _ e => by cases e; simp [Cinit.scalar] at hs)⟩

theorem stmt_start {w : World} {s s' : St K} {inp rest : List (Tok K)} (h : Derives w .stmt s inp s' rest) : ∀ t, inp ≠ .dot :: t := by
  cases h with
  | attr => intro t e; cases e
  | cast => intro t e; cases e
  | plain h => exact (value_start h).2.2

theorem cinit_start {w : World} {s s' : St K} {inp rest : List (Tok K)} (h : Derives w .cinit s inp s' rest) : ∀ t, inp ≠ .dot :: t := by
  cases h with
  | cinit _ h _ => exact stmt_start h

theorem derives_unique {w : World} {nt : NT} {s s1 : St K} {inp r1 : List (Tok K)} (h : Derives w nt s inp s1 r1) :
    ∀ s2 r2, Derives w nt s inp s2 r2 → (nt = .list → (∃ t, r1 = .rbrace :: t) ∧ ∃ t, r2 = .rbrace :: t) → s1 = s2 ∧ r1 = r2 := by
  induction h with
  | cinit hp _ hq ih =>
    intro s2 r2 h2 _
    cases h2 with
    | cinit hp' h' hq' =>
      rw [hp] at hp'; cases hp'
      obtain ⟨rfl, rfl⟩ := ih _ _ h' (by simp)
      rw [hq] at hq'; cases hq'
      exact ⟨rfl, rfl⟩
  | attr _ ha ih =>
    intro s2 r2 h2 _
    cases h2 with
    | attr h' ha' =>
      obtain ⟨rfl, rfl⟩ := ih _ _ h' (by simp)
      rw [ha] at ha'; cases ha'
      exact ⟨rfl, rfl⟩
    | plain h' => exact absurd rfl ((value_start h').1 _ _ _)
  | plain hv ih =>
    intro s2 r2 h2 _
    cases h2 with
    | attr => exact absurd rfl ((value_start hv).1 _ _ _)
    | plain h' => exact ih _ _ h' (by simp)
    | cast => exact absurd rfl ((value_start hv).2.1 _ _)
  | cast _ hc ih =>
    intro s2 r2 h2 _
    cases h2 with
    | plain h' => exact absurd rfl ((value_start h').2.1 _ _)
    | cast h' hc' =>
      obtain ⟨rfl, rfl⟩ := ih _ _ h' (by simp)
      rw [hc] at hc'; cases hc'
      exact ⟨rfl, rfl⟩
  | compound _ ih =>
    intro s2 r2 h2 _
    generalize hi : (Tok.lbrace :: _ : List (Tok K)) = inp at h2
    cases h2 with
    | compound h' =>
      cases hi
      obtain ⟨rfl, h3⟩ := ih _ _ h' (fun _ => ⟨⟨_, rfl⟩, _, rfl⟩)
      cases h3
      exact ⟨rfl, rfl⟩
    | @expr _ _ u v _ _ _ hp =>
      cases u with
      | nil => exact absurd rfl (no_expr hp)
      | cons a u => cases hi
    | scalar hs => cases hi; simp [Cinit.scalar] at hs
  | @expr s s1 u v v' rest hr hp hk hs =>
    intro s2 r2 h2 _
    generalize hi : u.map Tok.e ++ rest = inp at h2
    cases h2 with
    | compound h' =>
      cases u with
      | nil => exact absurd rfl (no_expr hp)
      | cons a u => cases hi
    | expr hr' hp' hk' hs' =>
      obtain ⟨rfl, rfl⟩ := split_expr hr hr' hi
      rw [hp] at hp'; cases hp'
      rw [hk] at hk'; cases hk'
      rw [hs] at hs'; cases hs'
      exact ⟨rfl, rfl⟩
    | scalar hs' =>
      cases u with
      | nil => exact absurd rfl (no_expr hp)
      | cons a u => cases hi; simp [Cinit.scalar] at hs'
  | @scalar s s1 t rest hs =>
    intro s2 r2 h2 _
    generalize hi : t :: rest = inp at h2
    cases h2 with
    | compound h' => cases hi; simp [Cinit.scalar] at hs
    | @expr _ _ u v _ _ _ hp =>
      cases u with
      | nil => exact absurd rfl (no_expr hp)
      | cons a u => cases hi; simp [Cinit.scalar] at hs
    | scalar hs' =>
      cases hi
      rw [hs] at hs'; cases hs'
      exact ⟨rfl, rfl⟩
  | noItem =>
    intro s2 r2 h2 hc
    obtain ⟨t, ht⟩ := (hc rfl).1
    cases h2 with
    | noItem => exact ⟨rfl, rfl⟩
    | lastItem h' => exact absurd ht (not_rbrace h' (by decide) t)
    | items h' => exact absurd ht (not_rbrace h' (by decide) t)
  | lastItem hi ih =>
    intro s2 r2 h2 hc
    obtain ⟨⟨t, ht⟩, t', ht'⟩ := hc rfl
    cases h2 with
    | noItem => exact absurd ht' (not_rbrace hi (by decide) t')
    | lastItem h' => exact ih _ _ h' (by simp)
    | items h' =>
      obtain ⟨_, h3⟩ := ih _ _ h' (by simp)
      rw [ht] at h3; cases h3
  | items hi _ ih1 ih2 =>
    intro s2 r2 h2 hc
    obtain ⟨⟨t, ht⟩, t', ht'⟩ := hc rfl
    cases h2 with
    | noItem => exact absurd ht' (not_rbrace hi (by decide) t')
    | lastItem h' =>
      obtain ⟨_, h3⟩ := ih1 _ _ h' (by simp)
      rw [ht'] at h3; cases h3
    | items h' h'' =>
      obtain ⟨rfl, h3⟩ := ih1 _ _ h' (by simp)
      cases h3
      exact ih2 _ _ h'' hc
  | element hi ih =>
    intro s2 r2 h2 _
    cases h2 with
    | element h' => exact ih _ _ h' (by simp)
    | member => exact absurd rfl (cinit_start hi _)
  | member _ hm ih =>
    intro s2 r2 h2 _
    cases h2 with
    | element h' => exact absurd rfl (cinit_start h' _)
    | member h' hm' =>
      obtain ⟨rfl, rfl⟩ := ih _ _ h' (by simp)
      rw [hm] at hm'; cases hm'
      exact ⟨rfl, rfl⟩

/-- **C57.** The grammar is unambiguous: whatever text is loaded, the nodes left by the reader are determined by it. -/
theorem C57_one_meaning (w : World) (text : List Nat) (p1 p2 : Ptrs) (d1 d2 : List (Loaded K))
    (h1 : Loads w text p1 d1) (h2 : Loads w text p2 d2) : p1 = p2 ∧ d1 = d2 := by
  obtain ⟨t1, s1, a1, c1, rfl, rfl⟩ := h1
  obtain ⟨t2, s2, a2, c2, rfl, rfl⟩ := h2
  rw [a1] at a2
  cases a2
  obtain ⟨rfl, _⟩ := derives_unique c1 _ _ c2 (by simp)
  exact ⟨rfl, rfl⟩

/-! ## the document is read back -/

theorem printNode_keeps (info : List Info) : KeepsLinks (printNode info) := by
  intro s i l o ok s' h
  unfold printNode at h
  cases o with
  | pre =>
    obtain ⟨a, _, h2⟩ := Option.bind_eq_some_iff.1 h
    cases h2; rfl
  | post =>
    obtain ⟨a, _, h2⟩ := Option.bind_eq_some_iff.1 h
    cases h2; rfl

/-- **C57.** Every tree of nodes that can be written is written without error, and reading the document leaves the
same tree: one node for every node of the document, created in document order, below the same parent in the same
order, with the same name and type (where they are written), the same marks of references and of their targets, the
same public indices, NULL mark and value.  (By `C57_one_meaning` the reader cannot leave anything else.)  Missing: bit
masks with several names and complex numbers, which are read as expressions, and named anonymous unions, which are
written as two elements of the list. -/
theorem C57_read_back_partial (K : Value.Floats) (w : World) (ra : List Pd) (info : List Info) (k : Forest)
    (h : Rep ra 0 1 (.cons 1 k .nil)) (hn : (1 :: k.nodes).Nodup) (hw : Writable w ra info (1 :: k.nodes)) :
    ∃ text ptrs, ∃ data : List (Loaded K), cinitSave ra info = some text ∧ Loads w text ptrs data ∧
      ptrs.ra.length = 1 + (1 :: k.nodes).length ∧ data.length = 1 + (1 :: k.nodes).length ∧
      Rep ptrs.ra 0 1 (Ptrs.number 1 (.cons 1 k .nil)) ∧
      ∀ (j i : Nat), (1 :: k.nodes)[j]? = some i → ∃ pd x q y, ra[i]? = some pd ∧ info[i]? = some x ∧
        ptrs.ra[j + 1]? = some q ∧ data[j + 1]? = some y ∧ SameNode ra pd x q y := by
  have hnodes : (Forest.cons 1 k .nil).nodes = 1 :: k.nodes := by simp [Forest.nodes]
  obtain ⟨text, _, h5, h6⟩ := Lemmas.CinitPrint.print_forest K w ra info (.cons 1 k .nil) 0 1 0 h
    (by rw [hnodes]; exact hn) (by rw [hnodes]; exact hw)
  obtain ⟨r, _, hcall⟩ := h5 ([], fun _ => none) []
  have hsave : cinitSave ra info = some text := by
    unfold cinitSave
    rw [Props.Dfs.C28_from_root _ (printNode_keeps info) _ _ _ _ h hn]
    rw [List.append_nil] at hcall
    rw [hcall]
    simp [callAll]
  obtain ⟨D, h1, h2, h3, h4, hlex, h7⟩ := h6 [] [] rfl
  rw [List.append_nil, List.append_nil] at hlex
  cases D with
  | nil => simp [DF.shape] at h3
  | cons e dk ds =>
    have hds : ds = .nil := by
      have := h2 1
      simp only [DF.shape, Ptrs.number] at this
      injection this with _ _ h'
      exact shape_nil.1 (Lemmas.TopDown.number_nil.1 h')
    subst hds
    have hname : e.name = none := by
      obtain ⟨pd, x, e', a1, a2, a3, rest, body, rfl, _⟩ := h7 0 1 (by rw [hnodes]; rfl)
      simp only [Lemmas.CinitPrint.els, List.getElem?_cons_zero, Option.some.injEq] at a3
      rw [a3]
      show Lemmas.CinitPrint.nameAt x rest = none
      unfold Lemmas.CinitPrint.nameAt
      obtain ⟨x', hx', hok, _⟩ := hw 1 (by simp) pd a1
      rw [a2] at hx'; cases hx'
      obtain ⟨_, _, pd', hpd', hpar, _⟩ := h
      rw [a1] at hpd'; cases hpd'
      cases hu : x.unnamed with
      | true => rfl
      | false => exact absurd hpar (hok.name hu).2
    obtain ⟨lc, hd⟩ := build_root w e dk hname h1
    refine ⟨_, _, _, hsave, ⟨_, _, hlex, hd, rfl, rfl⟩, ?_, ?_, ?_, ?_⟩
    · simp only [List.length_cons, canon_length, h4, hnodes]; omega
    · simp only [List.length_cons, data_length, h4, hnodes]; omega
    · have := canon_rep w (DF.cons e dk .nil) [{}] [] 0 h1 (by simp)
      simp only [List.length_cons, List.length_nil, Nat.zero_add, List.append_nil] at this
      rw [h2 1] at this
      rw [if_neg (fun e => by simp [DF.shape] at e)] at this
      exact this
    · intro j i hj
      obtain ⟨pd, x, el, a1, a2, a3, rest, body, rfl, a4⟩ := h7 j i (by rw [hnodes]; exact hj)
      obtain ⟨q, b1, b2, b3, b4, b5, b6⟩ := Lemmas.CinitPrint.canon_get w _ 0 1 j _ h1 a3
      refine ⟨pd, x, q, (Lemmas.CinitPrint.el ra pd x (Lemmas.CinitPrint.nameAt x rest) body).data, a1, a2, by rw [List.getElem?_cons_succ]; exact b1, ?_, ?_⟩
      · rw [List.getElem?_cons_succ, Lemmas.CinitPrint.els_data, List.getElem?_map, a3]
        rfl
      · have hok := hw i (List.mem_of_getElem? hj) pd a1
        obtain ⟨x', hx', hok, _⟩ := hok
        refine ⟨?_, Lemmas.CinitPrint.el_typed .., ?_, ?_, ?_, ?_, ?_, a4.null, a4.list, a4.leaf⟩
        · show (Lemmas.CinitPrint.nameAt x rest).map _ = _
          unfold Lemmas.CinitPrint.nameAt
          cases x.unnamed <;> simp
        · rw [b2]
          simp only [Lemmas.CinitPrint.el]
          cases pd.ref <;> rfl
        · rw [b3]
          simp only [Lemmas.CinitPrint.el]
          cases pd.cref <;> rfl
        · intro hr
          obtain ⟨t, ht, _⟩ := hok.ref hr
          refine ⟨t, ht, ?_⟩
          rw [b6]
          · simp only [Lemmas.CinitPrint.el, Lemmas.CinitPrint.tgt, ht]
            cases hp : pd.ref <;> cases hq : pd.cref
            · simp [hp, hq] at hr
            all_goals rfl
          · simp only [El.isRef, Lemmas.CinitPrint.el]
            cases hp : pd.ref <;> cases hq : pd.cref
            · simp [hp, hq] at hr
            all_goals rfl
        · rw [b4]
          simp only [Lemmas.CinitPrint.el]
          cases pd.refd <;> rfl
        · rw [b5]
          simp only [Lemmas.CinitPrint.el]
          cases pd.refd <;> rfl

/-- **C57.** If the targets of references are marked and no two marked nodes have the same public index (as `mr_save`
leaves them), a reference read back leads to the node that was read for its target and to no other: sharing and
cycles are kept. -/
theorem C57_references_partial (w : World) (ra : List Pd) (info : List Info) (k : Forest)
    (h : Rep ra 0 1 (.cons 1 k .nil)) (hn : (1 :: k.nodes).Nodup) (hw : Writable w ra info (1 :: k.nodes))
    (hids : ∀ (x y : Nat) (px py : Pd), x ∈ 1 :: k.nodes → y ∈ 1 :: k.nodes → ra[x]? = some px → ra[y]? = some py → px.refd = true → py.refd = true →
      px.idx = py.idx → x = y)
    (text : List Nat) (ht : cinitSave ra info = some text) (ptrs : Ptrs) (data : List (Loaded K)) (hl : Loads w text ptrs data)
    (i j t u : Nat) (pd tp : Pd) (hi : (1 :: k.nodes)[i]? = some j) (hj : ra[j]? = some pd) (hr : (pd.ref || pd.cref) = true)
    (hu : (1 :: k.nodes)[u]? = some t) (htg : pd.firstChild = t) (htp : ra[t]? = some tp) (hm : tp.refd = true) :
    ∃ q : Pd, ptrs.ra[i + 1]? = some q ∧ q.ref = pd.ref ∧ q.cref = pd.cref ∧
      ∀ (v : Nat) (z : Pd), v < (1 :: k.nodes).length → ptrs.ra[v + 1]? = some z → ((z.refd = true ∧ z.idx = q.firstChild) ↔ v = u) := by
  obtain ⟨text', ptrs', data', h1, h2, _, _, _, h6⟩ := C57_read_back_partial K w ra info k h hn hw
  rw [ht] at h1; cases h1
  obtain ⟨rfl, rfl⟩ := C57_one_meaning _ _ _ _ _ _ hl h2
  obtain ⟨pd', x, q, y, a1, a2, a3, a4, a5⟩ := h6 i j hi
  rw [hj] at a1; cases a1
  obtain ⟨tp', b1, b2⟩ := a5.target hr
  rw [htg, htp] at b1; cases b1
  refine ⟨q, a3, a5.ref, a5.cref, fun v z hv hz => ?_⟩
  obtain ⟨m, hwv⟩ : ∃ m, (1 :: k.nodes)[v]? = some m := ⟨_, List.getElem?_eq_getElem hv⟩
  obtain ⟨pw, xw, qw, yw, c1, c2, c3, c4, c5⟩ := h6 v m hwv
  rw [hz] at c3; cases c3
  rw [c5.refd, c5.idx, b2]
  constructor
  · rintro ⟨d1, d2⟩
    rw [if_pos d1] at d2
    have := hids m t pw tp (List.mem_of_getElem? hwv) (List.mem_of_getElem? hu) c1 htp d1 hm d2
    subst this
    exact (List.getElem?_inj hv hn).1 (hwv.trans hu.symm)
  · rintro rfl
    rw [hwv] at hu
    cases hu
    rw [c1] at htp; cases htp
    simp [hm]

/-! ## non-vacuity -/

namespace Example

/-- `struct { int n; char * s; list * next; list * first; char c; void * p; }` where `next` refers to the structure and
`first` points to a structure with an enumeration value and a number -/
def ra : List Pd :=
  [ {},
    { ty := .struct, parent := 0, firstChild := 2, idx := 1, refd := true },
    { ty := .int32, parent := 1, next := 3, idx := 2 },
    { ty := .string, parent := 1, next := 4, idx := 3 },
    { ty := .pointer, parent := 1, next := 5, idx := 4, ref := true, firstChild := 1 },
    { ty := .pointer, parent := 1, firstChild := 6, next := 9, idx := 5 },
    { ty := .struct, parent := 5, firstChild := 7, idx := 6 },
    { ty := .enum, parent := 6, next := 8, idx := 7 },
    { ty := .float, parent := 6, idx := 8 },
    { ty := .char, parent := 1, next := 10, idx := 9 },
    { ty := .pointer, parent := 1, idx := 10 } ]

def info : List Info :=
  [ {},
    { name := ascii "list" },
    { name := ascii "n", unnamed := false, leaf := .int (-5) },
    { name := ascii "s", unnamed := false, leaf := .text (ascii "a\"\n") },
    { name := ascii "next", unnamed := false },
    { name := ascii "first", unnamed := false, type := ascii "struct pair" },
    { },
    { name := ascii "color", unnamed := false, leaf := .plain (ascii "RED") },
    { name := ascii "x", unnamed := false, leaf := .real (ascii "1.5e-3") },
    { name := ascii "c", unnamed := false, leaf := .char 39 },
    { name := ascii "p", unnamed := false, null := true } ]

def kids : Forest := .cons 2 .nil (.cons 3 .nil (.cons 4 .nil (.cons 5 (.cons 6 (.cons 7 .nil (.cons 8 .nil .nil)) .nil) (.cons 9 .nil (.cons 10 .nil .nil)))))

example : Rep ra 0 1 (.cons 1 kids .nil) := by simp [Rep, ra, kids, kidsHead]
example : (1 :: kids.nodes).Nodup := by decide

instance (n : List Nat) : Decidable (Reserved n) := by unfold Reserved; infer_instance

def world : World := { env := { names := [], maxLen := 0 }, known := fun _ _ => true, types := fun _ => true }

example : Writable world ra info (1 :: kids.nodes) := by
  have hname : ∀ s, s ∈ [ascii "n", ascii "s", ascii "next", ascii "first", ascii "color", ascii "x", ascii "c", ascii "p", ascii "RED", ascii "struct", ascii "pair"] → Ident s := by
    intro s hs
    simp only [List.mem_cons, List.not_mem_nil, or_false] at hs
    rcases hs with rfl | rfl | rfl | rfl | rfl | rfl | rfl | rfl | rfl | rfl | rfl <;> unfold Ident Name <;> exact ⟨⟨⟨_, rfl, .inl (by decide)⟩, by decide⟩, by decide⟩
  have htype : TypeName (ascii "struct pair") := .more (ascii "struct") (ascii "pair") (hname _ (by simp)).1 (.one _ (hname _ (by simp)).1)
  intro i hi pd hpd
  simp only [kids, Forest.nodes, List.cons_append, List.nil_append, List.mem_cons, List.not_mem_nil, or_false] at hi
  rcases hi with rfl | rfl | rfl | rfl | rfl | rfl | rfl | rfl | rfl | rfl <;> cases hpd <;> refine ⟨_, rfl, ?_, fun _ => rfl, fun _ _ => rfl⟩
  · exact ⟨by simp, by simp, by simp, by simp [compound], by simp, by simp, by simp [compound]⟩
  · exact ⟨fun _ => ⟨hname _ (by simp), by simp⟩, by simp, by simp, by simp, by simp, by simp, fun _ _ _ => by simp [LeafOK]⟩
  · refine ⟨fun _ => ⟨hname _ (by simp), by simp⟩, by simp, by simp, by simp, by simp, by simp, fun _ _ _ => ⟨by decide, ?_⟩⟩
    intro p c d q e _ _
    have hd : d ∈ ascii "a\"\n" := by rw [e]; simp
    have : ∀ d ∈ ascii "a\"\n", ¬ (48 ≤ d ∧ d ≤ 55) := by decide
    exact this d hd
  · exact ⟨fun _ => ⟨hname _ (by simp), by simp⟩, fun _ => ⟨_, rfl, by decide⟩, by simp, by simp, by simp, by simp, by simp⟩
  · exact ⟨fun _ => ⟨hname _ (by simp), by simp⟩, by simp, by simp, by simp [compound], by simp, fun _ _ _ => htype, by simp [compound]⟩
  · exact ⟨by simp, by simp, by simp, by simp [compound], by simp, by simp, by simp [compound]⟩
  · exact ⟨fun _ => ⟨hname _ (by simp), by simp⟩, by simp, by simp, by simp, by simp, by simp, fun _ _ _ => hname _ (by simp)⟩
  · refine ⟨fun _ => ⟨hname _ (by simp), by simp⟩, by simp, by simp, by simp, by simp, by simp, fun _ _ _ => .inr (.inl ?_)⟩
    exact ⟨ascii "1", ascii ".5", ascii "e-3", by decide, by decide, by unfold Digit; decide, by decide,
      .inr ⟨ascii "5", by decide, by unfold Digit; decide⟩, .inr ⟨101, [45], ascii "3", by decide, .inl rfl, .inr (.inl rfl), by decide, by unfold Digit; decide⟩⟩
  · exact ⟨fun _ => ⟨hname _ (by simp), by simp⟩, by simp, by simp, by simp, by simp, by simp, fun _ _ _ => by simp [LeafOK]⟩
  · exact ⟨fun _ => ⟨hname _ (by simp), by simp⟩, by simp, by simp, by simp, by simp, by simp, by simp⟩

example : ∀ (x y : Nat) (px py : Pd), x ∈ 1 :: kids.nodes → y ∈ 1 :: kids.nodes → ra[x]? = some px → ra[y]? = some py → px.refd = true → py.refd = true →
    px.idx = py.idx → x = y := by
  intro x y px py hx hy hpx hpy h1 h2 _
  have key : ∀ (x : Nat) (px : Pd), x ∈ 1 :: kids.nodes → ra[x]? = some px → px.refd = true → x = 1 := by
    intro x px hx hp hr
    simp only [kids, Forest.nodes, List.cons_append, List.nil_append, List.mem_cons, List.not_mem_nil, or_false] at hx
    rcases hx with rfl | rfl | rfl | rfl | rfl | rfl | rfl | rfl | rfl | rfl <;> cases hp <;> first | rfl | cases hr
  rw [key x px hx hpx h1, key y py hy hpy h2]

/-- the document of the example -/
def doc : List Nat := ascii "/* ref_idx = 1 */ {\n  .n = -5,\n  .s = \"a\\\"\\n\",\n  .next = /* ref = 1 */ NULL,\n  .first = (struct pair[]){\n    {\n      .color = RED,\n      .x = 1.5e-3\n    }\n  },\n  .c = '\\'',\n  .p = NULL\n}\n"

example : cinitSave ra info = some doc := by decide +kernel

end Example

/-! ## documents that are not read back -/

theorem one_field {w : World} {toks : List (Tok K)} {t : Value.Tok K} (hi : ∀ s n, t ≠ .id s n) (rest : List (Tok K)) (s s' : St K) (r : List (Tok K))
    (he : toks = .lbrace :: .dot :: .e t :: rest) : ¬ Derives w .cinit s toks s' r := by
  subst he
  intro h
  cases h with
  | cinit _ h _ =>
    generalize hin : (.lbrace :: .dot :: .e t :: rest : List (Tok K)) = inp at h
    cases h with
    | attr => cases hin
    | cast => cases hin
    | plain h =>
      cases h with
      | compound h =>
        cases hin
        generalize hin : (.dot :: .e t :: rest : List (Tok K)) = inp at h
        have key : ∀ s1 s2 r, ¬ Derives w .item s1 (.dot :: .e t :: rest) s2 r := by
          intro s1 s2 r h
          generalize hin : (.dot :: .e t :: rest : List (Tok K)) = inp at h
          cases h with
          | element h => exact cinit_start h _ hin.symm
          | member => cases hin; exact hi _ _ rfl
        cases h with
        | noItem => cases hin
        | lastItem h => rw [← hin] at h; exact key _ _ _ h
        | items h => rw [← hin] at h; exact key _ _ _ h
      | @expr _ _ u _ _ _ _ hp =>
        cases u with
        | nil => exact no_expr hp rfl
        | cons a u => cases hin
      | scalar hs => cases hin; simp [Cinit.scalar] at hs

/-- A structure with a field `i`, `{ .i = 5 }` -/
def fieldRa : List Pd := [{}, { ty := .struct, firstChild := 2, idx := 1 }, { ty := .int32, parent := 1, idx := 2 }]
def fieldInfo : List Info := [{}, {}, { name := ascii "i", unnamed := false, leaf := .int 5 }]

/-- A field that is called `i` (or `I`, `nan`, `inf`, `true`, …) is written, but the document cannot be read: the
scanner takes the name for the imaginary unit (src/cinit_load.l:64), where the grammar expects an identifier
(src/cinit_load.y:250). -/
theorem C57_deviation_field_named_i :
    ∃ text, cinitSave fieldRa fieldInfo = some text ∧ text = ascii "{\n  .i = 5\n}\n" ∧ ∀ w ptrs (data : List (Loaded K)), ¬ Loads w text ptrs data := by
  have hsave : cinitSave fieldRa fieldInfo = some (ascii "{\n  .i = 5\n}\n") := by decide +kernel
  refine ⟨_, hsave, rfl, ?_⟩
  rintro w ptrs data ⟨toks, s, h1, h2, _, _⟩
  have hw : ∀ c t, ([105] : List Nat) = c :: t → Lemmas.CinitLex.Plain c := by
    intro c t e; cases e; unfold Lemmas.CinitLex.Plain; decide
  have hends : Lemmas.CinitLex.Ends [32, 61, 32, 53, 10, 125, 10] := by
    intro c t e; cases e; rw [Lemmas.CinitLex.word_iff]; omega
  have hends' : Lemmas.CinitLex.Ends [10, 125, 10] := by
    intro c t e; cases e; rw [Lemmas.CinitLex.word_iff]; omega
  have l0 : lex K [10, 125, 10] = some [.rbrace] := Lemmas.CinitLex.lex_space rfl (Lemmas.CinitLex.lex_rbrace (Lemmas.CinitLex.lex_space rfl rfl))
  have l1 : lex K [53, 10, 125, 10] = some [.e (.num (.int (BitVec.ofNat 128 5))), .rbrace] := by
    have := Lemmas.CinitLex.lex_nat (K := K) (n := 5) (by omega) hends' l0
    have e : (Lemmas.Decimal.natDigits 5).map (· + 48) = [53] := by rw [Lemmas.Decimal.natDigits_lt (by omega)]; rfl
    rw [e] at this
    exact this
  have l2 : lex K ([105] ++ [32, 61, 32, 53, 10, 125, 10]) = _ :=
    Lemmas.CinitLex.lex_literal (k := 6) (by decide +kernel) (by decide) (by decide) hw hends
      (Lemmas.CinitLex.lex_space rfl (Lemmas.CinitLex.lex_assign (Lemmas.CinitLex.lex_space rfl l1)))
  have l3 : lex K [123, 10, 32, 32, 46, 105, 32, 61, 32, 53, 10, 125, 10] = _ :=
    Lemmas.CinitLex.lex_lbrace (Lemmas.CinitLex.lex_space rfl (Lemmas.CinitLex.lex_space rfl (Lemmas.CinitLex.lex_space rfl (Lemmas.CinitLex.lex_dot l2))))
  have e : ascii "{\n  .i = 5\n}\n" = [123, 10, 32, 32, 46, 105, 32, 61, 32, 53, 10, 125, 10] := by decide
  rw [e, l3] at h1
  cases h1
  exact one_field (fun _ _ => by intro h; cases h) _ _ _ _ rfl h2

/-- The smallest 128-bit integer is written, but to read it back 2^127 is negated in `__int128`, which overflows
(src/mr_value.c:405–431 `mr_value_neg`): the behaviour of the reader is undefined. -/
theorem C57_deviation_smallest_integer :
    ∃ text, cinitSave [{}, { ty := .int128, idx := 1 }] [{}, { leaf := .int128 (BitVec.intMin 128) }] = some text ∧
      text = ascii "-170141183460469231731687303715884105728\n" ∧
      lex K text = some [.e (.op .sub), .e (.num (.int (BitVec.ofNat 128 (2 ^ 127))))] ∧
      ∀ env, Value.parse K env [.op .sub, .num (.int (BitVec.ofNat 128 (2 ^ 127)))] none [] = none := by
  have hsave : cinitSave [{}, { ty := .int128, idx := 1 }] [{}, { leaf := .int128 (BitVec.intMin 128) }] =
      some (ascii "-170141183460469231731687303715884105728\n") := by decide +kernel
  refine ⟨_, hsave, rfl, ?_, ?_⟩
  · have l0 : lex K [10] = some [] := Lemmas.CinitLex.lex_space rfl rfl
    have hends : Lemmas.CinitLex.Ends [10] := by
      intro c t e; cases e; rw [Lemmas.CinitLex.word_iff]; omega
    have l1 := Lemmas.CinitLex.lex_nat (K := K) (n := 2 ^ 127) (by omega) hends l0
    have e : (Lemmas.Decimal.natDigits (2 ^ 127)).map (· + 48) ++ [10] = 49 :: (ascii "70141183460469231731687303715884105728\n") := by
      have h1 := Lemmas.Decimal.printUint128_eq (List.replicate Decimal.bufSize 0) (by simp) (BitVec.intMin 128)
      have h2 : Decimal.printUint128 (List.replicate Decimal.bufSize 0) (BitVec.intMin 128) = some (ascii "170141183460469231731687303715884105728") := by decide +kernel
      have h3 : (BitVec.intMin 128).toNat = 2 ^ 127 := by decide +kernel
      rw [h2, h3] at h1
      rw [← Option.some.inj h1]
      decide
    rw [e] at l1
    have e2 : ascii "-170141183460469231731687303715884105728\n" = 45 :: 49 :: (ascii "70141183460469231731687303715884105728\n") := by decide
    rw [e2]
    exact Lemmas.CinitLex.lex_minus (by unfold Digit; omega) l1
  · intro env
    have ht : (BitVec.ofNat 128 (2 ^ 127)).toInt = -(2 ^ 127 : Int) := by decide +kernel
    have hs : Value.signed (- -(2 ^ 127 : Int)) = none := by decide +kernel
    simp only [Value.parse, Value.reduce, Value.negAction, Value.neg, ht, hs, Option.bind_eq_bind, Option.bind_none]

/-- An enumeration constant that is called `TRUE` (or `I`, `nan`, …) is written by its name, which is read as the
number 1 and not as the name of the constant (src/cinit_load.l:62). -/
theorem C57_deviation_constant_named_true :
    ∃ text, cinitSave [{}, { ty := .enum, idx := 1 }] [{}, { leaf := .plain (ascii "TRUE") }] = some text ∧ text = ascii "TRUE\n" ∧
      ∀ w, ∃ ptrs, ∃ data : List (Loaded K), Loads w text ptrs data ∧ ∃ y, data[1]? = some y ∧ y.value = some (.int 1#128) := by
  have hsave : cinitSave [{}, { ty := .enum, idx := 1 }] [{}, { leaf := .plain (ascii "TRUE") }] = some (ascii "TRUE\n") := by decide +kernel
  refine ⟨_, hsave, rfl, ?_⟩
  have hw : ∀ c t, ascii "TRUE" = c :: t → Lemmas.CinitLex.Plain c := by
    intro c t e
    have : ascii "TRUE" = [84, 82, 85, 69] := by decide
    rw [this] at e
    cases e; unfold Lemmas.CinitLex.Plain; decide
  have hends : Lemmas.CinitLex.Ends [10] := by
    intro c t e; cases e; rw [Lemmas.CinitLex.word_iff]; omega
  have l : lex K (ascii "TRUE" ++ [10]) = _ :=
    Lemmas.CinitLex.lex_literal (k := 5) (by decide +kernel) (by decide) (by decide) hw hends (Lemmas.CinitLex.lex_space rfl rfl)
  have e : ascii "TRUE\n" = ascii "TRUE" ++ [10] := by decide
  intro w
  have hwf : DF.WF w (.cons (⟨none, none, none, none, none, .expr [.num (.int 1#128)] (.int 1#128)⟩ : El K) .nil .nil) :=
    ⟨⟨(fun p h => by cases h), (fun t h => by cases h), rfl, rfl⟩, (fun _ => rfl), rfl, trivial, trivial⟩
  obtain ⟨lc, hd⟩ := build_root w _ _ rfl hwf
  exact ⟨_, _, ⟨_, _, e ▸ l, hd, rfl, rfl⟩, _, rfl, rfl⟩

end Verif.Props.Cinit
