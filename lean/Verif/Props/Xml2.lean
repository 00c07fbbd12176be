import Verif.Lemmas.Xml2Save
import Verif.Props.Dfs
/-!
# C61: trees of libxml2

`xml2Save decode ra info` are the element nodes made for the nodes `ra` with the values `info`; `load known h fuel start n`
is what is read from the element `n`.  Spec/Xml2.lean says what has to be read back and what is expected of libxml2.
-/
namespace Verif.Props.Xml2
open Verif.Model Verif.Model.Ptrs Verif.Model.Xml2 Verif.Spec Verif.Spec.Ptrs Verif.Spec.Xml2 Verif.Lemmas.Xml2Load Verif.Lemmas.Xml2Save
open Verif.Model.Json (Leaf Info)
open Verif.Model.Xml1 (Loaded)

theorem saveNode_keeps (decode : List Nat → List Nat) (info : List Info) : KeepsLinks (saveNode decode info) := by
  intro s i l o ok s' h
  unfold saveNode at h
  cases o with
  | post => simp at h; rw [← h.2]
  | pre =>
    simp only at h
    obtain ⟨pd, _, h⟩ := Option.bind_eq_some_iff.1 h
    obtain ⟨x, _, h⟩ := Option.bind_eq_some_iff.1 h
    by_cases hp : pd.parent = 0
    · simp [hp] at h
      rw [← h.2]
    · simp [hp] at h
      obtain ⟨_, _, h⟩ := Option.bind_eq_some_iff.1 h
      simp at h
      rw [← h.2]

/-- **C61.** Every tree of nodes that can be written is written without error, and reading the elements leaves the same
tree: one node for every node, created in document order, below the same parent in the same order, with the same name,
the same marks of references and of their targets, the same public indices, NULL mark and value. -/
theorem C61_read_back (decode : List Nat → List Nat) (hdec : Decodes decode) (known : List Nat → Bool) (ra : List Pd) (info : List Info) (k : Forest)
    (h : Rep ra 0 1 (.cons 1 k .nil)) (hn : (1 :: k.nodes).Nodup) (hw : Writable known ra info (1 :: k.nodes)) :
    ∃ heap s bound, xml2Save decode ra info = some heap ∧
      (∀ fuel, bound ≤ fuel → load known heap fuel start 1 = some (some (s, 1))) ∧
      s.ptrs.ra.length = 1 + (1 :: k.nodes).length ∧ s.data.length = 1 + (1 :: k.nodes).length ∧
      Rep s.ptrs.ra 0 1 (Ptrs.number 1 (.cons 1 k .nil)) ∧
      ∀ (j i : Nat), (1 :: k.nodes)[j]? = some i → ∃ pd x q y, ra[i]? = some pd ∧ info[i]? = some x ∧
        s.ptrs.ra[j + 1]? = some q ∧ s.data[j + 1]? = some y ∧ SameNode ra pd x q y := by
  have hnodes : (Forest.cons 1 k .nil).nodes = 1 :: k.nodes := by simp [Forest.nodes]
  have hthere : ∀ (f : Forest) (par head : Nat), Rep ra par head f → ∀ i ∈ f.nodes, ∃ pd, ra[i]? = some pd := by
    intro f
    induction f with
    | nil => intro _ _ _ i hi; simp [Forest.nodes] at hi
    | cons m k s ih1 ih2 =>
      rintro par head ⟨_, _, pd, hpd, _, hk, hs⟩ i hi
      simp only [Forest.nodes, List.mem_cons, List.mem_append] at hi
      rcases hi with rfl | hi | hi
      · exact ⟨pd, hpd⟩
      · exact ih1 _ _ hk i hi
      · exact ih2 _ _ hs i hi
  have hpdAll := hthere _ _ _ h
  rw [hnodes] at hpdAll
  have hnew : ∀ i ∈ (Forest.cons 1 k .nil).nodes, (newNode decode ra info i).isSome := by
    rw [hnodes]
    intro i hi
    obtain ⟨pd, hpd⟩ := hpdAll i hi
    obtain ⟨x, hx, hok, _⟩ := hw i hi pd hpd
    obtain ⟨e, he, _⟩ := node_ok hdec hpd hx hok
    rw [he]; rfl
  have h0 : 0 ∉ (Forest.cons 1 k .nil).nodes := by
    have : ∀ (f : Forest) (par head : Nat), Rep ra par head f → 0 ∉ f.nodes := by
      intro f
      induction f with
      | nil => intro _ _ _; simp [Forest.nodes]
      | cons m k s ih1 ih2 =>
        rintro par head ⟨_, hm, pd, _, _, hk, hs⟩ hi
        simp only [Forest.nodes, List.mem_cons, List.mem_append] at hi
        rcases hi with rfl | hi | hi
        · exact hm rfl
        · exact ih1 _ _ hk hi
        · exact ih2 _ _ hs hi
    exact this _ _ _ h
  obtain ⟨heap, hcall, _, _, hmem⟩ := save_forest decode ra info (.cons 1 k .nil) 0 1 (fun _ => none) 0 [] h (by rw [hnodes]; exact hn) hnew h0 (fun e => absurd rfl e)
  have hsave : xml2Save decode ra info = some heap := by
    unfold xml2Save
    rw [Props.Dfs.C28_from_root _ (saveNode_keeps decode info) _ _ _ _ h hn]
    rw [List.append_nil] at hcall
    rw [hcall]
    rfl
  have hok := tree_ok hdec known ra info (.cons 1 k .nil) 0 1 h (by rw [hnodes]; exact hw)
  have hshape := tree_shape decode ra info (.cons 1 k .nil)
  have hget := tree_nodes decode ra info (.cons 1 k .nil)
  rw [tree] at hok hshape hget hmem
  have hlen : (tree decode ra info (.cons 1 k .nil)).shape.nodes.length = (1 :: k.nodes).length := by
    have := congrArg (fun f : Forest => f.nodes.length) (tree_shape decode ra info (.cons 1 k .nil) 1)
    simpa [Lemmas.TopDown.number_nodes, hnodes] using this
  rw [tree] at hlen
  refine ⟨heap, ⟨⟨{} :: canon 0 1 (tree decode ra info (.cons 1 k .nil)), lastLc 0 2 (tree decode ra info k)⟩, {} :: (tree decode ra info (.cons 1 k .nil)).nodes.map loaded⟩,
    depth (tree decode ra info k) + 1, hsave, fun fuel hf => ?_, ?_, ?_, ?_, fun j i hj => ?_⟩
  · obtain ⟨fuel, rfl⟩ : ∃ f, fuel = f + 1 := ⟨fuel - 1, by omega⟩
    exact (root_eq known heap 1 _ (tree decode ra info k) fuel hmem (by omega)).trans (if_pos hok)
  · show ([({} : Pd)] ++ canon 0 1 (tree decode ra info (.cons 1 k .nil))).length = _
    rw [List.length_append, canon_length, tree, hlen]
    rfl
  · show ([({} : Loaded)] ++ (tree decode ra info (.cons 1 k .nil)).nodes.map loaded).length = _
    rw [List.length_append, List.length_map, nodes_length, tree, hlen]
    rfl
  · have := canon_rep known _ [{}] [] 0 hok (by simp)
    rw [List.append_nil] at this
    rw [if_neg (by simp [Tree.shape])] at this
    simp only [List.length_cons, List.length_nil, Nat.zero_add, hshape] at this
    exact this
  · have hi : i ∈ 1 :: k.nodes := List.mem_of_getElem? hj
    obtain ⟨pd, hpd⟩ := hpdAll i hi
    obtain ⟨x, hx, hnok, _⟩ := hw i hi pd hpd
    obtain ⟨e, he, _, hall⟩ := node_ok hdec hpd hx hnok
    obtain ⟨l, hl⟩ := hget j i (by rw [hnodes]; exact hj)
    rw [he, Option.getD_some] at hl
    obtain ⟨a, ha, hr1, hr2, hsame⟩ := hall l
    obtain ⟨q, hq, q1, q2, q3, q4, q5⟩ := canon_get known _ 0 1 j _ hok hl
    rw [A_eq ha] at q1 q2 q3 q4 q5
    refine ⟨pd, x, q, loaded { e with kids := l }, hpd, hx, hq, ?_, ?_⟩
    · show (({} : Loaded) :: (tree decode ra info (.cons 1 k .nil)).nodes.map loaded)[j + 1]? = _
      rw [List.getElem?_cons_succ, List.getElem?_map, tree, hl]
      rfl
    · refine { hsame with ref := by rw [q1, hsame.ref], cref := by rw [q2, hsame.cref], refd := by rw [q3, hsame.refd], idx := by rw [q4, hsame.idx], target := fun hr => ?_ }
      obtain ⟨t, h1, h2⟩ := hsame.target hr
      refine ⟨t, h1, ?_⟩
      rw [q5 (by unfold isRef; rw [A_eq ha, hr1, hr2]; exact hr), h2]

/-- **C61.** If the targets of references are marked and no two marked nodes have the same public index (as `mr_save`
leaves them), a reference read back leads to the node that was read for its target and to no other: sharing and
cycles are kept. -/
theorem C61_references (decode : List Nat → List Nat) (hdec : Decodes decode) (known : List Nat → Bool) (ra : List Pd) (info : List Info) (k : Forest)
    (h : Rep ra 0 1 (.cons 1 k .nil)) (hn : (1 :: k.nodes).Nodup) (hw : Writable known ra info (1 :: k.nodes))
    (hids : ∀ (x y : Nat) (px py : Pd), x ∈ 1 :: k.nodes → y ∈ 1 :: k.nodes → ra[x]? = some px → ra[y]? = some py → px.refd = true → py.refd = true →
      px.idx = py.idx → x = y)
    (heap : Heap) (hh : xml2Save decode ra info = some heap) (s : St) (r bound : Nat) (hl : ∀ fuel, bound ≤ fuel → load known heap fuel start 1 = some (some (s, r)))
    (i j t u : Nat) (pd tp : Pd) (hi : (1 :: k.nodes)[i]? = some j) (hj : ra[j]? = some pd) (hr : (pd.ref || pd.cref) = true)
    (hu : (1 :: k.nodes)[u]? = some t) (htg : pd.firstChild = t) (htp : ra[t]? = some tp) (hm : tp.refd = true) :
    ∃ q : Pd, s.ptrs.ra[i + 1]? = some q ∧ q.ref = pd.ref ∧ q.cref = pd.cref ∧
      ∀ (v : Nat) (z : Pd), v < (1 :: k.nodes).length → s.ptrs.ra[v + 1]? = some z → ((z.refd = true ∧ z.idx = q.firstChild) ↔ v = u) := by
  obtain ⟨heap', s', bound', h1, h2, _, _, _, h6⟩ := C61_read_back decode hdec known ra info k h hn hw
  rw [hh] at h1; cases h1
  have h3 := hl (max bound bound') (Nat.le_max_left _ _)
  rw [h2 _ (Nat.le_max_right _ _)] at h3
  cases h3
  obtain ⟨pd', x, q, y, a1, a2, a3, a4, a5⟩ := h6 i j hi
  rw [hj] at a1; cases a1
  obtain ⟨tp', b1, b2⟩ := a5.target hr
  rw [htg, htp] at b1; cases b1
  refine ⟨q, a3, a5.ref, a5.cref, fun v z hv hz => ?_⟩
  obtain ⟨w, hwv⟩ : ∃ w, (1 :: k.nodes)[v]? = some w := ⟨_, List.getElem?_eq_getElem hv⟩
  obtain ⟨pw, xw, qw, yw, c1, c2, c3, c4, c5⟩ := h6 v w hwv
  rw [hz] at c3; cases c3
  rw [c5.refd, c5.idx, b2]
  constructor
  · rintro ⟨d1, d2⟩
    rw [if_pos d1] at d2
    have := hids w t pw tp (List.mem_of_getElem? hwv) (List.mem_of_getElem? hu) c1 htp d1 hm d2
    subst this
    exact (List.getElem?_inj hv hn).1 (hwv.trans hu.symm)
  · rintro rfl
    rw [hwv] at hu
    cases hu
    rw [c1] at htp; cases htp
    simp [hm]

/-- **C61.** Whatever tree of elements libxml2 hands over, with any names, properties and texts, the reader neither runs
on forever nor touches anything outside of its array.  It refuses the tree, or it leaves one node for every element, in
document order, linked as the elements are, each with the name of the element and the text found in it.  Below a
reference there is nothing. -/
theorem C61_any_tree (known : List Nat → Bool) (h : Heap) (i : Nat) (x : XNode) (k : Tree) (hm : InMemory h [i] (.cons x k .nil)) :
    ∃ bound, (∀ fuel, bound ≤ fuel → load known h fuel start i = some none) ∨
      ∃ s, (∀ fuel, bound ≤ fuel → load known h fuel start i = some (some (s, 1))) ∧
        s.ptrs.ra.length = 1 + (x :: k.nodes).length ∧ s.data.length = 1 + (x :: k.nodes).length ∧
        Rep s.ptrs.ra 0 1 (Ptrs.number 1 (Tree.cons x k .nil).shape) ∧
        ∀ (j : Nat) (y : XNode), (x :: k.nodes)[j]? = some y → known y.name = true ∧ ∃ d, s.data[j + 1]? = some d ∧
          d.name = some y.name ∧ d.text = some (y.text.getD []) := by
  refine ⟨depth k + 1, ?_⟩
  have hall : ∀ fuel, depth k + 1 ≤ fuel → load known h fuel start i = _ := fun fuel hf => by
    obtain ⟨fuel, rfl⟩ : ∃ f, fuel = f + 1 := ⟨fuel - 1, by omega⟩
    exact root_eq known h i x k fuel hm (by omega)
  have hnodes : (Tree.cons x k .nil).nodes = x :: k.nodes := by simp [Tree.nodes]
  cases hok : ok known (.cons x k .nil) with
  | false => exact .inl fun fuel hf => by rw [hall fuel hf, hok]; rfl
  | true =>
    refine .inr ⟨_, fun fuel hf => by rw [hall fuel hf, hok]; rfl, ?_, ?_, ?_, fun j y hj => ?_⟩
    · show ([({} : Pd)] ++ canon 0 1 (.cons x k .nil)).length = _
      rw [List.length_append, canon_length, ← nodes_length, hnodes]
      rfl
    · show ([({} : Loaded)] ++ (Tree.cons x k .nil).nodes.map loaded).length = _
      rw [List.length_append, List.length_map, hnodes]
      rfl
    · have := canon_rep known (.cons x k .nil) [{}] [] 0 hok (by simp)
      rw [List.append_nil, if_neg (by simp [Tree.shape])] at this
      exact this
    · refine ⟨?_, loaded y, ?_, rfl, rfl⟩
      · have : ∀ D : Tree, ok known D = true → ∀ y ∈ D.nodes, known y.name = true := by
          intro D
          induction D with
          | nil => intro _ y hy; simp [Tree.nodes] at hy
          | cons e k s ih1 ih2 =>
            intro ho y hy
            simp only [ok, Bool.and_eq_true] at ho
            simp only [Tree.nodes, List.mem_cons, List.mem_append] at hy
            rcases hy with rfl | hy | hy
            · exact ho.1.1.1.2
            · exact ih1 ho.1.2 y hy
            · exact ih2 ho.2 y hy
        exact this _ hok y (by rw [hnodes]; exact List.mem_of_getElem? hj)
      · show (({} : Loaded) :: (Tree.cons x k .nil).nodes.map loaded)[j + 1]? = _
        rw [List.getElem?_cons_succ, List.getElem?_map, hnodes, hj]
        rfl

/-! ## non-vacuity -/

namespace Example

/-- the text of character data, as far as it is used -/
def decode : List Nat → List Nat
  | 38 :: 108 :: 116 :: 59 :: t => 60 :: decode t
  | 38 :: 103 :: 116 :: 59 :: t => 62 :: decode t
  | 38 :: 97 :: 109 :: 112 :: 59 :: t => 38 :: decode t
  | 38 :: 113 :: 117 :: 111 :: 116 :: 59 :: t => 34 :: decode t
  | 38 :: 35 :: 120 :: a :: b :: 59 :: t =>
    (16 * (if a < 58 then a - 48 else a - 55) + (if b < 58 then b - 48 else b - 55)) :: decode t
  | c :: t => c :: decode t
  | [] => []

example : Decodes decode := by
  intro t s h
  induction h with
  | nil => rfl
  | plain c t s _ _ h _ _ ih =>
    rw [decode.eq_6 c t (by simp_all) (by simp_all) (by simp_all) (by simp_all) (by simp_all), ih]
  | lt t s _ ih => rw [show ascii "&lt;" ++ t = 38 :: 108 :: 116 :: 59 :: t from rfl, decode, ih]
  | gt t s _ ih => rw [show ascii "&gt;" ++ t = 38 :: 103 :: 116 :: 59 :: t from rfl, decode, ih]
  | amp t s _ ih => rw [show ascii "&amp;" ++ t = 38 :: 97 :: 109 :: 112 :: 59 :: t from rfl, decode, ih]
  | quot t s _ ih => rw [show ascii "&quot;" ++ t = 38 :: 113 :: 117 :: 111 :: 116 :: 59 :: t from rfl, decode, ih]
  | code a b da db t s ha hb _ _ _ ih =>
    rw [show ascii "&#x" ++ (a :: b :: ascii ";") ++ t = 38 :: 35 :: 120 :: a :: b :: 59 :: t from rfl, decode, ih]
    congr 3
    · rcases ha with ⟨h1, rfl⟩ | ⟨h1, h2, rfl⟩
      · rw [if_pos (by omega)]; omega
      · rw [if_neg (by omega)]; omega
    · rcases hb with ⟨h1, rfl⟩ | ⟨h1, h2, rfl⟩
      · rw [if_pos (by omega)]; omega
      · rw [if_neg (by omega)]; omega

/-- `struct { int n; char * s; list * next; int a[2]; void * p; }` where `next` refers to the structure; the public
index of the structure is so large that it is printed as a negative number -/
def ra : List Pd :=
  [ {},
    { ty := .struct, parent := 0, firstChild := 2, idx := 4294967295, refd := true },
    { ty := .int32, parent := 1, next := 3, idx := 2 },
    { ty := .string, parent := 1, next := 4, idx := 3 },
    { ty := .pointer, parent := 1, next := 5, idx := 4, ref := true, firstChild := 1 },
    { ty := .array, parent := 1, firstChild := 6, next := 8, idx := 5 },
    { ty := .int32, parent := 5, next := 7, idx := 6 },
    { ty := .bool, parent := 5, idx := 7 },
    { ty := .pointer, parent := 1, idx := 8 } ]

def info : List Info :=
  [ {},
    { name := ascii "list" },
    { name := ascii "n", leaf := .int (-5) },
    { name := ascii "s", leaf := .text (ascii "a<b\n") },
    { name := ascii "next" },
    { name := ascii "a" },
    { name := ascii "a", leaf := .int 7 },
    { name := ascii "a", leaf := .bool true },
    { name := ascii "p", null := true } ]

def kids : Forest := .cons 2 .nil (.cons 3 .nil (.cons 4 .nil (.cons 5 (.cons 6 .nil (.cons 7 .nil .nil)) (.cons 8 .nil .nil))))

example : Rep ra 0 1 (.cons 1 kids .nil) := by simp [Rep, ra, kids, kidsHead]
example : (1 :: kids.nodes).Nodup := by decide

example : Writable (fun _ => true) ra info (1 :: kids.nodes) := by
  intro i hi pd hpd
  simp only [kids, Forest.nodes, List.cons_append, List.nil_append, List.mem_cons, List.not_mem_nil, or_false] at hi
  rcases hi with rfl | rfl | rfl | rfl | rfl | rfl | rfl | rfl <;> cases hpd <;> refine ⟨_, rfl, ?_, rfl⟩
  · exact ⟨by simp, by simp, by simp [Spec.Xml1.valued, structLike]⟩
  · exact ⟨by simp, by simp, fun _ _ _ => by simp [LeafOK]⟩
  · exact ⟨by simp, by simp, fun _ _ _ => by unfold LeafOK; decide⟩
  · exact ⟨fun _ => ⟨_, rfl, by decide⟩, by simp, by simp⟩
  · exact ⟨by simp, by simp, by simp [Spec.Xml1.valued]⟩
  · exact ⟨by simp, by simp, fun _ _ _ => by simp [LeafOK]⟩
  · exact ⟨by simp, by simp, fun _ _ _ => by simp [LeafOK]⟩
  · exact ⟨by simp, by simp, by simp⟩

/-- the elements of the example -/
example : (xml2Save decode ra info).map (fun h => [h 1, h 3, h 4, h 8]) = some
    [ some { name := ascii "list", props := [(ascii "ref_idx", ascii "-1")], kids := [2, 3, 4, 5, 8] },
      some { name := ascii "s", text := some (ascii "a<b\n") },
      some { name := ascii "next", props := [(ascii "ref", ascii "-1")] },
      some { name := ascii "p", props := [(ascii "isnull", ascii "true")] } ] := by decide +kernel

/-- the reader finds them -/
example : ((xml2Save decode ra info).bind fun h => load (fun _ => true) h 3 start 1).map (Option.map fun r => (r.1.ptrs.ra.map linkPart, r.2)) =
    some (some ([(0, 0, 0), (0, 2, 0), (1, 0, 3), (1, 0, 4), (1, 0, 5), (1, 6, 8), (5, 0, 7), (5, 0, 0), (1, 0, 0)], 1)) := by decide +kernel

/-- a reference that has children is refused -/
example : load (fun _ => true) (fun i => if i = 7 then some { name := ascii "a", props := [(ascii "ref", ascii "99999")], kids := [9] }
    else some { name := ascii "b" }) 3 start 7 = some none := by decide +kernel

end Example

end Verif.Props.Xml2
