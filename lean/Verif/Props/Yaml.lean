import Verif.Lemmas.YamlPrint
import Verif.Lemmas.YamlMissed
import Verif.Lemmas.YamlSafe
import Verif.Props.Dfs
/-!
# C59, C60: YAML documents

`yamlSave utf8 ra info` are the events given to libyaml's emitter for the nodes `ra` with the values `info`; `yamlLoad
known events` are the nodes left by the reader, which gets the same events from libyaml's parser.  `utf8` are the texts
libyaml accepts, `known` the names of fields the reader knows.  Spec/Yaml.lean says what has to be read back.
-/
namespace Verif.Props.Yaml
open Verif.Model Verif.Model.Ptrs Verif.Model.Yaml Verif.Spec Verif.Spec.Yaml Verif.Lemmas.YamlLoad Verif.Lemmas.YamlPrint Verif.Lemmas.YamlMissed
open Verif.Spec.Ptrs hiding run
open Verif.Model.Scm (Leaf Info isRef)

theorem printNode_keeps (utf8 : List Nat → Bool) (info : List Info) : KeepsLinks (printNode utf8 info) := by
  intro s i l o ok s' h
  unfold printNode at h
  obtain ⟨_, _, h⟩ := Option.bind_eq_some_iff.1 h
  obtain ⟨_, _, h⟩ := Option.bind_eq_some_iff.1 h
  cases o <;> (obtain ⟨_, _, h⟩ := Option.bind_eq_some_iff.1 h; cases h; rfl)

/-- the kinds of nodes -/
theorem body_cases {ra : List Pd} {pd : Pd} {x : Info} {e : El} (h : Same ra pd x e) (hb : ¬ (pd.ref = true ∧ pd.cref = true)) :
    (pd.ref = true ∧ pd.cref = false ∧ Alias pd x ∧ e.body = .ref (tgt ra pd)) ∨ (pd.ref = false ∧ pd.cref = true ∧ Alias pd x ∧ e.body = .cref (tgt ra pd)) ∨
    (pd.ref = false ∧ pd.cref = false ∧ x.null = true ∧ Alias pd x ∧ e.body = .null) ∨
    (pd.ref = false ∧ pd.cref = false ∧ x.null = false ∧ ¬ Alias pd x ∧
      ((e.body = .map ∧ mapping pd.ty = true) ∨ (e.body = .seq ∧ sequence pd.ty = true) ∨
        (∃ t, e.body = .scalar t ∧ mapping pd.ty = false ∧ sequence pd.ty = false ∧ ReadAs x.leaf t))) := by
  cases h1 : pd.ref with
  | true =>
    have h2 : pd.cref = false := by cases h2 : pd.cref with | false => rfl | true => exact absurd ⟨h1, h2⟩ hb
    exact .inl ⟨rfl, h2, .inl (by simp [h1]), h.ref h1⟩
  | false =>
    cases h2 : pd.cref with
    | true => exact .inr (.inl ⟨rfl, rfl, .inl (by simp [h2]), h.cref h2⟩)
    | false =>
      cases h3 : x.null with
      | true => exact .inr (.inr (.inl ⟨rfl, rfl, rfl, .inr h3, h.null (by simp [h1, h2]) h3⟩))
      | false =>
        have hA : ¬ Alias pd x := by
          rintro (k | k)
          · simp [h1, h2] at k
          · rw [h3] at k; cases k
        refine .inr (.inr (.inr ⟨rfl, rfl, rfl, hA, ?_⟩))
        cases hm : mapping pd.ty with
        | true => exact .inl ⟨h.map hA hm, rfl⟩
        | false =>
          cases hs : sequence pd.ty with
          | true => exact .inr (.inl ⟨h.seq hA hs, rfl⟩)
          | false =>
            obtain ⟨t, ht, hr⟩ := h.leaf hA hm hs
            exact .inr (.inr ⟨t, ht, rfl, rfl, hr⟩)

/-- what is created for a node, before the marks are completed -/
structure Pre (ra : List Pd) (pd : Pd) (x : Info) (q : Pd) (y : Loaded) : Prop where
  name : y.name = if nameless pd x then none else some x.name
  ref : q.ref = pd.ref
  cref : q.cref = pd.cref
  target : (pd.ref || pd.cref) = true → q.firstChild = tgt ra pd
  alias : Alias pd x → q.refd = false ∧ q.idx = 0
  plain : ¬ Alias pd x → q.refd = pd.refd ∧ q.idx = if pd.refd then pd.idx else 0
  null : y.null = (x.null && !(pd.ref || pd.cref))
  compound : Alias pd x ∨ mapping pd.ty = true ∨ sequence pd.ty = true → y.value = none
  leaf : ¬ Alias pd x → mapping pd.ty = false → sequence pd.ty = false → ∃ t, y.value = some t ∧ ReadAs x.leaf t

theorem pre_of_same {ra : List Pd} {pd : Pd} {x : Info} {e : El} (h : Same ra pd x e) (hb : ¬ (pd.ref = true ∧ pd.cref = true)) {q : Pd} {p : Nat}
    (h1 : q.ref = (e.pd p).ref) (h2 : q.cref = (e.pd p).cref) (h3 : q.refd = (e.pd p).refd) (h4 : q.idx = (e.pd p).idx)
    (h5 : e.isRef = true → q.firstChild = (e.pd p).firstChild) : Pre ra pd x q e.data := by
  rcases body_cases h hb with ⟨r1, r2, hA, hB⟩ | ⟨r1, r2, hA, hB⟩ | ⟨r1, r2, hn, hA, hB⟩ | ⟨r1, r2, hn, hA, hB⟩
  · have h5 := h5 (by unfold El.isRef; rw [hB])
    simp only [El.pd, hB] at h1 h2 h3 h4 h5
    exact ⟨h.name, by rw [h1, r1], by rw [h2, r2], fun _ => h5, fun _ => ⟨h3, h4⟩, fun k => absurd hA k, by simp [El.data, hB, r1],
      fun _ => by simp [El.data, hB], fun k => absurd hA k⟩
  · have h5 := h5 (by unfold El.isRef; rw [hB])
    simp only [El.pd, hB] at h1 h2 h3 h4 h5
    exact ⟨h.name, by rw [h1, r1], by rw [h2, r2], fun _ => h5, fun _ => ⟨h3, h4⟩, fun k => absurd hA k, by simp [El.data, hB, r2],
      fun _ => by simp [El.data, hB], fun k => absurd hA k⟩
  · simp only [El.pd, hB] at h1 h2 h3 h4
    exact ⟨h.name, by rw [h1, r1], by rw [h2, r2], fun k => by simp [r1, r2] at k, fun _ => ⟨h3, h4⟩, fun k => absurd hA k, by simp [El.data, hB, r1, r2, hn],
      fun _ => by simp [El.data, hB], fun k => absurd hA k⟩
  · have hpl : q.ref = false ∧ q.cref = false ∧ q.refd = e.anchor.isSome ∧ q.idx = e.anchor.getD 0 ∧ e.data.null = false := by
      rcases hB with ⟨hB, _⟩ | ⟨hB, _⟩ | ⟨t, hB, _⟩ <;> simp only [El.pd, hB] at h1 h2 h3 h4 <;> exact ⟨h1, h2, h3, h4, by simp [El.data, hB]⟩
    obtain ⟨k1, k2, k3, k4, k5⟩ := hpl
    refine ⟨h.name, by rw [k1, r1], by rw [k2, r2], fun k => by simp [r1, r2] at k, fun k => absurd k hA, fun _ => ?_, by rw [k5, hn]; rfl, ?_, ?_⟩
    · rw [k3, k4, h.anchor]
      cases pd.refd <;> simp
    · rintro (k | k | k)
      · exact absurd k hA
      · rcases hB with ⟨hB, _⟩ | ⟨hB, _⟩ | ⟨t, hB, hm, _⟩
        · simp [El.data, hB]
        · simp [El.data, hB]
        · rw [hm] at k; cases k
      · rcases hB with ⟨hB, _⟩ | ⟨hB, _⟩ | ⟨t, hB, _, hs, _⟩
        · simp [El.data, hB]
        · simp [El.data, hB]
        · rw [hs] at k; cases k
    · intro _ hm hs
      rcases hB with ⟨_, k⟩ | ⟨_, k⟩ | ⟨t, hB, _, _, hr⟩
      · rw [hm] at k; cases k
      · rw [hs] at k; cases k
      · exact ⟨t, by simp [El.data, hB], hr⟩

/-- **C59.** Every tree of nodes that can be written and is numbered as `mr_save` does it is written without error, and
reading the events of the document leaves the same tree, without undefined behaviour: one node for every node of the
document, created in document order, below the same parent in the same order, with the same name (where it is written),
the same marks of references and of their targets (also of targets that are written as an alias and so have no anchor
in the document), the same public indices, NULL mark and text of the value. -/
theorem C59_read_back (utf8 known : List Nat → Bool) (ra : List Pd) (info : List Info) (k : Forest)
    (h : Rep ra 0 1 (.cons 1 k .nil)) (hn : (1 :: k.nodes).Nodup) (hw : Writable utf8 known ra info (1 :: k.nodes))
    (hnum : Numbered ra info (1 :: k.nodes)) :
    ∃ events ra' data, yamlSave utf8 ra info = some (some events) ∧ yamlLoad known events = some (some (ra', data)) ∧
      ra'.length = 1 + (1 :: k.nodes).length ∧ data.length = 1 + (1 :: k.nodes).length ∧
      Rep ra' 0 1 (Ptrs.number 1 (.cons 1 k .nil)) ∧
      ∀ (j i : Nat), (1 :: k.nodes)[j]? = some i → ∃ pd x q y, ra[i]? = some pd ∧ info[i]? = some x ∧
        ra'[j + 1]? = some q ∧ data[j + 1]? = some y ∧ SameNode ra pd x q y := by
  have hnodes : (Forest.cons 1 k .nil).nodes = 1 :: k.nodes := by simp [Forest.nodes]
  have hcount := hnum.count
  -- the place of a node
  have hplace : ∀ i ∈ 1 :: k.nodes, ∀ pd, ra[i]? = some pd → ∃ j, j < (1 :: k.nodes).length ∧ (1 :: k.nodes)[j]? = some i ∧ pd.idx = j + 1 := by
    intro i hi pd hpd
    obtain ⟨j, hj, he⟩ := List.mem_iff_getElem.1 hi
    have hj' : (1 :: k.nodes)[j]? = some i := by rw [List.getElem?_eq_getElem hj, he]
    exact ⟨j, hj, hj', hnum.idx j i pd hj' hpd⟩
  have htgt : ∀ i ∈ 1 :: k.nodes, ∀ pd, ra[i]? = some pd → (pd.ref || pd.cref) = true →
      ∃ u t, u < (1 :: k.nodes).length ∧ (1 :: k.nodes)[u]? = some pd.firstChild ∧ ra[pd.firstChild]? = some t ∧ t.idx = u + 1 ∧ t.refd = true ∧ tgt ra pd = u + 1 := by
    intro i hi pd hpd hr
    obtain ⟨h1, t, h2, h3⟩ := hnum.target i hi pd hpd hr
    obtain ⟨u, hu, hu', he⟩ := hplace _ h1 t h2
    exact ⟨u, t, hu, hu', h2, he, h3, by unfold tgt; rw [h2]; exact he⟩
  obtain ⟨D, hR, hcall⟩ := print_forest utf8 known ra info hw.empty (.cons 1 k .nil) 0 1 h (by rw [hnodes]; exact hw.node) (by
    rw [hnodes]
    intro i hi pd hpd
    refine ⟨?_, fun hr => ?_⟩
    · obtain ⟨j, hj, _, he⟩ := hplace i hi pd hpd
      omega
    · obtain ⟨u, t, hu, _, h2, he, _⟩ := htgt i hi pd hpd hr
      exact ⟨t, h2, by omega⟩) (.inl rfl)
  have hsave : yamlSave utf8 ra info = some (some (.streamStart :: .docStart :: (D.evs ++ [.docEnd, .streamEnd]))) := by
    unfold yamlSave
    rw [Props.Dfs.C28_from_root _ (printNode_keeps utf8 info) _ _ _ _ h hn]
    have := hcall 0 [.streamStart, .docStart] []
    rw [List.append_nil] at this
    rw [this]
    simp [callAll]
  have h1 : DF.WF known false D := hR.wf
  have h2 := hR.number
  have h4 := hR.length
  have hsame := hR.same
  obtain ⟨e, dk, rfl⟩ : ∃ e dk, D = .cons e dk .nil := by
    cases D with
    | nil => have := hR.length; simp [DF.shape, Forest.nodes] at this
    | cons e dk ds =>
      have := h2 1
      simp only [DF.shape, Ptrs.number] at this
      injection this with _ _ h'
      rw [shape_nil.1 (Lemmas.TopDown.number_nil.1 h')]
      exact ⟨e, dk, rfl⟩
  obtain ⟨lc, hrun⟩ := build_root known e dk h1
  generalize hD : DF.cons e dk .nil = D at *
  have hlen : (({} : Pd) :: canon 0 1 D).length = 1 + (1 :: k.nodes).length := by
    simp only [List.length_cons, canon_length, h4, hnodes]; omega
  -- the nodes before the marks are completed
  have hpre : ∀ (j i : Nat), (1 :: k.nodes)[j]? = some i → ∃ pd x q y, ra[i]? = some pd ∧ info[i]? = some x ∧
      (({} : Pd) :: canon 0 1 D)[j + 1]? = some q ∧ (({} : Loaded) :: D.data)[j + 1]? = some y ∧ Pre ra pd x q y := by
    intro j i hj
    obtain ⟨pd, x, el, a1, a2, a3, a4⟩ := hsame j i (by rw [hnodes]; exact hj)
    obtain ⟨x', _, hok, _⟩ := hw.node i (List.mem_of_getElem? hj) pd a1
    obtain ⟨q, b1, p, b2, b3, b4, b5, b6⟩ := canon_get known _ 0 1 j _ _ h1 a3
    refine ⟨pd, x, q, el.data, a1, a2, by rw [List.getElem?_cons_succ]; exact b1, ?_, pre_of_same a4 (fun hb => ?_) b2 b3 b4 b5 b6⟩
    · rw [List.getElem?_cons_succ, els_data, List.getElem?_map, a3]
      rfl
    · exact (hok.ref (by simp [hb.1])).2 hb
  -- from a place in the new list to the node
  have hback : ∀ (i : Nat) (q : Pd), i ≠ 0 → (({} : Pd) :: canon 0 1 D)[i]? = some q →
      ∃ j m pd x y, i = j + 1 ∧ (1 :: k.nodes)[j]? = some m ∧ ra[m]? = some pd ∧ info[m]? = some x ∧ Pre ra pd x q y := by
    intro i q hi hq
    have hlt := (List.getElem?_eq_some_iff.1 hq).1
    rw [hlen] at hlt
    obtain ⟨j, rfl⟩ : ∃ j, i = j + 1 := ⟨i - 1, by omega⟩
    have hj : j < (1 :: k.nodes).length := by omega
    obtain ⟨pd, x, q', y, a1, a2, a3, _, a5⟩ := hpre j _ (List.getElem?_eq_getElem hj)
    rw [hq] at a3; cases a3
    exact ⟨j, _, pd, x, y, rfl, List.getElem?_eq_getElem hj, a1, a2, a5⟩
  have hgood : Good (({} : Pd) :: canon 0 1 D) := by
    refine ⟨by simp, by rw [hlen]; omega, fun i q hi hq => ?_, fun i q hi hq hr => ?_⟩
    · obtain ⟨j, m, pd, x, y, rfl, hj, hm, hx, hp⟩ := hback i q hi hq
      by_cases hA : Alias pd x
      · exact .inl (hp.alias hA).2
      · rw [(hp.plain hA).2]
        cases pd.refd with
        | false => exact .inl rfl
        | true => exact .inr (hnum.idx j m pd hj hm)
    · obtain ⟨j, m, pd, x, y, rfl, hj, hm, hx, hp⟩ := hback i q hi hq
      have hr : (pd.ref || pd.cref) = true := by rw [← hp.ref, ← hp.cref]; exact hr
      obtain ⟨u, t, hu, _, _, _, _, he⟩ := htgt m (List.mem_of_getElem? hj) pd hm hr
      rw [hp.target hr, he, hlen]
      omega
  obtain ⟨l, hmiss, hmem⟩ := missed_eq hgood
  -- the marks that are completed
  have hin : ∀ (j i : Nat), (1 :: k.nodes)[j]? = some i → (j + 1 ∈ l ↔ ∃ r ∈ 1 :: k.nodes, ∃ pr, ra[r]? = some pr ∧ (pr.ref || pr.cref) = true ∧ pr.firstChild = i) := by
    intro j i hj
    rw [hmem]
    constructor
    · rintro ⟨m, q, hm0, hq, hr, hf⟩
      obtain ⟨j', m', pd, x, y, rfl, hj', hm', hx, hp⟩ := hback m q hm0 hq
      have hr : (pd.ref || pd.cref) = true := by rw [← hp.ref, ← hp.cref]; exact hr
      obtain ⟨u, t, hu, hu', _, _, _, he⟩ := htgt m' (List.mem_of_getElem? hj') pd hm' hr
      rw [hp.target hr, he] at hf
      have : u = j := by omega
      subst this
      rw [hj] at hu'
      exact ⟨m', List.mem_of_getElem? hj', pd, hm', hr, (Option.some.inj hu').symm⟩
    · rintro ⟨r, hr, pr, hpr, href, hf⟩
      obtain ⟨j', hj', hjr, _⟩ := hplace r hr pr hpr
      obtain ⟨pd, x, q, y, a1, a2, a3, a4, a5⟩ := hpre j' r hjr
      rw [hpr] at a1; cases a1
      obtain ⟨u, t, hu, hu', _, _, _, he⟩ := htgt r hr pr hpr href
      refine ⟨j' + 1, q, by omega, a3, ?_, ?_⟩
      · unfold isRef; rw [a5.ref, a5.cref]; exact href
      · rw [a5.target href, he]
        rw [hf] at hu'
        rw [(List.getElem?_inj hu hn).1 (hu'.trans hj.symm)]
  refine ⟨_, mark l ({} :: canon 0 1 D), {} :: D.data, hsave, ?_, ?_, ?_, ?_, ?_⟩
  · unfold yamlLoad
    rw [hrun]
    simp only [Option.bind_eq_bind, Option.bind_some]
    rw [hmiss]
    rfl
  · rw [mark_length, hlen]
  · simp only [List.length_cons, data_length, h4, hnodes]; omega
  · have := canon_rep known D [{}] [] 0 false h1 (by simp)
    simp only [List.length_cons, List.length_nil, Nat.zero_add, List.append_nil] at this
    rw [h2 1] at this
    rw [if_neg (fun e => by rw [← hD] at e; simp [DF.shape] at e)] at this
    refine Lemmas.Dfs.rep_same this fun j _ => ?_
    unfold Lemmas.Dfs.SameAt
    rw [mark_get]
    show ((({} : Pd) :: canon 0 1 D)[j]?).map linkPart = _
    cases (({} : Pd) :: canon 0 1 D)[j]? with
    | none => rfl
    | some q =>
      simp only [Option.map_some, Option.some.injEq]
      split <;> rfl
  · intro j i hj
    obtain ⟨pd, x, q, y, a1, a2, a3, a4, a5⟩ := hpre j i hj
    have hidx := hnum.idx j i pd hj a1
    have hrefd : j + 1 ∈ l → pd.refd = true := by
      intro hl
      obtain ⟨r, hr, pr, hpr, href, hf⟩ := (hin j i hj).1 hl
      obtain ⟨_, t, ht, htr⟩ := hnum.target r hr pr hpr href
      rw [hf, a1] at ht; cases ht
      exact htr
    have hmarks : (if j + 1 ∈ l ∧ q.idx = 0 then ({ q with idx := j + 1, refd := true } : Pd) else q).refd = pd.refd ∧
        (if j + 1 ∈ l ∧ q.idx = 0 then ({ q with idx := j + 1, refd := true } : Pd) else q).idx = if pd.refd then pd.idx else 0 := by
      by_cases hA : Alias pd x
      · obtain ⟨k1, k2⟩ := a5.alias hA
        by_cases hl : j + 1 ∈ l
        · rw [if_pos ⟨hl, k2⟩, hrefd hl, hidx]
          simp
        · rw [if_neg (fun h => hl h.1), k1, k2]
          have : pd.refd = false := by
            cases hh : pd.refd with
            | false => rfl
            | true => exact absurd ((hin j i hj).2 (hnum.marked i (List.mem_of_getElem? hj) pd x a1 a2 hh hA)) hl
          simp [this]
      · obtain ⟨k1, k2⟩ := a5.plain hA
        cases hh : pd.refd with
        | true =>
          rw [hh] at k1 k2
          rw [if_neg (fun h => by rw [k2, hidx] at h; simp at h), k1, k2]
          simp
        | false =>
          rw [hh] at k1 k2
          rw [if_neg (fun h => by rw [hrefd h.1] at hh; cases hh), k1, k2]
          simp
    refine ⟨pd, x, _, y, a1, a2, by rw [mark_get, a3]; rfl, a4, ⟨a5.name, ?_, ?_, ?_, hmarks.1, hmarks.2, a5.null, a5.compound, a5.leaf⟩⟩
    · rw [← a5.ref]; split <;> rfl
    · rw [← a5.cref]; split <;> rfl
    · intro hr
      obtain ⟨u, t, _, _, ht, he, _, he'⟩ := htgt i (List.mem_of_getElem? hj) pd a1 hr
      refine ⟨t, ht, ?_⟩
      rw [he, ← he', ← a5.target hr]
      split <;> rfl

/-- **C59.** A reference read back leads to the node that was read for its target and to no other: sharing and cycles
are kept. -/
theorem C59_references (utf8 known : List Nat → Bool) (ra : List Pd) (info : List Info) (k : Forest)
    (h : Rep ra 0 1 (.cons 1 k .nil)) (hn : (1 :: k.nodes).Nodup) (hw : Writable utf8 known ra info (1 :: k.nodes))
    (hnum : Numbered ra info (1 :: k.nodes))
    (events : List Event) (he : yamlSave utf8 ra info = some (some events)) (ra' : List Pd) (data : List Loaded) (hl : yamlLoad known events = some (some (ra', data)))
    (i j t u : Nat) (pd : Pd) (hi : (1 :: k.nodes)[i]? = some j) (hj : ra[j]? = some pd) (hr : (pd.ref || pd.cref) = true)
    (hu : (1 :: k.nodes)[u]? = some t) (htg : pd.firstChild = t) :
    ∃ q : Pd, ra'[i + 1]? = some q ∧ q.ref = pd.ref ∧ q.cref = pd.cref ∧ q.firstChild = u + 1 ∧
      ∀ (v : Nat) (z : Pd), v < (1 :: k.nodes).length → ra'[v + 1]? = some z → ((z.refd = true ∧ z.idx = q.firstChild) ↔ v = u) := by
  obtain ⟨evs', ra'', data', h1, h2, _, _, _, h6⟩ := C59_read_back utf8 known ra info k h hn hw hnum
  rw [he] at h1; cases h1
  rw [hl] at h2; cases h2
  obtain ⟨pd', x, q, y, a1, a2, a3, a4, a5⟩ := h6 i j hi
  rw [hj] at a1; cases a1
  obtain ⟨tp, b1, b2⟩ := a5.target hr
  obtain ⟨_, tp', b3, hm⟩ := hnum.target j (List.mem_of_getElem? hi) pd hj hr
  rw [b1] at b3; cases b3
  rw [htg] at b1
  have hidx := hnum.idx u t tp hu b1
  refine ⟨q, a3, a5.ref, a5.cref, by rw [b2, hidx], fun v z hv hz => ?_⟩
  obtain ⟨m, hwv⟩ : ∃ m, (1 :: k.nodes)[v]? = some m := ⟨_, List.getElem?_eq_getElem hv⟩
  obtain ⟨pw, xw, qw, yw, c1, c2, c3, c4, c5⟩ := h6 v m hwv
  rw [hz] at c3; cases c3
  rw [c5.refd, c5.idx, b2, hidx]
  constructor
  · rintro ⟨d1, d2⟩
    rw [if_pos d1, hnum.idx v m pw hwv c1] at d2
    omega
  · rintro rfl
    rw [hwv] at hu
    cases hu
    rw [c1] at b1; cases b1
    simp [hm, hidx]

/-! ## non-vacuity -/

namespace Example

/-- `struct { int n; char * s; list * next; list * first; char c; void * p; void ** pp; bool b; }` where `next` refers
to the structure, `first` points to a structure with an enumeration value and an array of two numbers, `p` is NULL and
`pp` points to `p` -/
def ra : List Pd :=
  [ {},
    { ty := .struct, parent := 0, firstChild := 2, idx := 1, refd := true },
    { ty := .int32, parent := 1, next := 3, idx := 2 },
    { ty := .string, parent := 1, next := 4, idx := 3 },
    { ty := .pointer, parent := 1, next := 5, idx := 4, ref := true, firstChild := 1 },
    { ty := .pointer, parent := 1, firstChild := 6, next := 11, idx := 5 },
    { ty := .struct, parent := 5, firstChild := 7, idx := 6 },
    { ty := .enum, parent := 6, next := 8, idx := 7 },
    { ty := .array, parent := 6, idx := 8, firstChild := 9 },
    { ty := .float, parent := 8, next := 10, idx := 9 },
    { ty := .float, parent := 8, idx := 10 },
    { ty := .char, parent := 1, next := 12, idx := 11 },
    { ty := .pointer, parent := 1, next := 13, idx := 12, refd := true },
    { ty := .pointer, parent := 1, next := 14, idx := 13, ref := true, firstChild := 12 },
    { ty := .bool, parent := 1, idx := 14 } ]

def info : List Info :=
  [ {},
    { name := ascii "list" },
    { name := ascii "n", unnamed := false, leaf := .int (-5) },
    { name := ascii "s", unnamed := false, leaf := .text (ascii "a\"\n") },
    { name := ascii "next", unnamed := false },
    { name := ascii "first", unnamed := false },
    { },
    { name := ascii "color", unnamed := false, leaf := .quoted (ascii "RED") },
    { name := ascii "x", unnamed := false },
    { leaf := .real (ascii "1.5e-3") },
    { leaf := .real (ascii "2.5") },
    { name := ascii "c", unnamed := false, leaf := .char 10 },
    { name := ascii "p", unnamed := false, null := true },
    { name := ascii "pp", unnamed := false },
    { name := ascii "b", unnamed := false, leaf := .bool true } ]

def kids : Forest := .cons 2 .nil (.cons 3 .nil (.cons 4 .nil (.cons 5 (.cons 6 (.cons 7 .nil (.cons 8 (.cons 9 .nil (.cons 10 .nil .nil)) .nil)) .nil)
  (.cons 11 .nil (.cons 12 .nil (.cons 13 .nil (.cons 14 .nil .nil)))))))

example : Rep ra 0 1 (.cons 1 kids .nil) := by simp [Rep, ra, kids, kidsHead]
example : (1 :: kids.nodes).Nodup := by decide

theorem nodes_eq : 1 :: kids.nodes = [1, 2, 3, 4, 5, 6, 7, 8, 9, 10, 11, 12, 13, 14] := rfl

theorem writable : Writable (fun _ => true) (fun _ => true) ra info (1 :: kids.nodes) := by
  refine ⟨rfl, fun i hi pd hpd => ?_⟩
  rw [nodes_eq] at hi
  simp only [List.mem_cons, List.not_mem_nil, or_false] at hi
  have hle : ∀ l, (match l with
    | Leaf.int v => -(2 ^ 63 : Int) ≤ v ∧ v < 2 ^ 64
    | .real t | .quoted t => t ≠ []
    | .char c => c < 256
    | .address v => v < 2 ^ 64
    | .undefined => False
    | _ => True) → LeafOK (fun _ => true) l := fun l h => ⟨h, fun _ _ => rfl⟩
  rcases hi with rfl | rfl | rfl | rfl | rfl | rfl | rfl | rfl | rfl | rfl | rfl | rfl | rfl | rfl <;> cases hpd <;>
    refine ⟨_, rfl, ⟨fun _ => rfl, by simp, by simp, by simp [mapping, sequence, structLike], by simp, ?_⟩, by simp [NamesOK, nameless, ra, mapping, structLike], fun _ => rfl⟩ <;>
    first
    | (intro h1 h2; simp [mapping, sequence, structLike] at h1 h2; done)
    | (exact fun _ _ => .inr (hle _ (by decide)))

theorem numbered : Numbered ra info (1 :: kids.nodes) := by
  rw [nodes_eq]
  refine ⟨by decide, fun j i pd hj hi => ?_, fun i hi pd hpd hr => ?_, fun i hi pd x hpd hx hr _ => ?_⟩
  · have hlt := (List.getElem?_eq_some_iff.1 hj).1
    have key : ∀ j < 14, ([1, 2, 3, 4, 5, 6, 7, 8, 9, 10, 11, 12, 13, 14] : List Nat)[j]? = some (j + 1) ∧ (ra[j + 1]?).map (·.idx) = some (j + 1) := by decide
    obtain ⟨k1, k2⟩ := key j hlt
    rw [k1] at hj; cases hj
    rw [hi] at k2
    simpa using k2
  · simp only [List.mem_cons, List.not_mem_nil, or_false] at hi
    rcases hi with rfl | rfl | rfl | rfl | rfl | rfl | rfl | rfl | rfl | rfl | rfl | rfl | rfl | rfl <;> cases hpd <;> first | (cases hr; done) | exact ⟨by decide, _, rfl, rfl⟩
  · simp only [List.mem_cons, List.not_mem_nil, or_false] at hi
    rcases hi with rfl | rfl | rfl | rfl | rfl | rfl | rfl | rfl | rfl | rfl | rfl | rfl | rfl | rfl <;> cases hpd <;> first | (cases hr; done) | skip
    · exact ⟨4, by decide, _, rfl, rfl, rfl⟩
    · exact ⟨13, by decide, _, rfl, rfl, rfl⟩

/-- the events of the example: `&ref_idx_1 {n: -5, s: "a\"\n", next: *ref_idx_1, first: [{color: RED, x: [1.5e-3,
2.5]}], c: 0x0a, p: *isnull, pp: *ref_idx_12, b: true}` -/
def doc : List Event :=
  [.streamStart, .docStart, .mapStart (some (ascii "ref_idx_1")),
    .scalar none (ascii "n"), .scalar none (ascii "-5"),
    .scalar none (ascii "s"), .scalar none (ascii "a\"\n"),
    .scalar none (ascii "next"), .alias (ascii "ref_idx_1"),
    .scalar none (ascii "first"), .seqStart none, .mapStart none,
    .scalar none (ascii "color"), .scalar none (ascii "RED"),
    .scalar none (ascii "x"), .seqStart none, .scalar none (ascii "1.5e-3"), .scalar none (ascii "2.5"), .seqEnd,
    .mapEnd, .seqEnd,
    .scalar none (ascii "c"), .scalar none (ascii "0x0a"),
    .scalar none (ascii "p"), .alias (ascii "isnull"),
    .scalar none (ascii "pp"), .alias (ascii "ref_idx_12"),
    .scalar none (ascii "b"), .scalar none (ascii "true"),
    .mapEnd, .docEnd, .streamEnd]

example : yamlSave (fun _ => true) ra info = some (some doc) := by decide +kernel

end Example

/-! ## any document -/

/-- **C60.** Whatever events the parser reports (also those of documents that were not written by `mr_save`), the reader
has no undefined behaviour, if there are less than 2³¹ events and the anchors that `sscanf` reads as `ref_idx_%u` have an
index less than 2³¹; aliases may have any index.  What it accepts is a sound list of nodes with one value for each. -/
theorem C60_any_document (known : List Nat → Bool) (events : List Event) (hlen : events.length < 2 ^ 31)
    (ha : ∀ a n, Anchored events a → scanTemplate (ascii "ref_idx_") a = some n → n < 2 ^ 31) :
    ∃ o, yamlLoad known events = some o ∧ ∀ ra data, o = some (ra, data) → data.length = ra.length ∧ ra.length ≤ events.length + 1 ∧ Sound ra := by
  have ha' : ∀ e ∈ events, Lemmas.YamlSafe.SmallAnchor (Lemmas.YamlSafe.anchorOf e) := by
    intro e he a n hea hs
    refine ha a n ?_ hs
    cases e <;> simp only [Lemmas.YamlSafe.anchorOf] at hea <;> try (cases hea; done)
    all_goals subst hea
    · exact .inl ⟨_, he⟩
    · exact .inr (.inl he)
    · exact .inr (.inr he)
  obtain ⟨o, h1, h2⟩ := Lemmas.YamlSafe.run_safe known events start Lemmas.YamlSafe.start_inv ha'
  unfold yamlLoad
  simp only [h1, Option.bind_eq_bind, Option.bind_some]
  cases o with
  | none => exact ⟨none, rfl, fun _ _ h => by cases h⟩
  | some s =>
    obtain ⟨k1, k2⟩ := h2 s rfl
    have hst : start.ptrs.ra.length = 1 := rfl
    obtain ⟨ra', m1, m2, m3⟩ := Lemmas.YamlSafe.missed_safe k1.links k1.small (by omega)
    simp only [m1, Option.bind_some]
    refine ⟨_, rfl, fun ra data h => ?_⟩
    cases h
    exact ⟨by rw [m2, k1.data], by omega, ⟨fun i pd hi hpd => ⟨m3.parent i pd hi hpd, m3.plain i pd hpd⟩, m3.next, m3.first⟩⟩

/-- **C60.** In particular documents whose anchors do not start with `ref_idx_` have no undefined behaviour. -/
theorem C60_foreign_anchors (known : List Nat → Bool) (events : List Event) (hlen : events.length < 2 ^ 31)
    (ha : ∀ a, Anchored events a → ¬ ascii "ref_idx_" <+: a) : yamlLoad known events ≠ none := by
  obtain ⟨o, h, _⟩ := C60_any_document known events hlen (fun a n h1 h2 => by
    unfold scanTemplate at h2
    rw [if_neg (fun hp => ha a h1 (List.isPrefixOf_iff_prefix.1 hp))] at h2
    cases h2)
  rw [h]
  simp

/-- a document with an anchor and two aliases that were not written by `mr_save`: the root is left open, an alias has no
anchor, a sequence ends as a mapping; the reader refuses it -/
example : yamlLoad (fun _ => true) [.streamStart, .docStart, .seqStart (some (ascii "x")), .alias (ascii "x"), .alias (ascii "ref_idx_4000000000"), .mapEnd] = some none := by decide +kernel
/-- ... and one it accepts: the node that has no anchor is marked -/
example : (yamlLoad (fun _ => true) [.streamStart, .docStart, .seqStart (some (ascii "x")), .alias (ascii "ref_idx_-7"), .alias (ascii "ref_idx_2"), .seqEnd, .docEnd, .streamEnd]).map
    (·.map fun r => r.1.map fun pd => (pd.parent, pd.firstChild, pd.idx, pd.refd)) = some (some [(0, 0, 0, false), (0, 2, 0, false), (1, 4294967289, 2, true), (1, 2, 0, false)]) := by decide +kernel
example : ∀ a, Anchored [.streamStart, .docStart, .seqStart (some (ascii "x")), .alias (ascii "ref_idx_-7"), .alias (ascii "ref_idx_2"), .seqEnd, .docEnd, .streamEnd] a → ¬ ascii "ref_idx_" <+: a := by
  intro a h
  have : a = ascii "x" := by simpa [Anchored] using h
  rw [this]
  decide

/-! ## documents with undefined behaviour -/

/-- A document whose root has the anchor `ref_idx_4294967295` makes the reader write outside of the table of public
indices: its size, `max_idx + 1`, is computed with 32 bits and is 0 (src/yaml_load.c:11–20). -/
theorem C59_deviation_largest_anchor (known : List Nat → Bool) :
    yamlLoad known [.streamStart, .docStart, .scalar (some (ascii "ref_idx_4294967295")) (ascii "5"), .docEnd, .streamEnd] = none := by
  have h : run known [.streamStart, .docStart, .scalar (some (ascii "ref_idx_4294967295")) (ascii "5"), .docEnd, .streamEnd] start =
      run (fun _ => true) [.streamStart, .docStart, .scalar (some (ascii "ref_idx_4294967295")) (ascii "5"), .docEnd, .streamEnd] start := rfl
  unfold yamlLoad
  rw [h]
  decide +kernel

/-- The same happens with the anchor `ref_idx_-1`, which `sscanf` reads as the largest index. -/
theorem C60_deviation_negative_anchor (known : List Nat → Bool) :
    yamlLoad known [.streamStart, .docStart, .scalar (some (ascii "ref_idx_-1")) (ascii "5"), .docEnd, .streamEnd] = none := by
  have h : run known [.streamStart, .docStart, .scalar (some (ascii "ref_idx_-1")) (ascii "5"), .docEnd, .streamEnd] start =
      run (fun _ => true) [.streamStart, .docStart, .scalar (some (ascii "ref_idx_-1")) (ascii "5"), .docEnd, .streamEnd] start := rfl
  unfold yamlLoad
  rw [h]
  decide +kernel

end Verif.Props.Yaml
