import Verif.Lemmas.Prune
/-!
# C28, C29, C40: walking, numbering and pruning the node tree

`Rep ra par head f`: following the first-child and next links of the array from `head` gives the ordered
forest `f`, whose roots have the parent `par` (Spec/Ptrs.lean).
-/
namespace Verif.Props.Dfs
open Verif.Model Verif.Model.Ptrs Verif.Spec.Ptrs Verif.Lemmas.Dfs Verif.Lemmas.Prune

variable {σ : Type}

/-! ## C28 -/

/-- **C28.** A walk from the root of any tree, with any callback that leaves the links alone, is exactly the
sequence of calls in document order, each node before and after its children with its depth; it stops at
the first call that fails. -/
theorem C28_from_root (v : Visitor σ) (hv : KeepsLinks v) (ra : List Pd) (c : σ) (root : Nat) (k : Forest)
    (h : Rep ra 0 root (.cons root k .nil)) (hn : (root :: k.nodes).Nodup) :
    dfs v root (ra, c) = callAll v ((Forest.cons root k .nil).events 0) (ra, c) := by
  obtain ⟨_, h0, pd, h1, h2, h3, h4⟩ := h
  exact dfs_eq v (fun _ => []) root (ra, c) k pd h0 h1 h3 (fun _ => ⟨h2, h4⟩) hn (within_nil _) (frame_of_keeps hv _ _)

/-- **C28.** Started at an inner node, wherever it is in its tree, the walk covers exactly the subtree. -/
theorem C28_from_inner_node (v : Visitor σ) (hv : KeepsLinks v) (ra : List Pd) (c : σ) (start : Nat) (pd : Pd) (k : Forest)
    (h0 : start ≠ 0) (h1 : ra[start]? = some pd) (h2 : Rep ra start (kidsHead pd) k) (hk : k ≠ .nil)
    (hn : (start :: k.nodes).Nodup) :
    dfs v start (ra, c) = callAll v ((Forest.cons start k .nil).events 0) (ra, c) :=
  dfs_eq v (fun _ => []) start (ra, c) k pd h0 h1 h2 (fun h => absurd h hk) hn (within_nil _) (frame_of_keeps hv _ _)

/-- the calls made before the children, in order, are the nodes in document order, each once -/
theorem C28_every_node_before (f : Forest) (l : Int) :
    ((f.events l).filter fun e => e.2.2 = .pre).map (·.1) = f.nodes := by
  induction f generalizing l with
  | nil => rfl
  | cons i k s ih1 ih2 => simp [Forest.events, Forest.nodes, ih1, ih2]

/-- the calls made after the children are the same nodes, each as often -/
theorem C28_every_node_after (f : Forest) (l : Int) :
    List.Perm (((f.events l).filter fun e => e.2.2 = .post).map (·.1)) f.nodes := by
  induction f generalizing l with
  | nil => exact List.Perm.refl _
  | cons i k s ih1 ih2 =>
    simp only [Forest.events, Forest.nodes, List.filter_append, List.filter_cons, List.map_append]
    simp only [reduceCtorEq, decide_false, Bool.false_eq_true, if_false, decide_true, if_true, List.map_append, List.map_cons]
    exact List.perm_middle.trans (List.Perm.cons _ ((ih1 _).append (ih2 _)))

/-- a callback that writes down its calls and fails at the `n`-th -/
def recorder (n : Nat) : Visitor (List (Nat × Int × Order)) := fun s i l o =>
  some (decide (s.2.length + 1 ≠ n), (s.1, s.2 ++ [(i, l, o)]))

theorem recorder_keeps (n : Nat) : KeepsLinks (recorder n) := by
  intro s i l o ok s' h
  simp only [recorder, Option.some.injEq, Prod.mk.injEq] at h
  rw [← h.2]

theorem record_all (n : Nat) (es : List (Nat × Int × Order)) : ∀ (ra : List Pd) (log : List (Nat × Int × Order)),
    (n ≤ log.length → callAll (recorder n) es (ra, log) = some (true, (ra, log ++ es))) ∧
    (log.length < n → callAll (recorder n) es (ra, log) =
      some (decide (log.length + es.length < n), (ra, log ++ es.take (n - log.length)))) := by
  induction es with
  | nil => intro ra log; exact ⟨fun _ => by simp [callAll], fun h => by simp [callAll, h]⟩
  | cons e es ih =>
    obtain ⟨i, l, o⟩ := e
    intro ra log
    constructor
    · intro h
      have hne : log.length + 1 ≠ n := by omega
      simp only [callAll, recorder, hne, ne_eq, not_false_eq_true, decide_true, Option.bind_eq_bind, Option.bind_some, Bool.true_eq_false, if_false]
      rw [(ih ra (log ++ [(i, l, o)])).1 (by simp; omega)]
      simp
    · intro h
      by_cases hne : log.length + 1 = n
      · simp only [callAll, recorder, hne, ne_eq, not_true_eq_false, decide_false, Option.bind_eq_bind, Option.bind_some, if_true]
        have h1 : ¬ (log.length + ((i, l, o) :: es).length < n) := by simp; omega
        have h2 : n - log.length = 1 := by omega
        rw [decide_eq_false h1, h2]
        simp
      · simp only [callAll, recorder, hne, ne_eq, not_false_eq_true, decide_true, Option.bind_eq_bind, Option.bind_some, Bool.true_eq_false, if_false]
        rw [(ih ra (log ++ [(i, l, o)])).2 (by simp; omega)]
        have h2 : n - log.length = (n - (log ++ [(i, l, o)]).length) + 1 := by simp; omega
        rw [h2]
        simp only [List.take_succ_cons, List.append_assoc, List.singleton_append, List.length_append, List.length_cons, List.length_nil]
        congr 3
        apply propext
        omega

/-- **C28.** The calls themselves: a callback that fails at its `n`-th call sees exactly the first `n` events
and the walk fails; with fewer than `n` events it sees all of them and the walk succeeds. -/
theorem C28_stops_at_failure (ra : List Pd) (root : Nat) (k : Forest) (n : Nat) (hpos : 0 < n)
    (h : Rep ra 0 root (.cons root k .nil)) (hn : (root :: k.nodes).Nodup) :
    dfs (recorder n) root (ra, []) =
      some (decide (((Forest.cons root k .nil).events 0).length < n), (ra, ((Forest.cons root k .nil).events 0).take n)) := by
  rw [C28_from_root _ (recorder_keeps n) _ _ _ _ h hn, (record_all n _ ra []).2 hpos]
  simp

/-- **C28, deviation.** Started at a leaf that has a parent the walk leaves the leaf: tree `1 (2 3)`, start 2. -/
theorem C28_deviation_leaf :
    (dfs (recorder 0) 2 ([{}, { firstChild := 2 }, { parent := 1, next := 3 }, { parent := 1 }], [])).map (·.2.2) =
      some [(2, 0, .pre), (2, 0, .post), (3, 0, .pre), (3, 0, .post), (1, -1, .post)] := by decide +kernel

/-! ## C29 -/

/-- **C29.** Numbering a tree gives its nodes the ids 1, 2, 3, ... in document order, leaves all other members
and all other descriptors as they are, and returns the next free number. -/
theorem C29_dense (ra : List Pd) (k : Forest) (h : Rep ra 0 1 (.cons 1 k .nil)) (hn : (1 :: k.nodes).Nodup) :
    ∃ ra', dfs renumberNode 1 (ra, 1) = some (true, (ra', 1 + (1 :: k.nodes).length)) ∧
      ra'.length = ra.length ∧
      (∀ j x : Nat, (1 :: k.nodes)[j]? = some x → ra'[x]? = (ra[x]?).map fun pd => { pd with idx := j + 1 }) ∧
      (∀ x, x ∉ 1 :: k.nodes → ra'[x]? = ra[x]?) := by
  rw [C28_from_root _ keepsLinks_renumber _ _ _ _ h hn]
  have hnodes : (Forest.cons 1 k .nil).nodes = 1 :: k.nodes := by simp [Forest.nodes]
  obtain ⟨ra', h1, h2, h3, h4⟩ := renumber_events (.cons 1 k .nil) ra 1 0 [] (rep_range h) (by rw [hnodes]; exact hn)
  rw [List.append_nil] at h1
  rw [hnodes] at h1 h3 h4
  refine ⟨ra', by rw [h1]; rfl, h2, fun j x hj => ?_, h3⟩
  rw [h4 j x hj, Nat.add_comm 1 j]

/-- **C29.** Hence two nodes of the tree never have the same id. -/
theorem C29_unique (ra : List Pd) (k : Forest) (h : Rep ra 0 1 (.cons 1 k .nil)) (hn : (1 :: k.nodes).Nodup)
    (ok : Bool) (ra' : List Pd) (c : Nat) (hd : dfs renumberNode 1 (ra, 1) = some (ok, (ra', c)))
    (x y : Nat) (hx : x ∈ 1 :: k.nodes) (hy : y ∈ 1 :: k.nodes)
    (he : (ra'[x]?).map Pd.idx = (ra'[y]?).map Pd.idx) : x = y := by
  obtain ⟨ra2, h1, h2, h3, _⟩ := C29_dense ra k h hn
  rw [hd] at h1
  cases h1
  obtain ⟨i, hi⟩ := List.mem_iff_getElem?.1 hx
  obtain ⟨j, hj⟩ := List.mem_iff_getElem?.1 hy
  have hnodes : (Forest.cons 1 k .nil).nodes = 1 :: k.nodes := by simp [Forest.nodes]
  have rx := rep_range h x (by rw [hnodes]; exact hx)
  have ry := rep_range h y (by rw [hnodes]; exact hy)
  rw [h3 i x hi, h3 j y hj, List.getElem?_eq_getElem rx, List.getElem?_eq_getElem ry] at he
  simp at he
  subst he
  rw [hi] at hj
  exact Option.some.inj hj

/-! ## C40 -/

theorem dropHere_struct {ra : List Pd} {i : Nat} (h : dropHere ra i = true) :
    ∃ pd, ra[i]? = some pd ∧ droppable pd = true ∧ isStruct ra i = structLike pd.ty := by
  unfold dropHere at h
  cases hi : ra[i]? with
  | none => rw [hi] at h; simp at h
  | some pd =>
    rw [hi] at h
    refine ⟨pd, rfl, h, ?_⟩
    have h' : droppable pd = true := h
    unfold droppable at h'
    simp only [Bool.and_eq_true, Bool.not_eq_true'] at h'
    unfold isStruct
    rw [hi]
    simp [h'.2]

theorem proc_nil {ra : List Pd} {f : Forest} : proc ra f = .nil ↔ f = .nil := by
  cases f <;> simp [proc]

theorem noContent_iff (ra : List Pd) (f : Forest) : noContent ra f = true ↔ drop ra (proc ra f) = .nil := by
  induction f with
  | nil => simp [noContent, proc, drop]
  | cons i k s ih1 ih2 =>
    rw [proc, drop]
    by_cases hd : dropHere ra i = true
    · obtain ⟨pd, h1, h2, h3⟩ := dropHere_struct hd
      simp only [noContent, h1, h2, Bool.true_and, Bool.and_eq_true, ih2]
      simp only [h3, hd, and_true]
      cases hs : structLike pd.ty with
      | true =>
        simp only [if_true, ih1]
        by_cases hk : drop ra (proc ra k) = .nil
        · simp [hk]
        · simp [hk]
      | false =>
        simp only [Bool.false_eq_true, if_false, proc_nil, decide_eq_true_iff]
        by_cases hk : k = .nil
        · simp [hk]
        · simp [hk]
    · rw [if_neg (fun h => hd h.2)]
      have : noContent ra (.cons i k s) = false := by
        unfold dropHere at hd
        cases hi : ra[i]? with
        | none => simp [noContent, hi]
        | some pd =>
          rw [hi] at hd
          have : droppable pd = false := by simpa using hd
          simp [noContent, hi, this]
      simp [this]

theorem contentless_iff (ra : List Pd) (i : Nat) (k : Forest) : contentless ra i k = true ↔
    ((if isStruct ra i then drop ra (proc ra k) else proc ra k) = .nil ∧ dropHere ra i = true) := by
  unfold contentless
  rw [noContent_iff, proc, drop]
  generalize (if isStruct ra i then drop ra (proc ra k) else proc ra k) = k'
  by_cases h : k' = .nil ∧ dropHere ra i = true
  · rw [if_pos h]; simp [h, drop, proc]
  · rw [if_neg h]; simp [h]

theorem without_eq (ra : List Pd) (f : Forest) : withoutEmpty ra false f = proc ra f ∧ withoutEmpty ra true f = drop ra (proc ra f) := by
  induction f with
  | nil => exact ⟨rfl, rfl⟩
  | cons i k s ih1 ih2 =>
    have hk : withoutEmpty ra (isStruct ra i) k = if isStruct ra i then drop ra (proc ra k) else proc ra k := by
      cases isStruct ra i with
      | true => simp [ih1.2]
      | false => simp [ih1.1]
    constructor
    · rw [withoutEmpty, proc]
      simp only [Bool.false_and, Bool.false_eq_true, if_false]
      rw [hk, ih2.1]
    · rw [withoutEmpty, proc, drop]
      simp only [Bool.true_and]
      by_cases hc : contentless ra i k = true
      · rw [if_pos hc, if_pos ((contentless_iff ra i k).1 hc), ih2.2]
      · rw [if_neg hc, if_neg (fun h => hc ((contentless_iff ra i k).2 h)), ih2.2, hk]

/-- **C40.** Removing the empty nodes of any tree whose references refer to something leaves exactly the tree
without the contentless members of structures and unions (`withoutEmpty`).  If there were none the array is
unchanged; otherwise the nodes have the ids 1, 2, 3, ... in document order.  All other data of every
descriptor is as before: parent, type, flags and the target of references. -/
theorem C40_exactly_empty (ra : List Pd) (k : Forest) (h : Rep ra 0 1 (.cons 1 k .nil)) (hn : (1 :: k.nodes).Nodup)
    (hrefs : ∀ x ∈ k.nodes, ∀ pd, ra[x]? = some pd → (pd.ref || pd.cref) = true → pd.firstChild ≠ 0) :
    ∃ ra' k', removeEmptyNodes ra = some ra' ∧
      withoutEmpty ra false (.cons 1 k .nil) = .cons 1 k' .nil ∧ Rep ra' 0 1 (.cons 1 k' .nil) ∧
      (k' = k → ra' = ra) ∧
      (k' ≠ k → ∀ j x : Nat, (1 :: k'.nodes)[j]? = some x → (ra'[x]?).map Pd.idx = some (j + 1)) ∧
      ra'.length = ra.length ∧
      (∀ x pd, ra[x]? = some pd → ∃ pd', ra'[x]? = some pd' ∧ pd'.parent = pd.parent ∧ pd'.ty = pd.ty ∧ pd'.ref = pd.ref ∧
        pd'.cref = pd.cref ∧ pd'.refd = pd.refd ∧ (x ≠ 1 → (pd.ref || pd.cref) = true → pd'.firstChild = pd.firstChild)) ∧
      (∀ x, x ∉ 1 :: k.nodes → ra'[x]? = ra[x]?) := by
  have hnodes : ∀ k : Forest, (Forest.cons 1 k .nil).nodes = 1 :: k.nodes := fun k => by simp [Forest.nodes]
  have h' := h
  obtain ⟨_, h0, pd, h1, h2, h3, h4⟩ := h'
  by_cases hroot : (pd.ref || pd.cref) = true
  · -- the root is a reference: it has no children
    have hk : k = .nil := by
      apply (rep_nil_iff h3).1
      unfold kidsHead
      rw [if_pos hroot]
    subst hk
    have hw : withoutEmpty ra false (.cons 1 .nil .nil) = .cons 1 .nil .nil := by simp [withoutEmpty]
    refine ⟨ra, .nil, ?_, hw, h, fun _ => rfl, fun h => absurd rfl h, rfl, fun x p hp => ⟨p, hp, rfl, rfl, rfl, rfl, rfl, fun _ _ => rfl⟩, fun _ _ => rfl⟩
    have hrv : ∀ l, removeEmptyNode (ra, false) 1 l .post = some (true, (ra, false)) := by
      intro l
      unfold removeEmptyNode
      simp only [h1, Option.bind_eq_bind, Option.bind_some, hroot, if_true]
      cases structTypes pd.ty <;> simp
    have hd : dfs removeEmptyNode 1 (ra, false) = callAll removeEmptyNode ((Forest.cons 1 .nil .nil).events 0) (ra, false) := by
      apply dfs_eq removeEmptyNode (fun _ => []) 1 (ra, false) .nil pd h0 h1 h3 (fun _ => ⟨h2, h4⟩) hn (within_nil _)
      intro ok s' hv
      rw [show removeEmptyNode (ra, false) 1 0 .pre = some (true, (ra, false)) from rfl] at hv
      cases hv
      refine ⟨⟨rfl, fun j => rfl⟩, fun _ => ?_⟩
      intro ok s' hv
      rw [hrv] at hv
      cases hv
      exact ⟨⟨rfl, fun j _ _ => rfl, fun _ p hp => ⟨p, hp, rfl, rfl⟩⟩, fun _ => trivial⟩
    unfold removeEmptyNodes
    rw [hd]
    simp only [Forest.events, callAll, List.nil_append]
    rw [show removeEmptyNode (ra, false) 1 0 .pre = some (true, (ra, false)) from rfl]
    simp [hrv]
  · have hrf : Refs ra (.cons 1 k .nil) := by
      intro x hx p hp href
      rw [hnodes] at hx
      rcases List.mem_cons.1 hx with rfl | hx
      · rw [h1] at hp; cases hp; exact absurd href hroot
      · exact hrefs x hx p hp href
    have hn' : (Forest.cons 1 k .nil).nodes.Nodup := by rw [hnodes]; exact hn
    obtain ⟨ra1, a1, a2, a3, a4, a5, a6, a7⟩ := prune_events ra (below (.cons 1 k .nil)) (.cons 1 k .nil) ra 0 1 false 0 [] h hn' hrf
      (fun x _ => rfl) (full_below hn')
    rw [List.append_nil] at a1 a7
    have hd := dfs_eq removeEmptyNode (below (.cons 1 k .nil)) 1 (ra, false) k pd h0 h1 h3 (fun _ => ⟨h2, h4⟩) hn
      (full_within (full_below hn')) (a7 trivial)
    rw [a1] at hd
    have hproc : proc ra (.cons 1 k .nil) = .cons 1 (if isStruct ra 1 then drop ra (proc ra k) else proc ra k) .nil := by simp [proc]
    rw [hproc] at a1 a2 a6 hd
    generalize hk' : (if isStruct ra 1 then drop ra (proc ra k) else proc ra k) = k' at *
    have hsub : (1 :: k'.nodes).Sublist (1 :: k.nodes) := by
      have := proc_sublist ra (.cons 1 k .nil)
      rw [hproc, hnodes, hnodes] at this
      exact this
    have hdata : ∀ x pd, ra[x]? = some pd → ∃ pd', ra1[x]? = some pd' ∧ strip pd' = strip pd ∧
        (x ≠ 1 → (pd.ref || pd.cref) = true → pd'.firstChild = pd.firstChild) := by
      intro x p hp
      by_cases hx : x ∈ (Forest.cons 1 k .nil).nodes
      · obtain ⟨p', q1, q2, q3⟩ := a5 x hx p hp
        exact ⟨p', q1, q2, fun _ => q3⟩
      · exact ⟨p, by rw [a4 x hx, hp], rfl, fun _ _ => rfl⟩
    have hw : withoutEmpty ra false (.cons 1 k .nil) = .cons 1 k' .nil := by rw [(without_eq ra _).1, hproc]
    by_cases hkk : k' = k
    · refine ⟨ra1, k', ?_, hw, a2, fun _ => a6 (by rw [hkk]), fun h => absurd hkk h, a3, ?_, ?_⟩
      · unfold removeEmptyNodes
        rw [hd]
        simp [hkk, callAll]
      · intro x p hp
        obtain ⟨p', q1, q2, q3⟩ := hdata x p hp
        obtain ⟨s1, s2, s3, s4, s5, s6⟩ := strip_eq q2
        exact ⟨p', q1, s1, s6, s3, s4, s5, q3⟩
      · intro x hx
        exact a4 x (by rw [hnodes]; exact hx)
    · obtain ⟨ra2, b1, b2, b3, b4⟩ := C29_dense ra1 k' a2 (hsub.nodup hn)
      have hdata2 : ∀ (x : Nat) (p : Pd), ra1[x]? = some p → ∃ m, ra2[x]? = some { p with idx := m } := by
        intro x p hp
        by_cases hx : x ∈ 1 :: k'.nodes
        · obtain ⟨j, hj⟩ := List.mem_iff_getElem?.1 hx
          exact ⟨j + 1, by rw [b3 j x hj, hp]; rfl⟩
        · exact ⟨p.idx, by rw [b4 x hx, hp]⟩
      refine ⟨ra2, k', ?_, hw, ?_, fun h => absurd h hkk, fun _ j x hj => ?_, by rw [b2, a3], ?_, ?_⟩
      · unfold removeEmptyNodes
        rw [hd]
        simp [hkk, callAll, b1]
      · refine rep_same a2 fun j hj => ?_
        have := rep_range a2 j hj
        obtain ⟨m, hm⟩ := hdata2 j _ (List.getElem?_eq_getElem this)
        unfold SameAt
        rw [hm, List.getElem?_eq_getElem this]
        rfl
      · have := rep_range a2 x (by rw [hnodes]; exact List.mem_of_getElem? hj)
        rw [b3 j x hj, List.getElem?_eq_getElem this]
        rfl
      · intro x p hp
        obtain ⟨p', q1, q2, q3⟩ := hdata x p hp
        obtain ⟨m, hm⟩ := hdata2 x p' q1
        obtain ⟨s1, s2, s3, s4, s5, s6⟩ := strip_eq q2
        exact ⟨_, hm, s1, s6, s3, s4, s5, q3⟩
      · intro x hx
        rw [b4 x (fun h => hx (hsub.subset h)), a4 x (by rw [hnodes]; exact hx)]

theorem without_sublist (ra : List Pd) (f : Forest) (b : Bool) : (withoutEmpty ra b f).nodes.Sublist f.nodes := by
  cases b with
  | true => rw [(without_eq ra f).2]; exact (drop_sublist ra _).trans (proc_sublist ra f)
  | false => rw [(without_eq ra f).1]; exact proc_sublist ra f

/-- **C40.** What remains is in the same order. -/
theorem C40_order_kept (ra : List Pd) (f : Forest) (inStruct : Bool) : (withoutEmpty ra inStruct f).nodes.Sublist f.nodes :=
  without_sublist ra f inStruct

/-- **C40.** Only droppable nodes are removed: every scalar, string, pointer, reference and referenced node stays. -/
theorem C40_content_kept (ra : List Pd) (f : Forest) (inStruct : Bool) (x : Nat) (hx : x ∈ f.nodes)
    (hr : ∀ y ∈ f.nodes, y < ra.length)
    (hp : ∀ pd, ra[x]? = some pd → droppable pd = false) : x ∈ (withoutEmpty ra inStruct f).nodes := by
  have hno : ∀ g : Forest, noContent ra g = true → x ∉ g.nodes := by
    intro g
    induction g with
    | nil => intro _ h; simp [Forest.nodes] at h
    | cons i k s ih1 ih2 =>
      intro hc hm
      simp only [noContent, Bool.and_eq_true] at hc
      obtain ⟨c1, c2⟩ := hc
      simp only [Forest.nodes, List.mem_cons, List.mem_append] at hm
      cases hi : ra[i]? with
      | none => rw [hi] at c1; simp at c1
      | some pd =>
        rw [hi] at c1
        simp only [Bool.and_eq_true] at c1
        rcases hm with rfl | hm | hm
        · rw [hp pd hi] at c1; simp at c1
        · by_cases hs : structLike pd.ty = true
          · rw [if_pos hs] at c1; exact ih1 c1.2 hm
          · rw [if_neg hs] at c1
            have hkn : k = .nil := by simpa using c1.2
            rw [hkn] at hm
            simp [Forest.nodes] at hm
        · exact ih2 c2 hm
  induction f generalizing inStruct with
  | nil => simp [Forest.nodes] at hx
  | cons i k s ih1 ih2 =>
    simp only [Forest.nodes, List.mem_cons, List.mem_append] at hx
    rw [withoutEmpty]
    have hrk : ∀ y ∈ k.nodes, y < ra.length := fun y hy => hr y (by simp [Forest.nodes, hy])
    have hrs : ∀ y ∈ s.nodes, y < ra.length := fun y hy => hr y (by simp [Forest.nodes, hy])
    split
    · rename_i hc
      simp only [Bool.and_eq_true] at hc
      have := hno _ hc.2
      simp only [Forest.nodes, List.mem_cons, List.mem_append, not_or] at this
      rcases hx with hx | hx | hx
      · exact absurd hx this.1
      · exact absurd hx this.2.1
      · exact ih2 _ hx hrs
    · simp only [Forest.nodes, List.mem_cons, List.mem_append]
      rcases hx with hx | hx | hx
      · exact Or.inl hx
      · exact Or.inr (Or.inl (ih1 _ hx hrk))
      · exact Or.inr (Or.inr (ih2 _ hx hrs))

/-- **C40.** Nothing is left to remove: a second pass changes nothing. -/
theorem C40_nothing_left (ra : List Pd) (f : Forest) (inStruct : Bool) :
    withoutEmpty ra inStruct (withoutEmpty ra inStruct f) = withoutEmpty ra inStruct f := by
  have hcl : ∀ g : Forest, noContent ra (withoutEmpty ra true g) = true → withoutEmpty ra true g = .nil := by
    intro g
    induction g with
    | nil => intro _; rfl
    | cons i k s ih1 ih2 =>
      rw [withoutEmpty]
      split
      · exact ih2
      · rename_i hc
        intro h
        exfalso
        apply hc
        simp only [Bool.true_and]
        simp only [noContent, Bool.and_eq_true] at h
        cases hi : ra[i]? with
        | none => rw [hi] at h; simp at h
        | some pd =>
          rw [hi] at h
          simp only [Bool.and_eq_true] at h
          obtain ⟨⟨h1, h2⟩, _⟩ := h
          unfold contentless
          simp only [noContent, hi, h1, Bool.true_and, Bool.and_true]
          have hstr : isStruct ra i = structLike pd.ty := by
            unfold droppable at h1
            simp only [Bool.and_eq_true, Bool.not_eq_true'] at h1
            unfold isStruct; rw [hi]; simp [h1.2]
          rw [hstr] at h2
          cases hs : structLike pd.ty with
          | true =>
            rw [hs] at h2
            simp only [if_true] at h2 ⊢
            have := ih1 h2
            rw [(without_eq ra k).2] at this
            exact (noContent_iff ra k).2 this
          | false =>
            rw [hs] at h2
            simp only [Bool.false_eq_true, if_false, decide_eq_true_iff] at h2 ⊢
            rw [(without_eq ra k).1] at h2
            exact proc_nil.1 h2
  induction f generalizing inStruct with
  | nil => rfl
  | cons i k s ih1 ih2 =>
    rw [withoutEmpty]
    split
    · exact ih2 _
    · rename_i hc
      rw [withoutEmpty, if_neg, ih1, ih2]
      intro h
      apply hc
      simp only [Bool.and_eq_true] at h ⊢
      refine ⟨h.1, ?_⟩
      have h2 := h.2
      rw [contentless_iff] at h2 ⊢
      refine ⟨?_, h2.2⟩
      cases hs : isStruct ra i with
      | true =>
        rw [hs] at h2
        simp only [if_true] at h2 ⊢
        rw [← (without_eq ra _).2, ih1] at h2
        rw [← (without_eq ra _).2]
        exact h2.1
      | false =>
        rw [hs] at h2
        simp only [Bool.false_eq_true, if_false] at h2 ⊢
        rw [proc_nil] at h2
        rw [← (without_eq ra _).1]
        exact h2.1

/-! non-vacuity: `1: struct (2: int, 3: struct (4: union ()), 5: struct (6: string), 7: array ())` -/
def sample : List Pd :=
  [{}, { firstChild := 2, ty := .struct }, { parent := 1, next := 3, ty := .int32 }, { parent := 1, firstChild := 4, next := 5, ty := .struct },
   { parent := 3, ty := .union }, { parent := 1, firstChild := 6, next := 7, ty := .struct }, { parent := 5, ty := .string },
   { parent := 1, ty := .array }]
def sampleKids : Forest := .cons 2 .nil (.cons 3 (.cons 4 .nil .nil) (.cons 5 (.cons 6 .nil .nil) (.cons 7 .nil .nil)))
example : Rep sample 0 1 (.cons 1 sampleKids .nil) := by
  simp [Rep, sample, sampleKids, kidsHead]
example : (1 :: sampleKids.nodes).Nodup := by decide
example : withoutEmpty sample false (.cons 1 sampleKids .nil) = .cons 1 (.cons 2 .nil (.cons 5 (.cons 6 .nil .nil) .nil)) .nil := by decide
example : (Forest.cons 1 (.cons 2 .nil .nil) .nil).events 0 = [(1, 0, .pre), (2, 1, .pre), (2, 1, .post), (1, 0, .post)] := by decide

end Verif.Props.Dfs
