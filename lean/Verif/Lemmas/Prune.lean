import Verif.Lemmas.Dfs
/-! Lemmas about renumbering and removal of empty nodes. -/
namespace Verif.Lemmas.Prune
open Verif.Model Verif.Model.Ptrs Verif.Spec.Ptrs Verif.Lemmas.Dfs

theorem upd_get {ra ra' : List Pd} {i : Nat} {g : Pd → Pd} (h : upd ra i g = some ra') :
    ra'.length = ra.length ∧ (∀ x, x ≠ i → ra'[x]? = ra[x]?) ∧ ∃ pd, ra[i]? = some pd ∧ ra'[i]? = some (g pd) := by
  unfold upd at h
  cases hi : ra[i]? with
  | none => rw [hi] at h; simp at h
  | some pd =>
    rw [hi] at h
    simp only [Option.bind_eq_bind, Option.bind_some, wr] at h
    have hlt := (List.getElem?_eq_some_iff.1 hi).1
    rw [if_pos hlt] at h
    cases h
    refine ⟨by simp, fun x hx => ?_, pd, rfl, ?_⟩
    · rw [List.getElem?_set_ne (Ne.symm hx)]
    · rw [List.getElem?_set_self hlt]

theorem upd_some {ra : List Pd} {i : Nat} {pd : Pd} (g : Pd → Pd) (h : ra[i]? = some pd) : ∃ ra', upd ra i g = some ra' := by
  unfold upd
  rw [h]
  simp only [Option.bind_eq_bind, Option.bind_some, wr]
  rw [if_pos (List.getElem?_eq_some_iff.1 h).1]
  exact ⟨_, rfl⟩

/-! ### renumbering -/

theorem renumber_events (f : Forest) : ∀ (ra : List Pd) (c : Nat) (l : Int) (es : List (Nat × Int × Order)),
    (∀ x ∈ f.nodes, x < ra.length) → f.nodes.Nodup →
    ∃ ra', callAll renumberNode (f.events l ++ es) (ra, c) = callAll renumberNode es (ra', c + f.nodes.length) ∧
      ra'.length = ra.length ∧ (∀ x, x ∉ f.nodes → ra'[x]? = ra[x]?) ∧
      (∀ j x : Nat, f.nodes[j]? = some x → ra'[x]? = (ra[x]?).map fun pd : Pd => { pd with idx := c + j }) := by
  induction f with
  | nil => intro ra c l es _ _; exact ⟨ra, rfl, rfl, fun _ _ => rfl, fun j x h => by simp [Forest.nodes] at h⟩
  | cons i k s ih1 ih2 =>
    intro ra c l es hr hn
    have hi : i < ra.length := hr i (by simp [Forest.nodes])
    obtain ⟨pd, hpd⟩ : ∃ pd, ra[i]? = some pd := ⟨ra[i], List.getElem?_eq_getElem hi⟩
    obtain ⟨ra1, h1⟩ := upd_some (fun pd => { pd with idx := c }) hpd
    obtain ⟨a1, a2, pd', a3, a4⟩ := upd_get h1
    rw [hpd] at a3; cases a3
    simp only [Forest.nodes, List.nodup_cons, List.mem_append, not_or] at hn
    obtain ⟨⟨n1, n2⟩, n3⟩ := hn
    obtain ⟨n4, n5, n6⟩ := List.nodup_append.1 n3
    obtain ⟨ra2, b1, b2, b3, b4⟩ := ih1 ra1 (c + 1) (l + 1) ((i, l, .post) :: (s.events l ++ es))
      (fun x hx => by rw [a1]; exact hr x (by simp [Forest.nodes, hx])) n4
    obtain ⟨ra3, c1, c2, c3, c4⟩ := ih2 ra2 (c + 1 + k.nodes.length) l es
      (fun x hx => by rw [b2, a1]; exact hr x (by simp [Forest.nodes, hx])) n5
    refine ⟨ra3, ?_, by rw [c2, b2, a1], ?_, ?_⟩
    · simp only [Forest.events, List.cons_append, List.append_assoc, callAll, renumberNode, Option.bind_eq_bind, h1, Option.bind_some,
        Bool.true_eq_false, if_false]
      have : callAll renumberNode (k.events (l + 1) ++ (i, l, Order.post) :: (s.events l ++ es)) (ra1, c + 1) = _ := b1
      rw [show c + (Forest.cons i k s).nodes.length = c + 1 + k.nodes.length + s.nodes.length by simp [Forest.nodes]; omega]
      rw [← c1]
      refine this.trans ?_
      simp [callAll, renumberNode]
    · intro x hx
      simp only [Forest.nodes, List.mem_cons, List.mem_append, not_or] at hx
      rw [c3 x hx.2.2, b3 x hx.2.1, a2 x hx.1]
    · intro j x hj
      cases j with
      | zero =>
        simp [Forest.nodes] at hj
        subst hj
        rw [c3 i n2, b3 i n1, a4, hpd]
        rfl
      | succ j =>
        simp only [Forest.nodes, List.getElem?_cons_succ] at hj
        by_cases hlt : j < k.nodes.length
        · rw [List.getElem?_append_left hlt] at hj
          have hxk : x ∈ k.nodes := List.mem_of_getElem? hj
          have hxs : x ∉ s.nodes := fun h => n6 x hxk x h rfl
          have hxi : x ≠ i := fun h => n1 (h ▸ hxk)
          rw [c3 x hxs, b4 j x hj, a2 x hxi, show c + 1 + j = c + (j + 1) by omega]
        · rw [List.getElem?_append_right (by omega)] at hj
          have hxs : x ∈ s.nodes := List.mem_of_getElem? hj
          have hxk : x ∉ k.nodes := fun h => n6 x h x hxs rfl
          have hxi : x ≠ i := fun h => n2 (h ▸ hxs)
          rw [c4 _ x hj, b3 x hxk, a2 x hxi, show c + 1 + k.nodes.length + (j - k.nodes.length) = c + (j + 1) by omega]

theorem keepsLinks_renumber : KeepsLinks renumberNode := by
  intro s i l o ok s' h
  cases o with
  | post => simp [renumberNode] at h; rw [h.2]
  | pre =>
    simp only [renumberNode, Option.bind_eq_bind, Option.bind_eq_some_iff, Option.some.injEq, Prod.mk.injEq] at h
    obtain ⟨ra, h1, _, h2⟩ := h
    obtain ⟨a1, a2, pd, a3, a4⟩ := upd_get h1
    subst h2
    apply List.ext_getElem?
    intro j
    simp only [List.getElem?_map]
    by_cases hj : j = i
    · subst hj; rw [a3, a4]; rfl
    · rw [a2 j hj]

theorem frame_of_keeps {σ : Type} {v : Visitor σ} (hv : KeepsLinks v) : ∀ (es : List (Nat × Int × Order)) (s : List Pd × σ),
    FrameOK v (fun _ => []) es s := by
  intro es
  induction es with
  | nil => intro s; trivial
  | cons e es ih =>
    obtain ⟨i, l, o⟩ := e
    intro s ok s' h
    refine ⟨?_, fun _ => ih s'⟩
    have h1 := hv s i l o ok s' h
    have hs : ∀ j, SameAt s.1 s'.1 j := fun j => by
      have : (s'.1.map linkPart)[j]? = (s.1.map linkPart)[j]? := by rw [h1]
      simp only [List.getElem?_map] at this
      exact this.symm
    have hl : s.1.length = s'.1.length := by
      have := congrArg List.length h1
      simpa using this.symm
    refine ⟨hl, ?_⟩
    cases o with
    | pre => exact hs
    | post =>
      refine ⟨fun j _ _ => hs j, fun _ pd hp => ?_⟩
      obtain ⟨pd', q1, q2⟩ := sameAt_some (hs i) hp
      obtain ⟨q3, q4, _⟩ := linkPart_eq q2
      exact ⟨pd', q1, q3, q4⟩

theorem within_nil (f : Forest) : Within (fun _ => []) f := by
  induction f with
  | nil => trivial
  | cons i k s ih1 ih2 => exact ⟨fun j hj => by simp at hj, ih1, ih2⟩

/-! ### removal of empty nodes -/

theorem structLike_eq (t : MrType) : structLike t = structTypes t := by cases t <;> rfl

theorem container_eq (t : MrType) : container t = removeIfEmpty t := by cases t <;> rfl

def strip (pd : Pd) : Pd := { pd with firstChild := 0, next := 0 }

def SameData (a b : List Pd) (x : Nat) : Prop := (a[x]?).map strip = (b[x]?).map strip

theorem strip_eq {a b : Pd} (h : strip a = strip b) :
    a.parent = b.parent ∧ a.idx = b.idx ∧ a.ref = b.ref ∧ a.cref = b.cref ∧ a.refd = b.refd ∧ a.ty = b.ty := by
  unfold strip at h
  simp only [Pd.mk.injEq] at h
  obtain ⟨h1, h2, h3, h4, h5, h6, h7, h8⟩ := h
  exact ⟨h1, h4, h5, h6, h7, h8⟩

theorem sameData_some {a b : List Pd} {j : Nat} (h : SameData a b j) {pd : Pd} (hp : b[j]? = some pd) :
    ∃ pd', a[j]? = some pd' ∧ strip pd' = strip pd := by
  unfold SameData at h
  rw [hp] at h
  cases hb : a[j]? with
  | none => rw [hb] at h; simp at h
  | some x => rw [hb] at h; simp at h; exact ⟨x, rfl, h⟩

def dropHere (ra : List Pd) (i : Nat) : Bool :=
  match ra[i]? with
  | none => false
  | some pd => droppable pd

def drop (ra : List Pd) : Forest → Forest
  | .nil => .nil
  | .cons i k s => if k = .nil ∧ dropHere ra i = true then drop ra s else .cons i k (drop ra s)

def proc (ra : List Pd) : Forest → Forest
  | .nil => .nil
  | .cons i k s => .cons i (if isStruct ra i then drop ra (proc ra k) else proc ra k) (proc ra s)

theorem drop_len (ra : List Pd) (f : Forest) : (drop ra f).nodes.length ≤ f.nodes.length := by
  induction f with
  | nil => simp [drop]
  | cons i k s _ ih =>
    unfold drop
    split
    · simp [Forest.nodes]; omega
    · simp [Forest.nodes]; omega

theorem drop_sublist (ra : List Pd) (f : Forest) : (drop ra f).nodes.Sublist f.nodes := by
  induction f with
  | nil => simp [drop]
  | cons i k s _ ih =>
    unfold drop
    split
    · rename_i h
      rw [h.1]
      simp only [Forest.nodes, List.nil_append]
      exact List.Sublist.cons _ ih
    · simp only [Forest.nodes]
      exact List.Sublist.cons_cons _ (List.Sublist.append (List.Sublist.refl _) ih)

theorem proc_sublist (ra : List Pd) (f : Forest) : (proc ra f).nodes.Sublist f.nodes := by
  induction f with
  | nil => simp [proc]
  | cons i k s ih1 ih2 =>
    simp only [proc, Forest.nodes]
    refine List.Sublist.cons_cons _ (List.Sublist.append ?_ ih2)
    split
    · exact (drop_sublist ra _).trans ih1
    · exact ih1

theorem drop_len_eq (ra : List Pd) (f : Forest) (h : (drop ra f).nodes.length = f.nodes.length) : drop ra f = f := by
  induction f with
  | nil => rfl
  | cons i k s _ ih =>
    unfold drop at h ⊢
    have := drop_len ra s
    split
    · rename_i hc
      rw [if_pos hc] at h
      simp [Forest.nodes] at h
      omega
    · rename_i hc
      rw [if_neg hc] at h
      simp [Forest.nodes] at h
      rw [ih (by omega)]

theorem proc_len_eq (ra : List Pd) (f : Forest) (h : (proc ra f).nodes.length = f.nodes.length) : proc ra f = f := by
  induction f with
  | nil => rfl
  | cons i k s ih1 ih2 =>
    have a1 := (proc_sublist ra k).length_le
    have a2 := (proc_sublist ra s).length_le
    have a3 := drop_len ra (proc ra k)
    simp only [proc, Forest.nodes, List.length_cons, List.length_append] at h
    rw [proc]
    split
    · rename_i hc
      rw [if_pos hc] at h
      have hk := ih1 (by omega)
      have := drop_len_eq ra (proc ra k) (by omega)
      rw [this, hk, ih2 (by omega)]
    · rename_i hc
      rw [if_neg hc] at h
      rw [ih1 (by omega), ih2 (by omega)]

theorem proc_fix {ra : List Pd} {k : Forest} (h : drop ra (proc ra k) = k) : proc ra k = k := by
  have a1 := (proc_sublist ra k).length_le
  have a3 := drop_len ra (proc ra k)
  rw [h] at a3
  exact proc_len_eq ra k (by omega)

def Refs (ra : List Pd) (f : Forest) : Prop := ∀ x ∈ f.nodes, ∀ pd, ra[x]? = some pd → (pd.ref || pd.cref) = true → pd.firstChild ≠ 0

def headOf : Forest → Nat
  | .nil => 0
  | .cons i _ _ => i

theorem rep_head {ra : List Pd} {p h : Nat} {f : Forest} (hr : Rep ra p h f) : h = headOf f := by
  cases f with
  | nil => exact hr
  | cons i k s => exact hr.1

/-- the node a link belongs to -/
def linkNode : Link → Nat
  | .first i => i
  | .next i => i

def put : Link → Pd → Nat → Pd
  | .first _, pd, m => { pd with firstChild := m }
  | .next _, pd, m => { pd with next := m }

def getL : Link → Pd → Nat
  | .first _, pd => pd.firstChild
  | .next _, pd => pd.next

theorem get_eq (L : Link) (ra : List Pd) : L.get ra = (ra[linkNode L]?).map (getL L) := by
  cases L with
  | first i => simp only [Link.get, linkNode]; cases h : ra[i]? <;> simp [getL]
  | next i => simp only [Link.get, linkNode]; cases h : ra[i]? <;> simp [getL]

theorem set_eq (L : Link) (ra : List Pd) (m : Nat) : L.set ra m = upd ra (linkNode L) fun pd => put L pd m := by
  cases L <;> rfl

theorem strip_put (L : Link) (pd : Pd) (m : Nat) : strip (put L pd m) = strip pd := by cases L <;> rfl
theorem get_put (L : Link) (pd : Pd) (m : Nat) : getL L (put L pd m) = m := by cases L <;> rfl
theorem put_put (L : Link) (pd : Pd) (m n : Nat) : put L (put L pd m) n = put L pd n := by cases L <;> rfl
theorem put_get (L : Link) (pd : Pd) : put L pd (getL L pd) = pd := by cases L <;> rfl

theorem loop_ok (ra0 : List Pd) (f : Forest) : ∀ (ra : List Pd) (L : Link) (par head fuel : Nat) (found : Bool) (pb : Pd),
    ra[linkNode L]? = some pb → getL L pb = head → Rep ra par head f → (linkNode L :: f.nodes).Nodup → Refs ra f →
    (∀ x ∈ f.nodes, SameData ra0 ra x) → f.nodes.length < fuel →
    ∃ ra', removeLoop fuel ra L found = some (ra', found || decide (drop ra0 f ≠ f)) ∧
      Rep ra' par (headOf (drop ra0 f)) (drop ra0 f) ∧ ra'.length = ra.length ∧
      (∀ x, x ∉ f.nodes → x ≠ linkNode L → ra'[x]? = ra[x]?) ∧
      (∀ x ∈ f.nodes, ∀ pd, ra[x]? = some pd → ∃ m, ra'[x]? = some { pd with next := m }) ∧
      ra'[linkNode L]? = some (put L pb (headOf (drop ra0 f))) ∧
      (drop ra0 f = f → ra' = ra) := by
  induction f with
  | nil =>
    intro ra L par head fuel found pb h1 h2 h3 h4 h5 h6 h7
    match fuel with
    | fuel + 1 =>
      have h3' : head = 0 := h3
      refine ⟨ra, ?_, rfl, rfl, fun _ _ _ => rfl, fun x hx => by simp [Forest.nodes] at hx, ?_, fun _ => rfl⟩
      · rw [removeLoop, get_eq, h1]
        simp [h2, h3', drop]
      · rw [h1]
        simp only [drop, headOf]
        rw [← h3', ← h2, put_get]
  | cons i k s _ ih =>
    intro ra L par head fuel found pb h1 h2 h3 h4 h5 h6 h7
    match fuel with
    | fuel + 1 =>
      obtain ⟨rfl, e2, pd, e3, e4, e5, e6⟩ := h3
      have hd0 : ∃ pd0, ra0[head]? = some pd0 ∧ strip pd0 = strip pd := sameData_some (h6 head (by simp [Forest.nodes])) e3
      obtain ⟨pd0, d1, d2⟩ := hd0
      obtain ⟨s1, s2, s3, s4, s5, s6⟩ := strip_eq d2
      have hcond : (pd.firstChild = 0 ∧ pd.refd = false ∧ removeIfEmpty pd.ty = true) ↔ (k = .nil ∧ dropHere ra0 head = true) := by
        unfold dropHere droppable
        rw [d1]
        simp only [container_eq]
        simp only [s3, s4, s5, s6, Bool.and_eq_true, Bool.not_eq_true']
        have hr := h5 head (by simp [Forest.nodes]) pd e3
        cases hrr : (pd.ref || pd.cref) with
        | true => simp [hr hrr]
        | false =>
          have : kidsHead pd = pd.firstChild := by unfold kidsHead; rw [hrr]; simp
          rw [← rep_nil_iff e5, this]
          constructor
          · rintro ⟨a, b, c⟩; exact ⟨a, ⟨c, b⟩, rfl⟩
          · rintro ⟨a, ⟨c, b⟩, _⟩; exact ⟨a, b, c⟩
      simp only [Forest.nodes, List.nodup_cons, List.mem_cons, List.mem_append, not_or] at h4
      obtain ⟨⟨m1, m2, m3⟩, ⟨m4, m5⟩, m6⟩ := h4
      obtain ⟨m7, m8, m9⟩ := List.nodup_append.1 m6
      simp only [Forest.nodes, List.length_cons, List.length_append] at h7
      by_cases hc : k = .nil ∧ dropHere ra0 head = true
      · obtain ⟨ra1, u1⟩ := upd_some (fun pd => put L pd pd.next) h1
        have hset : ∃ ra1, L.set ra pd.next = some ra1 := by rw [set_eq]; exact upd_some _ h1
        obtain ⟨ra1, u1⟩ := hset
        have u2 := u1
        rw [set_eq] at u2
        obtain ⟨v1, v2, pb', v3, v4⟩ := upd_get u2
        rw [h1] at v3; cases v3
        have hs1 : ∀ x ∈ s.nodes, ra1[x]? = ra[x]? := fun x hx => v2 x fun h => m3 (h ▸ hx)
        obtain ⟨ra', r1, r2, r3, r4, r5, r6, r7⟩ := ih ra1 L par pd.next fuel true (put L pb pd.next) v4 (get_put _ _ _)
          (rep_same e6 fun j hj => by unfold SameAt; rw [hs1 j hj]) (List.nodup_cons.2 ⟨m3, m8⟩)
          (fun x hx p hp => h5 x (by simp [Forest.nodes, hx]) p (by rw [← hs1 x hx]; exact hp))
          (fun x hx => by unfold SameData; rw [hs1 x hx]; exact h6 x (by simp [Forest.nodes, hx])) (by omega)
        have hdrop : drop ra0 (.cons head k s) = drop ra0 s := by rw [drop, if_pos hc]
        have hneq : drop ra0 (.cons head k s) ≠ .cons head k s := by
          rw [hdrop]
          intro h
          have := drop_len ra0 s
          rw [h] at this
          simp [Forest.nodes] at this
          omega
        refine ⟨ra', ?_, by rw [hdrop]; exact r2, by rw [r3, v1], ?_, ?_, ?_, fun h => absurd h hneq⟩
        · rw [removeLoop, get_eq, h1]
          simp only [Option.map_some, h2, Option.bind_eq_bind, Option.bind_some, e2, if_false, e3, hcond.2 hc, and_self, if_true, u1]
          rw [r1]
          simp [hneq]
        · intro x hx hxl
          simp only [Forest.nodes, List.mem_cons, List.mem_append, not_or] at hx
          rw [r4 x hx.2.2 hxl, v2 x hxl]
        · intro x hx p hp
          simp only [Forest.nodes, List.mem_cons, List.mem_append] at hx
          by_cases hxs : x ∈ s.nodes
          · exact r5 x hxs p (by rw [hs1 x hxs]; exact hp)
          · have hxl : x ≠ linkNode L := by
              rintro rfl
              rcases hx with h | h | h
              · exact m1 h
              · exact m2 h
              · exact m3 h
            exact ⟨p.next, by rw [r4 x hxs hxl, v2 x hxl, hp]⟩
        · rw [r6, put_put, hdrop]
      · obtain ⟨ra', r1, r2, r3, r4, r5, r6, r7⟩ := ih ra (.next head) par pd.next fuel found pd e3 rfl e6 (List.nodup_cons.2 ⟨m5, m8⟩)
          (fun x hx p hp => h5 x (by simp [Forest.nodes, hx]) p hp) (fun x hx => h6 x (by simp [Forest.nodes, hx])) (by omega)
        have hdrop : drop ra0 (.cons head k s) = .cons head k (drop ra0 s) := by rw [drop, if_neg hc]
        have hk : ∀ x ∈ k.nodes, ra'[x]? = ra[x]? := fun x hx => r4 x (fun h => m9 x hx x h rfl) (fun h => by
          simp only [linkNode] at h; exact m4 (h ▸ hx))
        have hhd : ra'[head]? = some { pd with next := headOf (drop ra0 s) } := r6
        refine ⟨ra', ?_, ?_, r3, ?_, ?_, ?_, ?_⟩
        · rw [removeLoop, get_eq, h1]
          simp only [Option.map_some, h2, Option.bind_eq_bind, Option.bind_some, e2, if_false, e3]
          rw [if_neg (by rw [hcond]; exact hc), r1, hdrop]
          simp
        · rw [hdrop]
          exact ⟨rfl, e2, _, hhd, e4, rep_same e5 fun j hj => by unfold SameAt; rw [hk j hj], r2⟩
        · intro x hx hxl
          simp only [Forest.nodes, List.mem_cons, List.mem_append, not_or] at hx
          exact r4 x hx.2.2 hx.1
        · intro x hx p hp
          simp only [Forest.nodes, List.mem_cons, List.mem_append] at hx
          by_cases hxs : x ∈ s.nodes
          · exact r5 x hxs p hp
          · by_cases hxh : x = head
            · subst hxh
              rw [e3] at hp; cases hp
              exact ⟨_, hhd⟩
            · exact ⟨p.next, by rw [r4 x hxs hxh, hp]⟩
        · rw [r4 _ m3 m1, h1, hdrop]
          simp only [headOf]
          rw [← h2, put_get]
        · intro h
          rw [hdrop] at h
          simp only [Forest.cons.injEq, true_and] at h
          exact r7 h

/-- `D` gives the nodes below each node of the forest -/
def Full (D : Nat → List Nat) : Forest → Prop
  | .nil => True
  | .cons i k s => D i = k.nodes ∧ Full D k ∧ Full D s

def below : Forest → Nat → List Nat
  | .nil, _ => []
  | .cons i k s, x => if x = i then k.nodes else below k x ++ below s x

theorem below_nil {f : Forest} {x : Nat} (h : x ∉ f.nodes) : below f x = [] := by
  induction f with
  | nil => rfl
  | cons i k s ih1 ih2 =>
    simp only [Forest.nodes, List.mem_cons, List.mem_append, not_or] at h
    simp [below, h.1, ih1 h.2.1, ih2 h.2.2]

theorem full_congr {D E : Nat → List Nat} {f : Forest} (h : Full D f) (hx : ∀ x ∈ f.nodes, E x = D x) : Full E f := by
  induction f with
  | nil => trivial
  | cons i k s ih1 ih2 =>
    exact ⟨by rw [hx i (by simp [Forest.nodes])]; exact h.1, ih1 h.2.1 fun x hk => hx x (by simp [Forest.nodes, hk]),
      ih2 h.2.2 fun x hk => hx x (by simp [Forest.nodes, hk])⟩

theorem full_below {f : Forest} (h : f.nodes.Nodup) : Full (below f) f := by
  induction f with
  | nil => trivial
  | cons i k s ih1 ih2 =>
    simp only [Forest.nodes, List.nodup_cons, List.mem_append, not_or] at h
    obtain ⟨⟨n1, n2⟩, n3⟩ := h
    obtain ⟨n4, n5, n6⟩ := List.nodup_append.1 n3
    refine ⟨by simp [below], full_congr (ih1 n4) fun x hx => ?_, full_congr (ih2 n5) fun x hx => ?_⟩
    · have h1 : x ≠ i := fun h => n1 (h ▸ hx)
      have h2 : x ∉ s.nodes := fun h => n6 x hx x h rfl
      simp [below, h1, below_nil h2]
    · have h1 : x ≠ i := fun h => n2 (h ▸ hx)
      have h2 : x ∉ k.nodes := fun h => n6 x h x hx rfl
      simp [below, h1, below_nil h2]

theorem full_within {D : Nat → List Nat} {f : Forest} (h : Full D f) : Within D f := by
  induction f with
  | nil => trivial
  | cons i k s ih1 ih2 => exact ⟨fun j hj => by rw [h.1] at hj; exact hj, ih1 h.2.1, ih2 h.2.2⟩

/-- what removal keeps of one descriptor -/
def Kept (a b : List Pd) (x : Nat) : Prop :=
  ∀ pd, a[x]? = some pd → ∃ pd', b[x]? = some pd' ∧ strip pd' = strip pd ∧ ((pd.ref || pd.cref) = true → pd'.firstChild = pd.firstChild)

theorem kept_refl (a : List Pd) (x : Nat) : Kept a a x := fun pd h => ⟨pd, h, rfl, fun _ => rfl⟩

theorem kept_eq {a b : List Pd} {x : Nat} (h : b[x]? = a[x]?) : Kept a b x := fun pd hp => ⟨pd, by rw [h, hp], rfl, fun _ => rfl⟩

theorem kept_trans {a b c : List Pd} {x : Nat} (h1 : Kept a b x) (h2 : Kept b c x) : Kept a c x := by
  intro pd hp
  obtain ⟨p1, q1, q2, q3⟩ := h1 pd hp
  obtain ⟨p2, r1, r2, r3⟩ := h2 p1 q1
  refine ⟨p2, r1, r2.trans q2, fun h => ?_⟩
  obtain ⟨_, _, e1, e2, _⟩ := strip_eq q2
  rw [r3 (by rw [e1, e2]; exact h), q3 h]

theorem kept_refs {a b : List Pd} {f : Forest} (h : ∀ x ∈ f.nodes, Kept a b x) (hr : ∀ x ∈ f.nodes, x < a.length) (hf : Refs a f) : Refs b f := by
  intro x hx pd hp href
  have hlt := hr x hx
  obtain ⟨pd', q1, q2, q3⟩ := h x hx _ (List.getElem?_eq_getElem hlt)
  rw [hp] at q1; cases q1
  obtain ⟨_, _, e1, e2, _⟩ := strip_eq q2
  rw [e1, e2] at href
  rw [q3 href]
  exact hf x hx _ (List.getElem?_eq_getElem hlt) href

theorem kept_sameData {a b c : List Pd} {x : Nat} (h : Kept b c x) (hx : x < b.length) (hd : SameData a b x) : SameData a c x := by
  obtain ⟨pd', q1, q2, q3⟩ := h _ (List.getElem?_eq_getElem hx)
  unfold SameData at *
  rw [hd, q1, List.getElem?_eq_getElem hx]
  simp [q2]

theorem rep_of_head {ra : List Pd} {p h : Nat} {f g : Forest} (hr : Rep ra p h f) (e : headOf f = headOf g) : h = headOf g := by
  rw [← e]; exact rep_head hr

theorem prune_events (ra0 : List Pd) (D : Nat → List Nat) (f : Forest) :
    ∀ (ra : List Pd) (par head : Nat) (found : Bool) (l : Int) (es : List (Nat × Int × Order)),
    Rep ra par head f → f.nodes.Nodup → Refs ra f → (∀ x ∈ f.nodes, SameData ra0 ra x) → Full D f →
    ∃ ra', callAll removeEmptyNode (f.events l ++ es) (ra, found) =
        callAll removeEmptyNode es (ra', found || decide (proc ra0 f ≠ f)) ∧
      Rep ra' par head (proc ra0 f) ∧ ra'.length = ra.length ∧
      (∀ x, x ∉ f.nodes → ra'[x]? = ra[x]?) ∧ (∀ x ∈ f.nodes, Kept ra ra' x) ∧
      (proc ra0 f = f → ra' = ra) ∧
      (FrameOK removeEmptyNode D es (ra', found || decide (proc ra0 f ≠ f)) → FrameOK removeEmptyNode D (f.events l ++ es) (ra, found)) := by
  induction f with
  | nil =>
    intro ra par head found l es h1 h2 h3 h4 h5
    exact ⟨ra, by simp [Forest.events, proc], h1, rfl, fun _ _ => rfl, fun x hx => by simp [Forest.nodes] at hx, fun _ => rfl,
      by simp [Forest.events, proc]⟩
  | cons i k s ih1 ih2 =>
    intro ra par head found l es h1 h2 h3 h4 h5
    obtain ⟨rfl, e2, pd, e3, e4, e5, e6⟩ := h1
    obtain ⟨f1, f2, f3⟩ := h5
    simp only [Forest.nodes, List.nodup_cons, List.mem_append, not_or] at h2
    obtain ⟨⟨n1, n2⟩, n3⟩ := h2
    obtain ⟨n4, n5, n6⟩ := List.nodup_append.1 n3
    have hin : ∀ x ∈ k.nodes, x < ra.length := rep_range e5
    have his : ∀ x ∈ s.nodes, x < ra.length := rep_range e6
    obtain ⟨ra1, a1, a2, a3, a4, a5, a6, a7⟩ := ih1 ra head (kidsHead pd) found (l + 1) ((head, l, .post) :: (s.events l ++ es)) e5 n4
      (fun x hx => h3 x (by simp [Forest.nodes, hx])) (fun x hx => h4 x (by simp [Forest.nodes, hx])) f2
    have hi1 : ra1[head]? = some pd := by rw [a4 head n1]; exact e3
    obtain ⟨pd0, d1, d2⟩ := sameData_some (h4 head (by simp [Forest.nodes])) e3
    obtain ⟨s1, s2, s3, s4, s5, s6⟩ := strip_eq d2
    have hstr : isStruct ra0 head = (structTypes pd.ty && !(pd.ref || pd.cref)) := by
      unfold isStruct; rw [d1]; simp [s3, s4, s6, structLike_eq]
    -- the visit after the children
    have hpost : ∃ ra2, removeEmptyNode (ra1, found || decide (proc ra0 k ≠ k)) head l .post =
          some (true, (ra2, (found || decide (proc ra0 k ≠ k)) ||
            decide ((if isStruct ra0 head then drop ra0 (proc ra0 k) else proc ra0 k) ≠ proc ra0 k))) ∧
        (∃ pd2, ra2[head]? = some pd2 ∧ strip pd2 = strip pd ∧ pd2.next = pd.next ∧ pd2.ref = pd.ref ∧ pd2.cref = pd.cref ∧
          ((pd.ref || pd.cref) = true → pd2.firstChild = pd.firstChild) ∧
          Rep ra2 head (kidsHead pd2) (if isStruct ra0 head then drop ra0 (proc ra0 k) else proc ra0 k)) ∧
        ra2.length = ra1.length ∧
        (∀ x, x ∉ k.nodes → x ≠ head → ra2[x]? = ra1[x]?) ∧ (∀ x ∈ k.nodes, Kept ra1 ra2 x) ∧
        ((if isStruct ra0 head then drop ra0 (proc ra0 k) else proc ra0 k) = proc ra0 k → ra2 = ra1) := by
      unfold removeEmptyNode
      simp only [hi1, Option.bind_eq_bind, Option.bind_some]
      cases ht : structTypes pd.ty with
      | false =>
        have : isStruct ra0 head = false := by rw [hstr, ht]; rfl
        refine ⟨ra1, by simp [this], ⟨pd, hi1, rfl, rfl, rfl, rfl, fun _ => rfl, ?_⟩, rfl, fun _ _ _ => rfl, fun x _ => kept_refl _ _, fun _ => rfl⟩
        rw [this]; exact a2
      | true =>
        cases hrf : (pd.ref || pd.cref) with
        | true =>
          have : isStruct ra0 head = false := by rw [hstr, ht, hrf]; rfl
          refine ⟨ra1, by simp [this], ⟨pd, hi1, rfl, rfl, rfl, rfl, fun _ => rfl, ?_⟩, rfl, fun _ _ _ => rfl, fun x _ => kept_refl _ _, fun _ => rfl⟩
          rw [this]; exact a2
        | false =>
          have hst : isStruct ra0 head = true := by rw [hstr, ht, hrf]; rfl
          have hkh : kidsHead pd = pd.firstChild := by unfold kidsHead; rw [hrf]; simp
          have hsub := proc_sublist ra0 k
          have hnd1 : (head :: (proc ra0 k).nodes).Nodup := List.nodup_cons.2 ⟨fun h => n1 (hsub.subset h), hsub.nodup n4⟩
          have hle : (proc ra0 k).nodes.length < ra1.length + 1 := by
            have := nodup_len (hsub.nodup n4) (n := ra1.length) (fun x hx => by rw [a3]; exact hin x (hsub.subset hx))
            omega
          have hrefs : Refs ra1 k := kept_refs a5 hin (fun x hx => h3 x (by simp [Forest.nodes, hx]))
          obtain ⟨ra2, r1, r2, r3, r4, r5, r6, r7⟩ := loop_ok ra0 (proc ra0 k) ra1 (.first head) head (kidsHead pd) (ra1.length + 1)
            (found || decide (proc ra0 k ≠ k)) pd hi1 hkh.symm a2 hnd1
            (fun x hx => hrefs x (hsub.subset hx))
            (fun x hx => kept_sameData (a5 x (hsub.subset hx)) (hin x (hsub.subset hx)) (h4 x (by simp [Forest.nodes, hsub.subset hx]))) hle
          simp only [hst, if_true]
          refine ⟨ra2, ?_, ?_, r3, ?_, ?_, r7⟩
          · rw [r1]; simp
          · refine ⟨_, r6, rfl, rfl, rfl, rfl, fun h => by simp at h, ?_⟩
            have : kidsHead (put (.first head) pd (headOf (drop ra0 (proc ra0 k)))) = headOf (drop ra0 (proc ra0 k)) := by
              unfold kidsHead put
              simp only
              rw [hrf]; simp
            rw [this]; exact r2
          · intro x hx hxh
            exact r4 x (fun h => hx (hsub.subset h)) hxh
          · intro x hx
            by_cases hxp : x ∈ (proc ra0 k).nodes
            · intro p hp
              obtain ⟨m, hm⟩ := r5 x hxp p hp
              exact ⟨_, hm, rfl, fun _ => rfl⟩
            · exact kept_eq (r4 x hxp (fun h => by simp only [linkNode] at h; exact n1 (h ▸ hx)))
    obtain ⟨ra2, b1, ⟨pd2, b2, b3, b4, b5, b6, b7, b8⟩, b9, b10, b11, b12⟩ := hpost
    have hs2 : ∀ x ∈ s.nodes, ra2[x]? = ra[x]? := fun x hx => by
      rw [b10 x (fun h => n6 x h x hx rfl) (fun h => n2 (h ▸ hx)), a4 x (fun h => n6 x h x hx rfl)]
    obtain ⟨ra3, c1, c2, c3, c4, c5, c6, c7⟩ := ih2 ra2 par pd.next ((found || decide (proc ra0 k ≠ k)) ||
            decide ((if isStruct ra0 head then drop ra0 (proc ra0 k) else proc ra0 k) ≠ proc ra0 k)) l es
      (rep_same e6 fun j hj => by unfold SameAt; rw [hs2 j hj]) n5
      (fun x hx p hp => h3 x (by simp [Forest.nodes, hx]) p (by rw [← hs2 x hx]; exact hp))
      (fun x hx => by unfold SameData; rw [hs2 x hx]; exact h4 x (by simp [Forest.nodes, hx])) f3
    have hlenle : (if isStruct ra0 head then drop ra0 (proc ra0 k) else proc ra0 k).nodes.length ≤ (proc ra0 k).nodes.length := by
      split
      · exact drop_len _ _
      · exact Nat.le_refl _
    have hkk : (if isStruct ra0 head then drop ra0 (proc ra0 k) else proc ra0 k) = k ↔
        proc ra0 k = k ∧ (if isStruct ra0 head then drop ra0 (proc ra0 k) else proc ra0 k) = proc ra0 k := by
      constructor
      · intro h
        have hpk : proc ra0 k = k := by
          have e1 := proc_sublist ra0 k
          cases hiss : isStruct ra0 head with
          | false => rw [hiss] at h; simpa using h
          | true =>
            rw [hiss] at h
            simp only [if_true] at h
            exact proc_fix h
        exact ⟨hpk, by rw [h, hpk]⟩
      · rintro ⟨h, h'⟩; rw [h', h]
    have hfnd : ((((found || decide (proc ra0 k ≠ k)) ||
            decide ((if isStruct ra0 head then drop ra0 (proc ra0 k) else proc ra0 k) ≠ proc ra0 k))) || decide (proc ra0 s ≠ s)) =
        (found || decide (proc ra0 (.cons head k s) ≠ .cons head k s)) := by
      rw [Bool.or_assoc, Bool.or_assoc]
      congr 1
      have : (proc ra0 (.cons head k s) ≠ .cons head k s) ↔ (proc ra0 k ≠ k ∨ ((if isStruct ra0 head then drop ra0 (proc ra0 k) else proc ra0 k) ≠ proc ra0 k ∨ proc ra0 s ≠ s)) := by
        rw [proc]
        simp only [ne_eq, Forest.cons.injEq, true_and]
        rw [hkk]
        constructor
        · intro h
          apply Classical.byContradiction
          intro h2
          simp only [not_or, Classical.not_not] at h2
          exact h ⟨⟨h2.1, h2.2.1⟩, h2.2.2⟩
        · rintro (h | h | h) ⟨⟨x, y⟩, z⟩
          · exact h x
          · exact h y
          · exact h z
      rw [Bool.eq_iff_iff]
      simp only [Bool.or_eq_true, decide_eq_true_iff]
      exact this.symm
    rw [hfnd] at c1 c7
    have hev : (Forest.cons head k s).events l ++ es = (head, l, Order.pre) :: (k.events (l + 1) ++ (head, l, .post) :: (s.events l ++ es)) := by
      simp [Forest.events]
    refine ⟨ra3, ?_, ?_, by rw [c3, b9, a3], ?_, ?_, ?_, ?_⟩
    · rw [hev]
      simp only [callAll]
      rw [show removeEmptyNode (ra, found) head l .pre = some (true, (ra, found)) from rfl]
      simp only [Option.bind_eq_bind, Option.bind_some, Bool.true_eq_false, if_false]
      rw [a1]
      simp only [callAll, b1, Option.bind_eq_bind, Option.bind_some, Bool.true_eq_false, if_false]
      exact c1
    · have h3h : ra3[head]? = some pd2 := by rw [c4 head n2]; exact b2
      refine ⟨rfl, e2, pd2, h3h, by rw [(strip_eq b3).1]; exact e4, ?_, by rw [b4]; exact c2⟩
      refine rep_same b8 fun j hj => ?_
      have hjk : j ∈ k.nodes := by
        have hsub := proc_sublist ra0 k
        split at hj
        · exact hsub.subset ((drop_sublist ra0 _).subset hj)
        · exact hsub.subset hj
      unfold SameAt
      rw [c4 j (fun h => n6 j hjk j h rfl)]
    · intro x hx
      simp only [Forest.nodes, List.mem_cons, List.mem_append, not_or] at hx
      rw [c4 x hx.2.2, b10 x hx.2.1 hx.1, a4 x hx.2.1]
    · intro x hx
      simp only [Forest.nodes, List.mem_cons, List.mem_append] at hx
      by_cases hxs : x ∈ s.nodes
      · exact kept_trans (kept_eq (hs2 x hxs)) (c5 x hxs)
      · by_cases hxh : x = head
        · subst hxh
          intro p hp
          rw [e3] at hp; cases hp
          exact ⟨pd2, by rw [c4 _ n2]; exact b2, b3, b7⟩
        · have hxk : x ∈ k.nodes := by
            rcases hx with h | h | h
            · exact absurd h hxh
            · exact h
            · exact absurd h hxs
          exact kept_trans (kept_trans (a5 x hxk) (b11 x hxk)) (kept_eq (c4 x hxs))
    · intro h
      rw [proc] at h
      simp only [Forest.cons.injEq, true_and] at h
      obtain ⟨x, y⟩ := hkk.1 h.1
      rw [c6 h.2, b12 y, a6 x]
    · intro hfr
      rw [hev]
      intro ok s' hv
      rw [show removeEmptyNode (ra, found) head l .pre = some (true, (ra, found)) from rfl] at hv
      cases hv
      refine ⟨⟨rfl, fun j => rfl⟩, fun _ => ?_⟩
      apply a7
      intro ok s' hv
      rw [b1] at hv
      cases hv
      refine ⟨⟨b9.symm, fun j hj hjh => ?_, fun _ p hp => ?_⟩, fun _ => c7 hfr⟩
      · rw [f1] at hj
        unfold SameAt
        rw [b10 j hj hjh]
      · rw [hi1] at hp; cases hp
        exact ⟨pd2, b2, (strip_eq b3).1, b4⟩
end Verif.Lemmas.Prune
