import Verif.Lemmas.Xml2Load
import Verif.Lemmas.Xml1Print
/-!
# The tree of libxml2 made for a tree of nodes
-/
namespace Verif.Lemmas.Xml2Save
open Verif.Model Verif.Model.Ptrs Verif.Model.Xml2 Verif.Spec Verif.Spec.Ptrs Verif.Spec.Xml2 Verif.Lemmas.Xml2Load
open Verif.Model.Json (Leaf Info)
open Verif.Model.Xml1 (Loaded sRef sContent sIdx sNull sTrue handler leafText)
open Verif.Spec.Xml1 (valued ReadAs)

/-! ### the nodes in memory -/

/-- the roots of a forest -/
def roots : Forest → List Nat
  | .nil => []
  | .cons i _ s => i :: roots s

/-- the nodes made for a forest, by value -/
def tree (decode : List Nat → List Nat) (ra : List Pd) (info : List Info) : Forest → Tree
  | .nil => .nil
  | .cons i k s => .cons { ((newNode decode ra info i).getD {}) with kids := roots k } (tree decode ra info k) (tree decode ra info s)

theorem newNode_kids {decode : List Nat → List Nat} {ra : List Pd} {info : List Info} {i : Nat} {x : XNode} (h : newNode decode ra info i = some x) : x.kids = [] := by
  unfold newNode at h
  obtain ⟨_, _, h⟩ := Option.bind_eq_some_iff.1 h
  obtain ⟨_, _, h⟩ := Option.bind_eq_some_iff.1 h
  obtain ⟨_, _, h⟩ := Option.bind_eq_some_iff.1 h
  obtain ⟨_, _, h⟩ := Option.bind_eq_some_iff.1 h
  obtain ⟨_, _, h⟩ := Option.bind_eq_some_iff.1 h
  simp at h
  rw [← h]

/-- other nodes do not matter -/
theorem memory_frame {decode : List Nat → List Nat} {ra : List Pd} {info : List Info} {h h' : Heap} (f : Forest) :
    (∀ i ∈ f.nodes, h' i = h i) → InMemory h (roots f) (tree decode ra info f) → InMemory h' (roots f) (tree decode ra info f) := by
  induction f with
  | nil => intro _ _; trivial
  | cons i k s ih1 ih2 =>
    intro he ⟨h1, h2, h3⟩
    exact ⟨by rw [he i (by simp [Forest.nodes])]; exact h1, ih1 (fun j hj => he j (by simp [Forest.nodes, hj])) h2,
      ih2 (fun j hj => he j (by simp [Forest.nodes, hj])) h3⟩

/-- the walk makes the nodes of a forest and adds its roots to the children of the parent -/
theorem save_forest (decode : List Nat → List Nat) (ra : List Pd) (info : List Info) (f : Forest) : ∀ (par head : Nat) (h : Heap) (level : Int) (es : List (Nat × Int × Order)),
    Rep ra par head f → f.nodes.Nodup → (∀ i ∈ f.nodes, (newNode decode ra info i).isSome) → par ∉ f.nodes → (par ≠ 0 → (h par).isSome) →
    ∃ h' : Heap, callAll (saveNode decode info) (f.events level ++ es) (ra, h) = callAll (saveNode decode info) es (ra, h') ∧
      (∀ j, j ∉ f.nodes → j ≠ par → h' j = h j) ∧
      (par ≠ 0 → h' par = (h par).map fun x => { x with kids := x.kids ++ roots f }) ∧
      InMemory h' (roots f) (tree decode ra info f) := by
  induction f with
  | nil =>
    intro par head h level es _ _ _ _ hp
    refine ⟨h, rfl, fun _ _ _ => rfl, fun h0 => ?_, trivial⟩
    cases hx : h par with
    | none => rfl
    | some x => simp [roots]
  | cons i k s ih1 ih2 =>
    intro par head h level es hrep hn hnew hpar hp
    obtain ⟨_, hi0, pd, hpd, hpp, hk, hs⟩ := hrep
    simp only [Forest.nodes, List.nodup_cons, List.mem_append, not_or, List.nodup_append] at hn
    obtain ⟨⟨hik, his⟩, hnk, hns, hdis⟩ := hn
    simp only [Forest.nodes, List.mem_cons, List.mem_append, not_or] at hpar
    obtain ⟨hpi, hpk, hps⟩ := hpar
    obtain ⟨x, hx⟩ := Option.isSome_iff_exists.1 (hnew i (by simp [Forest.nodes]))
    have hxk := newNode_kids hx
    -- the call for the node itself
    obtain ⟨h1, hc1, hf1, hp1, hi1⟩ : ∃ h1 : Heap, saveNode decode info (ra, h) i level .pre = some (true, (ra, h1)) ∧
        (∀ j, j ≠ i → j ≠ par → h1 j = h j) ∧ (par ≠ 0 → h1 par = (h par).map fun x => { x with kids := x.kids ++ [i] }) ∧ h1 i = some x := by
      by_cases h0 : par = 0
      · refine ⟨fun j => if j = i then some x else h j, ?_, fun j hj _ => by simp [hj], fun e => absurd h0 e, by simp⟩
        simp only [saveNode, hpd, hx, Option.bind_eq_bind, Option.bind_some]
        rw [if_pos (by rw [hpp]; exact h0)]
      · obtain ⟨xp, hxp⟩ := Option.isSome_iff_exists.1 (hp h0)
        refine ⟨fun j => if j = par then some { xp with kids := xp.kids ++ [i] } else if j = i then some x else h j, ?_,
          fun j hj hj' => by simp [hj, hj'], fun _ => by simp [hxp], by simp [Ne.symm hpi]⟩
        simp only [saveNode, hpd, hx, Option.bind_eq_bind, Option.bind_some]
        rw [hpp, if_neg h0]
        simp [addKid, hpi, hxp]
    -- its children
    obtain ⟨h2, hc2, hf2, hp2, hm2⟩ := ih1 i (kidsHead pd) h1 (level + 1) ((i, level, .post) :: (s.events level ++ es)) hk hnk
      (fun j hj => hnew j (by simp [Forest.nodes, hj])) hik (fun _ => by rw [hi1]; rfl)
    -- its siblings
    have hpar2 : par ≠ 0 → h2 par = (h par).map fun x => { x with kids := x.kids ++ [i] } := fun h0 => by
      rw [hf2 par hpk hpi, hp1 h0]
    obtain ⟨h3, hc3, hf3, hp3, hm3⟩ := ih2 par pd.next h2 level es hs hns (fun j hj => hnew j (by simp [Forest.nodes, hj])) hps
      (fun h0 => by rw [hpar2 h0]; simpa using hp h0)
    refine ⟨h3, ?_, ?_, ?_, ?_⟩
    · rw [Forest.events, List.cons_append, callAll, hc1]
      simp only [Option.bind_eq_bind, Option.bind_some, Bool.true_eq_false, if_false, List.append_assoc, List.cons_append]
      rw [hc2, callAll]
      simp only [saveNode, Option.bind_eq_bind, Option.bind_some, Bool.true_eq_false, if_false]
      exact hc3
    · intro j hj hj'
      simp only [Forest.nodes, List.mem_cons, List.mem_append, not_or] at hj
      rw [hf3 j hj.2.2 hj', hf2 j hj.2.1 hj.1, hf1 j hj.1 hj']
    · intro h0
      rw [hp3 h0, hpar2 h0]
      cases h par with
      | none => rfl
      | some y => simp [roots]
    · refine ⟨?_, ?_, hm3⟩
      · rw [hf3 i his (Ne.symm hpi), hp2 hi0, hi1, hx]
        simp [hxk]
      · refine memory_frame k (fun j hj => ?_) hm2
        exact hf3 j (fun hj' => hdis j hj j hj' rfl) (fun e => hpk (e ▸ hj))

theorem tree_shape (decode : List Nat → List Nat) (ra : List Pd) (info : List Info) (f : Forest) : ∀ n, Ptrs.number n (tree decode ra info f).shape = Ptrs.number n f := by
  have hl : ∀ f : Forest, (tree decode ra info f).shape.nodes.length = f.nodes.length := by
    intro f
    induction f with
    | nil => rfl
    | cons i k s ih1 ih2 => simp [tree, Tree.shape, Forest.nodes, ih1, ih2]
  induction f with
  | nil => intro n; rfl
  | cons i k s ih1 ih2 => intro n; simp only [tree, Tree.shape, Ptrs.number, ih1, ih2, hl]

theorem tree_nodes (decode : List Nat → List Nat) (ra : List Pd) (info : List Info) (f : Forest) : ∀ (j i : Nat), f.nodes[j]? = some i →
    ∃ l, (tree decode ra info f).nodes[j]? = some { ((newNode decode ra info i).getD {}) with kids := l } := by
  have hl : ∀ f : Forest, (tree decode ra info f).nodes.length = f.nodes.length := by
    intro f
    induction f with
    | nil => rfl
    | cons i k s ih1 ih2 => simp [tree, Tree.nodes, Forest.nodes, ih1, ih2]
  induction f with
  | nil => intro j i h; simp [Forest.nodes] at h
  | cons i k s ih1 ih2 =>
    intro j m h
    rw [Forest.nodes] at h
    rw [tree, Tree.nodes]
    cases j with
    | zero => simp at h; subst h; exact ⟨_, rfl⟩
    | succ j =>
      rw [List.getElem?_cons_succ, List.getElem?_append] at h ⊢
      rw [hl k]
      split at h
      · rename_i hj; rw [if_pos hj]; exact ih1 _ _ h
      · rename_i hj; rw [if_neg hj]; exact ih2 _ _ h

/-! ### one node -/

theorem number_read {n : Nat} (h : n < 2 ^ 32) : ∃ v, Decimal.strtouintmax (Xml2.number n) 0 = (v, []) ∧ v % 2 ^ 32 = n := by
  unfold Xml2.number
  have hb : (BitVec.ofNat 32 n).toInt = if n < 2 ^ 31 then (n : Int) else (n : Int) - 2 ^ 32 := by
    rw [BitVec.toInt_eq_toNat_cond, BitVec.toNat_ofNat, Nat.mod_eq_of_lt h]
    by_cases h1 : n < 2 ^ 31
    · rw [if_pos (by omega), if_pos h1]
    · rw [if_neg (by omega), if_neg h1]; simp
  rw [hb]
  by_cases h1 : n < 2 ^ 31
  · rw [if_pos h1, Enum.fmtInt_eq (by omega)]
    have := Lemmas.Decimal.strto_core n (by omega) [] (by intro c hc; simp at hc) false
    rw [show decide ((n : Int) < 0) = false by simp, Int.natAbs_natCast]
    rw [List.append_nil] at this
    exact ⟨n, this, by omega⟩
  · rw [if_neg h1, Enum.fmtInt_eq (by omega)]
    have := Lemmas.Decimal.strto_core (2 ^ 32 - n) (by omega) [] (by intro c hc; simp at hc) true
    have e1 : decide ((n : Int) - 2 ^ 32 < 0) = true := by simp; omega
    have e2 : ((n : Int) - 2 ^ 32).natAbs = 2 ^ 32 - n := by omega
    rw [e1, e2]
    rw [List.append_nil] at this
    exact ⟨_, this, by simp; omega⟩

theorem denotes_plain {t : List Nat} (h : ∀ c ∈ t, 0 < c ∧ c < 128 ∧ c ≠ 60 ∧ c ≠ 38) : Denotes t t := by
  induction t with
  | nil => exact .nil
  | cons c t ih =>
    obtain ⟨h1, h2, h3, h4⟩ := h c (by simp)
    exact .plain c t t h1 h2 h4 h3 (ih fun d hd => h d (by simp [hd]))

theorem denotes_quote {s : List Nat} (h : ∀ c ∈ s, 0 < c ∧ c < 128) : Denotes (Escape.xmlQuoteString s) s := by
  induction s with
  | nil => exact .nil
  | cons c s ih =>
    have ih := ih fun d hd => h d (by simp [hd])
    have key : ∀ c < 128, Escape.xmlQuoteByte c = [c] ∧ c ≠ 38 ∧ c ≠ 60 ∨ c = 60 ∧ Escape.xmlQuoteByte c = ascii "&lt;" ∨ c = 62 ∧ Escape.xmlQuoteByte c = ascii "&gt;" ∨
        c = 38 ∧ Escape.xmlQuoteByte c = ascii "&amp;" ∨ c = 34 ∧ Escape.xmlQuoteByte c = ascii "&quot;" ∨
        Escape.xmlQuoteByte c = ascii "&#x" ++ ((c / 16 + 48) :: (if c % 16 < 10 then c % 16 + 48 else c % 16 + 55) :: ascii ";") := by decide +kernel
    obtain ⟨h0, h1⟩ := h c (by simp)
    rw [Escape.xmlQuoteString, List.flatMap_cons]
    rcases key c h1 with ⟨e, h2, h3⟩ | ⟨rfl, e⟩ | ⟨rfl, e⟩ | ⟨rfl, e⟩ | ⟨rfl, e⟩ | e <;> rw [e]
    · exact .plain c _ _ h0 h1 h2 h3 ih
    · exact .lt _ _ ih
    · exact .gt _ _ ih
    · exact .amp _ _ ih
    · exact .quot _ _ ih
    · have := Denotes.code (c / 16 + 48) (if c % 16 < 10 then c % 16 + 48 else c % 16 + 55) (c / 16) (c % 16) _ _
        (.inl ⟨by omega, rfl⟩) (by unfold hexDigit; by_cases h : c % 16 < 10
                                   · rw [if_pos h]; exact .inl ⟨h, rfl⟩
                                   · rw [if_neg h]; exact .inr ⟨by omega, by omega, rfl⟩) (by omega) (by omega) ih
      rw [show 16 * (c / 16) + c % 16 = c by omega] at this
      exact this

theorem numeral_plain (neg : Bool) (n : Nat) : ∀ c ∈ (if neg then [45] else []) ++ (Decimal.natDigits n).map (· + 48), 0 < c ∧ c < 128 ∧ c ≠ 60 ∧ c ≠ 38 := by
  intro c hc
  simp only [List.mem_append] at hc
  rcases hc with hc | hc
  · cases neg <;> simp at hc
    omega
  · simp only [List.mem_map] at hc
    obtain ⟨d, hd, rfl⟩ := hc
    have := (Lemmas.Decimal.natDigits_spec n).1 d hd
    omega

theorem leaf_ok {l : Leaf} (hl : LeafOK l) : ∃ t v, leafText l = some t ∧ Denotes t v ∧ ReadAs l v := by
  have plain : ∀ t : List Nat, (∀ c ∈ t, 0 < c ∧ c < 128 ∧ c ≠ 60 ∧ c ≠ 38) → ReadAs l t → leafText l = some t → ∃ t v, leafText l = some t ∧ Denotes t v ∧ ReadAs l v :=
    fun t h1 h2 h3 => ⟨t, t, h3, denotes_plain h1, h2⟩
  cases l with
  | bool b =>
    cases b with
    | false => exact plain _ (by decide) .false (by decide)
    | true => exact plain _ (by decide) .true (by decide)
  | int v =>
    simp only [LeafOK] at hl
    have e : leafText (.int v) = some ((if decide (v < 0) then [45] else []) ++ (Decimal.natDigits v.natAbs).map (· + 48)) := by
      show some (Enum.fmtInt v) = _
      rw [Enum.fmtInt_eq (by omega)]
    refine plain _ (numeral_plain _ _) (.int v _ ?_) e
    have hd := Lemmas.Decimal.natDigits_isDecimal v.natAbs
    unfold IsDecimalInt
    by_cases hv : v < 0
    · rw [if_pos hv]
      refine ⟨(Decimal.natDigits v.natAbs).map (· + 48), ?_, ?_⟩ <;> simp [hv, hd]
    · rw [if_neg hv]
      simp [hv, hd]
  | int128 v =>
    obtain ⟨t, h1, h2⟩ := Props.Decimal.C05_print_signed (List.replicate Decimal.bufSize 0) (by simp) v
    refine plain t ?_ (.int128 v t h2) h1
    rw [Lemmas.JsonLex.isDecimalInt_numeral h2]
    exact numeral_plain _ _
  | uint128 v =>
    obtain ⟨t, h1, h2⟩ := Props.Decimal.C05_print_unsigned (List.replicate Decimal.bufSize 0) (by simp) v
    refine plain t ?_ (.uint128 v t h2) h1
    have h3 := Lemmas.Decimal.printUint128_eq (List.replicate Decimal.bufSize 0) (by simp) v
    rw [h3] at h1
    cases h1
    have := numeral_plain false v.toNat
    simpa using this
  | real t => exact plain t hl (.real t) rfl
  | text s => exact ⟨_, s, rfl, denotes_quote hl, .text s⟩
  | quoted s => exact plain s hl (.quoted s) rfl
  | void c => exact plain [] (by simp) (.void c) rfl
  | undefined => exact absurd hl (by simp [LeafOK])

/-- the properties of a node -/
def propList (b1 b2 b3 b4 : Bool) (N M : List Nat) : List (List Nat × List Nat) :=
  (if b1 then [(sRef, N)] else []) ++ (if b2 then [(sContent, N)] else []) ++ (if b3 then [(sIdx, M)] else []) ++ (if b4 then [(sNull, sTrue)] else [])

theorem prop_get (b1 b2 b3 b4 : Bool) (N M : List Nat) (x : XNode) (hx : x.props = propList b1 b2 b3 b4 N M) :
    getProp x sIdx = (if b3 then some M else none) ∧ getProp x sRef = (if b1 then some N else none) ∧
    getProp x sContent = (if b2 then some N else none) ∧ getProp x sNull = (if b4 then some sTrue else none) := by
  unfold getProp
  rw [hx]
  refine ⟨?_, ?_, ?_, ?_⟩ <;> cases b1 <;> cases b2 <;> cases b3 <;> cases b4 <;> simp [propList, sIdx, sRef, sContent, sNull]

theorem property_eq {x : XNode} {name N : List Nat} {b : Bool} (set : Nat → Pd → Pd) (pd : Pd) {v n : Nat} (h : getProp x name = if b then some N else none)
    (hN : b = true → Decimal.strtouintmax N 0 = (v, []) ∧ v % 2 ^ 32 = n) : property x name set pd = some (if b then set n pd else pd) := by
  unfold property
  rw [h]
  cases b with
  | false => rfl
  | true =>
    obtain ⟨h1, h2⟩ := hN rfl
    simp [h1, h2]

theorem node_ok {decode : List Nat → List Nat} (hdec : Decodes decode) {ra : List Pd} {info : List Info} {i : Nat} {pd : Pd} {x : Info}
    (hpd : ra[i]? = some pd) (hx : info[i]? = some x) (h : NodeOK ra pd x) :
    ∃ e : XNode, newNode decode ra info i = some e ∧ e.name = x.name ∧
      ∀ l : List Nat, ∃ a, attrs { e with kids := l } = some a ∧ a.ref = pd.ref ∧ a.cref = pd.cref ∧
        SameNode ra pd x a (loaded { e with kids := l }) := by
  -- the text
  obtain ⟨t, v, ht, hd, hv1, hv2⟩ : ∃ t v, content pd x = some t ∧ Denotes t v ∧
      ((pd.ref || pd.cref) = false → x.null = false → valued pd.ty = true → ReadAs x.leaf v) ∧
      ((pd.ref || pd.cref) = true ∨ x.null = true ∨ valued pd.ty = false → v = []) := by
    unfold content
    by_cases h1 : (x.null || pd.ref || pd.cref) = true
    · rw [if_pos h1]
      refine ⟨[], [], rfl, .nil, fun h2 h3 => ?_, fun _ => rfl⟩
      rw [h3, Bool.false_or, h2] at h1
      cases h1
    · rw [if_neg h1]
      have h2 : x.null = false ∧ (pd.ref || pd.cref) = false := by
        cases hn : x.null <;> cases h3 : (pd.ref || pd.cref) <;> simp_all
      by_cases h3 : valued pd.ty = true
      · obtain ⟨t, v, h4, h5, h6⟩ := leaf_ok (h.leaf h2.2 h2.1 h3)
        refine ⟨t, v, by rw [Lemmas.Xml1Print.handler_valued h3]; exact h4, h5, fun _ _ _ => h6, fun h => ?_⟩
        rcases h with h | h | h
        · rw [h2.2] at h; cases h
        · rw [h2.1] at h; cases h
        · rw [h3] at h; cases h
      · have h3 : valued pd.ty = false := by simpa using h3
        exact ⟨[], [], Lemmas.Xml1Print.handler_not h3 _, .nil, (fun _ _ h => by rw [h3] at h; cases h), fun _ => rfl⟩
  have hread : (if t = [] then none else some (decode t)).getD [] = v := by
    by_cases h0 : t = []
    · subst h0
      cases hd
      rfl
    · rw [if_neg h0, hdec t v hd]; rfl
  have hnum : ∀ n < 2 ^ 32, ∃ v, Decimal.strtouintmax (Xml2.number n) 0 = (v, []) ∧ v % 2 ^ 32 = n := fun n hn => number_read hn
  -- the target
  obtain ⟨tg, htg, htl⟩ : ∃ tg : Nat, ((pd.ref || pd.cref) = true → ∃ t : Pd, ra[pd.firstChild]? = some t ∧ t.idx = tg) ∧ tg < 2 ^ 32 := by
    by_cases hr : (pd.ref || pd.cref) = true
    · obtain ⟨t, h1, h2⟩ := h.ref hr
      exact ⟨t.idx, fun _ => ⟨t, h1, rfl⟩, h2⟩
    · exact ⟨0, fun h => absurd h hr, by omega⟩
  have hprop : ∀ (flag : Bool) (name : List Nat), (flag = true → (pd.ref || pd.cref) = true) →
      refProp ra pd flag name = some (if flag then [(name, Xml2.number tg)] else []) := by
    intro flag name hf
    cases flag with
    | false => rfl
    | true =>
      obtain ⟨t, h1, h2⟩ := htg (hf rfl)
      simp [refProp, h1, h2]
  refine ⟨{ name := x.name, props := propList pd.ref pd.cref pd.refd x.null (Xml2.number tg) (Xml2.number pd.idx), text := if t = [] then none else some (decode t) }, by
    simp only [newNode, hpd, hx, ht, Option.bind_eq_bind, Option.bind_some, hprop pd.ref sRef (by intro h; simp [h]), hprop pd.cref sContent (by intro h; simp [h])]
    rfl, rfl, fun l => ?_⟩
  obtain ⟨v1, g1, g2⟩ := hnum tg htl
  have hsame : ∀ (a : Pd) (y : Loaded), y.name = some x.name → y.null = x.null → y.text = some v → a.ref = pd.ref → a.cref = pd.cref →
      ((pd.ref || pd.cref) = true → a.firstChild = tg) → a.refd = pd.refd → a.idx = (if pd.refd then pd.idx else 0) → SameNode ra pd x a y :=
    fun a y n1 n2 n3 n4 n5 n6 n7 n8 => {
      name := n1, null := n2, ref := n4, cref := n5, refd := n7, idx := n8
      target := fun hr => by
        obtain ⟨t, h1, h2⟩ := htg hr
        exact ⟨t, h1, by rw [n6 hr, h2]⟩
      value := fun h1 h2 h3 => ⟨v, n3, hv1 h1 h2 h3⟩
      none := fun h1 => by rw [n3, hv2 h1] }
  obtain ⟨v2, g3⟩ : ∃ v2, pd.refd = true → Decimal.strtouintmax (Xml2.number pd.idx) 0 = (v2, []) ∧ v2 % 2 ^ 32 = pd.idx := by
    by_cases hr : pd.refd = true
    · obtain ⟨v2, h1⟩ := hnum pd.idx (h.refd hr)
      exact ⟨v2, fun _ => h1⟩
    · exact ⟨0, fun h => absurd h hr⟩
  obtain ⟨p1, p2, p3, p4⟩ := prop_get pd.ref pd.cref pd.refd x.null (Xml2.number tg) (Xml2.number pd.idx)
    { name := x.name, props := propList pd.ref pd.cref pd.refd x.null (Xml2.number tg) (Xml2.number pd.idx), text := if t = [] then none else some (decode t), kids := l } rfl
  have hattrs := attrs.eq_1 { name := x.name, props := propList pd.ref pd.cref pd.refd x.null (Xml2.number tg) (Xml2.number pd.idx), text := if t = [] then none else some (decode t), kids := l }
  rw [property_eq _ _ p1 g3] at hattrs
  simp only [Option.bind_eq_bind, Option.bind_some] at hattrs
  rw [property_eq _ _ p2 (fun _ => ⟨g1, g2⟩)] at hattrs
  simp only [Option.bind_some] at hattrs
  rw [property_eq _ _ p3 (fun _ => ⟨g1, g2⟩)] at hattrs
  have hl : ∀ a : Pd, a.ref = pd.ref → a.cref = pd.cref → ((pd.ref || pd.cref) = true → a.firstChild = tg) → a.refd = pd.refd → a.idx = (if pd.refd then pd.idx else 0) →
      SameNode ra pd x a (loaded { name := x.name, props := propList pd.ref pd.cref pd.refd x.null (Xml2.number tg) (Xml2.number pd.idx), text := if t = [] then none else some (decode t), kids := l }) := by
    intro a
    refine hsame a _ rfl ?_ ?_
    · unfold loaded
      rw [p4]
      cases x.null <;> rfl
    · unfold loaded
      rw [hread]
  refine ⟨_, hattrs, ?_, ?_, hl _ ?_ ?_ ?_ ?_ ?_⟩ <;> cases pd.ref <;> cases pd.cref <;> cases pd.refd <;> simp

theorem A_eq {x : XNode} {a : Pd} (h : attrs x = some a) : A x = a := by unfold A; rw [h]; rfl

/-- the reader accepts what was written -/
theorem tree_ok {decode : List Nat → List Nat} (hdec : Decodes decode) (known : List Nat → Bool) (ra : List Pd) (info : List Info) (f : Forest) : ∀ (par head : Nat),
    Rep ra par head f → Writable known ra info f.nodes → ok known (tree decode ra info f) = true := by
  induction f with
  | nil => intro _ _ _ _; rfl
  | cons i k s ih1 ih2 =>
    intro par head hrep hw
    obtain ⟨_, hi0, pd, hpd, hpp, hk, hs⟩ := hrep
    obtain ⟨x, hx, hok, hkn⟩ := hw i (by simp [Forest.nodes]) pd hpd
    obtain ⟨e, he, hname, hall⟩ := node_ok hdec hpd hx hok
    obtain ⟨a, ha, hr1, hr2, _⟩ := hall (roots k)
    rw [tree, he]
    rw [← hname] at hkn
    simp only [ok, Option.getD_some, ha, Option.isSome_some, Bool.true_and, hkn]
    rw [ih1 _ _ hk (fun j hj => hw j (by simp [Forest.nodes, hj])), ih2 _ _ hs (fun j hj => hw j (by simp [Forest.nodes, hj]))]
    simp only [Bool.and_true]
    unfold isRef
    rw [A_eq ha, hr1, hr2]
    cases hr : (pd.ref || pd.cref) with
    | false => rfl
    | true =>
      unfold kidsHead at hk
      rw [if_pos hr] at hk
      cases k with
      | nil => rfl
      | cons j k' s' => exact absurd hk.1.symm hk.2.1

end Verif.Lemmas.Xml2Save
