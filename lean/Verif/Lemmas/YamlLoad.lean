import Verif.Model.Yaml
import Verif.Lemmas.TopDown
import Verif.Lemmas.Enum
import Verif.Lemmas.Escape
/-!
# Reading the events of a YAML document
-/
namespace Verif.Lemmas.YamlLoad
open Verif.Model Verif.Model.Ptrs Verif.Model.Yaml Verif.Spec Verif.Lemmas.TopDown
open Verif.Spec.Ptrs hiding run
open Verif.Model.Xml1 (sContent sIdx sNull)
open Verif.Lemmas.Decimal (natDigits)

/-! ### anchors and aliases -/

theorem number_eq {n : Nat} (h : n < 2 ^ 32) : Xml1.number n = (natDigits n).map (· + 48) := by
  unfold Xml1.number
  rw [Nat.mod_eq_of_lt (by omega), Enum.fmtInt_eq (by omega)]
  simp

theorem digit_dec {d : Nat} (h : d < 10) : Scanf.digit (d + 48) = some d := by
  unfold Scanf.digit isdigit ch
  simp only [show '0'.toNat = 48 from rfl, show '9'.toNat = 57 from rfl]
  rw [if_pos (by simp; omega)]
  simp

theorem digits_dec (ds : List Nat) : ∀ (w acc : Nat), (∀ d ∈ ds, d < 10) → ds.length ≤ w →
    Scanf.digits 10 w (ds.map (· + 48)) acc = (ds.foldl (fun a d => a * 10 + d) acc, ds.length) := by
  induction ds with
  | nil => intro w acc _ _; cases w <;> rfl
  | cons d ds ih =>
    intro w acc h hw
    cases w with
    | zero => simp at hw
    | succ w =>
      simp only [List.map_cons, Scanf.digits, digit_dec (h d (by simp)), if_pos (h d (by simp))]
      rw [ih w _ (fun x hx => h x (by simp [hx])) (by simpa using hw)]
      rfl

theorem scan_number {n : Nat} (h : n < 2 ^ 32) : (Scanf.scanInt 10 (Scanf.noWidth (Xml1.number n)) (Xml1.number n)).map (·.1) = some n := by
  rw [number_eq h]
  obtain ⟨h1, h2, h3, _⟩ := Lemmas.Decimal.natDigits_spec n
  generalize natDigits n = ds at h1 h2 h3
  cases ds with
  | nil => exact absurd rfl h3
  | cons d t =>
    have hd := h1 d (by simp)
    have sp : isspace (d + 48) = false := by simp [isspace] <;> omega
    unfold Scanf.scanInt
    have e1 : List.takeWhile isspace ((d :: t).map (· + 48)) = [] := by simp [sp]
    have e2 : List.dropWhile isspace ((d :: t).map (· + 48)) = (d :: t).map (· + 48) := by simp [sp]
    have e3 : (((d :: t).map (· + 48)).head? == some (ch '-')) = false := by simp [ch] <;> omega
    have e4 : (((d :: t).map (· + 48)).head? == some (ch '+')) = false := by simp [ch] <;> omega
    simp only [e1, e2, e3, e4, Bool.or_false, Bool.and_false, Bool.false_and, Bool.false_eq_true, if_false,
      show ((10 : Nat) == 16) = false from rfl]
    rw [digits_dec _ _ _ h1 (by simp [Scanf.noWidth])]
    have hv : (d :: t).foldl (fun a d => a * 10 + d) 0 = n := h2
    rw [hv]
    simp [Nat.mod_eq_of_lt h]

theorem prefix_self (a b : List Nat) : a.isPrefixOf (a ++ b) = true := by
  simp

theorem scan_idx {n : Nat} (h : n < 2 ^ 32) : scanTemplate (sIdx ++ [95]) (idxText n) = some n := by
  unfold scanTemplate idxText
  rw [show sIdx ++ 95 :: Xml1.number n = (sIdx ++ [95]) ++ Xml1.number n by simp, if_pos (prefix_self _ _), List.drop_left]
  exact scan_number h

theorem scan_content {n : Nat} (h : n < 2 ^ 32) : scanTemplate (sContent ++ [95]) (contentText n) = some n := by
  unfold scanTemplate contentText
  rw [show sContent ++ 95 :: Xml1.number n = (sContent ++ [95]) ++ Xml1.number n by simp, if_pos (prefix_self _ _), List.drop_left]
  exact scan_number h

theorem scan_other (n : Nat) : scanTemplate (sContent ++ [95]) (idxText n) = none := by
  unfold scanTemplate idxText
  rw [if_neg]
  simp [sContent, sIdx]

theorem scan_null : aliasNull sNull = true := by decide
theorem pd_null (pd : Pd) : aliasPd sNull pd = pd := by
  unfold aliasPd
  rw [show scanTemplate (sContent ++ [95]) sNull = none by decide, show scanTemplate (sIdx ++ [95]) sNull = none by decide]

/-! ### elements -/

/-- what stands for a node in the document -/
inductive Body
  | map | seq
  | scalar (v : List Nat)
  | ref (n : Nat) | cref (n : Nat)
  | null

/-- an element -/
structure El where
  name : Option (List Nat)
  anchor : Option Nat
  body : Body

/-- a forest of elements -/
inductive DF
  | nil
  | cons (e : El) (kids sibs : DF)

namespace El

def isRef (e : El) : Bool := match e.body with | .ref _ | .cref _ => true | _ => false

/-- the descriptor -/
def pd (e : El) (p : Nat) : Pd :=
  match e.body with
  | .ref n => { parent := p, firstChild := n, ref := true }
  | .cref n => { parent := p, firstChild := n, cref := true }
  | .null => { parent := p }
  | _ => { parent := p, idx := e.anchor.getD 0, refd := e.anchor.isSome }

def data (e : El) : Loaded :=
  { name := e.name
    unnamed := match e.body with | .map => false | .seq => true | _ => e.name.isNone
    null := match e.body with | .null => true | _ => false
    value := match e.body with | .scalar v => some v | _ => none }

/-- the event of the value -/
def event (e : El) : Event :=
  match e.body with
  | .map => .mapStart (e.anchor.map idxText)
  | .seq => .seqStart (e.anchor.map idxText)
  | .scalar v => .scalar (e.anchor.map idxText) v
  | .ref n => .alias (idxText n)
  | .cref n => .alias (contentText n)
  | .null => .alias sNull

def nameEvs (e : El) : List Event := match e.name with | none => [] | some n => [.scalar none n]

def rest (e : El) (inside : List Event) : List Event :=
  match e.body with
  | .map => inside ++ [.mapEnd]
  | .seq => inside ++ [.seqEnd]
  | _ => []

/-- the events of an element -/
def evs (e : El) (inside : List Event) : List Event := e.nameEvs ++ e.event :: e.rest inside

structure OK (w : List Nat → Bool) (named : Bool) (e : El) : Prop where
  named : e.name.isSome = named
  known : ∀ n, e.name = some n → w n = true
  anchor : ∀ n, e.anchor = some n → n < 2 ^ 32
  ref : ∀ n, e.body = .ref n ∨ e.body = .cref n → n < 2 ^ 32

end El

namespace DF

def shape : DF → Forest
  | nil => .nil
  | cons _ k s => .cons 0 k.shape s.shape

def data : DF → List Loaded
  | nil => []
  | cons e k s => e.data :: (k.data ++ s.data)

def evs : DF → List Event
  | nil => []
  | cons e k s => e.evs k.evs ++ s.evs

def WF (w : List Nat → Bool) : Bool → DF → Prop
  | _, nil => True
  | named, cons e k s => e.OK w named ∧ (match e.body with | .map => WF w true k | .seq => WF w false k | _ => k = nil) ∧ WF w named s

end DF

open DF

theorem shape_nil {D : DF} : D.shape = .nil ↔ D = .nil := by
  cases D <;> simp [shape]

theorem data_length (D : DF) : D.data.length = D.shape.nodes.length := by
  induction D with
  | nil => rfl
  | cons e k s ih1 ih2 => simp [DF.data, shape, Forest.nodes, ih1, ih2]

/-- the descriptor of an element at index `n` -/
def node (p n : Nat) (e : El) (k s : Forest) : Pd :=
  { e.pd p with firstChild := if k = .nil then (e.pd p).firstChild else n + 1, next := if s = .nil then 0 else n + 1 + k.nodes.length }

/-- the descriptors of a forest below `p` that was added in document order from index `n` on -/
def canon (p n : Nat) : DF → List Pd
  | .nil => []
  | .cons e k s => node p n e k.shape s.shape :: (canon n (n + 1) k ++ canon p (n + 1 + k.shape.nodes.length) s)

theorem canon_length (D : DF) : ∀ p n, (canon p n D).length = D.shape.nodes.length := by
  induction D with
  | nil => intro p n; rfl
  | cons e k s ih1 ih2 => intro p n; simp [canon, shape, Forest.nodes, ih1, ih2]

theorem pd_parent (e : El) (p : Nat) : (e.pd p).parent = p := by
  unfold El.pd
  cases e.body <;> rfl

theorem canon_parent (D : DF) : ∀ (p n j : Nat) (pj : Pd), (canon p n D)[j]? = some pj →
    pj.parent = p ∨ (n ≤ pj.parent ∧ pj.parent < n + j) := by
  induction D with
  | nil => intro p n j pj h; simp [canon] at h
  | cons e k s ih1 ih2 =>
    intro p n j pj h
    rw [canon] at h
    cases j with
    | zero => simp at h; left; rw [← h]; exact pd_parent e p
    | succ j =>
      rw [List.getElem?_cons_succ, List.getElem?_append, canon_length] at h
      split at h
      · right
        rcases ih1 _ _ _ _ h with h1 | h1 <;> omega
      · rcases ih2 _ _ _ _ h with h1 | h1
        · exact .inl h1
        · right; omega

theorem pd_next (e : El) (p : Nat) : (e.pd p).next = 0 := by
  unfold El.pd
  cases e.body <;> rfl

theorem node_leaf (e : El) (p n : Nat) : node p n e .nil .nil = e.pd p := by
  unfold node
  rw [if_pos rfl, if_pos rfl, ← pd_next e p]

theorem not_ref {e : El} (h : e.isRef = false) (p : Nat) : (e.pd p).firstChild = 0 := by
  unfold El.isRef at h
  unfold El.pd
  cases hb : e.body <;> simp_all

theorem pd_isRef (e : El) (p : Nat) : ((e.pd p).ref || (e.pd p).cref) = e.isRef := by
  unfold El.isRef El.pd
  cases e.body <;> rfl

theorem kids_head (e : El) (p n : Nat) (k s : Forest) (h : e.isRef = true → k = .nil) : kidsHead (node p n e k s) = if k = .nil then 0 else n + 1 := by
  have hr : ((node p n e k s).ref || (node p n e k s).cref) = e.isRef := pd_isRef e p
  unfold kidsHead
  rw [hr]
  cases he : e.isRef with
  | true => rw [h he]; simp
  | false =>
    simp only [Bool.false_eq_true, if_false]
    simp [node, not_ref he]

theorem ref_leaf {w : List Nat → Bool} {e : El} {k : DF} (h : match e.body with | .map => WF w true k | .seq => WF w false k | _ => k = .nil)
    (he : e.isRef = true) : k = .nil := by
  unfold El.isRef at he
  cases hb : e.body <;> simp_all

theorem kids_wf {w : List Nat → Bool} {e : El} {k : DF} (h : match e.body with | .map => WF w true k | .seq => WF w false k | _ => k = .nil) :
    ∃ b, WF w b k := by
  cases hb : e.body <;> simp only [hb] at h
  · exact ⟨_, h⟩
  · exact ⟨_, h⟩
  all_goals (subst h; exact ⟨true, trivial⟩)

/-- the array of a forest added in document order represents the forest -/
theorem canon_rep (w : List Nat → Bool) (D : DF) : ∀ (pre post : List Pd) (p : Nat) (b : Bool), WF w b D → pre ≠ [] →
    Rep (pre ++ (canon p pre.length D ++ post)) p (if D.shape = .nil then 0 else pre.length) (Ptrs.number pre.length D.shape) := by
  induction D with
  | nil => intro pre post p _ _ _; rfl
  | cons e k s ih1 ih2 =>
    intro pre post p b hwf hp
    obtain ⟨_, h2, h4⟩ := hwf
    obtain ⟨bk, h3⟩ := kids_wf h2
    have hl : pre.length ≠ 0 := fun h => hp (List.eq_nil_of_length_eq_zero h)
    refine ⟨by rw [if_neg (by simp [shape])], hl, node p pre.length e k.shape s.shape, by rw [List.getElem?_append_right (Nat.le_refl _), Nat.sub_self]; rfl, pd_parent e p, ?_, ?_⟩
    · rw [kids_head e p pre.length k.shape s.shape (fun h => shape_nil.2 (ref_leaf h2 h))]
      have := ih1 (pre ++ [node p pre.length e k.shape s.shape]) (canon p (pre.length + 1 + k.shape.nodes.length) s ++ post) pre.length bk h3 (by simp)
      simp only [List.length_append, List.length_cons, List.length_nil, Nat.zero_add] at this
      simpa [canon] using this
    · have := ih2 (pre ++ node p pre.length e k.shape s.shape :: canon pre.length (pre.length + 1) k) post p b h4 (by simp)
      simp only [List.length_append, List.length_cons, canon_length] at this
      rw [show pre.length + (k.shape.nodes.length + 1) = pre.length + 1 + k.shape.nodes.length by omega] at this
      simpa [canon, node] using this

/-! ### the steps of the reader -/

/-- a state of the reader between two nodes -/
abbrev st (ra : List Pd) (lc : Nat) (data : List Loaded) (parent : Nat) : St := ⟨⟨ra, lc⟩, data, parent, none⟩

theorem run_step {w : List Nat → Bool} {e : Event} {es : List Event} {s s' : St} (h : step w s e = some (some s')) (he : e ≠ .streamEnd) :
    run w (e :: es) s = run w es s' := by
  rw [run, h]
  simp [he]

theorem add_eq {s : St} {z : Nat} (h : Ready s.ptrs.ra s.ptrs.lastChild s.parent z) (name value anchor alias : Option (List Nat)) (u : Bool) :
    addNode s name value anchor alias u =
      some (st (link s.ptrs.ra s.parent z s.ptrs.ra.length ++ [attrs anchor alias { parent := s.parent }]) s.ptrs.ra.length
        (s.data ++ [{ name := name, unnamed := u, null := match alias with | some a => aliasNull a | none => false, value := value }])
        (if value = none ∧ alias = none then s.ptrs.ra.length else s.parent)) := by
  unfold addNode
  have := add_ready h
  simp only
  rw [show (addPtr s.ptrs).2 = s.ptrs.ra.length from rfl, show addPtr s.ptrs = addPtr { ra := s.ptrs.ra, lastChild := s.ptrs.lastChild } from rfl, this]
  simp only [Option.bind_eq_bind, Option.bind_some]
  rw [upd_eq _ (by simp [link_length]), modify_right _ [] _ _ (by rw [link_length])]
  rfl

/-- where a scalar is a name -/
def Ctx (s : St) (named : Bool) : Prop := (s.parent = 0 ∧ named = false) ∨ (s.parent ≠ 0 ∧ ∃ y, s.data[s.parent]? = some y ∧ y.unnamed = !named)

theorem wants {s : St} {b : Bool} (h : Ctx s b) : wantsName s = some b := by
  unfold wantsName
  rcases h with ⟨h1, rfl⟩ | ⟨h1, y, h2, h3⟩
  · rw [if_pos h1]
  · rw [if_neg h1, h2]
    simp [h3]

theorem attrs_eq (w : List Nat → Bool) {named : Bool} {e : El} (he : e.OK w named) (p : Nat) (anchor alias : Option (List Nat))
    (h : match e.body with
      | .ref n => anchor = none ∧ alias = some (idxText n)
      | .cref n => anchor = none ∧ alias = some (contentText n)
      | .null => anchor = none ∧ alias = some sNull
      | _ => anchor = e.anchor.map idxText ∧ alias = none) : attrs anchor alias { parent := p } = e.pd p := by
  have plain : anchor = e.anchor.map idxText → alias = none → attrs anchor alias { parent := p } = { parent := p, idx := e.anchor.getD 0, refd := e.anchor.isSome } := by
    rintro rfl rfl
    cases ha : e.anchor with
    | none => rfl
    | some n => simp [attrs, anchorPd, scan_idx (he.anchor n ha)]
  unfold El.pd
  cases hb : e.body with
  | map => rw [hb] at h; exact plain h.1 h.2
  | seq => rw [hb] at h; exact plain h.1 h.2
  | scalar v => rw [hb] at h; exact plain h.1 h.2
  | ref n =>
    rw [hb] at h
    obtain ⟨rfl, rfl⟩ := h
    simp [attrs, aliasPd, scan_other, scan_idx (he.ref n (.inl hb))]
  | cref n =>
    rw [hb] at h
    obtain ⟨rfl, rfl⟩ := h
    simp [attrs, aliasPd, scan_content (he.ref n (.inr hb))]
  | null =>
    rw [hb] at h
    obtain ⟨rfl, rfl⟩ := h
    simp [attrs, pd_null]

theorem null_ref {n : Nat} (h : n < 2 ^ 32) : aliasNull (idxText n) = false := by
  simp [aliasNull, scan_other, scan_idx h]

theorem null_content {n : Nat} (h : n < 2 ^ 32) : aliasNull (contentText n) = false := by
  simp [aliasNull, scan_content h]

/-- does the element become the parent of what follows? -/
def opens (e : El) : Bool := match e.body with | .map | .seq => true | _ => false

theorem value_step (w : List Nat → Bool) {named : Bool} {e : El} (he : e.OK w named) {s : St} {z : Nat} (hp : s.pending = none) (hc : Ctx s named)
    (h : Ready s.ptrs.ra s.ptrs.lastChild s.parent z) (rest : List Event) :
    run w (e.nameEvs ++ e.event :: rest) s = run w rest (st (link s.ptrs.ra s.parent z s.ptrs.ra.length ++ [e.pd s.parent]) s.ptrs.ra.length
      (s.data ++ [e.data]) (if opens e then s.ptrs.ra.length else s.parent)) := by
  have hw := wants hc
  have hev : e.event ≠ .streamEnd := by unfold El.event; cases e.body <;> simp
  have hpd := attrs_eq w he s.parent
  obtain ⟨name, anchor, body⟩ := e
  cases name with
  | none =>
    have hn : named = false := by have := he.named; simpa using this.symm
    subst hn
    refine run_step ?_ hev
    unfold step
    rw [hp]
    cases body with
    | map => simp only [El.event, unnamedEvent, add_eq h, hpd (anchor.map idxText) none ⟨rfl, rfl⟩]; rfl
    | seq => simp only [El.event, unnamedEvent, add_eq h, hpd (anchor.map idxText) none ⟨rfl, rfl⟩]; rfl
    | scalar v =>
      simp only [El.event, unnamedEvent, hw, add_eq h, hpd (anchor.map idxText) none ⟨rfl, rfl⟩]; rfl
    | ref n => simp only [El.event, unnamedEvent, add_eq h, hpd none (some (idxText n)) ⟨rfl, rfl⟩, null_ref (he.ref n (.inl rfl))]; rfl
    | cref n => simp only [El.event, unnamedEvent, add_eq h, hpd none (some (contentText n)) ⟨rfl, rfl⟩, null_content (he.ref n (.inr rfl))]; rfl
    | null => simp only [El.event, unnamedEvent, add_eq h, hpd none (some sNull) ⟨rfl, rfl⟩, scan_null]; rfl
  | some n =>
    have hn : named = true := by have := he.named; simpa using this.symm
    subst hn
    have h1 : step w s (.scalar none n) = some (some { s with pending := some n }) := by
      unfold step
      rw [hp]
      simp [unnamedEvent, hw, he.known n rfl]
    have h' : Ready ({ s with pending := some n } : St).ptrs.ra ({ s with pending := some n } : St).ptrs.lastChild ({ s with pending := some n } : St).parent z := h
    show run w (.scalar none n :: (El.event ⟨some n, anchor, body⟩ :: rest)) s = _
    rw [run_step h1 (by simp)]
    refine run_step ?_ hev
    unfold step
    cases body with
    | map => simp only [El.event, Yaml.named, add_eq h', hpd (anchor.map idxText) none ⟨rfl, rfl⟩]; rfl
    | seq => simp only [El.event, Yaml.named, add_eq h', hpd (anchor.map idxText) none ⟨rfl, rfl⟩]; rfl
    | scalar v => simp only [El.event, Yaml.named, add_eq h', hpd (anchor.map idxText) none ⟨rfl, rfl⟩]; rfl
    | ref m => simp only [El.event, Yaml.named, add_eq h', hpd none (some (idxText m)) ⟨rfl, rfl⟩, null_ref (he.ref m (.inl rfl))]; rfl
    | cref m => simp only [El.event, Yaml.named, add_eq h', hpd none (some (contentText m)) ⟨rfl, rfl⟩, null_content (he.ref m (.inr rfl))]; rfl
    | null => simp only [El.event, Yaml.named, add_eq h', hpd none (some sNull) ⟨rfl, rfl⟩, scan_null]; rfl

theorem close_step (w : List Nat → Bool) (b : List Pd) (pd : Pd) (sub : List Pd) (lc : Nat) (d : List Loaded) (y : Loaded) (sd : List Loaded)
    (hb : b ≠ []) (hd : d.length = b.length) (seq : Bool) (hy : y.unnamed = seq) (rest : List Event) :
    run w ((if seq then .seqEnd else .mapEnd) :: rest) (st (b ++ pd :: sub) lc (d ++ y :: sd) b.length) =
      run w rest (st (b ++ pd :: sub) lc (d ++ y :: sd) pd.parent) := by
  have h0 : b.length ≠ 0 := fun h => hb (List.eq_nil_of_length_eq_zero h)
  have hc : close (st (b ++ pd :: sub) lc (d ++ y :: sd) b.length) seq = some (some (st (b ++ pd :: sub) lc (d ++ y :: sd) pd.parent)) := by
    unfold close
    simp only
    rw [if_neg h0, List.getElem?_append_right (by omega), ← hd, Nat.sub_self, hd]
    simp [hy]
  cases seq with
  | true => exact run_step hc (by simp)
  | false => exact run_step hc (by simp)

/-- an element with everything below it -/
theorem elem_ok (w : List Nat → Bool) (named : Bool) (e : El) (k : DF) (he : e.OK w named)
    (hk0 : match e.body with | .map => WF w true k | .seq => WF w false k | _ => k = .nil)
    (hk : ∀ (s : St) (b : Bool) (rest : List Event), WF w b k → k ≠ .nil → s.parent ≠ 0 → s.pending = none → Ctx s b → s.data.length = s.ptrs.ra.length →
      Ready s.ptrs.ra s.ptrs.lastChild s.parent 0 → ∃ lc, s.ptrs.ra.length ≤ lc ∧ lc < s.ptrs.ra.length + k.shape.nodes.length ∧
        run w (k.evs ++ rest) s = run w rest (st (link s.ptrs.ra s.parent 0 s.ptrs.ra.length ++ canon s.parent s.ptrs.ra.length k) lc (s.data ++ k.data) s.parent))
    (s : St) (z : Nat) (rest : List Event) (hp : s.pending = none) (hc : Ctx s named) (hd : s.data.length = s.ptrs.ra.length)
    (h : Ready s.ptrs.ra s.ptrs.lastChild s.parent z) :
    ∃ lc, s.ptrs.ra.length ≤ lc ∧ lc < s.ptrs.ra.length + 1 + k.shape.nodes.length ∧
      run w (e.evs k.evs ++ rest) s =
        run w rest (st (link s.ptrs.ra s.parent z s.ptrs.ra.length ++ node s.parent s.ptrs.ra.length e k.shape .nil :: canon s.ptrs.ra.length (s.ptrs.ra.length + 1) k) lc
          (s.data ++ e.data :: k.data) s.parent) := by
  have hval := value_step w he hp hc h
  have hrange := h.range
  generalize hb : link s.ptrs.ra s.parent z s.ptrs.ra.length = b at hval ⊢
  have hbl : b.length = s.ptrs.ra.length := by rw [← hb, link_length]
  rw [← hbl] at hval ⊢
  have hb0 : b ≠ [] := by intro h0; rw [h0] at hbl; simp at hbl; omega
  have hn0 : b.length ≠ 0 := by omega
  have hev : e.evs k.evs ++ rest = e.nameEvs ++ e.event :: (e.rest k.evs ++ rest) := by simp [El.evs]
  rw [hev, hval]
  by_cases ho : opens e = true
  · -- the node is a mapping or a sequence
    obtain ⟨seq, hs1, hs2, hs3, hs4⟩ : ∃ seq, WF w (!seq) k ∧ e.data.unnamed = seq ∧ e.isRef = false ∧ e.rest k.evs = k.evs ++ [if seq then .seqEnd else .mapEnd] := by
      unfold opens at ho
      unfold El.data El.isRef El.rest
      cases hB : e.body <;> simp only [hB] at ho hk0
      · exact ⟨false, hk0, rfl, rfl, rfl⟩
      · exact ⟨true, hk0, rfl, rfl, rfl⟩
      all_goals cases ho
    rw [if_pos ho, hs4]
    by_cases hne : k = .nil
    · subst hne
      refine ⟨b.length, Nat.le_refl _, by omega, ?_⟩
      have := close_step w b (e.pd s.parent) [] b.length s.data e.data [] hb0 (by omega) seq hs2 rest
      rw [pd_parent] at this
      simpa [DF.evs, canon, DF.data, node_leaf, shape] using this
    · have hsh : k.shape ≠ .nil := fun h => hne (shape_nil.1 h)
      obtain ⟨lc, h1, h2, h3⟩ := hk (st (b ++ [e.pd s.parent]) b.length (s.data ++ [e.data]) b.length) (!seq) ((if seq then .seqEnd else .mapEnd) :: rest)
        hs1 hne hn0 rfl (.inr ⟨hn0, e.data, by show (s.data ++ [e.data])[b.length]? = _; rw [List.getElem?_append_right (by omega)]; simp [hd, hbl], by rw [hs2]; simp⟩) (by simp [hd, hbl])
        (ready_new b (e.pd s.parent) (not_ref hs3 _) b.length)
      simp only [List.length_append, List.length_cons, List.length_nil, Nat.zero_add] at h1 h2 h3
      have e1 : link (b ++ [e.pd s.parent]) b.length 0 (b.length + 1) = b ++ [node s.parent b.length e k.shape .nil] := by
        unfold link
        rw [if_neg hn0, if_pos rfl, modify_right _ [] _ _ rfl]
        have : (e.pd s.parent).next = 0 := by unfold El.pd; cases e.body <;> rfl
        unfold node
        rw [if_neg hsh, if_pos rfl, ← this]
      rw [e1] at h3
      refine ⟨lc, by omega, by omega, ?_⟩
      rw [List.append_assoc, List.singleton_append, h3]
      have := close_step w b (node s.parent b.length e k.shape .nil) (canon b.length (b.length + 1) k) lc s.data e.data k.data hb0 (by omega) seq hs2 rest
      rw [show (node s.parent b.length e k.shape .nil).parent = s.parent from pd_parent e _] at this
      simpa using this
  · -- the node has no children
    have hr : e.rest k.evs = [] ∧ k = .nil := by
      unfold opens at ho
      unfold El.rest
      cases hB : e.body <;> simp_all
    obtain ⟨hr, rfl⟩ := hr
    rw [if_neg ho, hr]
    refine ⟨b.length, Nat.le_refl _, by omega, ?_⟩
    have : (e.pd s.parent).next = 0 := by unfold El.pd; cases e.body <;> rfl
    have : node s.parent b.length e .nil .nil = e.pd s.parent := by
      unfold node
      rw [if_pos rfl, if_pos rfl, ← this]
    simp [canon, DF.data, shape, this]

/-- **Reading the events of a forest builds the forest.** -/
theorem build (w : List Nat → Bool) (D : DF) : ∀ (s : St) (z : Nat) (b : Bool) (rest : List Event), WF w b D → D ≠ .nil → s.parent ≠ 0 →
    s.pending = none → Ctx s b → s.data.length = s.ptrs.ra.length → Ready s.ptrs.ra s.ptrs.lastChild s.parent z →
    ∃ lc, s.ptrs.ra.length ≤ lc ∧ lc < s.ptrs.ra.length + D.shape.nodes.length ∧
      run w (D.evs ++ rest) s = run w rest (st (link s.ptrs.ra s.parent z s.ptrs.ra.length ++ canon s.parent s.ptrs.ra.length D) lc (s.data ++ D.data) s.parent) := by
  induction D with
  | nil => intro s z b rest _ h; exact absurd rfl h
  | cons e k sb ih1 ih2 =>
    intro s z b rest hwf _ hp hpd hc hd hr
    obtain ⟨he, hk0, hws⟩ := hwf
    have hrange := hr.range
    have hitem := fun rest' => elem_ok w b e k he hk0 (fun s b rest hwk hne hp hpd hc hd hr => ih1 s 0 b rest hwk hne hp hpd hc hd hr) s z rest' hpd hc hd hr
    by_cases hs : sb = .nil
    · subst hs
      obtain ⟨lc, h1, h2, h3⟩ := hitem rest
      refine ⟨lc, h1, by simp [shape, Forest.nodes]; omega, ?_⟩
      simpa [DF.evs, shape, canon, DF.data] using h3
    · have hs' : sb.shape ≠ .nil := fun h => hs (shape_nil.1 h)
      obtain ⟨lc, h1, h2, h3⟩ := hitem (sb.evs ++ rest)
      have hready := ready_next hr (node s.parent s.ptrs.ra.length e k.shape .nil) (canon s.ptrs.ra.length (s.ptrs.ra.length + 1) k) hp (pd_parent e _) h1
        (by rw [canon_length]; omega) (fun j pj hj => by rcases canon_parent _ _ _ _ _ hj with h | h <;> omega)
      have hctx : Ctx (st (link s.ptrs.ra s.parent z s.ptrs.ra.length ++ node s.parent s.ptrs.ra.length e k.shape .nil :: canon s.ptrs.ra.length (s.ptrs.ra.length + 1) k) lc
        (s.data ++ e.data :: k.data) s.parent) b := by
        rcases hc with ⟨h, _⟩ | ⟨h, y, hy, hu⟩
        · exact absurd h hp
        · exact .inr ⟨h, y, by show (s.data ++ e.data :: k.data)[s.parent]? = _; rw [List.getElem?_append_left (by omega)]; exact hy, hu⟩
      obtain ⟨lc', h4, h5, h6⟩ := ih2 (st (link s.ptrs.ra s.parent z s.ptrs.ra.length ++ node s.parent s.ptrs.ra.length e k.shape .nil :: canon s.ptrs.ra.length (s.ptrs.ra.length + 1) k) lc
        (s.data ++ e.data :: k.data) s.parent) s.ptrs.ra.length b rest hws hs hp rfl hctx (by simp [link_length, canon_length, data_length, hd]) hready
      simp only [List.length_append, link_length, List.length_cons, canon_length] at h4 h5 h6
      refine ⟨lc', by omega, by simp only [shape, Forest.nodes, List.length_cons, List.length_append]; omega, ?_⟩
      rw [show s.ptrs.ra.length + (k.shape.nodes.length + 1) = s.ptrs.ra.length + 1 + k.shape.nodes.length by omega] at h6
      have e1 : link (link s.ptrs.ra s.parent z s.ptrs.ra.length ++ node s.parent s.ptrs.ra.length e k.shape .nil ::
          canon s.ptrs.ra.length (s.ptrs.ra.length + 1) k) s.parent s.ptrs.ra.length (s.ptrs.ra.length + 1 + k.shape.nodes.length) =
          link s.ptrs.ra s.parent z s.ptrs.ra.length ++ node s.parent s.ptrs.ra.length e k.shape sb.shape ::
          canon s.ptrs.ra.length (s.ptrs.ra.length + 1) k := by
        generalize hb : link s.ptrs.ra s.parent z s.ptrs.ra.length = base
        have hbl : base.length = s.ptrs.ra.length := by rw [← hb, link_length]
        unfold link
        rw [if_neg hp, if_neg (by omega), modify_right _ _ _ _ hbl.symm]
        simp [node, hs']
      rw [e1] at h6
      have e2 : (DF.cons e k sb).evs ++ rest = e.evs k.evs ++ (sb.evs ++ rest) := by
        simp [DF.evs]
      rw [e2, h3, h6]
      simp [canon, DF.data]

/-- **Reading the events of a document.** -/
theorem build_root (w : List Nat → Bool) (e : El) (k : DF) (hwf : WF w false (.cons e k .nil)) :
    ∃ lc, run w (.streamStart :: .docStart :: ((DF.cons e k .nil).evs ++ [.docEnd, .streamEnd])) start =
      some (some (st (({} : Pd) :: canon 0 1 (.cons e k .nil)) lc (({} : Loaded) :: (DF.cons e k .nil).data) 0)) := by
  have hr : Ready start.ptrs.ra start.ptrs.lastChild start.parent 0 :=
    ⟨Nat.zero_lt_one, fun _ h => absurd rfl h, fun _ => rfl, fun h => absurd rfl h⟩
  obtain ⟨he, hk0, _⟩ := hwf
  obtain ⟨lc, _, _, h⟩ := elem_ok w false e k he hk0 (fun s b rest hwk hne hp hpd hc hd hr => build w k s 0 b rest hwk hne hp hpd hc hd hr)
    start 0 [.docEnd, .streamEnd] rfl (.inl ⟨rfl, rfl⟩) rfl hr
  refine ⟨lc, ?_⟩
  rw [run_step (s' := start) rfl (by simp), run_step (s' := start) rfl (by simp)]
  rw [show (DF.cons e k .nil).evs ++ [.docEnd, .streamEnd] = e.evs k.evs ++ [.docEnd, .streamEnd] by simp [DF.evs], h]
  simp [start, link, canon, DF.data, shape, run, step, unnamedEvent]

end Verif.Lemmas.YamlLoad
