import Verif.Model.Cinit
import Verif.Lemmas.TopDown
import Verif.Lemmas.JsonLoad
/-!
# Parsing the tokens of a C initializer
-/
namespace Verif.Lemmas.CinitLoad
open Verif.Model Verif.Model.Ptrs Verif.Model.Cinit Verif.Spec Verif.Spec.Ptrs Verif.Lemmas.TopDown
open Verif.Model.Xml1 (sRef sContent sIdx)

variable {K : Value.Floats}

/-- what stands for a node in the document -/
inductive Body (K : Value.Floats)
  | list
  | empty
  | expr (u : List (Value.Tok K)) (v : Value.Value K)
  | tok (t : Tok K) (n : Bool) (v : Value.Value K)

/-- the meaning of a token that is a value of its own -/
def meaning : Tok K → Option (Bool × Value.Value K)
  | .string b => (stringValue b).map fun v => (false, .string (some v))
  | .null => some (true, .int 0#128)
  | .char b => (charValue b).map fun c => (false, .char c)
  | _ => none

/-- an element -/
structure El (K : Value.Floats) where
  name : Option (List Nat × Nat)
  ref : Option Nat
  cref : Option Nat
  refd : Option Nat
  cast : Option (List Nat)
  body : Body K

/-- a forest of elements -/
inductive DF (K : Value.Floats)
  | nil
  | cons (e : El K) (kids sibs : DF K)

def entry : Body K → Loaded K
  | .expr _ v => { value := some v }
  | .tok _ n v => { null := n, value := some v }
  | _ => {}

namespace El

def isRef (e : El K) : Bool := e.ref.isSome || e.cref.isSome

/-- the descriptor after the attributes -/
def pd (e : El K) (p : Nat) : Pd :=
  { parent := p, firstChild := e.ref.getD (e.cref.getD 0), ref := e.ref.isSome, cref := e.cref.isSome, idx := e.refd.getD 0, refd := e.refd.isSome }

/-- the type that is stored -/
def typed (e : El K) : Option (List Nat) :=
  match e.cast with
  | some t => if t = [118, 111, 105, 100] then none else some t
  | none => none

def data (e : El K) : Loaded K :=
  { name := e.name.map fun p => p.1.take p.2, type := e.typed, null := (entry e.body).null, value := (entry e.body).value }

def refToks (name : List Nat) : Option Nat → List (Tok K)
  | none => []
  | some n => [.ivalue name n]

def nameToks : Option (List Nat × Nat) → List (Tok K)
  | none => []
  | some p => [.dot, .e (.id p.1 p.2), .assign]

def castToks : Option (List Nat) → List (Tok K)
  | none => []
  | some t => [.cast t]

structure OK (w : World) (e : El K) : Prop where
  name : ∀ p, e.name = some p → w.known (p.1.take p.2) e.typed = true
  type : ∀ t, e.typed = some t → w.types t = true
  body : match e.body with
    | .expr u v => Value.parse K w.env u none [] = some (some v) ∧ Value.keep v = some v
    | .tok t n v => meaning t = some (n, v)
    | _ => True

end El

namespace DF

def shape : DF K → Forest
  | nil => .nil
  | cons _ k s => .cons 0 k.shape s.shape

def data : DF K → List (Loaded K)
  | nil => []
  | cons e k s => e.data :: (k.data ++ s.data)

/-- the tokens of a value, `inside`: the tokens between the braces -/
def bodyToks (b : Body K) (inside : List (Tok K)) : List (Tok K) :=
  match b with
  | .list => .lbrace :: (inside ++ [.rbrace])
  | .empty => [.lbrace, .rbrace]
  | .expr u _ => u.map .e
  | .tok t _ _ => [t]

/-- the tokens of a node without its name -/
def cinitToks (e : El K) (inside : List (Tok K)) : List (Tok K) :=
  El.refToks sRef e.ref ++ (El.refToks sContent e.cref ++ (El.refToks sIdx e.refd ++ (El.castToks e.cast ++ bodyToks e.body inside)))

def toks : DF K → List (Tok K)
  | nil => []
  | cons e k s => El.nameToks e.name ++ (cinitToks e k.toks ++ (if s.shape = .nil then [] else .comma :: s.toks))

def WF (w : World) : DF K → Prop
  | nil => True
  | cons e k s => e.OK w ∧ (e.isRef = true → k = nil) ∧ (match e.body with | .list => True | _ => k = nil) ∧ WF w k ∧ WF w s

end DF

open DF

theorem shape_nil {D : DF K} : D.shape = .nil ↔ D = .nil := by
  cases D <;> simp [shape]

theorem data_length (D : DF K) : D.data.length = D.shape.nodes.length := by
  induction D with
  | nil => rfl
  | cons e k s ih1 ih2 => simp [DF.data, shape, Forest.nodes, ih1, ih2]

/-- the descriptor of an element at index `n` -/
def node (p n : Nat) (e : El K) (k s : Forest) : Pd :=
  { e.pd p with firstChild := if k = .nil then (e.pd p).firstChild else n + 1, next := if s = .nil then 0 else n + 1 + k.nodes.length }

/-- the descriptors of a forest below `p` that was added in document order from index `n` on -/
def canon (p n : Nat) : DF K → List Pd
  | .nil => []
  | .cons e k s => node p n e k.shape s.shape :: (canon n (n + 1) k ++ canon p (n + 1 + k.shape.nodes.length) s)

theorem canon_length (D : DF K) : ∀ p n, (canon p n D).length = D.shape.nodes.length := by
  induction D with
  | nil => intro p n; rfl
  | cons e k s ih1 ih2 => intro p n; simp [canon, shape, Forest.nodes, ih1, ih2]

theorem canon_parent (D : DF K) : ∀ (p n j : Nat) (pj : Pd), (canon p n D)[j]? = some pj →
    pj.parent = p ∨ (n ≤ pj.parent ∧ pj.parent < n + j) := by
  induction D with
  | nil => intro p n j pj h; simp [canon] at h
  | cons e k s ih1 ih2 =>
    intro p n j pj h
    rw [canon] at h
    cases j with
    | zero => simp at h; left; rw [← h]; rfl
    | succ j =>
      rw [List.getElem?_cons_succ, List.getElem?_append, canon_length] at h
      split at h
      · right
        rcases ih1 _ _ _ _ h with h1 | h1 <;> omega
      · rcases ih2 _ _ _ _ h with h1 | h1
        · exact .inl h1
        · right; omega

theorem not_ref {e : El K} (h : e.isRef = false) : e.ref = none ∧ e.cref = none := by
  unfold El.isRef at h
  simpa only [Bool.or_eq_false_iff, Option.isSome_eq_false_iff, Option.isNone_iff_eq_none] using h

theorem kids_head (e : El K) (p n : Nat) (k s : Forest) (h : e.isRef = true → k = .nil) : kidsHead (node p n e k s) = if k = .nil then 0 else n + 1 := by
  have hr : ((node p n e k s).ref || (node p n e k s).cref) = e.isRef := rfl
  unfold kidsHead
  rw [hr]
  cases he : e.isRef with
  | true => rw [h he]; simp
  | false =>
    simp only [Bool.false_eq_true, if_false]
    simp [node, El.pd, not_ref he]

/-- the array of a forest added in document order represents the forest -/
theorem canon_rep (w : World) (D : DF K) : ∀ (pre post : List Pd) (p : Nat), WF w D → pre ≠ [] →
    Rep (pre ++ (canon p pre.length D ++ post)) p (if D.shape = .nil then 0 else pre.length) (Ptrs.number pre.length D.shape) := by
  induction D with
  | nil => intro pre post p _ _; rfl
  | cons e k s ih1 ih2 =>
    intro pre post p hwf hp
    obtain ⟨_, h2, _, h3, h4⟩ := hwf
    have hl : pre.length ≠ 0 := fun h => hp (List.eq_nil_of_length_eq_zero h)
    refine ⟨by rw [if_neg (by simp [shape])], hl, _, by rw [List.getElem?_append_right (Nat.le_refl _), Nat.sub_self]; rfl, rfl, ?_, ?_⟩
    · rw [kids_head e p pre.length k.shape s.shape (fun h => shape_nil.2 (h2 h))]
      have := ih1 (pre ++ [node p pre.length e k.shape s.shape]) (canon p (pre.length + 1 + k.shape.nodes.length) s ++ post) pre.length h3 (by simp)
      simp only [List.length_append, List.length_cons, List.length_nil, Nat.zero_add] at this
      simpa [canon] using this
    · have := ih2 (pre ++ node p pre.length e k.shape s.shape :: canon pre.length (pre.length + 1) k) post p h4 (by simp)
      simp only [List.length_append, List.length_cons, canon_length] at this
      rw [show pre.length + (k.shape.nodes.length + 1) = pre.length + 1 + k.shape.nodes.length by omega] at this
      simpa [canon, node] using this

/-! ### the actions -/

/-- a state of the parser -/
abbrev st (ra : List Pd) (lc : Nat) (data : List (Loaded K)) (parent : Nat) : St K := ⟨⟨ra, lc⟩, data, parent⟩

theorem push_ready {s : St K} {z : Nat} (h : Ready s.ptrs.ra s.ptrs.lastChild s.parent z) :
    push s = some (st (link s.ptrs.ra s.parent z s.ptrs.ra.length ++ [{ parent := s.parent }]) s.ptrs.ra.length (s.data ++ [({} : Loaded K)]) s.ptrs.ra.length) := by
  unfold push
  have := add_ready h
  simp only
  rw [show (addPtr s.ptrs).2 = s.ptrs.ra.length from rfl, show addPtr s.ptrs = addPtr { ra := s.ptrs.ra, lastChild := s.ptrs.lastChild } from rfl, this]
  rfl

/-- the current node and what was added after it -/
abbrev mid (b : List Pd) (pd : Pd) (sub : List Pd) (lc : Nat) (d : List (Loaded K)) (y : Loaded K) (sd : List (Loaded K)) : St K :=
  st (b ++ pd :: sub) lc (d ++ y :: sd) b.length

theorem setPd_mid (b : List Pd) (pd : Pd) (sub : List Pd) (lc : Nat) (d : List (Loaded K)) (y : Loaded K) (sd : List (Loaded K)) (f : Pd → Pd) :
    setPd (mid b pd sub lc d y sd) f = some (mid b (f pd) sub lc d y sd) := by
  unfold setPd
  simp only
  rw [upd_eq _ (by simp), modify_right _ sub _ _ rfl]
  rfl

theorem store_mid {b : List Pd} (pd : Pd) (sub : List Pd) (lc : Nat) {d : List (Loaded K)} (y : Loaded K) (sd : List (Loaded K)) (f : Loaded K → Loaded K) (h : d.length = b.length) :
    store (mid b pd sub lc d y sd) f = some (mid b pd sub lc d (f y) sd) := by
  unfold store
  simp only
  rw [List.getElem?_append_right (by omega), ← h, Nat.sub_self]
  simp only [List.getElem?_cons_zero, Option.bind_eq_bind, Option.bind_some]
  rw [Lemmas.JsonLoad.wr_mid d y sd (f y) _ rfl, h]
  rfl

theorem pop_mid (b : List Pd) (pd : Pd) (sub : List Pd) (lc : Nat) (d : List (Loaded K)) (y : Loaded K) (sd : List (Loaded K)) :
    pop (mid b pd sub lc d y sd) = some (st (b ++ pd :: sub) lc (d ++ y :: sd) pd.parent) := by
  unfold pop
  simp only
  rw [List.getElem?_append_right (Nat.le_refl _), Nat.sub_self]
  simp

/-- the effect of an attribute that may be missing -/
def refStep (f : Nat → Pd → Pd) : Option Nat → Pd → Pd
  | none, pd => pd
  | some n, pd => f n pd

theorem derive_ref (w : World) {s : St K} {b : List Pd} {pd : Pd} {sub : List Pd} {lc : Nat} {d : List (Loaded K)} {y : Loaded K} {sd : List (Loaded K)}
    (name : List Nat) (o : Option Nat) (f : Nat → Pd → Pd)
    (hf : ∀ n, setAttr (mid b pd sub lc d y sd) name n = some (mid b (f n pd) sub lc d y sd))
    {inp rest : List (Tok K)} (h : Derives w .stmt s inp (mid b pd sub lc d y sd) rest) :
    Derives w .stmt s (El.refToks name o ++ inp) (mid b (refStep f o pd) sub lc d y sd) rest := by
  cases o with
  | none => exact h
  | some n => exact .attr h (hf n)

theorem derive_attrs (w : World) {s : St K} {b : List Pd} {pd : Pd} {sub : List Pd} {lc : Nat} {d : List (Loaded K)} {y : Loaded K} {sd : List (Loaded K)}
    (e : El K) {inp rest : List (Tok K)} (h : Derives w .stmt s inp (mid b pd sub lc d y sd) rest) :
    Derives w .stmt s (El.refToks sRef e.ref ++ (El.refToks sContent e.cref ++ (El.refToks sIdx e.refd ++ inp)))
      (mid b (refStep (fun n pd => { pd with firstChild := n, ref := true }) e.ref
        (refStep (fun n pd => { pd with firstChild := n, cref := true }) e.cref
          (refStep (fun n pd => { pd with idx := n, refd := true }) e.refd pd))) sub lc d y sd) rest := by
  refine derive_ref w sRef e.ref _ (fun n => ?_) (derive_ref w sContent e.cref _ (fun n => ?_) (derive_ref w sIdx e.refd _ (fun n => ?_) h))
  · unfold setAttr
    rw [if_pos rfl]
    exact setPd_mid ..
  · unfold setAttr
    rw [if_neg (by decide), if_pos rfl]
    exact setPd_mid ..
  · unfold setAttr
    rw [if_neg (by decide), if_neg (by decide), if_pos rfl]
    exact setPd_mid ..

theorem steps_eq (e : El K) (p n : Nat) (k : Forest) (hk : e.isRef = true → k = .nil) :
    refStep (fun n pd => { pd with firstChild := n, ref := true }) e.ref
      (refStep (fun n pd => { pd with firstChild := n, cref := true }) e.cref
        (refStep (fun n pd => { pd with idx := n, refd := true }) e.refd
          { parent := p, firstChild := if k = .nil then 0 else n + 1 })) = node p n e k .nil := by
  cases he : e.isRef with
  | true =>
    have := hk he
    subst this
    obtain ⟨_, ref, cref, refd, _, _⟩ := e
    cases ref <;> cases cref <;> cases refd <;> rfl
  | false =>
    obtain ⟨h1, h2⟩ := not_ref he
    obtain ⟨_, ref, cref, refd, _, _⟩ := e
    simp only at h1 h2
    subst h1; subst h2
    cases refd <;> (by_cases hk0 : k = .nil <;> simp [refStep, node, El.pd, hk0])

theorem exprHead_comma (l : List (Tok K)) : exprHead (.comma :: l) = false := rfl

/-- a value: the node and everything below it -/
theorem value_ok (w : World) (e : El K) (k : DF K) (he : e.OK w) (hk0 : match e.body with | .list => True | _ => k = .nil)
    (hk : ∀ (s : St K) (rest : List (Tok K)), exprHead rest = false → k ≠ .nil → s.parent ≠ 0 → s.data.length = s.ptrs.ra.length →
      Ready s.ptrs.ra s.ptrs.lastChild s.parent 0 → ∃ lc, s.ptrs.ra.length ≤ lc ∧ lc < s.ptrs.ra.length + k.shape.nodes.length ∧
        Derives w .list s (k.toks ++ rest) (st (link s.ptrs.ra s.parent 0 s.ptrs.ra.length ++ canon s.parent s.ptrs.ra.length k) lc (s.data ++ k.data) s.parent) rest)
    (b : List Pd) (hb : b ≠ []) (p : Nat) (d : List (Loaded K)) (hd : d.length = b.length) (rest : List (Tok K)) (hr : exprHead rest = false) :
    ∃ lc, b.length ≤ lc ∧ lc < b.length + 1 + k.shape.nodes.length ∧
      Derives w .value (mid b { parent := p } [] b.length d {} []) (bodyToks e.body k.toks ++ rest)
        (mid b { parent := p, firstChild := if k.shape = .nil then 0 else b.length + 1 } (canon b.length (b.length + 1) k) lc d (entry e.body) k.data) rest := by
  have hbody := he.body
  cases hB : e.body with
  | list =>
    by_cases hne : k = .nil
    · subst hne
      exact ⟨b.length, Nat.le_refl _, by omega, .compound .noItem⟩
    · have hn0 : b.length ≠ 0 := fun h => hb (List.eq_nil_of_length_eq_zero h)
      have hsh : k.shape ≠ .nil := fun h => hne (shape_nil.1 h)
      obtain ⟨lc, h1, h2, h3⟩ := hk (mid b { parent := p } [] b.length d {} []) (.rbrace :: rest) rfl hne hn0 (by simp [hd])
        (ready_new b { parent := p } rfl b.length)
      simp only [List.length_append, List.length_cons, List.length_nil, Nat.zero_add] at h1 h2 h3
      refine ⟨lc, by omega, by omega, ?_⟩
      have e1 : link (b ++ [({ parent := p } : Pd)]) b.length 0 (b.length + 1) = b ++ [{ parent := p, firstChild := b.length + 1 }] := by
        unfold link
        rw [if_neg hn0, if_pos rfl, modify_right _ [] _ _ rfl]
      rw [e1] at h3
      rw [if_neg hsh]
      have : bodyToks (.list : Body K) k.toks ++ rest = .lbrace :: (k.toks ++ .rbrace :: rest) := by simp [bodyToks]
      rw [this]
      refine .compound ?_
      simpa [entry] using h3
  | empty =>
    rw [hB] at hk0
    simp only at hk0
    subst hk0
    exact ⟨b.length, Nat.le_refl _, by omega, .compound .noItem⟩
  | expr u v =>
    rw [hB] at hk0 hbody
    simp only at hk0 hbody
    subst hk0
    exact ⟨b.length, Nat.le_refl _, by omega, .expr hr hbody.1 hbody.2 (store_mid _ _ _ _ _ _ hd)⟩
  | tok t n v =>
    rw [hB] at hk0 hbody
    simp only at hk0 hbody
    subst hk0
    refine ⟨b.length, Nat.le_refl _, by omega, .scalar ?_⟩
    cases t <;> simp only [meaning, Option.some.injEq, Prod.mk.injEq, Option.map_eq_some_iff, reduceCtorEq] at hbody
    · obtain ⟨rfl, rfl⟩ := hbody; exact store_mid _ _ _ _ _ _ hd
    · obtain ⟨x, hx, rfl, rfl⟩ := hbody
      simp only [Cinit.scalar, hx, Option.bind_eq_bind, Option.bind_some]
      exact store_mid _ _ _ _ _ _ hd
    · obtain ⟨x, hx, rfl, rfl⟩ := hbody
      simp only [Cinit.scalar, hx, Option.bind_eq_bind, Option.bind_some]
      exact store_mid _ _ _ _ _ _ hd

/-- a node without its name -/
theorem cinit_ok (w : World) (e : El K) (k : DF K) (he : e.OK w) (href : e.isRef = true → k = .nil) (hk0 : match e.body with | .list => True | _ => k = .nil)
    (hk : ∀ (s : St K) (rest : List (Tok K)), exprHead rest = false → k ≠ .nil → s.parent ≠ 0 → s.data.length = s.ptrs.ra.length →
      Ready s.ptrs.ra s.ptrs.lastChild s.parent 0 → ∃ lc, s.ptrs.ra.length ≤ lc ∧ lc < s.ptrs.ra.length + k.shape.nodes.length ∧
        Derives w .list s (k.toks ++ rest) (st (link s.ptrs.ra s.parent 0 s.ptrs.ra.length ++ canon s.parent s.ptrs.ra.length k) lc (s.data ++ k.data) s.parent) rest)
    (s : St K) (z : Nat) (rest : List (Tok K)) (hrest : exprHead rest = false) (hd : s.data.length = s.ptrs.ra.length) (h : Ready s.ptrs.ra s.ptrs.lastChild s.parent z) :
    ∃ lc, s.ptrs.ra.length ≤ lc ∧ lc < s.ptrs.ra.length + 1 + k.shape.nodes.length ∧
      Derives w .cinit s (cinitToks e k.toks ++ rest)
        (st (link s.ptrs.ra s.parent z s.ptrs.ra.length ++ node s.parent s.ptrs.ra.length e k.shape .nil :: canon s.ptrs.ra.length (s.ptrs.ra.length + 1) k) lc
          (s.data ++ { e.data with name := none } :: k.data) s.parent) rest := by
  have hpush := push_ready h
  have hrange := h.range
  generalize hb : link s.ptrs.ra s.parent z s.ptrs.ra.length = b at hpush ⊢
  have hbl : b.length = s.ptrs.ra.length := by rw [← hb, link_length]
  rw [← hbl] at hpush ⊢
  have hb0 : b ≠ [] := by intro h0; rw [h0] at hbl; simp at hbl; omega
  obtain ⟨lc, h1, h2, h3⟩ := value_ok w e k he hk0 hk b hb0 s.parent s.data (by omega) rest hrest
  refine ⟨lc, h1, h2, ?_⟩
  have hcast : Derives w .stmt (mid b { parent := s.parent } [] b.length s.data {} []) (El.castToks e.cast ++ bodyToks e.body k.toks ++ rest)
      (mid b { parent := s.parent, firstChild := if k.shape = .nil then 0 else b.length + 1 } (canon b.length (b.length + 1) k) lc s.data
        { e.data with name := none } k.data) rest := by
    have hdata : ({ e.data with name := none } : Loaded K) = { entry e.body with type := e.typed, name := none } := rfl
    have hent : (entry e.body).type = none ∧ (entry e.body).name = none := by cases e.body <;> exact ⟨rfl, rfl⟩
    have h0 : ∀ (y : Loaded K), y.type = none → y.name = none → ({ y with type := none, name := none } : Loaded K) = y := by
      rintro ⟨n, t, x, v⟩ h1 h2
      simp only at h1 h2
      subst h1; subst h2; rfl
    rw [hdata]
    cases hc : e.cast with
    | none =>
      have ht : e.typed = none := by unfold El.typed; rw [hc]
      rw [ht, h0 _ hent.1 hent.2]
      exact .plain h3
    | some t =>
      refine .cast h3 ?_
      unfold castAction
      by_cases hv : t = [118, 111, 105, 100]
      · have ht : e.typed = none := by unfold El.typed; rw [hc]; simp [hv]
        rw [if_pos hv, ht, h0 _ hent.1 hent.2]
      · have ht : e.typed = some t := by unfold El.typed; rw [hc]; simp [hv]
        rw [if_neg hv, if_pos (he.type t ht), store_mid _ _ _ _ _ _ (by omega), ht]
        have : ∀ (y : Loaded K), y.name = none → ({ y with type := some t } : Loaded K) = { y with type := some t, name := none } := by
          rintro ⟨n, t, x, v⟩ h1
          simp only at h1
          subst h1; rfl
        rw [this _ hent.2]
  have hall := derive_attrs w e hcast
  rw [steps_eq e s.parent b.length k.shape (fun h => shape_nil.2 (href h))] at hall
  have htk : cinitToks e k.toks ++ rest = El.refToks sRef e.ref ++ (El.refToks sContent e.cref ++ (El.refToks sIdx e.refd ++ (El.castToks e.cast ++ bodyToks e.body k.toks ++ rest))) := by
    simp [cinitToks]
  rw [htk]
  exact .cinit hpush hall (pop_mid ..)

/-- **Parsing the tokens of a forest builds the forest.** -/
theorem build (w : World) (D : DF K) : ∀ (s : St K) (z : Nat) (rest : List (Tok K)), WF w D → exprHead rest = false → D ≠ .nil → s.parent ≠ 0 →
    s.data.length = s.ptrs.ra.length → Ready s.ptrs.ra s.ptrs.lastChild s.parent z →
    ∃ lc, s.ptrs.ra.length ≤ lc ∧ lc < s.ptrs.ra.length + D.shape.nodes.length ∧
      Derives w .list s (D.toks ++ rest) (st (link s.ptrs.ra s.parent z s.ptrs.ra.length ++ canon s.parent s.ptrs.ra.length D) lc (s.data ++ D.data) s.parent) rest := by
  induction D with
  | nil => intro s z rest _ _ h; exact absurd rfl h
  | cons e k sb ih1 ih2 =>
    intro s z rest hwf hrest _ hp hd hr
    obtain ⟨he, href, hk0, hwk, hws⟩ := hwf
    have hrange := hr.range
    have hitem : ∀ rest', exprHead rest' = false → ∃ lc, s.ptrs.ra.length ≤ lc ∧ lc < s.ptrs.ra.length + 1 + k.shape.nodes.length ∧
        Derives w .item s (El.nameToks e.name ++ cinitToks e k.toks ++ rest')
        (st (link s.ptrs.ra s.parent z s.ptrs.ra.length ++ node s.parent s.ptrs.ra.length e k.shape .nil :: canon s.ptrs.ra.length (s.ptrs.ra.length + 1) k) lc (s.data ++ e.data :: k.data) s.parent) rest' := by
      intro rest' hrest'
      obtain ⟨lc, h1, h2, h3⟩ := cinit_ok w e k he href hk0 (fun s rest h0 hne hp hd hr => ih1 s 0 rest hwk h0 hne hp hd hr) s z rest' hrest' hd hr
      cases hn : e.name with
      | none =>
        refine ⟨lc, h1, h2, .element ?_⟩
        have : ({ e.data with name := none } : Loaded K) = e.data := by simp [El.data, hn]
        rw [this] at h3
        exact h3
      | some p =>
        have hready := ready_next hr (node s.parent s.ptrs.ra.length e k.shape .nil) (canon s.ptrs.ra.length (s.ptrs.ra.length + 1) k) hp rfl h1
          (by rw [canon_length]; omega) (fun j pj hj => by rcases canon_parent _ _ _ _ _ hj with h | h <;> omega)
        have hlast := last_ready (extra := []) hready
        simp only [List.append_nil] at hlast
        rw [if_neg (by omega)] at hlast
        refine ⟨s.ptrs.ra.length, Nat.le_refl _, by omega, ?_⟩
        refine Derives.member (str := p.1) (n := p.2) h3 ?_
        unfold Cinit.member
        simp only
        rw [hlast]
        simp only [Option.bind_eq_bind, Option.bind_some]
        rw [if_neg (by omega)]
        rw [List.getElem?_append_right (by omega), ← hd, Nat.sub_self]
        simp only [List.getElem?_cons_zero, Option.bind_some]
        rw [if_pos (show w.known (p.1.take p.2) e.data.type = true from he.name p hn)]
        rw [Lemmas.JsonLoad.wr_mid s.data _ k.data _ _ rfl]
        simp [El.data, hn]
    by_cases hs : sb = .nil
    · subst hs
      obtain ⟨lc, h1, h2, h3⟩ := hitem rest hrest
      refine ⟨lc, h1, by simp [shape, Forest.nodes]; omega, .lastItem ?_⟩
      simpa [toks, shape, canon, DF.data] using h3
    · have hs' : sb.shape ≠ .nil := fun h => hs (shape_nil.1 h)
      obtain ⟨lc, h1, h2, h3⟩ := hitem (.comma :: (sb.toks ++ rest)) rfl
      have hready := ready_next hr (node s.parent s.ptrs.ra.length e k.shape .nil) (canon s.ptrs.ra.length (s.ptrs.ra.length + 1) k) hp rfl h1
        (by rw [canon_length]; omega) (fun j pj hj => by rcases canon_parent _ _ _ _ _ hj with h | h <;> omega)
      obtain ⟨lc', h4, h5, h6⟩ := ih2 (st (link s.ptrs.ra s.parent z s.ptrs.ra.length ++ node s.parent s.ptrs.ra.length e k.shape .nil :: canon s.ptrs.ra.length (s.ptrs.ra.length + 1) k) lc
        (s.data ++ e.data :: k.data) s.parent) s.ptrs.ra.length rest hws hrest hs hp (by simp [link_length, canon_length, data_length, hd]) hready
      simp only [List.length_append, link_length, List.length_cons, canon_length] at h4 h5 h6
      refine ⟨lc', by omega, by simp only [shape, Forest.nodes, List.length_cons, List.length_append]; omega, ?_⟩
      rw [show s.ptrs.ra.length + (k.shape.nodes.length + 1) = s.ptrs.ra.length + 1 + k.shape.nodes.length by omega] at h6
      have e1 : link (link s.ptrs.ra s.parent z s.ptrs.ra.length ++ node s.parent s.ptrs.ra.length e k.shape .nil ::
          canon s.ptrs.ra.length (s.ptrs.ra.length + 1) k) s.parent s.ptrs.ra.length (s.ptrs.ra.length + 1 + k.shape.nodes.length) =
          link s.ptrs.ra s.parent z s.ptrs.ra.length ++ node s.parent s.ptrs.ra.length e k.shape sb.shape ::
          canon s.ptrs.ra.length (s.ptrs.ra.length + 1) k := by
        generalize hb : link s.ptrs.ra s.parent z s.ptrs.ra.length = base
        have hbl : base.length = s.ptrs.ra.length := by rw [← hb, link_length]
        unfold link
        rw [if_neg hp, if_neg (by omega), modify_right _ _ _ _ hbl.symm]
        simp [node, hs']
      rw [e1] at h6
      have e2 : (DF.cons e k sb).toks ++ rest = El.nameToks e.name ++ cinitToks e k.toks ++ (.comma :: (sb.toks ++ rest)) := by
        simp [toks, hs']
      rw [e2]
      refine .items h3 ?_
      simpa [canon, DF.data, shape] using h6

/-- **Parsing the tokens of a tree.** -/
theorem build_root (w : World) (e : El K) (k : DF K) (hn : e.name = none) (hwf : WF w (.cons e k .nil)) :
    ∃ lc, Derives w .cinit start (DF.cons e k .nil).toks
      (st (({} : Pd) :: canon 0 1 (.cons e k .nil)) lc (({} : Loaded K) :: (DF.cons e k .nil).data) 0) [] := by
  have hr : Ready (start (K := K)).ptrs.ra (start (K := K)).ptrs.lastChild (start (K := K)).parent 0 :=
    ⟨Nat.zero_lt_one, fun _ h => absurd rfl h, fun _ => rfl, fun h => absurd rfl h⟩
  obtain ⟨he, href, hk0, hwk, _⟩ := hwf
  obtain ⟨lc, _, _, h⟩ := cinit_ok w e k he href hk0 (fun s rest h0 hne hp hd hr => build w k s 0 rest hwk h0 hne hp hd hr) start 0 [] rfl rfl hr
  refine ⟨lc, ?_⟩
  have : ({ e.data with name := none } : Loaded K) = e.data := by simp [El.data, hn]
  rw [this] at h
  simpa [start, link, canon, DF.data, shape, toks, hn, El.nameToks] using h

end Verif.Lemmas.CinitLoad
