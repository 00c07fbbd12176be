import Verif.Model.Scm
import Verif.Lemmas.TopDown
import Verif.Lemmas.JsonLoad
/-!
# Parsing the tokens of a Scheme document
-/
namespace Verif.Lemmas.ScmLoad
open Verif.Model Verif.Model.Ptrs Verif.Model.Scm Verif.Spec Verif.Spec.Ptrs Verif.Lemmas.TopDown
open Verif.Model.Xml1 (sRef sContent sIdx)

/-- what stands for a node in the document -/
inductive Body
  | list
  | tok (t : Tok) (n : Bool) (v : Value)

/-- the meaning of a token that is a value of its own -/
def meaning : Tok → Option (Bool × Value)
  | .char c => some (false, .char c)
  | .int v => some (false, .int v)
  | .float t => some (false, .float t)
  | .string b => (stringValue b).map fun v => (false, .string v)
  | .false => some (true, .int 0)
  | _ => none

/-- an element -/
structure El where
  name : Option (List Nat)
  ref : Option Nat
  cref : Option Nat
  refd : Option Nat
  body : Body

/-- a forest of elements -/
inductive DF
  | nil
  | cons (e : El) (kids sibs : DF)

def entry : Body → Loaded
  | .tok _ n v => { null := n, value := v }
  | .list => {}

namespace El

def isRef (e : El) : Bool := e.ref.isSome || e.cref.isSome

/-- the descriptor after the attributes -/
def pd (e : El) (p : Nat) : Pd :=
  { parent := p, firstChild := e.ref.getD (e.cref.getD 0), ref := e.ref.isSome, cref := e.cref.isSome, idx := e.refd.getD 0, refd := e.refd.isSome }

def data (e : El) : Loaded := { name := e.name, null := (entry e.body).null, value := (entry e.body).value }

def refToks (name : List Nat) : Option Nat → List Tok
  | none => []
  | some n => [.ivalue name n]

structure OK (w : List Nat → Bool) (e : El) : Prop where
  name : ∀ n, e.name = some n → w n = true
  body : match e.body with
    | .tok t n v => meaning t = some (n, v)
    | .list => True

end El

namespace DF

def shape : DF → Forest
  | nil => .nil
  | cons _ k s => .cons 0 k.shape s.shape

def data : DF → List Loaded
  | nil => []
  | cons e k s => e.data :: (k.data ++ s.data)

/-- the tokens of a value, `inside`: the tokens between the parentheses -/
def bodyToks (b : Body) (inside : List Tok) : List Tok :=
  match b with
  | .list => .lpar :: (inside ++ [.rpar])
  | .tok t _ _ => [t]

/-- the tokens of a value with its name -/
def valueToks (e : El) (inside : List Tok) : List Tok :=
  match e.name with
  | none => bodyToks e.body inside
  | some n => .lpar :: .id n :: .dot :: (bodyToks e.body inside ++ [.rpar])

/-- the tokens of a node -/
def scmToks (e : El) (inside : List Tok) : List Tok :=
  El.refToks sRef e.ref ++ (El.refToks sContent e.cref ++ (El.refToks sIdx e.refd ++ valueToks e inside))

def toks : DF → List Tok
  | nil => []
  | cons e k s => scmToks e k.toks ++ (if s.shape = .nil then [] else .ws :: s.toks)

def WF (w : List Nat → Bool) : DF → Prop
  | nil => True
  | cons e k s => e.OK w ∧ (e.isRef = true → k = nil) ∧ (match e.body with | .list => True | _ => k = nil) ∧ WF w k ∧ WF w s

end DF

open DF

theorem shape_nil {D : DF} : D.shape = .nil ↔ D = .nil := by
  cases D <;> simp [shape]

theorem data_length (D : DF) : D.data.length = D.shape.nodes.length := by
  induction D with
  | nil => rfl
  | cons e k s ih1 ih2 => simp [DF.data, shape, Forest.nodes, ih1, ih2]

/-- the descriptor of an element at index `n` -/
def node (p n : Nat) (e : El) (k s : Forest) : Pd :=
  { e.pd p with firstChild := if k = .nil then (e.pd p).firstChild else n + 1, next := if s = .nil then 0 else n + 1 + k.nodes.length }

/-- the descriptors of a forest below `p` that was added in document order from index `n` on -/
def canon (p n : Nat) : DF → List Pd
  | .nil => []
  | .cons e k s => node p n e k.shape s.shape :: (canon n (n + 1) k ++ canon p (n + 1 + k.shape.nodes.length) s)

theorem canon_length (D : DF) : ∀ p n, (canon p n D).length = D.shape.nodes.length := by
  induction D with
  | nil => intro p n; rfl
  | cons e k s ih1 ih2 => intro p n; simp [canon, shape, Forest.nodes, ih1, ih2]

theorem canon_parent (D : DF) : ∀ (p n j : Nat) (pj : Pd), (canon p n D)[j]? = some pj →
    pj.parent = p ∨ (n ≤ pj.parent ∧ pj.parent < n + j) := by
  induction D with
  | nil => intro p n j pj h; simp [canon] at h
  | cons e k s ih1 ih2 =>
    intro p n j pj h
    rw [canon] at h
    cases j with
    | zero => simp at h; left; rw [← h]; rfl
    | succ j =>
      rw [List.getElem?_cons_succ, List.getElem?_append, canon_length] at h
      split at h
      · right
        rcases ih1 _ _ _ _ h with h1 | h1 <;> omega
      · rcases ih2 _ _ _ _ h with h1 | h1
        · exact .inl h1
        · right; omega

theorem not_ref {e : El} (h : e.isRef = false) : e.ref = none ∧ e.cref = none := by
  unfold El.isRef at h
  simpa only [Bool.or_eq_false_iff, Option.isSome_eq_false_iff, Option.isNone_iff_eq_none] using h

theorem kids_head (e : El) (p n : Nat) (k s : Forest) (h : e.isRef = true → k = .nil) : kidsHead (node p n e k s) = if k = .nil then 0 else n + 1 := by
  have hr : ((node p n e k s).ref || (node p n e k s).cref) = e.isRef := rfl
  unfold kidsHead
  rw [hr]
  cases he : e.isRef with
  | true => rw [h he]; simp
  | false =>
    simp only [Bool.false_eq_true, if_false]
    simp [node, El.pd, not_ref he]

/-- the array of a forest added in document order represents the forest -/
theorem canon_rep (w : List Nat → Bool) (D : DF) : ∀ (pre post : List Pd) (p : Nat), WF w D → pre ≠ [] →
    Rep (pre ++ (canon p pre.length D ++ post)) p (if D.shape = .nil then 0 else pre.length) (Ptrs.number pre.length D.shape) := by
  induction D with
  | nil => intro pre post p _ _; rfl
  | cons e k s ih1 ih2 =>
    intro pre post p hwf hp
    obtain ⟨_, h2, _, h3, h4⟩ := hwf
    have hl : pre.length ≠ 0 := fun h => hp (List.eq_nil_of_length_eq_zero h)
    refine ⟨by rw [if_neg (by simp [shape])], hl, _, by rw [List.getElem?_append_right (Nat.le_refl _), Nat.sub_self]; rfl, rfl, ?_, ?_⟩
    · rw [kids_head e p pre.length k.shape s.shape (fun h => shape_nil.2 (h2 h))]
      have := ih1 (pre ++ [node p pre.length e k.shape s.shape]) (canon p (pre.length + 1 + k.shape.nodes.length) s ++ post) pre.length h3 (by simp)
      simp only [List.length_append, List.length_cons, List.length_nil, Nat.zero_add] at this
      simpa [canon] using this
    · have := ih2 (pre ++ node p pre.length e k.shape s.shape :: canon pre.length (pre.length + 1) k) post p h4 (by simp)
      simp only [List.length_append, List.length_cons, canon_length] at this
      rw [show pre.length + (k.shape.nodes.length + 1) = pre.length + 1 + k.shape.nodes.length by omega] at this
      simpa [canon, node] using this

/-! ### the actions -/

/-- a state of the parser -/
abbrev st (ra : List Pd) (lc : Nat) (data : List Loaded) (parent : Nat) : St := ⟨⟨ra, lc⟩, data, parent⟩

theorem push_ready {s : St} {z : Nat} (h : Ready s.ptrs.ra s.ptrs.lastChild s.parent z) :
    push s = some (st (link s.ptrs.ra s.parent z s.ptrs.ra.length ++ [{ parent := s.parent }]) s.ptrs.ra.length (s.data ++ [({} : Loaded)]) s.ptrs.ra.length) := by
  unfold push
  have := add_ready h
  simp only
  rw [show (addPtr s.ptrs).2 = s.ptrs.ra.length from rfl, show addPtr s.ptrs = addPtr { ra := s.ptrs.ra, lastChild := s.ptrs.lastChild } from rfl, this]
  rfl

/-- the current node and what was added after it -/
abbrev mid (b : List Pd) (pd : Pd) (sub : List Pd) (lc : Nat) (d : List Loaded) (y : Loaded) (sd : List Loaded) : St :=
  st (b ++ pd :: sub) lc (d ++ y :: sd) b.length

theorem setPd_mid (b : List Pd) (pd : Pd) (sub : List Pd) (lc : Nat) (d : List Loaded) (y : Loaded) (sd : List Loaded) (f : Pd → Pd) :
    setPd (mid b pd sub lc d y sd) f = some (mid b (f pd) sub lc d y sd) := by
  unfold setPd
  simp only
  rw [upd_eq _ (by simp), modify_right _ sub _ _ rfl]
  rfl

theorem store_mid {b : List Pd} (pd : Pd) (sub : List Pd) (lc : Nat) {d : List Loaded} (y : Loaded) (sd : List Loaded) (f : Loaded → Loaded) (h : d.length = b.length) :
    store (mid b pd sub lc d y sd) f = some (mid b pd sub lc d (f y) sd) := by
  unfold store
  simp only
  rw [List.getElem?_append_right (by omega), ← h, Nat.sub_self]
  simp only [List.getElem?_cons_zero, Option.bind_eq_bind, Option.bind_some]
  rw [Lemmas.JsonLoad.wr_mid d y sd (f y) _ rfl, h]
  rfl

theorem pop_mid (b : List Pd) (pd : Pd) (sub : List Pd) (lc : Nat) (d : List Loaded) (y : Loaded) (sd : List Loaded) :
    pop (mid b pd sub lc d y sd) = some (st (b ++ pd :: sub) lc (d ++ y :: sd) pd.parent) := by
  unfold pop
  simp only
  rw [List.getElem?_append_right (Nat.le_refl _), Nat.sub_self]
  simp

/-- the effect of an attribute that may be missing -/
def refStep (f : Nat → Pd → Pd) : Option Nat → Pd → Pd
  | none, pd => pd
  | some n, pd => f n pd

theorem derive_ref (w : List Nat → Bool) {s : St} {b : List Pd} {pd : Pd} {sub : List Pd} {lc : Nat} {d : List Loaded} {y : Loaded} {sd : List Loaded}
    (name : List Nat) (o : Option Nat) (f : Nat → Pd → Pd)
    (hf : ∀ n, setAttr (mid b pd sub lc d y sd) name n = some (mid b (f n pd) sub lc d y sd))
    {inp rest : List Tok} (h : Derives w .stmt s inp (mid b pd sub lc d y sd) rest) :
    Derives w .stmt s (El.refToks name o ++ inp) (mid b (refStep f o pd) sub lc d y sd) rest := by
  cases o with
  | none => exact h
  | some n => exact .attr h (hf n)

theorem derive_attrs (w : List Nat → Bool) {s : St} {b : List Pd} {pd : Pd} {sub : List Pd} {lc : Nat} {d : List Loaded} {y : Loaded} {sd : List Loaded}
    (e : El) {inp rest : List Tok} (h : Derives w .stmt s inp (mid b pd sub lc d y sd) rest) :
    Derives w .stmt s (El.refToks sRef e.ref ++ (El.refToks sContent e.cref ++ (El.refToks sIdx e.refd ++ inp)))
      (mid b (refStep (fun n pd => { pd with firstChild := n, ref := true }) e.ref
        (refStep (fun n pd => { pd with firstChild := n, cref := true }) e.cref
          (refStep (fun n pd => { pd with idx := n, refd := true }) e.refd pd))) sub lc d y sd) rest := by
  refine derive_ref w sRef e.ref _ (fun n => ?_) (derive_ref w sContent e.cref _ (fun n => ?_) (derive_ref w sIdx e.refd _ (fun n => ?_) h))
  · unfold setAttr
    rw [if_pos rfl]
    exact setPd_mid ..
  · unfold setAttr
    rw [if_neg (by decide), if_pos rfl]
    exact setPd_mid ..
  · unfold setAttr
    rw [if_neg (by decide), if_neg (by decide), if_pos rfl]
    exact setPd_mid ..

theorem steps_eq (e : El) (p n : Nat) (k : Forest) (hk : e.isRef = true → k = .nil) :
    refStep (fun n pd => { pd with firstChild := n, ref := true }) e.ref
      (refStep (fun n pd => { pd with firstChild := n, cref := true }) e.cref
        (refStep (fun n pd => { pd with idx := n, refd := true }) e.refd
          { parent := p, firstChild := if k = .nil then 0 else n + 1 })) = node p n e k .nil := by
  cases he : e.isRef with
  | true =>
    have := hk he
    subst this
    obtain ⟨_, ref, cref, refd, _⟩ := e
    cases ref <;> cases cref <;> cases refd <;> rfl
  | false =>
    obtain ⟨h1, h2⟩ := not_ref he
    obtain ⟨_, ref, cref, refd, _⟩ := e
    simp only at h1 h2
    subst h1; subst h2
    cases refd <;> (by_cases hk0 : k = .nil <;> simp [refStep, node, El.pd, hk0])

/-- a value without its name: the node and everything below it -/
theorem body_ok (w : List Nat → Bool) (e : El) (k : DF) (he : e.OK w) (hk0 : match e.body with | .list => True | _ => k = .nil)
    (hk : ∀ (s : St) (rest : List Tok), k ≠ .nil → s.parent ≠ 0 → s.data.length = s.ptrs.ra.length →
      Ready s.ptrs.ra s.ptrs.lastChild s.parent 0 → ∃ lc, s.ptrs.ra.length ≤ lc ∧ lc < s.ptrs.ra.length + k.shape.nodes.length ∧
        Derives w .list s (k.toks ++ rest) (st (link s.ptrs.ra s.parent 0 s.ptrs.ra.length ++ canon s.parent s.ptrs.ra.length k) lc (s.data ++ k.data) s.parent) rest)
    (b : List Pd) (hb : b ≠ []) (p : Nat) (d : List Loaded) (hd : d.length = b.length) (rest : List Tok) :
    ∃ lc, b.length ≤ lc ∧ lc < b.length + 1 + k.shape.nodes.length ∧
      Derives w .value (mid b { parent := p } [] b.length d {} []) (bodyToks e.body k.toks ++ rest)
        (mid b { parent := p, firstChild := if k.shape = .nil then 0 else b.length + 1 } (canon b.length (b.length + 1) k) lc d (entry e.body) k.data) rest := by
  have hbody := he.body
  cases hB : e.body with
  | list =>
    by_cases hne : k = .nil
    · subst hne
      exact ⟨b.length, Nat.le_refl _, by omega, .compound .noItem⟩
    · have hn0 : b.length ≠ 0 := fun h => hb (List.eq_nil_of_length_eq_zero h)
      have hsh : k.shape ≠ .nil := fun h => hne (shape_nil.1 h)
      obtain ⟨lc, h1, h2, h3⟩ := hk (mid b { parent := p } [] b.length d {} []) (.rpar :: rest) hne hn0 (by simp [hd])
        (ready_new b { parent := p } rfl b.length)
      simp only [List.length_append, List.length_cons, List.length_nil, Nat.zero_add] at h1 h2 h3
      refine ⟨lc, by omega, by omega, ?_⟩
      have e1 : link (b ++ [({ parent := p } : Pd)]) b.length 0 (b.length + 1) = b ++ [{ parent := p, firstChild := b.length + 1 }] := by
        unfold link
        rw [if_neg hn0, if_pos rfl, modify_right _ [] _ _ rfl]
      rw [e1] at h3
      rw [if_neg hsh]
      have : bodyToks (.list : Body) k.toks ++ rest = .lpar :: (k.toks ++ .rpar :: rest) := by simp [bodyToks]
      rw [this]
      refine .compound ?_
      simpa [entry] using h3
  | tok t n v =>
    rw [hB] at hk0 hbody
    simp only at hk0 hbody
    subst hk0
    refine ⟨b.length, Nat.le_refl _, by omega, .scalar ?_⟩
    cases t <;> simp only [meaning, Option.some.injEq, Prod.mk.injEq, Option.map_eq_some_iff, reduceCtorEq] at hbody
    · obtain ⟨rfl, rfl⟩ := hbody; exact store_mid _ _ _ _ _ _ hd
    · obtain ⟨rfl, rfl⟩ := hbody; exact store_mid _ _ _ _ _ _ hd
    · obtain ⟨rfl, rfl⟩ := hbody; exact store_mid _ _ _ _ _ _ hd
    · obtain ⟨x, hx, rfl, rfl⟩ := hbody
      simp only [Scm.scalar, hx, Option.bind_eq_bind, Option.bind_some]
      exact store_mid _ _ _ _ _ _ hd
    · obtain ⟨rfl, rfl⟩ := hbody; exact store_mid _ _ _ _ _ _ hd

/-- a node -/
theorem scm_ok (w : List Nat → Bool) (e : El) (k : DF) (he : e.OK w) (href : e.isRef = true → k = .nil) (hk0 : match e.body with | .list => True | _ => k = .nil)
    (hk : ∀ (s : St) (rest : List Tok), k ≠ .nil → s.parent ≠ 0 → s.data.length = s.ptrs.ra.length →
      Ready s.ptrs.ra s.ptrs.lastChild s.parent 0 → ∃ lc, s.ptrs.ra.length ≤ lc ∧ lc < s.ptrs.ra.length + k.shape.nodes.length ∧
        Derives w .list s (k.toks ++ rest) (st (link s.ptrs.ra s.parent 0 s.ptrs.ra.length ++ canon s.parent s.ptrs.ra.length k) lc (s.data ++ k.data) s.parent) rest)
    (s : St) (z : Nat) (rest : List Tok) (hd : s.data.length = s.ptrs.ra.length) (h : Ready s.ptrs.ra s.ptrs.lastChild s.parent z) :
    ∃ lc, s.ptrs.ra.length ≤ lc ∧ lc < s.ptrs.ra.length + 1 + k.shape.nodes.length ∧
      Derives w .scm s (scmToks e k.toks ++ rest)
        (st (link s.ptrs.ra s.parent z s.ptrs.ra.length ++ node s.parent s.ptrs.ra.length e k.shape .nil :: canon s.ptrs.ra.length (s.ptrs.ra.length + 1) k) lc
          (s.data ++ e.data :: k.data) s.parent) rest := by
  have hpush := push_ready h
  have hrange := h.range
  generalize hb : link s.ptrs.ra s.parent z s.ptrs.ra.length = b at hpush ⊢
  have hbl : b.length = s.ptrs.ra.length := by rw [← hb, link_length]
  rw [← hbl] at hpush ⊢
  have hb0 : b ≠ [] := by intro h0; rw [h0] at hbl; simp at hbl; omega
  have hval : ∃ lc, b.length ≤ lc ∧ lc < b.length + 1 + k.shape.nodes.length ∧
      Derives w .value (mid b { parent := s.parent } [] b.length s.data {} []) (valueToks e k.toks ++ rest)
        (mid b { parent := s.parent, firstChild := if k.shape = .nil then 0 else b.length + 1 } (canon b.length (b.length + 1) k) lc s.data e.data k.data) rest := by
    have hent : (entry e.body).name = none := by cases e.body <;> rfl
    have h0 : ∀ (y : Loaded) (n : Option (List Nat)), y.name = none → ({ name := n, null := y.null, value := y.value } : Loaded) = { y with name := n } := fun _ _ _ => rfl
    unfold valueToks
    cases hn : e.name with
    | none =>
      obtain ⟨lc, h1, h2, h3⟩ := body_ok w e k he hk0 hk b hb0 s.parent s.data (by omega) rest
      refine ⟨lc, h1, h2, ?_⟩
      have : e.data = entry e.body := by
        unfold El.data
        rw [hn]
        revert hent
        generalize entry e.body = y
        obtain ⟨a, b, c⟩ := y
        intro h; simp only at h; subst h; rfl
      rw [this]
      exact h3
    | some n =>
      obtain ⟨lc, h1, h2, h3⟩ := body_ok w e k he hk0 hk b hb0 s.parent s.data (by omega) (.rpar :: rest)
      refine ⟨lc, h1, h2, ?_⟩
      simp only [List.cons_append, List.append_assoc, List.nil_append]
      refine .named h3 ?_
      unfold setName
      rw [if_pos (he.name n hn), store_mid _ _ _ _ _ _ (by omega)]
      simp [El.data, hn]
  obtain ⟨lc, h1, h2, h3⟩ := hval
  refine ⟨lc, h1, h2, ?_⟩
  have hall := derive_attrs w e (Derives.plain h3)
  rw [steps_eq e s.parent b.length k.shape (fun h => shape_nil.2 (href h))] at hall
  have htk : scmToks e k.toks ++ rest = El.refToks sRef e.ref ++ (El.refToks sContent e.cref ++ (El.refToks sIdx e.refd ++ (valueToks e k.toks ++ rest))) := by
    simp [scmToks]
  rw [htk]
  exact .scm hpush hall (pop_mid ..)

/-- **Parsing the tokens of a forest builds the forest.** -/
theorem build (w : List Nat → Bool) (D : DF) : ∀ (s : St) (z : Nat) (rest : List Tok), WF w D → D ≠ .nil → s.parent ≠ 0 →
    s.data.length = s.ptrs.ra.length → Ready s.ptrs.ra s.ptrs.lastChild s.parent z →
    ∃ lc, s.ptrs.ra.length ≤ lc ∧ lc < s.ptrs.ra.length + D.shape.nodes.length ∧
      Derives w .list s (D.toks ++ rest) (st (link s.ptrs.ra s.parent z s.ptrs.ra.length ++ canon s.parent s.ptrs.ra.length D) lc (s.data ++ D.data) s.parent) rest := by
  induction D with
  | nil => intro s z rest _ h; exact absurd rfl h
  | cons e k sb ih1 ih2 =>
    intro s z rest hwf _ hp hd hr
    obtain ⟨he, href, hk0, hwk, hws⟩ := hwf
    have hrange := hr.range
    have hitem := fun rest' => scm_ok w e k he href hk0 (fun s rest hne hp hd hr => ih1 s 0 rest hwk hne hp hd hr) s z rest' hd hr
    by_cases hs : sb = .nil
    · subst hs
      obtain ⟨lc, h1, h2, h3⟩ := hitem rest
      refine ⟨lc, h1, by simp [shape, Forest.nodes]; omega, .items ?_ (.inl rfl) .noItem⟩
      simpa [toks, shape, canon, DF.data] using h3
    · have hs' : sb.shape ≠ .nil := fun h => hs (shape_nil.1 h)
      obtain ⟨lc, h1, h2, h3⟩ := hitem (.ws :: (sb.toks ++ rest))
      have hready := ready_next hr (node s.parent s.ptrs.ra.length e k.shape .nil) (canon s.ptrs.ra.length (s.ptrs.ra.length + 1) k) hp rfl h1
        (by rw [canon_length]; omega) (fun j pj hj => by rcases canon_parent _ _ _ _ _ hj with h | h <;> omega)
      obtain ⟨lc', h4, h5, h6⟩ := ih2 (st (link s.ptrs.ra s.parent z s.ptrs.ra.length ++ node s.parent s.ptrs.ra.length e k.shape .nil :: canon s.ptrs.ra.length (s.ptrs.ra.length + 1) k) lc
        (s.data ++ e.data :: k.data) s.parent) s.ptrs.ra.length rest hws hs hp (by simp [link_length, canon_length, data_length, hd]) hready
      simp only [List.length_append, link_length, List.length_cons, canon_length] at h4 h5 h6
      refine ⟨lc', by omega, by simp only [shape, Forest.nodes, List.length_cons, List.length_append]; omega, ?_⟩
      rw [show s.ptrs.ra.length + (k.shape.nodes.length + 1) = s.ptrs.ra.length + 1 + k.shape.nodes.length by omega] at h6
      have e1 : link (link s.ptrs.ra s.parent z s.ptrs.ra.length ++ node s.parent s.ptrs.ra.length e k.shape .nil ::
          canon s.ptrs.ra.length (s.ptrs.ra.length + 1) k) s.parent s.ptrs.ra.length (s.ptrs.ra.length + 1 + k.shape.nodes.length) =
          link s.ptrs.ra s.parent z s.ptrs.ra.length ++ node s.parent s.ptrs.ra.length e k.shape sb.shape ::
          canon s.ptrs.ra.length (s.ptrs.ra.length + 1) k := by
        generalize hb : link s.ptrs.ra s.parent z s.ptrs.ra.length = base
        have hbl : base.length = s.ptrs.ra.length := by rw [← hb, link_length]
        unfold link
        rw [if_neg hp, if_neg (by omega), modify_right _ _ _ _ hbl.symm]
        simp [node, hs']
      rw [e1] at h6
      have e2 : (DF.cons e k sb).toks ++ rest = scmToks e k.toks ++ (.ws :: (sb.toks ++ rest)) := by
        simp [toks, hs']
      rw [e2]
      refine .items h3 (.inr rfl) ?_
      simpa [canon, DF.data, shape] using h6

/-- **Parsing the tokens of a tree.** -/
theorem build_root (w : List Nat → Bool) (e : El) (k : DF) (rest : List Tok) (hwf : WF w (.cons e k .nil)) :
    ∃ lc, Derives w .scm start ((DF.cons e k .nil).toks ++ rest)
      (st (({} : Pd) :: canon 0 1 (.cons e k .nil)) lc (({} : Loaded) :: (DF.cons e k .nil).data) 0) rest := by
  have hr : Ready start.ptrs.ra start.ptrs.lastChild start.parent 0 :=
    ⟨Nat.zero_lt_one, fun _ h => absurd rfl h, fun _ => rfl, fun h => absurd rfl h⟩
  obtain ⟨he, href, hk0, hwk, _⟩ := hwf
  obtain ⟨lc, _, _, h⟩ := scm_ok w e k he href hk0 (fun s rest hne hp hd hr => build w k s 0 rest hwk hne hp hd hr) start 0 rest rfl hr
  refine ⟨lc, ?_⟩
  simpa [start, link, canon, DF.data, shape, toks] using h

end Verif.Lemmas.ScmLoad
