import Verif.Lemmas.Xml1Lex
import Verif.Lemmas.TopDown
import Verif.Lemmas.JsonLoad
/-!
# Parsing the tokens of an XML document
-/
namespace Verif.Lemmas.Xml1Load
open Verif.Model Verif.Model.Ptrs Verif.Model.Xml1 Verif.Spec Verif.Spec.Ptrs Verif.Lemmas.TopDown
open Verif.Spec.Xml1 (Name)

/-! ### numbers -/

theorem number_eq {n : Nat} (h : n < 2 ^ 32) : Xml1.number n = (Decimal.natDigits n).map (· + 48) := by
  unfold Xml1.number
  rw [Nat.mod_eq_of_lt (by omega), Enum.fmtInt_eq (by omega)]
  have h0 : ¬ ((n : Int) < 0) := by omega
  simp [h0]

theorem digitOf_dec {d : Nat} (h : d < 10) : digitOf (d + 48) = some d := by
  have : isdigit (d + 48) = true := by simp [isdigit]; omega
  simp [digitOf, this]

theorem digits_map (b : Nat) (hb : b ≤ 10) : ∀ (ds : List Nat) (n acc : Nat), (∀ d ∈ ds, d < b) →
    Xml1.digits b (ds.map (· + 48)) n acc = (n + ds.length, ds.foldl (fun a d => a * b + d) acc, []) := by
  intro ds
  induction ds with
  | nil => intro n acc _; rfl
  | cons d ds ih =>
    intro n acc h
    have hd := h d (by simp)
    rw [List.map_cons, Xml1.digits, digitOf_dec (by omega)]
    simp only [if_pos hd]
    rw [ih _ _ fun e he => h e (by simp [he])]
    simp [Nat.add_comm, Nat.add_left_comm]

theorem strtoull_number (n : Nat) (h : n < 2 ^ 64) : strtoull ((Decimal.natDigits n).map (· + 48)) = (n, []) := by
  obtain ⟨h1, h2, h3, h4⟩ := Lemmas.Decimal.natDigits_spec n
  cases hds : Decimal.natDigits n with
  | nil => exact absurd hds h3
  | cons d ds =>
    rw [hds] at h1 h2 h4
    have hd := h1 d (by simp)
    obtain ⟨f1, f2, _⟩ := Lemmas.Decimal.head_facts hd
    have hdrop : ((d :: ds).map (· + 48)).dropWhile isspace = (d :: ds).map (· + 48) := by
      simp [List.dropWhile_cons, f1]
    unfold strtoull
    rw [hdrop]
    have hne1 : d + 48 ≠ 43 := by omega
    have hne2 : d + 48 ≠ 45 := by omega
    simp only [List.map_cons, List.head?_cons]
    have e1 : (some (d + 48) == some 43) = false := by simp [hne1]
    have e2 : (some (d + 48) == some 45) = false := by simp [hne2]
    simp only [e1, e2, Bool.or_self, Bool.false_eq_true, if_false, List.head?_cons, List.tail_cons]
    by_cases h0 : d = 0
    · subst h0
      have := h4 rfl
      simp only [List.cons.injEq, true_and] at this
      subst this
      simp only [positional, List.foldl] at h2
      simp [Xml1.digits, digitOf, isdigit]
      omega
    · have e3 : (some (d + 48) == some 48) = false := by simp [h0]
      simp only [e3, Bool.false_and, Bool.false_eq_true, if_false]
      have := digits_map 10 (Nat.le_refl _) (d :: ds) 0 0 h1
      rw [List.map_cons] at this
      rw [this]
      simp only [List.length_cons]
      have hv : (d :: ds).foldl (fun a d => a * 10 + d) 0 = n := by
        rw [← h2]; rfl
      rw [hv, if_neg (by omega), if_neg (by omega)]

theorem loadIdx_number {n : Nat} (h : n < 2 ^ 32) : loadIdx (Xml1.number n) = some n := by
  unfold loadIdx
  rw [number_eq h, strtoull_number n (by omega)]
  simp only [List.all_nil, if_true]
  rw [Nat.mod_eq_of_lt h]

theorem number_quote {n : Nat} (h : n < 2 ^ 32) : ∀ c ∈ Xml1.number n, c ≠ 34 := by
  rw [number_eq h]
  intro c hc
  simp only [List.mem_map] at hc
  obtain ⟨d, _, rfl⟩ := hc
  omega

/-! ### documents -/

/-- an element -/
structure El where
  name : List Nat
  ref : Option Nat
  cref : Option Nat
  refd : Option Nat
  null : Bool
  /-- contents and their meaning; `none`: the tag is closed at once -/
  body : Option (List Nat × List Nat)
  after : List Nat

/-- a forest of elements -/
inductive DF
  | nil
  | cons (e : El) (kids sibs : DF)

namespace El

def isRef (e : El) : Bool := e.ref.isSome || e.cref.isSome

/-- the descriptor after the attributes -/
def pd (e : El) (p : Nat) : Pd :=
  { parent := p, firstChild := e.cref.getD (e.ref.getD 0), ref := e.ref.isSome, cref := e.cref.isSome, idx := e.refd.getD 0, refd := e.refd.isSome }

def data (e : El) : Loaded := { name := some e.name, null := e.null, text := some (match e.body with | some b => b.2 | none => []) }

def refToks (name : List Nat) : Option Nat → List Tok
  | none => []
  | some n => [.ws, .id name, .assign, .prop (Xml1.number n)]

def attrToks (e : El) : List Tok :=
  refToks sRef e.ref ++ (refToks sContent e.cref ++ (refToks sIdx e.refd ++
    (if e.null then [.ws, .id sNull, .assign, .prop sTrue] else [])))

structure OK (known : List Nat → Bool) (e : El) : Prop where
  name : Name e.name
  known : known e.name = true
  ref : ∀ n, e.ref = some n → n < 2 ^ 32
  cref : ∀ n, e.cref = some n → n < 2 ^ 32
  refd : ∀ n, e.refd = some n → n < 2 ^ 32
  body : ∀ b, e.body = some b → unquoted b.1 = some b.2
  after : e.after.all isspace = true

end El

namespace DF

def shape : DF → Forest
  | nil => .nil
  | cons _ k s => .cons 0 k.shape s.shape

def data : DF → List Loaded
  | nil => []
  | cons e k s => e.data :: (k.data ++ s.data)

def toks : DF → List Tok
  | nil => []
  | cons e k s => .openTag e.name :: (e.attrToks ++ (match e.body with
      | none => [.closeEmpty e.after]
      | some b => .content b.1 :: (k.toks ++ [.closeTag e.name, .content e.after])) ++ s.toks)

def WF (known : List Nat → Bool) : DF → Prop
  | nil => True
  | cons e k s => e.OK known ∧ (e.body = none ∨ e.isRef = true → k = nil) ∧ WF known k ∧ WF known s

end DF

open DF

theorem shape_nil {D : DF} : D.shape = .nil ↔ D = .nil := by
  cases D <;> simp [shape]

theorem data_length (D : DF) : D.data.length = D.shape.nodes.length := by
  induction D with
  | nil => rfl
  | cons e k s ih1 ih2 => simp [DF.data, shape, Forest.nodes, ih1, ih2]

/-- the descriptor of an element at index `n` -/
def node (p n : Nat) (e : El) (k s : Forest) : Pd :=
  { e.pd p with firstChild := if k = .nil then (e.pd p).firstChild else n + 1, next := if s = .nil then 0 else n + 1 + k.nodes.length }

/-- the descriptors of a forest below `p` that was added in document order from index `n` on -/
def canon (p n : Nat) : DF → List Pd
  | .nil => []
  | .cons e k s => node p n e k.shape s.shape :: (canon n (n + 1) k ++ canon p (n + 1 + k.shape.nodes.length) s)

theorem canon_length (D : DF) : ∀ p n, (canon p n D).length = D.shape.nodes.length := by
  induction D with
  | nil => intro p n; rfl
  | cons e k s ih1 ih2 => intro p n; simp [canon, shape, Forest.nodes, ih1, ih2]

theorem canon_parent (D : DF) : ∀ (p n j : Nat) (pj : Pd), (canon p n D)[j]? = some pj →
    pj.parent = p ∨ (n ≤ pj.parent ∧ pj.parent < n + j) := by
  induction D with
  | nil => intro p n j pj h; simp [canon] at h
  | cons e k s ih1 ih2 =>
    intro p n j pj h
    rw [canon] at h
    cases j with
    | zero => simp at h; left; rw [← h]; rfl
    | succ j =>
      rw [List.getElem?_cons_succ, List.getElem?_append, canon_length] at h
      split at h
      · right
        rcases ih1 _ _ _ _ h with h1 | h1 <;> omega
      · rcases ih2 _ _ _ _ h with h1 | h1
        · exact .inl h1
        · right; omega

theorem kids_head (e : El) (p n : Nat) (k s : Forest) (h : e.isRef = true → k = .nil) : kidsHead (node p n e k s) = if k = .nil then 0 else n + 1 := by
  have hr : ((node p n e k s).ref || (node p n e k s).cref) = e.isRef := rfl
  unfold kidsHead
  rw [hr]
  cases he : e.isRef with
  | true => rw [h he]; simp
  | false =>
    simp only [Bool.false_eq_true, if_false]
    unfold El.isRef at he
    simp only [Bool.or_eq_false_iff, Option.isSome_eq_false_iff, Option.isNone_iff_eq_none] at he
    simp [node, El.pd, he.1, he.2]

/-- the array of a forest added in document order represents the forest -/
theorem canon_rep (known : List Nat → Bool) (D : DF) : ∀ (pre post : List Pd) (p : Nat), WF known D → pre ≠ [] →
    Rep (pre ++ (canon p pre.length D ++ post)) p (if D.shape = .nil then 0 else pre.length) (Ptrs.number pre.length D.shape) := by
  induction D with
  | nil => intro pre post p _ _; rfl
  | cons e k s ih1 ih2 =>
    intro pre post p hwf hp
    obtain ⟨_, h2, h3, h4⟩ := hwf
    have hl : pre.length ≠ 0 := fun h => hp (List.eq_nil_of_length_eq_zero h)
    refine ⟨by rw [if_neg (by simp [shape])], hl, _, by rw [List.getElem?_append_right (Nat.le_refl _), Nat.sub_self]; rfl, rfl, ?_, ?_⟩
    · rw [kids_head e p pre.length k.shape s.shape (fun h => shape_nil.2 (h2 (.inr h)))]
      have := ih1 (pre ++ [node p pre.length e k.shape s.shape]) (canon p (pre.length + 1 + k.shape.nodes.length) s ++ post) pre.length h3 (by simp)
      simp only [List.length_append, List.length_cons, List.length_nil, Nat.zero_add] at this
      simpa [canon] using this
    · have := ih2 (pre ++ node p pre.length e k.shape s.shape :: canon pre.length (pre.length + 1) k) post p h4 (by simp)
      simp only [List.length_append, List.length_cons, canon_length] at this
      rw [show pre.length + (k.shape.nodes.length + 1) = pre.length + 1 + k.shape.nodes.length by omega] at this
      simpa [canon, node] using this

/-! ### the actions -/

/-- a state of the parser -/
abbrev st (ra : List Pd) (lc : Nat) (data : List Loaded) (parent : Nat) : St := ⟨⟨ra, lc⟩, data, parent⟩

theorem push_ready {s : St} {z : Nat} (h : Ready s.ptrs.ra s.ptrs.lastChild s.parent z) :
    push s = some (st (link s.ptrs.ra s.parent z s.ptrs.ra.length ++ [{ parent := s.parent }]) s.ptrs.ra.length (s.data ++ [({} : Loaded)]) s.ptrs.ra.length) := by
  unfold push
  have := add_ready h
  simp only
  rw [show (addPtr s.ptrs).2 = s.ptrs.ra.length from rfl, show addPtr s.ptrs = addPtr { ra := s.ptrs.ra, lastChild := s.ptrs.lastChild } from rfl, this]
  rfl

/-- the current node is the last one -/
abbrev last (b : List Pd) (pd : Pd) (lc : Nat) (d : List Loaded) (y : Loaded) : St := st (b ++ [pd]) lc (d ++ [y]) b.length

theorem setPd_last (b : List Pd) (pd : Pd) (lc : Nat) (d : List Loaded) (y : Loaded) (f : Pd → Pd) :
    setPd (last b pd lc d y) f = some (last b (f pd) lc d y) := by
  unfold setPd
  simp only
  rw [upd_eq _ (by simp), modify_right _ [] _ _ rfl]
  rfl

theorem store_last {b : List Pd} (pd : Pd) (lc : Nat) {d : List Loaded} (y : Loaded) (f : Loaded → Loaded) (h : d.length = b.length) :
    store (last b pd lc d y) f = some (last b pd lc d (f y)) := by
  unfold store
  simp only
  rw [List.getElem?_append_right (by omega), ← h, Nat.sub_self]
  simp only [List.getElem?_cons_zero, Option.bind_eq_bind, Option.bind_some]
  rw [Lemmas.JsonLoad.wr_mid d y [] (f y) _ rfl, h]
  rfl

/-- the effect of an attribute that may be missing -/
def refStep (f : Nat → Pd → Pd) : Option Nat → Pd → Pd
  | none, pd => pd
  | some n, pd => f n pd

theorem pd_eq (e : El) (p : Nat) : refStep (fun n pd => { pd with idx := n, refd := true }) e.refd
    (refStep (fun n pd => { pd with firstChild := n, cref := true }) e.cref
      (refStep (fun n pd => { pd with firstChild := n, ref := true }) e.ref { parent := p })) = e.pd p := by
  obtain ⟨_, ref, cref, refd, _, _, _⟩ := e
  cases ref <;> cases cref <;> cases refd <;> rfl

theorem derive_ref (known : List Nat → Bool) {b : List Pd} (pd : Pd) (lc : Nat) {d : List Loaded} (y : Loaded) (name : List Nat) (o : Option Nat)
    (f : Nat → Pd → Pd) (hf : ∀ n, o = some n → property (last b pd lc d y) name (Xml1.number n) = some (last b (f n pd) lc d y))
    {inp rest : List Tok} {s2 : St} (h : Derives known .properties (last b (refStep f o pd) lc d y) inp s2 rest) :
    Derives known .properties (last b pd lc d y) (El.refToks name o ++ inp) s2 rest := by
  cases o with
  | none => exact h
  | some n => exact .property (hf n rfl) h

theorem derive_attrs (known : List Nat → Bool) {b : List Pd} (e : El) (he : e.OK known) (p lc : Nat) {d : List Loaded} (hd : d.length = b.length) (rest : List Tok) :
    Derives known .properties (last b { parent := p } lc d {}) (e.attrToks ++ rest) (last b (e.pd p) lc d { null := e.null }) rest := by
  unfold El.attrToks
  rw [List.append_assoc, List.append_assoc, List.append_assoc]
  refine derive_ref known _ lc _ sRef e.ref (fun n pd => { pd with firstChild := n, ref := true }) (fun n hn => ?_) ?_
  · unfold property
    rw [if_neg (by decide), if_pos rfl, loadIdx_number (he.ref n hn)]
    exact setPd_last _ _ _ _ _ _
  refine derive_ref known _ lc _ sContent e.cref (fun n pd => { pd with firstChild := n, cref := true }) (fun n hn => ?_) ?_
  · unfold property
    rw [if_neg (by decide), if_neg (by decide), if_pos rfl, loadIdx_number (he.cref n hn)]
    exact setPd_last _ _ _ _ _ _
  refine derive_ref known _ lc _ sIdx e.refd (fun n pd => { pd with idx := n, refd := true }) (fun n hn => ?_) ?_
  · unfold property
    rw [if_pos rfl, loadIdx_number (he.refd n hn)]
    exact setPd_last _ _ _ _ _ _
  rw [pd_eq]
  cases hn : e.null with
  | false => exact .noProperty
  | true =>
    refine .property (s1 := last b (e.pd p) lc d { null := true }) ?_ .noProperty
    unfold property
    rw [if_neg (by decide), if_neg (by decide), if_neg (by decide), if_pos rfl]
    exact store_last _ _ _ _ hd

theorem local_name {n : List Nat} (h : Name n) : local_ n = n := by
  unfold local_
  rw [if_neg]
  intro hm
  rcases h.2 58 hm with h | h
  · exact absurd h (by decide)
  · cases h

theorem finish_ok {known : List Nat → Bool} {e : El} (he : e.OK known) {c t : List Nat} (ht : unquoted c = some t)
    (hb : (match e.body with | some b => b.2 | none => []) = t) (b : List Pd) (x : Pd) (sub : List Pd) (lc : Nat) (d : List Loaded) (sd : List Loaded) (hd : d.length = b.length) :
    finish known (st (b ++ x :: sub) lc (d ++ ({ null := e.null } : Loaded) :: sd) b.length) e.name c =
      some (st (b ++ x :: sub) lc (d ++ e.data :: sd) x.parent) := by
  unfold finish
  rw [local_name he.name, if_pos he.known, ht]
  simp only [Option.bind_eq_bind, Option.bind_some, store]
  rw [List.getElem?_append_right (by omega), ← hd, Nat.sub_self]
  simp only [List.getElem?_cons_zero, Option.bind_some]
  rw [Lemmas.JsonLoad.wr_mid d _ sd _ _ rfl]
  simp only [Option.bind_some]
  rw [List.getElem?_append_right (by omega), hd, Nat.sub_self]
  simp only [List.getElem?_cons_zero, Option.bind_some, El.data, hb]

/-- the tokens of an element with what is inside -/
def elToks (e : El) (k : DF) : List Tok :=
  .openTag e.name :: (e.attrToks ++ (match e.body with
      | none => [.closeEmpty e.after]
      | some b => .content b.1 :: (k.toks ++ [.closeTag e.name, .content e.after])))

theorem toks_cons (e : El) (k s : DF) : (DF.cons e k s).toks = elToks e k ++ s.toks := by
  simp only [toks, elToks, List.cons_append]

/-- the state after the elements of a forest -/
def added (s : St) (z lc : Nat) (D : DF) : St :=
  if D.shape = .nil then s
  else st (link s.ptrs.ra s.parent z s.ptrs.ra.length ++ canon s.parent s.ptrs.ra.length D) lc (s.data ++ D.data) s.parent

/-- an element: the node and everything below it -/
theorem tag_ok (known : List Nat → Bool) (e : El) (k : DF) (he : e.OK known) (hk0 : e.body = none ∨ e.isRef = true → k = .nil)
    (hk : ∀ (s : St) (rest : List Tok), s.parent ≠ 0 → s.data.length = s.ptrs.ra.length →
      (k ≠ .nil → Ready s.ptrs.ra s.ptrs.lastChild s.parent 0) → ∃ lc, (k ≠ .nil → s.ptrs.ra.length ≤ lc ∧ lc < s.ptrs.ra.length + k.shape.nodes.length) ∧
        Derives known .nested s (k.toks ++ rest) (added s 0 lc k) rest)
    (s : St) (z : Nat) (rest : List Tok) (hd : s.data.length = s.ptrs.ra.length) (h : Ready s.ptrs.ra s.ptrs.lastChild s.parent z) :
    ∃ lc, s.ptrs.ra.length ≤ lc ∧ lc < s.ptrs.ra.length + 1 + k.shape.nodes.length ∧
      Derives known .tag s (elToks e k ++ rest)
        (st (link s.ptrs.ra s.parent z s.ptrs.ra.length ++ node s.parent s.ptrs.ra.length e k.shape .nil :: canon s.ptrs.ra.length (s.ptrs.ra.length + 1) k) lc
          (s.data ++ e.data :: k.data) s.parent) rest := by
  have hpush := push_ready h
  have hrange := h.range
  generalize hb : link s.ptrs.ra s.parent z s.ptrs.ra.length = b at hpush ⊢
  have hbl : b.length = s.ptrs.ra.length := by rw [← hb, link_length]
  have hprops := derive_attrs known e he s.parent s.ptrs.ra.length (b := b) (d := s.data) (by omega)
  rw [← hbl] at hpush hprops ⊢
  have hnode : k.shape = .nil → node s.parent b.length e k.shape .nil = e.pd s.parent := by
    intro h0
    simp [node, h0, El.pd]
  cases hbody : e.body with
  | none =>
    have hkn := hk0 (.inl hbody)
    subst hkn
    refine ⟨b.length, Nat.le_refl _, by omega, ?_⟩
    rw [hnode rfl]
    have htk : elToks e .nil ++ rest = .openTag e.name :: (e.attrToks ++ (.closeEmpty e.after :: rest)) := by
      simp [elToks, hbody]
    rw [htk]
    exact .empty hpush (hprops _) he.after (finish_ok he (c := []) (t := []) rfl (by rw [hbody]) b (e.pd s.parent) [] b.length s.data [] (by omega))
  | some bt =>
    have hf : ∀ (x : Pd) (sub : List Pd) (lc : Nat) (sd : List Loaded), x.parent = s.parent →
        finish known (st (b ++ x :: sub) lc (s.data ++ ({ null := e.null } : Loaded) :: sd) b.length) e.name bt.1 =
        some (st (b ++ x :: sub) lc (s.data ++ e.data :: sd) s.parent) := by
      intro x sub lc sd hx
      rw [finish_ok he (he.body bt hbody) (by rw [hbody]) b x sub lc s.data sd (by omega), hx]
    have htk : elToks e k ++ rest = .openTag e.name :: (e.attrToks ++ (.content bt.1 :: (k.toks ++ (.closeTag e.name :: .content e.after :: rest)))) := by
      simp [elToks, hbody]
    rw [htk]
    have hn0 : b.length ≠ 0 := by omega
    have hready : k ≠ .nil → Ready (b ++ [e.pd s.parent]) b.length b.length 0 := by
      intro hne
      have hr : e.isRef = false := by
        cases he' : e.isRef with
        | false => rfl
        | true => exact absurd (hk0 (.inr he')) hne
      unfold El.isRef at hr
      simp only [Bool.or_eq_false_iff, Option.isSome_eq_false_iff, Option.isNone_iff_eq_none] at hr
      exact ready_new b (e.pd s.parent) (by simp [El.pd, hr.1, hr.2]) b.length
    obtain ⟨lc, h1, h2⟩ := hk (last b (e.pd s.parent) b.length s.data { null := e.null }) (.closeTag e.name :: .content e.after :: rest) hn0
      (by simp; omega) hready
    by_cases hne : k = .nil
    · subst hne
      refine ⟨b.length, Nat.le_refl _, by omega, ?_⟩
      rw [hnode rfl]
      refine .full hpush (hprops _) h2 he.after ?_
      exact hf _ _ _ _ rfl
    · obtain ⟨h3, h4⟩ := h1 hne
      have hsh : k.shape ≠ .nil := fun h => hne (shape_nil.1 h)
      simp only [List.length_append, List.length_cons, List.length_nil, Nat.zero_add] at h3 h4
      refine ⟨lc, by omega, by omega, ?_⟩
      unfold added at h2
      rw [if_neg hsh] at h2
      have e1 : link (b ++ [e.pd s.parent]) b.length 0 (b.length + 1) = b ++ [node s.parent b.length e k.shape .nil] := by
        unfold link
        rw [if_neg hn0, if_pos rfl, modify_right _ [] _ _ rfl]
        simp [node, hsh, El.pd]
      simp only [List.length_append, List.length_cons, List.length_nil, Nat.zero_add] at h2
      rw [e1] at h2
      refine .full hpush (hprops _) h2 he.after ?_
      have := hf (node s.parent b.length e k.shape .nil) (canon b.length (b.length + 1) k) lc k.data rfl
      simpa using this

/-- **Parsing the tokens of a forest builds the forest.** -/
theorem build (known : List Nat → Bool) (D : DF) : ∀ (s : St) (z : Nat) (rest : List Tok), WF known D → s.parent ≠ 0 →
    s.data.length = s.ptrs.ra.length → (D ≠ .nil → Ready s.ptrs.ra s.ptrs.lastChild s.parent z) →
    ∃ lc, (D ≠ .nil → s.ptrs.ra.length ≤ lc ∧ lc < s.ptrs.ra.length + D.shape.nodes.length) ∧
      Derives known .nested s (D.toks ++ rest) (added s z lc D) rest := by
  induction D with
  | nil => intro s z rest _ _ _ _; exact ⟨0, fun h => absurd rfl h, .noTag⟩
  | cons e k sb ih1 ih2 =>
    intro s z rest hwf hp hd hr
    obtain ⟨he, hk0, hwk, hws⟩ := hwf
    have hr := hr (by simp)
    have hrange := hr.range
    obtain ⟨lc, h1, h2, h3⟩ := tag_ok known e k he hk0 (fun s rest => fun hp hd hr => ih1 s 0 rest hwk hp hd hr) s z (sb.toks ++ rest) hd hr
    have hready := ready_next hr (node s.parent s.ptrs.ra.length e k.shape .nil) (canon s.ptrs.ra.length (s.ptrs.ra.length + 1) k) hp rfl h1
      (by rw [canon_length]; omega) (fun j pj hj => by rcases canon_parent _ _ _ _ _ hj with h | h <;> omega)
    obtain ⟨lc', h4, h5⟩ := ih2 (st (link s.ptrs.ra s.parent z s.ptrs.ra.length ++ node s.parent s.ptrs.ra.length e k.shape .nil :: canon s.ptrs.ra.length (s.ptrs.ra.length + 1) k) lc
      (s.data ++ e.data :: k.data) s.parent) s.ptrs.ra.length rest hws hp (by simp [link_length, canon_length, data_length, hd]) (fun _ => hready)
    rw [toks_cons, List.append_assoc]
    by_cases hs : sb = .nil
    · subst hs
      refine ⟨lc, fun _ => ⟨h1, by simp [shape, Forest.nodes]; omega⟩, ?_⟩
      refine .tags h3 ?_
      unfold added at h5 ⊢
      simp only [shape, if_true] at h5
      rw [if_neg (by simp [shape])]
      simpa [canon, DF.data, shape] using h5
    · have hsh : sb.shape ≠ .nil := fun h => hs (shape_nil.1 h)
      obtain ⟨h6, h7⟩ := h4 hs
      simp only [List.length_append, link_length, List.length_cons, canon_length] at h6 h7
      refine ⟨lc', fun _ => ⟨by omega, by simp only [shape, Forest.nodes, List.length_cons, List.length_append]; omega⟩, ?_⟩
      refine .tags h3 ?_
      unfold added at h5 ⊢
      rw [if_neg hsh] at h5
      rw [if_neg (by simp [shape])]
      simp only [List.length_append, link_length, List.length_cons, canon_length] at h5
      rw [show s.ptrs.ra.length + (k.shape.nodes.length + 1) = s.ptrs.ra.length + 1 + k.shape.nodes.length by omega] at h5
      have e1 : link (link s.ptrs.ra s.parent z s.ptrs.ra.length ++ node s.parent s.ptrs.ra.length e k.shape .nil ::
          canon s.ptrs.ra.length (s.ptrs.ra.length + 1) k) s.parent s.ptrs.ra.length (s.ptrs.ra.length + 1 + k.shape.nodes.length) =
          link s.ptrs.ra s.parent z s.ptrs.ra.length ++ node s.parent s.ptrs.ra.length e k.shape sb.shape ::
          canon s.ptrs.ra.length (s.ptrs.ra.length + 1) k := by
        generalize hb : link s.ptrs.ra s.parent z s.ptrs.ra.length = base
        have hbl : base.length = s.ptrs.ra.length := by rw [← hb, link_length]
        unfold link
        rw [if_neg hp, if_neg (by omega), modify_right _ _ _ _ hbl.symm]
        simp [node, hsh]
      rw [e1] at h5
      simpa [canon, DF.data, shape] using h5

/-- **Parsing the tokens of a tree.** -/
theorem build_root (known : List Nat → Bool) (e : El) (k : DF) (hwf : WF known (.cons e k .nil)) :
    ∃ lc, Derives known .tag start (DF.cons e k .nil).toks
      (st (({} : Pd) :: canon 0 1 (.cons e k .nil)) lc (({} : Loaded) :: (DF.cons e k .nil).data) 0) [] := by
  have hr : Ready start.ptrs.ra start.ptrs.lastChild start.parent 0 :=
    ⟨by decide, fun _ h => absurd rfl h, fun _ => rfl, fun h => absurd rfl h⟩
  obtain ⟨he, hk0, hwk, _⟩ := hwf
  obtain ⟨lc, _, _, h⟩ := tag_ok known e k he hk0 (fun s rest => fun hp hd hr => build known k s 0 rest hwk hp hd hr) start 0 [] rfl hr
  refine ⟨lc, ?_⟩
  rw [toks_cons]
  simpa [start, link, canon, DF.data, shape, toks] using h

end Verif.Lemmas.Xml1Load
