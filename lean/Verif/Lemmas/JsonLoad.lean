import Verif.Lemmas.JsonLex
import Verif.Lemmas.TopDown
/-!
# Parsing the tokens of a JSON document
-/
namespace Verif.Lemmas.JsonLoad
open Verif.Model Verif.Model.Ptrs Verif.Model.Json Verif.Spec.Ptrs Verif.Spec.Json Verif.Lemmas.TopDown Verif.Lemmas.JsonLex

/-- what stands for a node in the document -/
inductive Body
  | obj
  | arr
  | empty
  | tok (t : Tok) (n : Bool) (v : Value)

/-- a forest of named bodies -/
inductive DF
  | nil
  | cons (name : Option (List Nat)) (b : Body) (kids sibs : DF)

namespace DF

def shape : DF → Forest
  | nil => .nil
  | cons _ _ k s => .cons 0 k.shape s.shape

def entry : Body → Loaded
  | .tok _ n v => { null := n, value := v }
  | _ => {}

def data : DF → List Loaded
  | nil => []
  | cons name b k s => { entry b with name := name } :: (k.data ++ s.data)

def nameToks : Option (List Nat) → List Tok
  | none => []
  | some nm => [.string nm, .colon]

def toks : DF → List Tok
  | nil => []
  | cons name b k s =>
    nameToks name ++ (match b with
      | .obj => if k.shape = .nil then [.lbrace, .rbrace] else .lbrace :: (k.toks ++ [.rbrace])
      | .arr => if k.shape = .nil then [.lbracket, .rbracket] else .lbracket :: (k.toks ++ [.rbracket])
      | .empty => [.lbrace, .rbrace]
      | .tok t _ _ => [t]) ++ (if s.shape = .nil then [] else .comma :: s.toks)

def WF (known : List Nat → Bool) : Bool → DF → Prop
  | _, nil => True
  | m, cons name b k s =>
    (if m then ∃ nm, name = some nm ∧ known nm = true else name = none) ∧
    (match b with
      | .obj => WF known true k
      | .arr => WF known false k
      | .empty => k = nil
      | .tok t n v => k = nil ∧ meaning t = some (n, v)) ∧ WF known m s

end DF

open DF

/-- a state of the parser -/
abbrev st (ra : List Pd) (lc : Nat) (data : List Loaded) (parent : Nat) : St := ⟨⟨ra, lc⟩, data, parent⟩

theorem shape_nil {D : DF} : D.shape = .nil ↔ D = .nil := by
  cases D <;> simp [shape]

theorem data_length (D : DF) : D.data.length = D.shape.nodes.length := by
  induction D with
  | nil => rfl
  | cons name b k s ih1 ih2 => simp [data, shape, Forest.nodes, ih1, ih2]

/-- the tokens of a body with what is inside -/
def bodyToks (b : Body) (k : DF) : List Tok :=
  match b with
  | .obj => if k.shape = .nil then [.lbrace, .rbrace] else .lbrace :: (k.toks ++ [.rbrace])
  | .arr => if k.shape = .nil then [.lbracket, .rbracket] else .lbracket :: (k.toks ++ [.rbracket])
  | .empty => [.lbrace, .rbrace]
  | .tok t _ _ => [t]

theorem toks_cons (name : Option (List Nat)) (b : Body) (k s : DF) :
    (DF.cons name b k s).toks = nameToks name ++ bodyToks b k ++ (if s.shape = .nil then [] else .comma :: s.toks) := by
  rw [toks.eq_def]
  cases b <;> rfl

theorem push_ready {s : St} {z : Nat} (h : Ready s.ptrs.ra s.ptrs.lastChild s.parent z) :
    push s = some (st (link s.ptrs.ra s.parent z s.ptrs.ra.length ++ [{ parent := s.parent, idx := s.ptrs.ra.length }]) (s.ptrs.ra.length) (s.data ++ [({} : Loaded)]) (s.ptrs.ra.length)) := by
  unfold push
  have := add_ready h
  simp only
  rw [show (addPtr s.ptrs).2 = s.ptrs.ra.length from rfl, show addPtr s.ptrs = addPtr { ra := s.ptrs.ra, lastChild := s.ptrs.lastChild } from rfl, this]
  simp only [Option.bind_eq_bind, Option.bind_some]
  rw [upd_eq _ (by simp [link_length])]
  simp only [Option.bind_some]
  rw [modify_right _ [] _ _ (by rw [link_length])]

theorem wr_mid {α : Type} (a : List α) (x : α) (b : List α) (v : α) (i : Nat) (h : i = a.length) : wr (a ++ x :: b) i v = some (a ++ v :: b) := by
  subst h
  unfold wr
  rw [if_pos (by simp)]
  congr 1
  induction a with
  | nil => rfl
  | cons y a ih => simp only [List.cons_append, List.length_cons, List.set_cons_succ]; rw [ih]

/-- an element: the node and everything below it -/
theorem element_ok (known : List Nat → Bool) (b : Body) (k : DF)
    (hk : ∀ (m : Bool) (s : St) (z : Nat) (rest : List Tok), k ≠ .nil → WF known m k → s.parent ≠ 0 → s.data.length = s.ptrs.ra.length →
      Ready s.ptrs.ra s.ptrs.lastChild s.parent z → ∃ lc, s.ptrs.ra.length ≤ lc ∧ lc < s.ptrs.ra.length + k.shape.nodes.length ∧
        Derives known (if m then .members else .elements) s (k.toks ++ rest)
          (st (link s.ptrs.ra s.parent z s.ptrs.ra.length ++ canon s.parent s.ptrs.ra.length k.shape) (lc) (s.data ++ k.data) (s.parent)) rest)
    (hb : match b with
      | .obj => WF known true k
      | .arr => WF known false k
      | .empty => k = .nil
      | .tok t n v => k = .nil ∧ meaning t = some (n, v))
    (s : St) (z : Nat) (rest : List Tok) (hd : s.data.length = s.ptrs.ra.length) (h : Ready s.ptrs.ra s.ptrs.lastChild s.parent z) :
    ∃ lc, s.ptrs.ra.length ≤ lc ∧ lc < s.ptrs.ra.length + 1 + k.shape.nodes.length ∧
      Derives known .element s (bodyToks b k ++ rest)
        (st (link s.ptrs.ra s.parent z s.ptrs.ra.length ++ node s.parent s.ptrs.ra.length k.shape .nil :: canon s.ptrs.ra.length (s.ptrs.ra.length + 1) k.shape) (lc) (s.data ++ entry b :: k.data) (s.parent)) rest := by
  have hpush := push_ready h
  have hrange := h.range
  -- popping
  have hpop : ∀ (q : Ptrs) (x : Pd) (sub : List Pd) (d : List Loaded), q.ra = link s.ptrs.ra s.parent z s.ptrs.ra.length ++ x :: sub → x.parent = s.parent →
      pop { ptrs := q, data := d, parent := s.ptrs.ra.length } = some { ptrs := q, data := d, parent := s.parent } := by
    intro q x sub d hq hx
    unfold pop
    simp only
    rw [hq, List.getElem?_append_right (by rw [link_length]; exact Nat.le_refl _), link_length, Nat.sub_self]
    simp [hx]
  -- the lists with something inside
  have inner : k ≠ .nil → ∀ (m : Bool) (rest' : List Tok), WF known m k → ∃ lc, s.ptrs.ra.length ≤ lc ∧ lc < s.ptrs.ra.length + 1 + k.shape.nodes.length ∧
      Derives known (if m then .members else .elements)
        (st (link s.ptrs.ra s.parent z s.ptrs.ra.length ++ [{ parent := s.parent, idx := s.ptrs.ra.length }]) (s.ptrs.ra.length) (s.data ++ [({} : Loaded)]) (s.ptrs.ra.length)) (k.toks ++ rest')
        (st (link s.ptrs.ra s.parent z s.ptrs.ra.length ++ node s.parent s.ptrs.ra.length k.shape .nil :: canon s.ptrs.ra.length (s.ptrs.ra.length + 1) k.shape) (lc) (s.data ++ ({} : Loaded) :: k.data) (s.ptrs.ra.length)) rest' := by
    intro hne m rest' hwf
    have hnew := ready_new (link s.ptrs.ra s.parent z s.ptrs.ra.length) { parent := s.parent, idx := s.ptrs.ra.length } rfl s.ptrs.ra.length
    rw [link_length] at hnew
    have hn0 : s.ptrs.ra.length ≠ 0 := by omega
    obtain ⟨lc, h1, h2, h3⟩ := hk m (st _ s.ptrs.ra.length (s.data ++ [({} : Loaded)]) s.ptrs.ra.length) 0 rest' hne hwf hn0 (by simp [link_length, hd]) hnew
    refine ⟨lc, by simp [link_length] at h1; omega, by simp [link_length] at h2; omega, ?_⟩
    have e : link (link s.ptrs.ra s.parent z s.ptrs.ra.length ++ [{ parent := s.parent, idx := s.ptrs.ra.length }]) s.ptrs.ra.length 0 (s.ptrs.ra.length + 1) =
        link s.ptrs.ra s.parent z s.ptrs.ra.length ++ [node s.parent s.ptrs.ra.length k.shape .nil] := by
      generalize hb : link s.ptrs.ra s.parent z s.ptrs.ra.length = base
      have hbl : base.length = s.ptrs.ra.length := by rw [← hb, link_length]
      unfold link
      rw [if_neg hn0, if_pos rfl, modify_right _ [] _ _ hbl.symm]
      have : k.shape ≠ .nil := fun h => hne (shape_nil.1 h)
      simp [node, this]
    simp only [List.length_append, link_length, List.length_cons, List.length_nil, Nat.zero_add] at h3
    rw [e] at h3
    simpa using h3
  cases b with
  | obj =>
    by_cases hne : k = .nil
    · subst hne
      refine ⟨s.ptrs.ra.length, Nat.le_refl _, by omega, ?_⟩
      exact .element hpush (.object .emptyObject) (hpop _ _ _ _ rfl rfl)
    · obtain ⟨lc, h1, h2, h3⟩ := inner hne true (.rbrace :: rest) hb
      refine ⟨lc, h1, h2, ?_⟩
      have : bodyToks .obj k = .lbrace :: (k.toks ++ [.rbrace]) := by
        simp only [bodyToks]
        rw [if_neg fun h => hne (shape_nil.1 h)]
      rw [this]
      refine .element hpush (.object (.fullObject ?_)) (hpop _ _ _ _ rfl rfl)
      simpa [entry] using h3
  | arr =>
    by_cases hne : k = .nil
    · subst hne
      refine ⟨s.ptrs.ra.length, Nat.le_refl _, by omega, ?_⟩
      exact .element hpush (.array .emptyArray) (hpop _ _ _ _ rfl rfl)
    · obtain ⟨lc, h1, h2, h3⟩ := inner hne false (.rbracket :: rest) hb
      refine ⟨lc, h1, h2, ?_⟩
      have : bodyToks .arr k = .lbracket :: (k.toks ++ [.rbracket]) := by
        simp only [bodyToks]
        rw [if_neg fun h => hne (shape_nil.1 h)]
      rw [this]
      refine .element hpush (.array (.fullArray ?_)) (hpop _ _ _ _ rfl rfl)
      simpa [entry] using h3
  | empty =>
    simp only at hb
    subst hb
    refine ⟨s.ptrs.ra.length, Nat.le_refl _, by omega, ?_⟩
    exact .element hpush (.object .emptyObject) (hpop _ _ _ _ rfl rfl)
  | tok t n v =>
    obtain ⟨rfl, hm⟩ := hb
    refine ⟨s.ptrs.ra.length, Nat.le_refl _, by omega, ?_⟩
    have hst : ∀ (f : Loaded → Loaded), f {} = { null := n, value := v } →
        store (st (link s.ptrs.ra s.parent z s.ptrs.ra.length ++ [{ parent := s.parent, idx := s.ptrs.ra.length }]) (s.ptrs.ra.length) (s.data ++ [({} : Loaded)]) (s.ptrs.ra.length)) f =
        some (st (link s.ptrs.ra s.parent z s.ptrs.ra.length ++ [{ parent := s.parent, idx := s.ptrs.ra.length }]) (s.ptrs.ra.length) (s.data ++ [{ null := n, value := v }]) (s.ptrs.ra.length)) := by
      intro f hf
      unfold store
      simp only
      rw [List.getElem?_append_right (by omega), ← hd, Nat.sub_self]
      simp only [List.getElem?_cons_zero, Option.bind_eq_bind, Option.bind_some]
      rw [wr_mid s.data {} [] (f {}) _ rfl, hf]
      rfl
    have hsc : Json.scalar (st (link s.ptrs.ra s.parent z s.ptrs.ra.length ++ [{ parent := s.parent, idx := s.ptrs.ra.length }]) (s.ptrs.ra.length) (s.data ++ [({} : Loaded)]) (s.ptrs.ra.length)) t =
        some (st (link s.ptrs.ra s.parent z s.ptrs.ra.length ++ [{ parent := s.parent, idx := s.ptrs.ra.length }]) (s.ptrs.ra.length) (s.data ++ [{ null := n, value := v }]) (s.ptrs.ra.length)) := by
      cases t <;> simp only [meaning, Option.some.injEq, Prod.mk.injEq, Option.map_eq_some_iff, reduceCtorEq] at hm
      · obtain ⟨rfl, rfl⟩ := hm; exact hst _ rfl
      · obtain ⟨rfl, rfl⟩ := hm; exact hst _ rfl
      · obtain ⟨rfl, rfl⟩ := hm; exact hst _ rfl
      · obtain ⟨w, hw, rfl, rfl⟩ := hm
        simp only [Json.scalar, hw, Option.bind_eq_bind, Option.bind_some]
        exact hst _ rfl
    exact .element hpush (.scalar hsc) (hpop _ _ _ _ rfl rfl)

/-- **Parsing the tokens of a forest builds the forest.** -/
theorem build (known : List Nat → Bool) (D : DF) : ∀ (m : Bool) (s : St) (z : Nat) (rest : List Tok), D ≠ .nil → WF known m D → s.parent ≠ 0 →
    s.data.length = s.ptrs.ra.length →
    Ready s.ptrs.ra s.ptrs.lastChild s.parent z → ∃ lc, s.ptrs.ra.length ≤ lc ∧ lc < s.ptrs.ra.length + D.shape.nodes.length ∧
      Derives known (if m then .members else .elements) s (D.toks ++ rest)
        (st (link s.ptrs.ra s.parent z s.ptrs.ra.length ++ canon s.parent s.ptrs.ra.length D.shape) (lc) (s.data ++ D.data) (s.parent)) rest := by
  induction D with
  | nil => intro m s z rest h; exact absurd rfl h
  | cons name b k sb ih1 ih2 =>
    intro m s z rest _ hwf hp hd hr
    obtain ⟨hname, hb, hsb⟩ := hwf
    have hrange := hr.range
    have hrest : ∀ rest', ∃ lc, s.ptrs.ra.length ≤ lc ∧ lc < s.ptrs.ra.length + 1 + k.shape.nodes.length ∧
        Derives known (if m then .member else .element) s (nameToks name ++ bodyToks b k ++ rest')
        (st (link s.ptrs.ra s.parent z s.ptrs.ra.length ++ node s.parent s.ptrs.ra.length k.shape .nil :: canon s.ptrs.ra.length (s.ptrs.ra.length + 1) k.shape) (lc) (s.data ++ { entry b with name := name } :: k.data) (s.parent)) rest' := by
      intro rest'
      obtain ⟨lc, h1, h2, h3⟩ := element_ok known b k ih1 hb s z rest' hd hr
      cases m with
      | false =>
        simp only [Bool.false_eq_true, if_false] at hname
        subst hname
        refine ⟨lc, h1, h2, ?_⟩
        have : ({ entry b with name := none } : Loaded) = entry b := by cases b <;> rfl
        rw [this]
        exact h3
      | true =>
        simp only [if_true] at hname
        obtain ⟨nm, rfl, hkn⟩ := hname
        have hready := ready_next hr (node s.parent s.ptrs.ra.length k.shape .nil) (canon s.ptrs.ra.length (s.ptrs.ra.length + 1) k.shape) hp rfl h1
          (by rw [canon_length]; omega) (fun j pj hj => by rcases canon_parent _ _ _ _ _ hj with h | h <;> omega)
        have hlast := last_ready (extra := []) hready
        simp only [List.append_nil] at hlast
        rw [if_neg (by omega)] at hlast
        refine ⟨s.ptrs.ra.length, Nat.le_refl _, by omega, ?_⟩
        refine Derives.member (name := nm) h3 ?_
        unfold Json.member
        simp only
        rw [hlast]
        simp only [Option.bind_eq_bind, Option.bind_some]
        rw [if_neg (by omega), if_pos hkn]
        rw [List.getElem?_append_right (by omega), ← hd, Nat.sub_self]
        simp only [List.getElem?_cons_zero, Option.bind_some]
        rw [wr_mid s.data (entry b) k.data _ _ rfl]
        rfl
    by_cases hs : sb = .nil
    · subst hs
      obtain ⟨lc, h1, h2, h3⟩ := hrest rest
      refine ⟨lc, h1, by simp [shape, Forest.nodes]; omega, ?_⟩
      rw [toks_cons]
      have e : (st (link s.ptrs.ra s.parent z s.ptrs.ra.length ++ canon s.parent s.ptrs.ra.length (DF.cons name b k .nil).shape) (lc) (s.data ++ (DF.cons name b k .nil).data) (s.parent)) =
          (st (link s.ptrs.ra s.parent z s.ptrs.ra.length ++ node s.parent s.ptrs.ra.length k.shape .nil :: canon s.ptrs.ra.length (s.ptrs.ra.length + 1) k.shape) (lc) (s.data ++ { entry b with name := name } :: k.data) (s.parent)) := by
        simp [shape, canon, data]
      rw [e]
      simp only [shape, if_true, List.append_nil]
      cases m with
      | false => exact .lastElement h3
      | true => exact .lastMember h3
    · have hs' : sb.shape ≠ .nil := fun h => hs (shape_nil.1 h)
      obtain ⟨lc, h1, h2, h3⟩ := hrest (.comma :: (sb.toks ++ rest))
      have hready := ready_next hr (node s.parent s.ptrs.ra.length k.shape .nil) (canon s.ptrs.ra.length (s.ptrs.ra.length + 1) k.shape) hp rfl h1
        (by rw [canon_length]; omega) (fun j pj hj => by rcases canon_parent _ _ _ _ _ hj with h | h <;> omega)
      obtain ⟨lc', h4, h5, h6⟩ := ih2 m (st (link s.ptrs.ra s.parent z s.ptrs.ra.length ++ node s.parent s.ptrs.ra.length k.shape .nil :: canon s.ptrs.ra.length (s.ptrs.ra.length + 1) k.shape) (lc) (s.data ++ { entry b with name := name } :: k.data) (s.parent)) s.ptrs.ra.length rest hs hsb hp
        (by simp [link_length, canon_length, data_length, hd]) hready
      simp only [List.length_append, link_length, List.length_cons, canon_length] at h4 h5 h6
      refine ⟨lc', by omega, by simp only [shape, Forest.nodes, List.length_cons, List.length_append]; omega, ?_⟩
      have hl : s.ptrs.ra.length + (k.shape.nodes.length + 1) = s.ptrs.ra.length + 1 + k.shape.nodes.length := by omega
      rw [hl] at h6
      have e1 : link (link s.ptrs.ra s.parent z s.ptrs.ra.length ++ node s.parent s.ptrs.ra.length k.shape .nil ::
          canon s.ptrs.ra.length (s.ptrs.ra.length + 1) k.shape) s.parent s.ptrs.ra.length (s.ptrs.ra.length + 1 + k.shape.nodes.length) =
          link s.ptrs.ra s.parent z s.ptrs.ra.length ++ node s.parent s.ptrs.ra.length k.shape sb.shape ::
          canon s.ptrs.ra.length (s.ptrs.ra.length + 1) k.shape := by
        generalize hb : link s.ptrs.ra s.parent z s.ptrs.ra.length = base
        have hbl : base.length = s.ptrs.ra.length := by rw [← hb, link_length]
        unfold link
        rw [if_neg hp, if_neg (by omega), modify_right _ _ _ _ hbl.symm]
        simp [node, hs']
      rw [e1] at h6
      have e : (st (link s.ptrs.ra s.parent z s.ptrs.ra.length ++ canon s.parent s.ptrs.ra.length (DF.cons name b k sb).shape) (lc') (s.data ++ (DF.cons name b k sb).data) (s.parent)) =
          (st (link s.ptrs.ra s.parent z s.ptrs.ra.length ++ node s.parent s.ptrs.ra.length k.shape sb.shape :: canon s.ptrs.ra.length (s.ptrs.ra.length + 1) k.shape ++ canon s.parent (s.ptrs.ra.length + 1 + k.shape.nodes.length) sb.shape) (lc') (s.data ++ { entry b with name := name } :: k.data ++ sb.data) (s.parent)) := by
        simp [shape, canon, data]
      rw [e, toks_cons, if_neg hs']
      have e2 : nameToks name ++ bodyToks b k ++ .comma :: sb.toks ++ rest = nameToks name ++ bodyToks b k ++ (.comma :: (sb.toks ++ rest)) := by simp
      rw [e2]
      cases m with
      | false => exact .moreElements h3 h6
      | true => exact .moreMembers h3 h6

/-- **Parsing the tokens of a tree.** -/
theorem build_root (known : List Nat → Bool) (b : Body) (k : DF) (hwf : WF known false (.cons none b k .nil)) :
    ∃ lc, Derives known .element start (DF.cons none b k .nil).toks
      (st (({} : Pd) :: canon 0 1 (DF.cons none b k .nil).shape) (lc) (({} : Loaded) :: (DF.cons none b k .nil).data) (0)) [] := by
  have hr : Ready start.ptrs.ra start.ptrs.lastChild start.parent 0 :=
    ⟨by decide, fun _ h => absurd rfl h, fun _ => rfl, fun h => absurd rfl h⟩
  obtain ⟨lc, _, _, h⟩ := element_ok known b k (build known k) hwf.2.1 start 0 [] rfl hr
  refine ⟨lc, ?_⟩
  rw [toks_cons]
  have e : entry b = { entry b with name := none } := by cases b <;> rfl
  simp only [shape, nameToks, if_true, List.append_nil, List.nil_append, canon, data]
  rw [← e]
  simpa [start, link] using h

end Verif.Lemmas.JsonLoad
