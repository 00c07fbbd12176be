import Verif.Lemmas.CinitLeaf
import Verif.Lemmas.Dfs
/-!
# The text of a C initializer and its tokens
-/
namespace Verif.Lemmas.CinitPrint
open Verif.Model Verif.Model.Ptrs Verif.Model.Cinit Verif.Spec Verif.Spec.Ptrs Verif.Spec.Cinit
open Verif.Lemmas.CinitLex Verif.Lemmas.CinitTok Verif.Lemmas.CinitLoad Verif.Lemmas.CinitLeaf
open Verif.Lemmas.CinitLoad.DF
open Verif.Model.Json (indent)
open Verif.Model.Xml1 (sRef sContent sIdx)
open Verif.Spec.Xml1 (Name)

variable {K : Value.Floats}

theorem indent_space (level : Int) : ∀ c ∈ indent level, isspace c = true := by
  intro c hc
  rw [List.eq_of_mem_replicate hc]
  rfl

/-! ### a node -/

/-- the public index of the target -/
def tgt (ra : List Pd) (pd : Pd) : Nat := match ra[pd.firstChild]? with | some t => t.idx | none => 0

/-- the type in the cast -/
def castOf (pd : Pd) (x : Info) : Option (List Nat) :=
  if (pd.ref || pd.cref) = false ∧ x.null = false ∧ pd.ty = .pointer then some x.type else none

/-- the element written for a node -/
def el (ra : List Pd) (pd : Pd) (x : Info) (name : Option (List Nat × Nat)) (body : Body K) : El K :=
  { name := name, ref := if pd.ref then some (tgt ra pd) else none, cref := if pd.cref then some (tgt ra pd) else none,
    refd := if pd.refd then some pd.idx else none, cast := castOf pd x, body := body }

theorem el_typed (ra : List Pd) (pd : Pd) (x : Info) (name : Option (List Nat × Nat)) (body : Body K) : (el ra pd x name body).typed = typeOf pd x := by
  have hv : ascii "void" = [118, 111, 105, 100] := by decide
  unfold typeOf
  rw [hv]
  simp only [El.typed, el, castOf]
  by_cases h1 : (pd.ref || pd.cref) = false ∧ x.null = false ∧ pd.ty = .pointer
  · rw [if_pos h1]
    by_cases h2 : x.type = [118, 111, 105, 100]
    · simp [h2]
    · simp [h2, h1]
  · rw [if_neg h1, if_neg (fun h => h1 ⟨h.1, h.2.1, h.2.2.1⟩)]

def nameText (unnamed : Bool) (name : List Nat) : List Nat := if unnamed then [] else 46 :: (name ++ [32, 61, 32])

def refText (name : List Nat) : Option Nat → List Nat
  | none => []
  | some n => attr name n

/-- name and attributes -/
def attrText (e : El K) : List Nat := refText sRef e.ref ++ (refText sContent e.cref ++ refText sIdx e.refd)

/-- the name as the scanner finds it: it points into the document -/
def nameAt (x : Info) (rest : List Nat) : Option (List Nat × Nat) :=
  if x.unnamed then none else some (x.name ++ 32 :: 61 :: 32 :: rest, x.name.length)

theorem lex_name {x : Info} (h : x.unnamed = false → Ident x.name) {rest : List Nat} {ts : List (Tok K)} (ht : lex K rest = some ts) :
    lex K (nameText x.unnamed x.name ++ rest) = some (El.nameToks (nameAt x rest) ++ ts) := by
  unfold nameText nameAt
  cases hu : x.unnamed with
  | true => exact ht
  | false =>
    have h1 : lex K (32 :: 61 :: 32 :: rest) = some (.assign :: ts) := lex_space rfl (lex_assign (lex_space rfl ht))
    have hends : Ends (32 :: 61 :: 32 :: rest) := by
      intro c t e
      cases e
      rw [word_iff]
      omega
    have h2 := lex_dot (lex_ident (h hu) hends h1)
    simpa [El.nameToks] using h2

theorem lex_ref {name : List Nat} (hn : Name name) {o : Option Nat} (ho : ∀ n, o = some n → n < 2 ^ 32) {rest : List Nat} {ts : List (Tok K)}
    (h : lex K rest = some ts) : lex K (refText name o ++ rest) = some (El.refToks name o ++ ts) := by
  cases o with
  | none => exact h
  | some n => exact lex_ivalue hn (ho n rfl) h

theorem name_ref : Name sRef := by unfold Name; exact ⟨⟨_, rfl, .inl (by decide)⟩, by decide⟩
theorem name_content : Name sContent := by unfold Name; exact ⟨⟨_, rfl, .inl (by decide)⟩, by decide⟩
theorem name_idx : Name sIdx := by unfold Name; exact ⟨⟨_, rfl, .inl (by decide)⟩, by decide⟩

theorem lex_attrs {e : El K} (h1 : ∀ n, e.ref = some n → n < 2 ^ 32) (h2 : ∀ n, e.cref = some n → n < 2 ^ 32) (h3 : ∀ n, e.refd = some n → n < 2 ^ 32)
    {rest : List Nat} {ts : List (Tok K)} (h : lex K rest = some ts) :
    lex K (attrText e ++ rest) = some (El.refToks sRef e.ref ++ (El.refToks sContent e.cref ++ (El.refToks sIdx e.refd ++ ts))) := by
  unfold attrText
  simp only [List.append_assoc]
  exact lex_ref name_ref h1 (lex_ref name_content h2 (lex_ref name_idx h3 h))

/-- the part of `cinit_pre_print_node` after the attributes -/
def valueText (pd : Pd) (x : Info) : Option (List Nat × Option Nat) :=
  if x.null || pd.ref || pd.cref then some ([78, 85, 76, 76], none) else handler pd.ty x

/-- what the reader finds -/
structure Sem (pd : Pd) (x : Info) (y : Loaded K) : Prop where
  null : (pd.ref || pd.cref) = true ∨ x.null = true → y.null = true ∧ y.value = some (.int 0#128)
  list : (pd.ref || pd.cref) = false → x.null = false → compound pd.ty = true → y.null = false ∧ y.value = none
  leaf : (pd.ref || pd.cref) = false → x.null = false → compound pd.ty = false → ReadAs x.leaf y.null y.value

/-- a node that is written as a list -/
structure ListText (K : Value.Floats) (pd : Pd) (x : Info) (text : List Nat) (clo : Option Nat) : Prop where
  clo : clo = some 125
  nonref : (pd.ref || pd.cref) = false
  sem : Sem pd x (entry (.list : Body K))
  lex : ∀ rest (ts : List (Tok K)), lex K rest = some ts → lex K (text ++ rest) = some (El.castToks (castOf pd x) ++ .lbrace :: ts)

/-- a node that is not written as a list -/
structure ItemText (K : Value.Floats) (w : World) (pd : Pd) (x : Info) (text : List Nat) (clo : Option Nat) : Prop where
  clo : clo = none
  kids : kidsHead pd = 0
  cast : castOf pd x = none
  lex : ∀ rest (ts : List (Tok K)), Ends rest → lex K rest = some ts → ∃ b : Body K, b ≠ .list ∧
    lex K (text ++ rest) = some (bodyToks b [] ++ ts) ∧ BodyOK w b ∧ Sem pd x (entry b)

theorem value_ok (K : Value.Floats) (w : World) {ra : List Pd} {pd : Pd} {x : Info} (h : NodeOK ra pd x) :
    ∃ text clo, valueText pd x = some (text, clo) ∧ (ListText K pd x text clo ∨ ItemText K w pd x text clo) := by
  unfold valueText
  by_cases hnull : (x.null || pd.ref || pd.cref) = true
  · rw [if_pos hnull]
    have hn : (pd.ref || pd.cref) = true ∨ x.null = true := by
      revert hnull
      cases x.null <;> cases pd.ref <;> cases pd.cref <;> simp
    refine ⟨_, _, rfl, .inr ⟨rfl, ?_, ?_, fun rest ts hr ht => ⟨.tok .null true (.int 0#128), by simp, lex_null hr ht, rfl, fun _ => ⟨rfl, rfl⟩, ?_, ?_⟩⟩⟩
    · unfold kidsHead
      split
      · rfl
      · rename_i h0
        have h0 : (pd.ref || pd.cref) = false := by simpa using h0
        refine h.children h0 (.inl ?_)
        rcases hn with hn | hn
        · rw [h0] at hn; cases hn
        · exact hn
    · unfold castOf
      rw [if_neg]
      rintro ⟨h1, h2, _⟩
      rcases hn with hn | hn
      · rw [h1] at hn; cases hn
      · rw [h2] at hn; cases hn
    · intro h1 h2
      rcases hn with hn | hn
      · rw [h1] at hn; cases hn
      · rw [h2] at hn; cases hn
    · intro h1 h2
      rcases hn with hn | hn
      · rw [h1] at hn; cases hn
      · rw [h2] at hn; cases hn
  · rw [if_neg hnull]
    have h0 : x.null = false ∧ (pd.ref || pd.cref) = false := by
      revert hnull
      cases x.null <;> cases pd.ref <;> cases pd.cref <;> simp
    obtain ⟨hn, hr⟩ := h0
    obtain ⟨t1, t2, t3, t4⟩ := h.kind hr hn
    have hno : ¬ ((pd.ref || pd.cref) = true ∨ x.null = true) := by rw [hn, hr]; simp
    by_cases hp : pd.ty = .pointer
    · have hc : compound pd.ty = true := by rw [hp]; rfl
      have hh : handler pd.ty x = some (40 :: (x.type ++ (if x.pointer then [42] else []) ++ [91, 93, 41, 123, 10]), some 125) := by rw [hp]; rfl
      refine ⟨_, _, hh, .inl ⟨rfl, hr, ⟨fun h => absurd h hno, fun _ _ _ => ⟨rfl, rfl⟩, (fun _ _ e => by rw [hc] at e; cases e)⟩, fun rest ts ht => ?_⟩⟩
      have hcast : castOf pd x = some x.type := by unfold castOf; rw [if_pos ⟨hr, hn, hp⟩]
      rw [hcast]
      have h1 : lex K (123 :: 10 :: rest) = some (.lbrace :: ts) := lex_lbrace (lex_space rfl ht)
      have h2 := lex_cast (h.type hr hn hp) x.pointer h1
      have e : 40 :: (x.type ++ (if x.pointer then [42] else []) ++ [91, 93, 41, 123, 10]) ++ rest = 40 :: (castBody x.type x.pointer ++ 41 :: 123 :: 10 :: rest) := by
        simp [castBody]
      rw [e, h2]
      rfl
    · have hcast : castOf pd x = none := by unfold castOf; rw [if_neg (fun h => hp h.2.2)]
      by_cases hc : compound pd.ty = true
      · have hh : handler pd.ty x = some ([123, 10], some 125) := by
          revert hc hp; generalize pd.ty = ty; cases ty <;> simp [compound, handler]
        refine ⟨_, _, hh, .inl ⟨rfl, hr, ⟨fun h => absurd h hno, fun _ _ _ => ⟨rfl, rfl⟩, (fun _ _ e => by rw [hc] at e; cases e)⟩, fun rest ts ht => ?_⟩⟩
        rw [hcast]
        exact lex_lbrace (lex_space rfl ht)
      · have hc' : compound pd.ty = false := by simpa using hc
        obtain ⟨t, h1, h2⟩ := lex_leaf (K := K) w (h.leaf hr hn hc')
        have hh : handler pd.ty x = some (t, none) := by
          revert t1 t2 t3 t4 hc'; generalize pd.ty = ty
          cases ty <;> simp [compound, handler, h1]
        have hk : kidsHead pd = 0 := by unfold kidsHead; rw [if_neg (by simp [hr])]; exact h.children hr (.inr hc')
        refine ⟨_, _, hh, .inr ⟨rfl, hk, hcast, fun rest ts hE ht => ?_⟩⟩
        obtain ⟨b, b1, b2, b3, b4⟩ := h2 rest ts hE ht
        exact ⟨b, b1, b2, b3, fun h => absurd h hno, (fun _ _ e => by rw [hc'] at e; cases e), fun _ _ _ => b4⟩

theorem prePrint_eq {info : List Info} {ra : List Pd} {i : Nat} {pd : Pd} {x : Info} (hi : ra[i]? = some pd) (hx : info[i]? = some x)
    (hok : NodeOK ra pd x) {text : List Nat} {clo : Option Nat} (hv : valueText pd x = some (text, clo)) (o : Out) (level : Int) :
    prePrint info ra o i level = some (o.1 ++ (indent level ++ (nameText x.unnamed x.name ++ (attrText (el ra pd x none (.empty : Body K)) ++ text))),
      fun j => if j = i then clo else o.2 j) := by
  unfold prePrint
  unfold valueText at hv
  simp only [hi, hx, Option.bind_eq_bind, Option.bind_some]
  cases hp : pd.ref <;> cases hq : pd.cref
  · rw [hp, hq] at hv
    simp only [attrText, el, hp, hq, refText, nameText, Bool.false_eq_true, if_false, Option.bind_some]
    cases hn : x.null <;> rw [hn] at hv <;> simp only [Bool.or_false, Bool.false_eq_true, if_false, if_true, Option.some.injEq, Prod.mk.injEq] at hv ⊢
    · rw [hv]
      cases pd.refd <;> cases x.unnamed <;> simp [refText]
    · obtain ⟨rfl, rfl⟩ := hv
      cases pd.refd <;> cases x.unnamed <;> simp [refText]
  all_goals
    obtain ⟨t, ht, _⟩ := hok.ref (by simp [hp, hq])
    rw [hp, hq] at hv
    simp only [Bool.or_true, Bool.true_or, if_true, Option.some.injEq, Prod.mk.injEq] at hv
    obtain ⟨rfl, rfl⟩ := hv
    simp only [attrText, el, hp, hq, refText, nameText, tgt, ht, Option.bind_some, if_true, Bool.false_eq_true, if_false]
    cases pd.refd <;> cases x.unnamed <;> simp [refText]

theorem postPrint_eq {ra : List Pd} {i : Nat} {pd : Pd} (hi : ra[i]? = some pd) (o : Out) (level : Int) :
    postPrint ra o i level = some (o.1 ++ ((match o.2 i with | some c => indent level ++ [c] | none => []) ++
      ((if pd.next ≠ 0 then [44] else []) ++ [10])), o.2) := by
  unfold postPrint
  simp only [hi, Option.bind_eq_bind, Option.bind_some]
  cases o.2 i <;> (split <;> simp)

theorem ends_tail (b : Bool) (rest : List Nat) : Ends ((if b then [44] else []) ++ 10 :: rest) := by
  intro c t h
  rw [word_iff]
  cases b <;> simp at h <;> omega

/-! ### a forest -/

/-- the element written for a node -/
def Same (ra : List Pd) (pd : Pd) (x : Info) (e : El K) : Prop :=
  ∃ rest body, e = el ra pd x (nameAt x rest) body ∧ Sem pd x (entry body)

/-- the elements in document order -/
def els : DF K → List (El K)
  | .nil => []
  | .cons e k s => e :: (els k ++ els s)

theorem els_length (D : DF K) : (els D).length = D.shape.nodes.length := by
  induction D with
  | nil => rfl
  | cons e k s ih1 ih2 => simp [els, shape, Forest.nodes, ih1, ih2]

theorem els_data (D : DF K) : D.data = (els D).map El.data := by
  induction D with
  | nil => rfl
  | cons e k s ih1 ih2 => simp [els, DF.data, ih1, ih2]

theorem canon_get (w : World) (D : DF K) : ∀ (p n j : Nat) (e : El K), WF w D → (els D)[j]? = some e →
    ∃ q : Pd, (canon p n D)[j]? = some q ∧ q.ref = e.ref.isSome ∧ q.cref = e.cref.isSome ∧ q.refd = e.refd.isSome ∧ q.idx = e.refd.getD 0 ∧
      (e.isRef = true → q.firstChild = e.ref.getD (e.cref.getD 0)) := by
  induction D with
  | nil => intro p n j e _ h; simp [els] at h
  | cons e0 k s ih1 ih2 =>
    intro p n j e hwf h
    obtain ⟨_, h2, _, h3, h4⟩ := hwf
    cases j with
    | zero =>
      simp only [els, List.getElem?_cons_zero, Option.some.injEq] at h
      subst h
      refine ⟨_, rfl, rfl, rfl, rfl, rfl, fun hr => ?_⟩
      have := h2 hr
      subst this
      rfl
    | succ j =>
      simp only [els, List.getElem?_cons_succ, List.getElem?_append, els_length] at h
      simp only [canon, List.getElem?_cons_succ, List.getElem?_append, canon_length]
      split at h
      · rename_i hlt
        rw [if_pos hlt]
        exact ih1 _ _ _ _ h3 h
      · rename_i hlt
        rw [if_neg hlt]
        exact ih2 _ _ _ _ h4 h

theorem bodyToks_inside {b : Body K} (h : b ≠ .list) (inside : List (Tok K)) : bodyToks b inside = bodyToks b [] := by
  cases b <;> first | rfl | exact absurd rfl h

/-- the text of a forest and, with anything after it, its tokens -/
theorem print_forest (K : Value.Floats) (w : World) (ra : List Pd) (info : List Info) (f : Forest) : ∀ (par head : Nat) (level : Int),
    Rep ra par head f → f.nodes.Nodup → Writable w ra info f.nodes →
    ∃ text : List Nat, (f = .nil → text = []) ∧
      (∀ (o : Out) (es : List (Nat × Int × Order)), ∃ r : Nat → Option Nat, (∀ j, j ∉ f.nodes → r j = o.2 j) ∧
        callAll (printNode info) (f.events level ++ es) (ra, o) = callAll (printNode info) es (ra, (o.1 ++ text, r))) ∧
      ∀ rest (ts : List (Tok K)), lex K rest = some ts → ∃ D : DF K, WF w D ∧ (∀ n, Ptrs.number n D.shape = Ptrs.number n f) ∧ (D.shape = .nil ↔ f = .nil) ∧
        D.shape.nodes.length = f.nodes.length ∧ lex K (text ++ rest) = some (D.toks ++ ts) ∧
        (∀ (j i : Nat), f.nodes[j]? = some i → ∃ pd x e, ra[i]? = some pd ∧ info[i]? = some x ∧ (els D)[j]? = some e ∧ Same ra pd x e) := by
  induction f with
  | nil =>
    intro par head level _ _ _
    refine ⟨[], fun _ => rfl, fun o es => ⟨o.2, fun _ _ => rfl, by simp [Forest.events]⟩, fun rest ts h => ?_⟩
    exact ⟨.nil, trivial, fun n => rfl, by simp [shape], rfl, h, fun j i h => by simp [Forest.nodes] at h⟩
  | cons i k s ih1 ih2 =>
    intro par head level hrep hnd hw
    obtain ⟨_, hi0, pd, hpd, hpp, hk, hs⟩ := hrep
    simp only [Forest.nodes, List.nodup_cons, List.mem_append, not_or] at hnd
    obtain ⟨⟨hik, his⟩, hnd2⟩ := hnd
    rw [List.nodup_append] at hnd2
    obtain ⟨hndk, hnds, hdisj⟩ := hnd2
    obtain ⟨x, hx, hok, hkn, hty⟩ := hw i (by simp [Forest.nodes]) pd hpd
    obtain ⟨vt, clo, hv, hb⟩ := value_ok K w hok
    obtain ⟨tk, k0, k1, k2⟩ := ih1 i _ (level + 1) hk hndk (fun j hj => hw j (by simp [Forest.nodes, hj]))
    obtain ⟨tS, s0, s1, s2⟩ := ih2 par _ level hs hnds (fun j hj => hw j (by simp [Forest.nodes, hj]))
    have hkn' : kidsHead pd = 0 ↔ k = .nil := Lemmas.Dfs.rep_nil_iff hk
    refine ⟨indent level ++ (nameText x.unnamed x.name ++ (attrText (el ra pd x none (.empty : Body K)) ++ vt)) ++ tk ++
      ((match clo with | some c => indent level ++ [c] | none => []) ++ ((if pd.next ≠ 0 then [44] else []) ++ [10])) ++ tS, (fun h => by cases h), ?_, ?_⟩
    · intro o es
      obtain ⟨r1, r1a, r1b⟩ := k1 (o.1 ++ (indent level ++ (nameText x.unnamed x.name ++ (attrText (el ra pd x none (.empty : Body K)) ++ vt))), fun j => if j = i then clo else o.2 j)
        ((i, level, .post) :: (s.events level ++ es))
      obtain ⟨r2, r2a, r2b⟩ := s1 ((o.1 ++ (indent level ++ (nameText x.unnamed x.name ++ (attrText (el ra pd x none (.empty : Body K)) ++ vt))) ++ tk) ++
        ((match clo with | some c => indent level ++ [c] | none => []) ++ ((if pd.next ≠ 0 then [44] else []) ++ [10])), r1) es
      refine ⟨r2, fun j hj => ?_, ?_⟩
      · simp only [Forest.nodes, List.mem_cons, List.mem_append, not_or] at hj
        rw [r2a j hj.2.2]
        simp only
        rw [r1a j hj.2.1]
        simp only
        rw [if_neg hj.1]
      · simp only [Forest.events, List.cons_append, List.append_assoc]
        rw [callAll]
        simp only [printNode, Option.bind_eq_bind]
        rw [prePrint_eq (K := K) hpd hx hok hv]
        simp only [Option.bind_some, Bool.true_eq_false, if_false]
        refine r1b.trans ?_
        rw [callAll]
        simp only [printNode, Option.bind_eq_bind]
        rw [postPrint_eq hpd]
        have hclo : r1 i = clo := by rw [r1a i hik]; simp
        simp only [Option.bind_some, Bool.true_eq_false, if_false, hclo]
        refine r2b.trans ?_
        simp only [List.append_assoc]
        rfl
    · intro rest ts hl
      obtain ⟨Ds, q1, q2, q3, q4, q5, q6⟩ := s2 rest ts hl
      have hsn : Ds.shape = .nil ↔ pd.next = 0 := by rw [q3]; exact (Lemmas.Dfs.rep_nil_iff hs).symm
      have htail : lex K ((if pd.next ≠ 0 then [44] else []) ++ 10 :: (tS ++ rest)) =
          some ((if Ds.shape = .nil then [] else .comma :: Ds.toks) ++ ts) := by
        have h10 : lex K (10 :: (tS ++ rest)) = some (Ds.toks ++ ts) := lex_space rfl q5
        by_cases hn : pd.next = 0
        · have hds : Ds = .nil := shape_nil.1 (hsn.2 hn)
          subst hds
          simpa [hn, shape, toks] using h10
        · have : ¬ Ds.shape = .nil := fun h => hn (hsn.1 h)
          simp only [hn, ne_eq, not_false_eq_true, if_true, this, if_false]
          exact lex_comma h10
      have hends : Ends ((if pd.next ≠ 0 then [44] else []) ++ 10 :: (tS ++ rest)) := by
        have := ends_tail (decide (pd.next ≠ 0)) (tS ++ rest)
        simpa using this
      -- the children and the value
      have hval : ∃ (Dk : DF K) (b : Body K), WF w Dk ∧ (∀ n, Ptrs.number n Dk.shape = Ptrs.number n k) ∧ (Dk.shape = .nil ↔ k = .nil) ∧
          Dk.shape.nodes.length = k.nodes.length ∧
          (∀ (j i : Nat), k.nodes[j]? = some i → ∃ pd x e, ra[i]? = some pd ∧ info[i]? = some x ∧ (els Dk)[j]? = some e ∧ Same ra pd x e) ∧
          BodyOK w b ∧ Sem pd x (entry b) ∧ ((pd.ref || pd.cref) = true → Dk = .nil) ∧ (match b with | .list => True | _ => Dk = .nil) ∧
          lex K (vt ++ (tk ++ ((match clo with | some c => indent level ++ [c] | none => []) ++ ((if pd.next ≠ 0 then [44] else []) ++ 10 :: (tS ++ rest))))) =
            some (El.castToks (castOf pd x) ++ (bodyToks b Dk.toks ++ ((if Ds.shape = .nil then [] else .comma :: Ds.toks) ++ ts))) := by
        rcases hb with hb | hb
        · have hc : lex K (indent level ++ [125] ++ ((if pd.next ≠ 0 then [44] else []) ++ 10 :: (tS ++ rest))) = some (.rbrace ::
              ((if Ds.shape = .nil then [] else .comma :: Ds.toks) ++ ts)) := by
            rw [List.append_assoc]
            exact lex_spaces (indent_space level) (lex_rbrace htail)
          obtain ⟨Dk, p1, p2, p3, p4, p5, p6⟩ := k2 _ _ hc
          refine ⟨Dk, .list, p1, p2, p3, p4, p6, trivial, hb.sem, (fun h => by rw [hb.nonref] at h; cases h), trivial, ?_⟩
          rw [hb.clo]
          simp only
          rw [hb.lex _ _ p5]
          simp [bodyToks]
        · have hkf : k = .nil := hkn'.1 hb.kids
          obtain ⟨b, b1, b2, b3, b4⟩ := hb.lex _ _ hends htail
          refine ⟨.nil, b, trivial, fun n => by rw [hkf]; rfl, by rw [hkf]; simp [shape], by rw [hkf]; rfl, fun j i h => by rw [hkf] at h; simp [Forest.nodes] at h, b3, b4, fun _ => rfl, ?_, ?_⟩
          · cases b <;> first | exact trivial | rfl
          · rw [hb.clo, k0 hkf, hb.cast, bodyToks_inside b1]
            simpa [El.castToks] using b2
      obtain ⟨Dk, b, p1, p2, p3, p4, p6, p7, p8, p9, p10, p11⟩ := hval
      -- the attributes and the name
      have htgt : (pd.ref || pd.cref) = true → tgt ra pd < 2 ^ 32 := by
        intro h
        obtain ⟨u, hu, hu2⟩ := hok.ref h
        unfold tgt
        rw [hu]
        exact hu2
      have hattr := lex_attrs (K := K) (e := el ra pd x none (.empty : Body K)) (fun n hn => ?_) (fun n hn => ?_) (fun n hn => ?_) p11
      rotate_left
      · have hn : (if pd.ref then some (tgt ra pd) else none) = some n := hn
        split at hn
        · rename_i h; cases hn; exact htgt (by simp [h])
        · cases hn
      · have hn : (if pd.cref then some (tgt ra pd) else none) = some n := hn
        split at hn
        · rename_i h; cases hn; exact htgt (by simp [h])
        · cases hn
      · have hn : (if pd.refd then some pd.idx else none) = some n := hn
        split at hn
        · rename_i h; cases hn; exact hok.refd h
        · cases hn
      have hall := lex_spaces (indent_space level) (lex_name (x := x) (fun h => (hok.name h).1) hattr)
      refine ⟨.cons (el ra pd x (nameAt x (attrText (el ra pd x none (.empty : Body K)) ++ (vt ++ (tk ++ ((match clo with | some c => indent level ++ [c] | none => []) ++
        ((if pd.next ≠ 0 then [44] else []) ++ 10 :: (tS ++ rest))))))) b) Dk Ds, ⟨⟨?_, ?_, ?_⟩, ?_, ?_, p1, q1⟩, ?_, ?_, ?_, ?_, ?_⟩
      · intro p hp
        rw [el_typed]
        have hp : nameAt x _ = some p := hp
        unfold nameAt at hp
        split at hp
        · cases hp
        · rename_i hu
          cases hp
          simp only [List.take_left']
          exact hkn (by simpa using hu)
      · intro t ht
        rw [el_typed] at ht
        exact hty t ht
      · exact p7
      · intro h
        apply p9
        revert h
        simp only [El.isRef, el]
        cases pd.ref <;> cases pd.cref <;> simp
      · exact p10
      · intro n
        simp only [shape, Ptrs.number, p2, q2, p4]
      · simp [shape]
      · simp only [shape, Forest.nodes, List.length_cons, List.length_append, p4, q4]
      · simp only [toks, cinitToks, List.append_assoc] at hall ⊢
        refine Eq.trans ?_ hall
        simp
      · intro j i' hj
        simp only [Forest.nodes] at hj
        cases j with
        | zero =>
          simp only [List.getElem?_cons_zero, Option.some.injEq] at hj
          subst hj
          exact ⟨pd, x, _, hpd, hx, rfl, _, b, rfl, p8⟩
        | succ j =>
          rw [List.getElem?_cons_succ, List.getElem?_append] at hj
          simp only [els, List.getElem?_cons_succ, List.getElem?_append, els_length, p4]
          split at hj
          · rename_i hlt
            rw [if_pos hlt]
            exact p6 j i' hj
          · rename_i hlt
            rw [if_neg hlt]
            exact q6 _ i' hj

end Verif.Lemmas.CinitPrint
