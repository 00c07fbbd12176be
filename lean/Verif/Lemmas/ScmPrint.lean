import Verif.Lemmas.ScmTok
import Verif.Lemmas.Dfs
/-!
# The text of a Scheme document and its tokens
-/
namespace Verif.Lemmas.ScmPrint
open Verif.Model Verif.Model.Ptrs Verif.Model.Scm Verif.Spec Verif.Spec.Ptrs Verif.Spec.Scm
open Verif.Lemmas.ScmLex Verif.Lemmas.ScmTok Verif.Lemmas.ScmLoad
open Verif.Lemmas.ScmLoad.DF
open Verif.Model.Json (indent)
open Verif.Model.Xml1 (sRef sContent sIdx)
open Verif.Spec.Xml1 (Name)

theorem indent_space (level : Int) : ∀ c ∈ indent level, isspace c = true := by
  intro c hc
  rw [List.eq_of_mem_replicate hc]
  rfl

/-! ### the end of the line -/

/-- the text does not end with a newline -/
def NL (w : List Nat) : Prop := w.getLast? ≠ some 10

/-- the newline that may be taken back -/
def nl (b : Bool) : List Nat := if b then [10] else []

theorem nl_right {a c : List Nat} (h : NL c) (hc : c ≠ []) : NL (a ++ c) := by
  unfold NL at h ⊢
  rw [List.getLast?_append]
  cases hg : c.getLast? with
  | none => exact absurd (List.getLast?_eq_none_iff.1 hg) hc
  | some x => rw [hg] at h; simpa using h

theorem nl_both {a c : List Nat} (h1 : NL a) (h : NL c) : NL (a ++ c) := by
  by_cases hc : c = []
  · subst hc; rwa [List.append_nil]
  · exact nl_right h hc

theorem nl_last {a : List Nat} {c : Nat} (h : c ≠ 10) : NL (a ++ [c]) := by
  unfold NL
  rw [List.getLast?_append]
  simpa using h

theorem endsLine_nl {base : List Nat} (h : NL base) (b : Bool) : endsLine (base ++ nl b) = b := by
  unfold endsLine nl
  cases b with
  | true => simp
  | false =>
    unfold NL at h
    simpa using h

theorem fresh_nl {base : List Nat} (h : NL base) (b : Bool) (level : Int) : fresh (base ++ nl b) level = base ++ 10 :: indent level := by
  unfold fresh
  rw [endsLine_nl h]
  cases b <;> simp [nl]

theorem cond_fresh {base : List Nat} (h : NL base) (b : Bool) (level : Int) : fresh? (base ++ nl b) level = base ++ (if b then 10 :: indent level else []) := by
  unfold fresh?
  rw [endsLine_nl h, fresh_nl h]
  cases b <;> simp [nl]

theorem cond_fresh_nl {base : List Nat} (h : NL base) (level : Int) : fresh? base level = base := by
  have := cond_fresh h false level
  simpa [nl] using this

theorem cond_fresh_indent (a : List Nat) (level : Int) : fresh? (a ++ 10 :: indent level) level = a ++ 10 :: indent level := by
  by_cases hi : indent level = []
  · rw [hi]
    unfold fresh? fresh endsLine
    simp [hi]
  · have : NL (a ++ 10 :: indent level) := by
      have e : a ++ 10 :: indent level = (a ++ [10]) ++ indent level := by simp
      rw [e]
      refine nl_right ?_ hi
      intro h
      have := indent_space level 10 (List.mem_of_getLast? h)
      have h2 := List.eq_of_mem_replicate (List.mem_of_getLast? h)
      cases h2
    exact cond_fresh_nl this level

theorem iv_nl (a name : List Nat) (n : Nat) : NL (a ++ ivalueText name n) := by
  have : a ++ ivalueText name n = (a ++ 59 :: 40 :: (name ++ 32 :: 46 :: 32 :: Xml1.number n)) ++ [41] := by simp [ivalueText]
  rw [this]
  exact nl_last (by decide)

theorem endsLine_attr (a name : List Nat) (n : Nat) : endsLine (a ++ attr name n) = true := by
  have := endsLine_nl (iv_nl a name n) true
  rw [attr_eq, ← List.append_assoc]
  exact this

theorem fresh_attr (a name : List Nat) (n : Nat) (level : Int) : fresh (a ++ attr name n) level = a ++ (attr name n ++ indent level) := by
  have := fresh_nl (iv_nl a name n) true level
  rw [attr_eq, ← List.append_assoc]
  rw [show a ++ ivalueText name n ++ [10] = a ++ ivalueText name n ++ nl true from rfl, this]
  simp

/-! ### a node -/

/-- the public index of the target -/
def tgt (ra : List Pd) (pd : Pd) : Nat := match ra[pd.firstChild]? with | some t => t.idx | none => 0

/-- the element written for a node -/
def el (ra : List Pd) (pd : Pd) (x : Info) (body : Body) : El :=
  { name := if x.unnamed then none else some x.name, ref := if pd.ref then some (tgt ra pd) else none, cref := if pd.cref then some (tgt ra pd) else none,
    refd := if pd.refd then some pd.idx else none, body := body }

def nameText (x : Info) : List Nat := if x.unnamed then [] else 40 :: (x.name ++ [32, 46, 32])

def refText (level : Int) (name : List Nat) : Option Nat → List Nat
  | none => []
  | some n => attr name n ++ indent level

/-- the attributes, every one with the line after it -/
def attrText (level : Int) (e : El) : List Nat := refText level sRef e.ref ++ (refText level sContent e.cref ++ refText level sIdx e.refd)

theorem attrText_body (level : Int) (ra : List Pd) (pd : Pd) (x : Info) (b c : Body) : attrText level (el ra pd x b) = attrText level (el ra pd x c) := rfl

/-- does the node start a line? -/
def starts (pd : Pd) (x : Info) : Bool := pd.ref || pd.cref || pd.refd || !x.unnamed

/-- not the first child of its parent -/
def second (ra : List Pd) (par i : Nat) : Bool := par ≠ 0 && (match ra[par]? with | some p => decide (p.firstChild ≠ i) | none => false)

/-- what is written before a node, after a line (`b`) or within one -/
def sepText (ra : List Pd) (par i : Nat) (pd : Pd) (x : Info) (level : Int) (b : Bool) : List Nat :=
  if b || starts pd x then 10 :: indent level else if second ra par i then [32] else []

/-- is the list opened before the children? -/
def opens (pd : Pd) : Bool := pd.firstChild ≠ 0 && !isRef pd

theorem opens_iff (pd : Pd) : opens pd = true ↔ (pd.firstChild ≠ 0 ∧ isRef pd = false) := by
  unfold opens; simp

theorem attrs_eq {ra : List Pd} {pd : Pd} {x : Info} (hok : NodeOK ra pd x) {base : List Nat} (h : NL base) (b : Bool) (level : Int) (body : Body) :
    ∃ out, refAttr ra (base ++ nl b) pd level = some out ∧
      endsLine (idxAttr out pd level) = (b || (pd.ref || pd.cref || pd.refd)) ∧
      fresh (idxAttr out pd level) level = base ++ (10 :: indent level ++ attrText level (el ra pd x body)) ∧
      ((b || (pd.ref || pd.cref || pd.refd)) = false → idxAttr out pd level = base ∧ attrText level (el ra pd x body) = []) := by
  unfold refAttr idxAttr
  by_cases hr : (pd.ref || pd.cref) = true
  · obtain ⟨_, hnot, t, ht, _⟩ := hok.ref hr
    have hr' : isRef pd = true := hr
    rw [if_pos hr']
    simp only [ht]
    refine ⟨_, rfl, ?_, ?_, fun h => ?_⟩
    · cases pd.refd
      · simp only [Bool.false_eq_true, if_false, Bool.or_false, hr, Bool.or_true]
        exact endsLine_attr _ _ _
      · simp only [if_true, Bool.or_true]
        exact endsLine_attr _ _ _
    · have hA : ∀ e : Body, attrText level (el ra pd x e) = attr (if pd.cref then sContent else sRef) t.idx ++ indent level ++ (if pd.refd then attr sIdx pd.idx ++ indent level else []) := by
        intro e
        unfold attrText el tgt
        simp only [ht]
        revert hr hnot
        cases pd.ref <;> cases pd.cref <;> simp <;> cases pd.refd <;> simp [refText]
      rw [hA]
      cases pd.refd
      · simp only [Bool.false_eq_true, if_false, fresh_attr, fresh_nl h]
        simp
      · simp only [if_true, fresh_attr, fresh_nl h]
        simp
    · rw [hr] at h
      simp at h
  · have hr1 : pd.ref = false := by revert hr; cases pd.ref <;> simp
    have hr2 : pd.cref = false := by revert hr; cases pd.cref <;> simp
    have hr' : ¬ isRef pd = true := hr
    rw [if_neg hr']
    refine ⟨_, rfl, ?_, ?_, fun h' => ?_⟩
    · cases hd : pd.refd
      · simp only [Bool.false_eq_true, if_false, hr1, hr2, Bool.or_false]
        exact endsLine_nl h b
      · simp only [if_true, Bool.or_true]
        exact endsLine_attr _ _ _
    · unfold attrText el
      cases hd : pd.refd
      · simp only [Bool.false_eq_true, if_false, hr1, hr2, refText, fresh_nl h]
        simp
      · simp only [Bool.false_eq_true, if_true, if_false, hr1, hr2, refText, fresh_attr, fresh_nl h]
        simp
    · rw [hr1, hr2] at h'
      simp only [Bool.or_false, Bool.false_or, Bool.or_eq_false_iff] at h'
      rw [h'.1, h'.2]
      unfold attrText el
      simp [hr1, hr2, h'.2, refText, nl]

theorem prePrint_eq {info : List Info} {ra : List Pd} {i par : Nat} {pd : Pd} {x : Info} (hi : ra[i]? = some pd) (hx : info[i]? = some x) (hpar : pd.parent = par)
    (hp : par ≠ 0 → ∃ p, ra[par]? = some p)
    (hok : NodeOK ra pd x) {ht : List Nat} (hh : handler pd x = some (some ht)) {base : List Nat} (h : NL base) (b : Bool) (level : Int) (body : Body) :
    prePrint info ra (base ++ nl b) i level = some (true, base ++ (sepText ra par i pd x level b ++ (attrText level (el ra pd x body) ++ (nameText x ++
      ((if opens pd then [40] else []) ++ ht))))) := by
  obtain ⟨out, h1, h2, h3, h4⟩ := attrs_eq hok h b level body
  unfold prePrint
  simp only [hi, hx, h1, Option.bind_eq_bind, Option.bind_some]
  generalize (idxAttr out pd level) = out2 at h2 h3 h4 ⊢
  -- the name
  have hname : nameOrGap ra out2 i pd x level =
      some (base ++ (sepText ra par i pd x level b ++ (attrText level (el ra pd x body) ++ nameText x))) ∧
      fresh? (base ++ (sepText ra par i pd x level b ++ (attrText level (el ra pd x body) ++ nameText x))) level =
        base ++ (sepText ra par i pd x level b ++ (attrText level (el ra pd x body) ++ nameText x)) := by
    unfold nameOrGap sepText starts nameText
    cases hu : x.unnamed with
    | false =>
      simp only [Bool.false_eq_true, if_false, Bool.not_false, Bool.or_true, if_true, h3]
      refine ⟨by simp, ?_⟩
      have e : base ++ (10 :: indent level ++ (attrText level (el ra pd x body) ++ 40 :: (x.name ++ [32, 46, 32]))) =
          (base ++ (10 :: indent level ++ (attrText level (el ra pd x body) ++ 40 :: (x.name ++ [32, 46])))) ++ [32] := by simp
      rw [e]
      exact cond_fresh_nl (nl_last (by decide)) level
    | true =>
      simp only [if_true, Bool.not_true, Bool.or_false, h2, List.append_nil]
      cases hc : (b || (pd.ref || pd.cref || pd.refd)) with
      | true =>
        simp only [if_true, h3]
        refine ⟨by simp, ?_⟩
        -- the text ends with the indentation
        have hidem : ∀ a : List Nat, fresh? (a ++ 10 :: indent level) level = a ++ 10 :: indent level := fun a => cond_fresh_indent a level
        have hend : ∃ a, base ++ (10 :: indent level ++ attrText level (el ra pd x body)) = a ++ 10 :: indent level := by
          have hA : attrText level (el ra pd x body) = [] ∨ ∃ a, attrText level (el ra pd x body) = a ++ 10 :: indent level := by
            have one : ∀ name (o : Option Nat), refText level name o = [] ∨ ∃ a, refText level name o = a ++ 10 :: indent level := by
              intro name o
              cases o with
              | none => exact .inl rfl
              | some n => exact .inr ⟨ivalueText name n, by simp [refText, attr_eq]⟩
            unfold attrText
            rcases one sIdx (el ra pd x body).refd with h5 | ⟨a, h5⟩
            · rw [h5, List.append_nil]
              rcases one sContent (el ra pd x body).cref with h6 | ⟨a, h6⟩
              · rw [h6, List.append_nil]
                exact one _ _
              · right; rw [h6]; exact ⟨refText level sRef (el ra pd x body).ref ++ a, by simp⟩
            · right; rw [h5]; exact ⟨refText level sRef (el ra pd x body).ref ++ (refText level sContent (el ra pd x body).cref ++ a), by simp⟩
          rcases hA with hA | ⟨a, hA⟩
          · exact ⟨base, by rw [hA]; simp⟩
          · exact ⟨base ++ (10 :: indent level ++ a), by rw [hA]; simp⟩
        obtain ⟨a, ha⟩ := hend
        rw [ha]
        exact hidem a
      | false =>
        obtain ⟨h5, h6⟩ := h4 hc
        rw [h5, h6]
        simp only [Bool.false_eq_true, if_false, List.append_nil, hpar]
        by_cases hp0 : par = 0
        · subst hp0
          refine ⟨?_, ?_⟩
          · simp [second]
          · simp only [second, ne_eq, not_true_eq_false, decide_false, Bool.false_and, Bool.false_eq_true, if_false, List.append_nil]
            exact cond_fresh_nl h level
        · obtain ⟨p, hp⟩ := hp hp0
          simp only [ne_eq, hp0, not_false_eq_true, hp, second, decide_true, Bool.true_and, decide_eq_true_eq]
          by_cases hf : p.firstChild = i
          · simp only [hf, not_true_eq_false, if_false, List.append_nil]
            exact ⟨trivial, cond_fresh_nl h level⟩
          · simp only [hf, not_false_eq_true, if_true, if_false, true_and]
            exact (cond_fresh_nl (nl_last (by decide)) level)
  obtain ⟨n1, n2⟩ := hname
  simp only [n1, Option.bind_some, hh]
  have hfin : ∀ T : List Nat, fresh? T level = T →
      (if x.unnamed = true ∧ pd.firstChild = 0 then fresh? (if pd.firstChild ≠ 0 ∧ isRef pd = false then fresh? T level ++ [40] else T) level
        else if pd.firstChild ≠ 0 ∧ isRef pd = false then fresh? T level ++ [40] else T) = T ++ (if opens pd then [40] else []) := by
    intro T hT
    by_cases ho : pd.firstChild ≠ 0 ∧ isRef pd = false
    · rw [if_neg (fun h => ho.1 h.2), if_pos ho, hT, if_pos ((opens_iff pd).2 ho)]
    · rw [if_neg ho, if_neg (fun h => ho ((opens_iff pd).1 h)), List.append_nil, hT]
      split <;> rfl
  rw [hfin _ n2]
  simp

theorem postPrint_eq {info : List Info} {ra : List Pd} {i : Nat} {pd : Pd} {x : Info} (hi : ra[i]? = some pd) (hx : info[i]? = some x)
    {base : List Nat} (h : NL base) (b : Bool) (level : Int) :
    postPrint info ra (base ++ nl b) i level = some (if !x.unnamed || opens pd then
      base ++ ((if b then 10 :: indent level else []) ++ 41 :: (if !x.unnamed && opens pd then [41] else [])) ++ nl true else base ++ nl b) := by
  unfold postPrint
  simp only [hi, hx, Option.bind_eq_bind, Option.bind_some, cond_fresh h]
  have ho := opens_iff pd
  cases hu : x.unnamed <;> cases hop : opens pd <;> rw [hop] at ho
  · have h3 : ¬ (isRef pd = false ∧ pd.firstChild ≠ 0) := fun h => by have := ho.2 ⟨h.2, h.1⟩; cases this
    simp [h3, nl]
  · have h3 := ho.1 rfl
    simp [h3, nl]
  · have h3 : ¬ (pd.firstChild ≠ 0 ∧ isRef pd = false) := fun h => by have := ho.2 h; cases this
    simp [h3]
  · have h3 := ho.1 rfl
    simp [h3, nl]

/-- what the reader finds -/
structure Sem (pd : Pd) (x : Info) (y : Loaded) : Prop where
  null : Nil pd x → y.null = true ∧ y.value = .int 0
  list : ¬ Nil pd x → compound pd.ty = true → y.null = false ∧ y.value = .none
  leaf : ¬ Nil pd x → compound pd.ty = false → ReadAs x.leaf y.null y.value

def BodyOK (b : Body) : Prop := match b with
  | .tok t n v => meaning t = some (n, v)
  | .list => True

/-- a node that is not written as a list with members -/
structure ItemText (pd : Pd) (x : Info) (text : List Nat) (b : Body) : Prop where
  kids : kidsHead pd = 0
  closed : opens pd = false
  sem : Sem pd x (entry b)
  ok : BodyOK b
  head : ∀ rest, Head (text ++ rest)
  last : NL text
  lex : ∀ rest ts, Ends rest → lex rest = some ts → lex (text ++ rest) = some (bodyToks b [] ++ ts)

theorem value_ok {ra : List Pd} {pd : Pd} {x : Info} (h : NodeOK ra pd x) :
    ∃ text, handler pd x = some (some text) ∧ ((text = [] ∧ opens pd = true ∧ Sem pd x (entry .list)) ∨ ∃ b, ItemText pd x text b) := by
  by_cases hn : Nil pd x
  · have hh : handler pd x = some (some sNil) := by
      unfold handler
      rcases hn with hn | ⟨hn, ht⟩
      · have e : (x.null || pd.ref || pd.cref) = true := by
          revert hn; cases x.null <;> cases pd.ref <;> cases pd.cref <;> simp
        rcases (h.ref hn).1 with ht | ht <;> rw [ht] <;> simp only [e, if_true]
      · rcases ht with ht | ht | ht | ht <;> rw [ht] <;> simp [hn]
    have hk : (pd.ref || pd.cref) = false → pd.firstChild = 0 := fun h0 => h.children h0 (.inl hn)
    refine ⟨_, hh, .inr ⟨.tok .false true (.int 0), ?_, ?_, ⟨fun _ => ⟨rfl, rfl⟩, fun h => absurd hn h, fun h => absurd hn h⟩, rfl, fun rest => ?_, by unfold NL; decide,
      fun rest ts hr ht => lex_nil hr ht⟩⟩
    · unfold kidsHead
      split
      · rfl
      · rename_i h0
        exact hk (by simpa using h0)
    · unfold opens isRef
      cases h0 : (pd.ref || pd.cref)
      · simp [hk h0]
      · simp
    · exact ⟨_, _, rfl, by decide, by decide, by decide⟩
  · have hr : (pd.ref || pd.cref) = false := by
      cases h0 : (pd.ref || pd.cref)
      · rfl
      · exact absurd (.inl h0) hn
    have hr1 : pd.ref = false := by revert hr; cases pd.ref <;> simp
    have hr2 : pd.cref = false := by revert hr; cases pd.cref <;> simp
    obtain ⟨t1, t2, t3, t4⟩ := h.kind hn
    have hop : pd.firstChild ≠ 0 → opens pd = true := fun h0 => (opens_iff pd).2 ⟨h0, hr⟩
    have hsem : compound pd.ty = true → Sem pd x (entry .list) := fun hc => ⟨fun h => absurd h hn, fun _ _ => ⟨rfl, rfl⟩, (fun _ e => by rw [hc] at e; cases e)⟩
    by_cases hp : pd.ty = .pointer
    · have hnull : x.null = false := by
        cases h0 : x.null
        · rfl
        · exact absurd (.inr ⟨h0, .inl hp⟩) hn
      refine ⟨[], ?_, .inl ⟨rfl, hop (h.pointer hn hp), hsem (by rw [hp]; rfl)⟩⟩
      unfold handler
      rw [hp]
      simp [hnull, hr1, hr2]
    · by_cases hc : compound pd.ty = true
      · have hh : handler pd x = some (some (if pd.firstChild = 0 then [40, 41] else [])) := by
          unfold handler
          revert hc hp; generalize pd.ty = ty; cases ty <;> simp [compound]
        by_cases h0 : pd.firstChild = 0
        · rw [if_pos h0] at hh
          refine ⟨_, hh, .inr ⟨.list, ?_, ?_, hsem hc, trivial, fun rest => ⟨_, _, rfl, by decide, by decide, by decide⟩, by unfold NL; decide, fun rest ts hR ht => ?_⟩⟩
          · unfold kidsHead; rw [h0]; split <;> rfl
          · unfold opens; simp [h0]
          · have h1 := lex_rpar (w := []) (by simp) ht
            have h2 := lex_lpar (w := []) (by simp) (fun c t e => by cases e; decide) h1
            exact h2
        · rw [if_neg h0] at hh
          exact ⟨_, hh, .inl ⟨rfl, hop h0, hsem hc⟩⟩
      · have hc' : compound pd.ty = false := by simpa using hc
        obtain ⟨t, tok, n, v, l1, l2, l3, l4, l5, l6⟩ := lex_leaf (h.leaf hn hc')
        have hnull : pd.ty = .string ∨ pd.ty = .func ∨ pd.ty = .funcType → x.null = false := by
          intro ht
          cases h0 : x.null
          · rfl
          · exact absurd (.inr ⟨h0, .inr ht⟩) hn
        have hh : handler pd x = some (some t) := by
          unfold handler
          revert t1 t2 t3 t4 hc' hnull; generalize pd.ty = ty
          cases ty <;> simp +contextual [compound, l1, hr1, hr2]
        have h0 : pd.firstChild = 0 := h.children hr (.inr hc')
        refine ⟨t, hh, .inr ⟨.tok tok n v, ?_, ?_, ⟨fun h => absurd h hn, (fun _ e => by rw [hc'] at e; cases e), fun _ _ => l5⟩, l4, l2, l3, fun rest ts hR ht => l6 rest ts hR ht⟩⟩
        · unfold kidsHead; rw [h0]; split <;> rfl
        · unfold opens; simp [h0]

/-! ### tokens of the parts -/

theorem name_ref : Name sRef := by unfold Name; exact ⟨⟨_, rfl, .inl (by decide)⟩, by decide⟩
theorem name_content : Name sContent := by unfold Name; exact ⟨⟨_, rfl, .inl (by decide)⟩, by decide⟩
theorem name_idx : Name sIdx := by unfold Name; exact ⟨⟨_, rfl, .inl (by decide)⟩, by decide⟩

theorem head_ref (level : Int) (name : List Nat) (o : Option Nat) {rest : List Nat} (h : Head rest) : Head (refText level name o ++ rest) := by
  cases o with
  | none => exact h
  | some n => exact ⟨59, _, rfl, by decide, by decide, by decide⟩

theorem nonspace {rest : List Nat} (h : Head rest) : ∀ c t, rest = c :: t → isspace c = false := by
  obtain ⟨c, t, e, h1, _⟩ := h
  intro c' t' e'
  rw [e] at e'
  rw [← (List.cons.inj e').1]
  exact h1

theorem lex_ref (level : Int) {name : List Nat} (hn : Name name) {o : Option Nat} (ho : ∀ n, o = some n → n < 2 ^ 32) {rest : List Nat} {ts : List Tok}
    (hr : Head rest) (h : lex rest = some ts) : lex (refText level name o ++ rest) = some (El.refToks name o ++ ts) := by
  cases o with
  | none => exact h
  | some n =>
    have := lex_attr hn (ho n rfl) (indent_space level) (nonspace hr) h
    simpa [refText, El.refToks] using this

theorem head_attrs (level : Int) (e : El) {rest : List Nat} (h : Head rest) : Head (attrText level e ++ rest) := by
  unfold attrText
  simp only [List.append_assoc]
  exact head_ref _ _ _ (head_ref _ _ _ (head_ref _ _ _ h))

theorem lex_attrs (level : Int) {e : El} (h1 : ∀ n, e.ref = some n → n < 2 ^ 32) (h2 : ∀ n, e.cref = some n → n < 2 ^ 32) (h3 : ∀ n, e.refd = some n → n < 2 ^ 32)
    {rest : List Nat} {ts : List Tok} (hr : Head rest) (h : lex rest = some ts) :
    lex (attrText level e ++ rest) = some (El.refToks sRef e.ref ++ (El.refToks sContent e.cref ++ (El.refToks sIdx e.refd ++ ts))) := by
  unfold attrText
  simp only [List.append_assoc]
  exact lex_ref level name_ref h1 (head_ref _ _ _ (head_ref _ _ _ hr)) (lex_ref level name_content h2 (head_ref _ _ _ hr) (lex_ref level name_idx h3 hr h))

theorem head_name {x : Info} {rest : List Nat} (h : Head rest) : Head (nameText x ++ rest) := by
  unfold nameText
  split
  · exact h
  · exact ⟨40, _, rfl, by decide, by decide, by decide⟩

/-- a value with its name -/
theorem lex_value {ra : List Pd} {pd : Pd} {x : Info} (hx : x.unnamed = false → Ident x.name) {b : Body} {inside : List Tok} {text : List Nat}
    (hh : ∀ rest, Head (text ++ rest))
    (hb : ∀ rest ts, Ends rest → lex rest = some ts → lex (text ++ rest) = some (bodyToks b inside ++ ts)) :
    ∀ rest ts, Ends rest → lex rest = some ts →
      lex (nameText x ++ (text ++ ((if !x.unnamed then [41] else []) ++ rest))) = some (valueToks (el ra pd x b) inside ++ ts) := by
  intro rest ts hr ht
  unfold valueToks nameText el
  cases hu : x.unnamed with
  | true => simpa using hb rest ts hr ht
  | false =>
    have h1 : lex (41 :: rest) = some (.rpar :: ts) := lex_rpar (w := []) (by simp) ht
    have h2 := hb (41 :: rest) _ (fun c t e => by cases e; exact .inr rfl) h1
    have h3 := lex_dot (nonspace (hh _)) h2
    have h4 := lex_ident (hx hu) (fun c t e => by cases e; exact .inl rfl) h3
    have hn : ∀ c t, x.name ++ 32 :: 46 :: 32 :: (text ++ 41 :: rest) = c :: t → isspace c = false := by
      obtain ⟨⟨⟨c0, h5, h6⟩, _⟩, _⟩ := hx hu
      intro c t e
      cases hnm : x.name with
      | nil => rw [hnm] at h5; cases h5
      | cons a l =>
        rw [hnm] at h5 e
        cases h5
        rw [← (List.cons.inj e).1]
        refine start_space ((start_iff _).2 ?_)
        unfold isalpha isupper islower at h6
        simp only [Bool.or_eq_true, Bool.and_eq_true, decide_eq_true_eq] at h6
        omega
    have h5 := lex_lpar (w := []) (by simp) hn h4
    simpa using h5

/-! ### a forest -/

/-- the element written for a node -/
def Same (ra : List Pd) (pd : Pd) (x : Info) (e : El) : Prop := ∃ body, e = el ra pd x body ∧ Sem pd x (entry body)

/-- the elements in document order -/
def els : DF → List El
  | .nil => []
  | .cons e k s => e :: (els k ++ els s)

theorem els_length (D : DF) : (els D).length = D.shape.nodes.length := by
  induction D with
  | nil => rfl
  | cons e k s ih1 ih2 => simp [els, shape, Forest.nodes, ih1, ih2]

theorem els_data (D : DF) : D.data = (els D).map El.data := by
  induction D with
  | nil => rfl
  | cons e k s ih1 ih2 => simp [els, DF.data, ih1, ih2]

theorem canon_get (w : List Nat → Bool) (D : DF) : ∀ (p n j : Nat) (e : El), WF w D → (els D)[j]? = some e →
    ∃ q : Pd, (canon p n D)[j]? = some q ∧ q.ref = e.ref.isSome ∧ q.cref = e.cref.isSome ∧ q.refd = e.refd.isSome ∧ q.idx = e.refd.getD 0 ∧
      (e.isRef = true → q.firstChild = e.ref.getD (e.cref.getD 0)) := by
  induction D with
  | nil => intro p n j e _ h; simp [els] at h
  | cons e0 k s ih1 ih2 =>
    intro p n j e hwf h
    obtain ⟨_, h2, _, h3, h4⟩ := hwf
    cases j with
    | zero =>
      simp only [els, List.getElem?_cons_zero, Option.some.injEq] at h
      subst h
      refine ⟨_, rfl, rfl, rfl, rfl, rfl, fun hr => ?_⟩
      have := h2 hr
      subst this
      rfl
    | succ j =>
      simp only [els, List.getElem?_cons_succ, List.getElem?_append, els_length] at h
      simp only [canon, List.getElem?_cons_succ, List.getElem?_append, canon_length]
      split at h
      · rename_i hlt
        rw [if_pos hlt]
        exact ih1 _ _ _ _ h3 h
      · rename_i hlt
        rw [if_neg hlt]
        exact ih2 _ _ _ _ h4 h

/-- siblings have a parent, and only the first of them is its first child -/
def Ctx (ra : List Pd) (par : Nat) (f : Forest) : Prop :=
  (par = 0 ∧ ∀ i k s, f = .cons i k s → s = .nil) ∨ (par ≠ 0 ∧ ∃ p, ra[par]? = some p ∧ ∀ i k s, f = .cons i k s → p.firstChild ∉ s.nodes)

/-- none of the nodes is the first child -/
def Tail (ra : List Pd) (par : Nat) (f : Forest) : Prop := par ≠ 0 ∧ ∃ p, ra[par]? = some p ∧ p.firstChild ∉ f.nodes

/-- the text of a forest: `sep b` before it, after a line (`b`) or within one, then `core`, then a newline if `bo` -/
structure Text (w : List Nat → Bool) (ra : List Pd) (info : List Info) (f : Forest) (par : Nat) (level : Int)
    (sep : Bool → List Nat) (core : List Nat) (bo : Bool) (D : DF) : Prop where
  space : ∀ b, ∀ c ∈ sep b, isspace c = true
  tail : Tail ra par f → ∀ b, sep b ≠ []
  first : sep true ≠ []
  head : ∀ rest, Head (core ++ rest)
  last : NL core
  call : ∀ (base : List Nat) (b : Bool) (es : List (Nat × Int × Order)), NL base →
    callAll (printNode info) (f.events level ++ es) (ra, base ++ nl b) = callAll (printNode info) es (ra, base ++ (sep b ++ core) ++ nl bo)
  lex : ∀ rest ts, Ends rest → lex rest = some ts → lex (core ++ rest) = some (D.toks ++ ts)

/-- the forest read from the text -/
structure Read (w : List Nat → Bool) (ra : List Pd) (info : List Info) (f : Forest) (D : DF) : Prop where
  wf : WF w D
  number : ∀ n, Ptrs.number n D.shape = Ptrs.number n f
  empty : D.shape = .nil ↔ f = .nil
  length : D.shape.nodes.length = f.nodes.length
  same : ∀ (j i : Nat), f.nodes[j]? = some i → ∃ pd x e, ra[i]? = some pd ∧ info[i]? = some x ∧ (els D)[j]? = some e ∧ Same ra pd x e

theorem head_ne {core : List Nat} (h : ∀ rest, Head (core ++ rest)) : core ≠ [] := by
  intro e
  obtain ⟨c, t, e', _⟩ := h []
  rw [e] at e'
  cases e'

theorem ends_space {w rest : List Nat} (hw : w ≠ []) (h : ∀ c ∈ w, isspace c = true) : Ends (w ++ rest) := by
  intro c t e
  cases w with
  | nil => exact absurd rfl hw
  | cons a l =>
    rw [← (List.cons.inj e).1]
    exact .inl (h a (by simp))

theorem ends_rpar {w rest : List Nat} (h : ∀ c ∈ w, isspace c = true) : Ends (w ++ 41 :: rest) := by
  intro c t e
  cases w with
  | nil => cases e; exact .inr rfl
  | cons a l =>
    rw [← (List.cons.inj e).1]
    exact .inl (h a (by simp))

theorem sep_space (ra : List Pd) (par i : Nat) (pd : Pd) (x : Info) (level : Int) (b : Bool) : ∀ c ∈ sepText ra par i pd x level b, isspace c = true := by
  intro c hc
  unfold sepText at hc
  split at hc
  · rcases List.mem_cons.1 hc with rfl | hc
    · decide
    · exact indent_space level c hc
  · split at hc
    · rw [List.mem_singleton.1 hc]; decide
    · cases hc

theorem close_space (b : Bool) (level : Int) : ∀ c ∈ (if b then 10 :: indent level else []), isspace c = true := by
  intro c hc
  cases b
  · cases hc
  · rcases List.mem_cons.1 hc with rfl | hc
    · decide
    · exact indent_space level c hc

/-- the text of a node and its children -/
theorem print_node (w : List Nat → Bool) (ra : List Pd) (info : List Info) {i par : Nat} {pd : Pd} {x : Info} {k : Forest} (level : Int)
    (hpd : ra[i]? = some pd) (hx : info[i]? = some x) (hpar : pd.parent = par) (hp : par ≠ 0 → ∃ p, ra[par]? = some p)
    (hok : NodeOK ra pd x) (hkn : x.unnamed = false → w x.name = true) (hk : Rep ra i (kidsHead pd) k)
    (ih : k ≠ .nil → ∃ sep core bo D, Text w ra info k i (level + 1) sep core bo D ∧ Read w ra info k D) :
    ∃ core bo b Dk, Read w ra info k Dk ∧ WF w (.cons (el ra pd x b) Dk .nil) ∧ Sem pd x (entry b) ∧
      (∀ rest, Head (core ++ rest)) ∧ NL core ∧
      (∀ (base : List Nat) (b : Bool) (es : List (Nat × Int × Order)), NL base →
        callAll (printNode info) ((i, level, .pre) :: (k.events (level + 1) ++ (i, level, .post) :: es)) (ra, base ++ nl b) =
          callAll (printNode info) es (ra, base ++ (sepText ra par i pd x level b ++ core) ++ nl bo)) ∧
      (∀ rest ts, Ends rest → lex rest = some ts → lex (core ++ rest) = some (scmToks (el ra pd x b) Dk.toks ++ ts)) := by
  obtain ⟨ht, hh, hb⟩ := value_ok hok
  have htgt : (pd.ref || pd.cref) = true → tgt ra pd < 2 ^ 32 := by
    intro h
    obtain ⟨_, _, u, hu, hu2⟩ := hok.ref h
    unfold tgt
    rw [hu]
    exact hu2
  have hattr : ∀ (b : Body) rest ts, Head rest → lex rest = some ts → lex (attrText level (el ra pd x b) ++ rest) =
      some (El.refToks sRef (el ra pd x b).ref ++ (El.refToks sContent (el ra pd x b).cref ++ (El.refToks sIdx (el ra pd x b).refd ++ ts))) := by
    intro b rest ts h1 h2
    refine lex_attrs level (fun n hn => ?_) (fun n hn => ?_) (fun n hn => ?_) h1 h2
    · have hn : (if pd.ref then some (tgt ra pd) else none) = some n := hn
      split at hn
      · rename_i h; cases hn; exact htgt (by simp [h])
      · cases hn
    · have hn : (if pd.cref then some (tgt ra pd) else none) = some n := hn
      split at hn
      · rename_i h; cases hn; exact htgt (by simp [h])
      · cases hn
    · have hn : (if pd.refd then some pd.idx else none) = some n := hn
      split at hn
      · rename_i h; cases hn; exact hok.refd h
      · cases hn
  have hname : ∀ (b : Body) n, (el ra pd x b).name = some n → w n = true := by
    intro b n hn
    have hn : (if x.unnamed then none else some x.name) = some n := hn
    split at hn
    · cases hn
    · rename_i hu; cases hn; exact hkn (by simpa using hu)
  have hisref : ∀ b : Body, (el ra pd x b).isRef = (pd.ref || pd.cref) := by
    intro b
    simp only [El.isRef, el]
    cases pd.ref <;> cases pd.cref <;> simp
  rcases hb with ⟨hnil, hop, hsem⟩ | ⟨b, hb⟩
  · -- a list with members
    obtain ⟨o1, o2⟩ := (opens_iff pd).1 hop
    have hkk : k ≠ .nil := by
      intro e
      have := (Lemmas.Dfs.rep_nil_iff hk).2 e
      unfold kidsHead at this
      rw [if_neg (by rw [show (pd.ref || pd.cref) = false from o2]; decide)] at this
      exact o1 this
    obtain ⟨sep, core, bo, D, hT, hR⟩ := ih hkk
    have hval : ∀ rest, Head (40 :: (sep false ++ core ++ (if bo then 10 :: indent level else []) ++ [41]) ++ rest) := fun rest =>
      ⟨40, _, rfl, by decide, by decide, by decide⟩
    refine ⟨attrText level (el ra pd x .list) ++ (nameText x ++ (40 :: (sep false ++ core ++ (if bo then 10 :: indent level else []) ++ [41]) ++ (if !x.unnamed then [41] else []))),
      true, .list, D, hR, ⟨⟨hname _, trivial⟩, ?_, trivial, hR.wf, trivial⟩, hsem, ?_, ?_, ?_, ?_⟩
    · intro h
      rw [hisref] at h
      have o2 : (pd.ref || pd.cref) = false := o2
      rw [o2] at h
      cases h
    · intro rest
      simp only [List.append_assoc]
      exact head_attrs _ _ (head_name ⟨40, _, rfl, by decide, by decide, by decide⟩)
    · cases x.unnamed
      · refine nl_right (nl_right (nl_right ?_ ?_) ?_) ?_
        · unfold NL; simp
        all_goals simp
      · refine nl_right (nl_right ?_ ?_) ?_
        · have : NL (40 :: (sep false ++ core ++ (if bo then 10 :: indent level else [])) ++ [41]) := nl_last (by decide)
          simpa using this
        all_goals simp
    · intro base b es hbase
      rw [callAll]
      simp only [printNode, Option.bind_eq_bind]
      rw [prePrint_eq hpd hx hpar hp hok hh hbase b level .list, hnil, hop]
      simp only [Option.bind_some, Bool.true_eq_false, if_false, if_true, List.append_nil]
      have hb1 : NL (base ++ (sepText ra par i pd x level b ++ (attrText level (el ra pd x .list) ++ (nameText x ++ [40])))) := by
        simp only [← List.append_assoc]
        exact nl_last (by decide)
      have hc := hT.call _ false ((i, level, .post) :: es) hb1
      rw [show nl false = [] from rfl, List.append_nil] at hc
      refine Eq.trans hc ?_
      rw [callAll]
      simp only [printNode, Option.bind_eq_bind]
      rw [postPrint_eq hpd hx (nl_right (nl_right hT.last (head_ne hT.head)) (by simp [head_ne hT.head])), hop]
      simp only [Option.bind_some, Bool.true_eq_false, if_false, if_true, Bool.or_true, Bool.and_true]
      congr 2
      simp
    · intro rest ts hr hl
      have hin : ∀ rest ts, Ends rest → lex rest = some ts → lex (40 :: (sep false ++ core ++ (if bo then 10 :: indent level else []) ++ [41]) ++ rest) = some (bodyToks .list D.toks ++ ts) := by
        intro rest ts _ hl
        have h1 := lex_rpar (close_space bo level) hl
        have h2 := hT.lex _ _ (ends_rpar (close_space bo level)) h1
        have h3 := lex_lpar (hT.space false) (nonspace (hT.head _)) h2
        have e : 40 :: (sep false ++ core ++ (if bo then 10 :: indent level else []) ++ [41]) ++ rest =
          40 :: (sep false ++ (core ++ ((if bo then 10 :: indent level else []) ++ 41 :: rest))) := by simp
        rw [e, h3]
        simp [bodyToks]
      have h4 := lex_value (ra := ra) (pd := pd) hok.name hval hin rest ts hr hl
      have h5 := hattr .list _ _ (head_name (hval _)) h4
      refine Eq.trans ?_ (h5.trans ?_)
      · simp
      · simp [scmToks]
  · have hkf : k = .nil := (Lemmas.Dfs.rep_nil_iff hk).1 hb.kids
    subst hkf
    have hR : Read w ra info .nil .nil := ⟨trivial, fun n => rfl, by simp [shape], rfl, fun j i h => by simp [Forest.nodes] at h⟩
    refine ⟨attrText level (el ra pd x b) ++ (nameText x ++ (ht ++ (if !x.unnamed then [41] else []))), !x.unnamed, b, .nil, hR,
      ⟨⟨hname _, ?_⟩, fun _ => rfl, ?_, trivial, trivial⟩, hb.sem, ?_, ?_, ?_, ?_⟩
    · have := hb.ok
      unfold BodyOK at this
      exact this
    · simp only [el]
      cases b <;> first | exact trivial | rfl
    · intro rest
      simp only [List.append_assoc]
      exact head_attrs _ _ (head_name (hb.head _))
    · cases x.unnamed
      · refine nl_right (nl_right (nl_right ?_ ?_) ?_) ?_
        · unfold NL; simp
        all_goals simp
      · refine nl_right (nl_right ?_ ?_) ?_
        · simpa using hb.last
        all_goals simp [head_ne hb.head]
    · intro base b' es hbase
      rw [callAll]
      simp only [printNode, Option.bind_eq_bind]
      rw [prePrint_eq hpd hx hpar hp hok hh hbase b' level b, hb.closed]
      simp only [Option.bind_some, Bool.true_eq_false, if_false, Forest.events, List.nil_append, Bool.false_eq_true]
      have hb1 : NL (base ++ (sepText ra par i pd x level b' ++ (attrText level (el ra pd x b) ++ (nameText x ++ ht)))) := by
        simp only [← List.append_assoc]
        exact nl_right hb.last (head_ne hb.head)
      rw [callAll]
      simp only [printNode, Option.bind_eq_bind]
      have hq := postPrint_eq hpd hx hb1 false level
      rw [show nl false = [] from rfl, List.append_nil, hb.closed] at hq
      rw [hq]
      cases x.unnamed <;> simp [nl]
    · intro rest ts hr hl
      have h4 := lex_value (ra := ra) (pd := pd) (inside := []) hok.name hb.head hb.lex rest ts hr hl
      have h5 := hattr b _ _ (head_name (hb.head _)) h4
      refine Eq.trans ?_ (h5.trans ?_)
      · simp
      · simp [scmToks, toks]

/-- the text of a forest and, with anything after it, its tokens -/
theorem print_forest (w : List Nat → Bool) (ra : List Pd) (info : List Info) (f : Forest) : ∀ (par head : Nat) (level : Int),
    Rep ra par head f → f.nodes.Nodup → Ctx ra par f → Writable w ra info f.nodes → f ≠ .nil →
    ∃ sep core bo D, Text w ra info f par level sep core bo D ∧ Read w ra info f D := by
  induction f with
  | nil => intro _ _ _ _ _ _ _ h; exact absurd rfl h
  | cons i k s ih1 ih2 =>
    intro par head level hrep hnd hctx hw _
    obtain ⟨_, hi0, pd, hpd, hpp, hk, hs⟩ := hrep
    simp only [Forest.nodes, List.nodup_cons, List.mem_append, not_or] at hnd
    obtain ⟨⟨hik, his⟩, hnd2⟩ := hnd
    rw [List.nodup_append] at hnd2
    obtain ⟨hndk, hnds, hdisj⟩ := hnd2
    obtain ⟨x, hx, hok, hkn⟩ := hw i (by simp [Forest.nodes]) pd hpd
    have hkctx : Ctx ra i k := by
      refine .inr ⟨hi0, pd, hpd, fun i' k' s' e => ?_⟩
      subst e
      obtain ⟨h1, h2, _⟩ := hk
      unfold kidsHead at h1
      split at h1
      · exact absurd h1.symm h2
      · rw [h1]
        simp only [Forest.nodes, List.nodup_cons, List.mem_append, not_or] at hndk
        exact hndk.1.2
    have hp : par ≠ 0 → ∃ p, ra[par]? = some p := by
      intro h
      rcases hctx with ⟨h1, _⟩ | ⟨_, p, h1, _⟩
      · exact absurd h1 h
      · exact ⟨p, h1⟩
    obtain ⟨core, bo, b, Dk, r1, r2, r3, r4, r5, r6, r7⟩ := print_node w ra info level hpd hx hpp hp hok hkn hk
      (fun hne => ih1 i _ (level + 1) hk hndk hkctx (fun j hj => hw j (by simp [Forest.nodes, hj])) hne)
    obtain ⟨wf1, wf2, wf3, wf4, _⟩ := r2
    have htail : Tail ra par (.cons i k s) → second ra par i = true := by
      rintro ⟨h1, p, h2, h3⟩
      unfold second
      rw [h2]
      simp only [h1, ne_eq, not_false_eq_true, decide_true, Bool.true_and, decide_eq_true_eq]
      intro e
      exact h3 (by simp [Forest.nodes, e])
    have hsep : Tail ra par (.cons i k s) → ∀ b, sepText ra par i pd x level b ≠ [] := by
      intro h b
      unfold sepText
      rw [htail h]
      split <;> simp
    have hfirst : sepText ra par i pd x level true ≠ [] := by
      unfold sepText
      simp
    have hread : ∀ Ds, Read w ra info s Ds → Read w ra info (.cons i k s) (.cons (el ra pd x b) Dk Ds) := by
      intro Ds q
      refine ⟨⟨wf1, wf2, wf3, wf4, q.wf⟩, fun n => ?_, by simp [shape], ?_, ?_⟩
      · simp only [shape, Ptrs.number, r1.number, q.number, r1.length]
      · simp only [shape, Forest.nodes, List.length_cons, List.length_append, r1.length, q.length]
      · intro j i' hj
        simp only [Forest.nodes] at hj
        cases j with
        | zero =>
          simp only [List.getElem?_cons_zero, Option.some.injEq] at hj
          subst hj
          exact ⟨pd, x, _, hpd, hx, rfl, b, rfl, r3⟩
        | succ j =>
          rw [List.getElem?_cons_succ, List.getElem?_append] at hj
          simp only [els, List.getElem?_cons_succ, List.getElem?_append, els_length, r1.length]
          split at hj
          · rename_i hlt
            rw [if_pos hlt]
            exact r1.same j i' hj
          · rename_i hlt
            rw [if_neg hlt]
            exact q.same _ i' hj
    by_cases hsn : s = .nil
    · subst hsn
      have hR : Read w ra info .nil .nil := ⟨trivial, fun n => rfl, by simp [shape], rfl, fun j i h => by simp [Forest.nodes] at h⟩
      refine ⟨sepText ra par i pd x level, core, bo, .cons (el ra pd x b) Dk .nil, ⟨sep_space ra par i pd x level, hsep, hfirst, r4, r5, ?_, ?_⟩, hread _ hR⟩
      · intro base b' es hb
        have := r6 base b' es hb
        simpa [Forest.events] using this
      · intro rest ts hr hl
        have := r7 rest ts hr hl
        simpa [toks, shape] using this
    · have hst : par ≠ 0 ∧ ∃ p, ra[par]? = some p ∧ p.firstChild ∉ s.nodes := by
        rcases hctx with ⟨_, h1⟩ | ⟨h0, p, h1, h2⟩
        · exact absurd (h1 _ _ _ rfl) hsn
        · exact ⟨h0, p, h1, h2 _ _ _ rfl⟩
      have hsctx : Ctx ra par s := by
        obtain ⟨h0, p, h1, h2⟩ := hst
        refine .inr ⟨h0, p, h1, fun i' k' s' e => ?_⟩
        subst e
        intro h3
        exact h2 (by simp [Forest.nodes, h3])
      obtain ⟨sepS, coreS, boS, Ds, hT, hR⟩ := ih2 par _ level hs hnds hsctx (fun j hj => hw j (by simp [Forest.nodes, hj])) hsn
      refine ⟨sepText ra par i pd x level, core ++ (sepS bo ++ coreS), boS, .cons (el ra pd x b) Dk Ds,
        ⟨sep_space ra par i pd x level, hsep, hfirst, ?_, ?_, ?_, ?_⟩, hread _ hR⟩
      · intro rest
        rw [List.append_assoc]
        exact r4 _
      · exact nl_right (nl_right hT.last (head_ne hT.head)) (by simp [head_ne hT.head])
      · intro base b' es hb
        have h1 := r6 base b' (s.events level ++ es) hb
        have h2 := hT.call (base ++ (sepText ra par i pd x level b' ++ core)) bo es (nl_right (nl_right r5 (head_ne r4)) (by simp [head_ne r4]))
        simp only [Forest.events, List.cons_append, List.append_assoc] at h1 h2 ⊢
        exact h1.trans h2
      · intro rest ts hr hl
        have h1 := hT.lex rest ts hr hl
        have h2 := lex_ws (hT.tail hst bo) (hT.space bo) (.inr (hT.head _)) h1
        have h3 := r7 _ _ (ends_space (hT.tail hst bo) (hT.space bo)) h2
        have hsh : ¬ Ds.shape = .nil := fun h => hsn (hR.empty.1 h)
        simp only [List.append_assoc, toks, hsh, if_false]
        exact h3

end Verif.Lemmas.ScmPrint
