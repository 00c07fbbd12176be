import Verif.Lemmas.Xml1Load
import Verif.Lemmas.Dfs
import Verif.Props.Escape
import Verif.Props.Decimal
/-!
# The text of an XML document and its tokens
-/
namespace Verif.Lemmas.Xml1Print
open Verif.Model Verif.Model.Ptrs Verif.Model.Xml1 Verif.Spec Verif.Spec.Ptrs Verif.Spec.Xml1
open Verif.Lemmas.Xml1Lex hiding shape
open Verif.Lemmas.Xml1Load Verif.Lemmas.Xml1Load.DF
open Verif.Model.Json (Leaf Info indent)

/-! ### values -/

theorem unquoted_plain {t : List Nat} (h : ∀ c ∈ t, c ≠ 38) : unquoted t = some t := by
  unfold unquoted
  rw [if_neg fun hm => h 38 hm rfl]

theorem quote_same (s : List Nat) (hs : ∀ c ∈ s, c < 256) (h : 38 ∉ Escape.xmlQuoteString s) : Escape.xmlQuoteString s = s := by
  have key : ∀ c < 256, 38 ∉ Escape.xmlQuoteByte c → Escape.xmlQuoteByte c = [c] := by decide +kernel
  induction s with
  | nil => rfl
  | cons c s ih =>
    simp only [Escape.xmlQuoteString, List.flatMap_cons, List.mem_append, not_or] at h ⊢
    rw [key c (hs c (by simp)) h.1]
    have := ih (fun d hd => hs d (by simp [hd])) h.2
    unfold Escape.xmlQuoteString at this
    rw [this]
    rfl

theorem unquoted_quote {s : List Nat} (hs : ∀ c ∈ s, 0 < c ∧ c < 256) : unquoted (Escape.xmlQuoteString s) = some s := by
  unfold unquoted
  by_cases h : 38 ∈ Escape.xmlQuoteString s
  · rw [if_pos h]
    exact (Props.Escape.C10_xml_string_round_trip s [] hs).2
  · rw [if_neg h, quote_same s (fun c hc => (hs c hc).2) h]

theorem numeral_plain (neg : Bool) (n : Nat) : ∀ c ∈ (if neg then [45] else []) ++ (Decimal.natDigits n).map (· + 48), c ≠ 60 ∧ c ≠ 38 := by
  intro c hc
  simp only [List.mem_append] at hc
  rcases hc with hc | hc
  · cases neg <;> simp at hc
    omega
  · simp only [List.mem_map] at hc
    obtain ⟨d, hd, rfl⟩ := hc
    have := (Lemmas.Decimal.natDigits_spec n).1 d hd
    omega

theorem leaf_ok {l : Leaf} (hl : LeafOK l) : ∃ t v, leafText l = some t ∧ (∀ c ∈ t, c ≠ 60) ∧ unquoted t = some v ∧ ReadAs l v := by
  have plain : ∀ t : List Nat, (∀ c ∈ t, c ≠ 60 ∧ c ≠ 38) → ReadAs l t → leafText l = some t → ∃ t v, leafText l = some t ∧ (∀ c ∈ t, c ≠ 60) ∧ unquoted t = some v ∧ ReadAs l v :=
    fun t h1 h2 h3 => ⟨t, t, h3, fun c hc => (h1 c hc).1, unquoted_plain fun c hc => (h1 c hc).2, h2⟩
  cases l with
  | bool b =>
    cases b with
    | false => exact plain _ (by decide) .false (by decide)
    | true => exact plain _ (by decide) .true (by decide)
  | int v =>
    simp only [LeafOK] at hl
    have e : leafText (.int v) = some ((if decide (v < 0) then [45] else []) ++ (Decimal.natDigits v.natAbs).map (· + 48)) := by
      show some (Enum.fmtInt v) = _
      rw [Enum.fmtInt_eq (by omega)]
    refine plain _ (numeral_plain _ _) (.int v _ ?_) e
    have hd := Lemmas.Decimal.natDigits_isDecimal v.natAbs
    unfold IsDecimalInt
    by_cases hv : v < 0
    · rw [if_pos hv]
      refine ⟨(Decimal.natDigits v.natAbs).map (· + 48), ?_, ?_⟩ <;> simp [hv, hd]
    · rw [if_neg hv]
      simp [hv, hd]
  | int128 v =>
    obtain ⟨t, h1, h2⟩ := Props.Decimal.C05_print_signed (List.replicate Decimal.bufSize 0) (by simp) v
    refine plain t ?_ (.int128 v t h2) h1
    rw [Lemmas.JsonLex.isDecimalInt_numeral h2]
    exact numeral_plain _ _
  | uint128 v =>
    obtain ⟨t, h1, h2⟩ := Props.Decimal.C05_print_unsigned (List.replicate Decimal.bufSize 0) (by simp) v
    refine plain t ?_ (.uint128 v t h2) h1
    have h3 := Lemmas.Decimal.printUint128_eq (List.replicate Decimal.bufSize 0) (by simp) v
    rw [h3] at h1
    cases h1
    have := numeral_plain false v.toNat
    simpa using this
  | real t => exact plain t hl (.real t) rfl
  | text s =>
    refine ⟨_, s, rfl, fun c hc => (Lemmas.Escape.xml_clean s (fun c hc => (hl c hc).2) c hc).1, unquoted_quote hl, .text s⟩
  | quoted s => exact plain s hl (.quoted s) rfl
  | void c => exact plain [] (by simp) (.void c) rfl
  | undefined => exact absurd hl (by simp [LeafOK])

/-! ### a node -/

/-- the public index of the target -/
def tgt (ra : List Pd) (pd : Pd) : Nat := match ra[pd.firstChild]? with | some t => t.idx | none => 0

/-- the element written for a node -/
def el (ra : List Pd) (pd : Pd) (x : Info) (body : Option (List Nat × List Nat)) (after : List Nat) : El :=
  { name := x.name, ref := if pd.ref then some (tgt ra pd) else none, cref := if pd.cref then some (tgt ra pd) else none,
    refd := if pd.refd then some pd.idx else none, null := x.null, body := body, after := after }

def refText (name : List Nat) : Option Nat → List Nat
  | none => []
  | some n => attr name (Xml1.number n)

/-- the attributes -/
def attrText (e : El) : List Nat :=
  refText sRef e.ref ++ (refText sContent e.cref ++ (refText sIdx e.refd ++ (if e.null then attr sNull sTrue else [])))

theorem lex_ref {name : List Nat} (hn : Name name) {o : Option Nat} (ho : ∀ n, o = some n → n < 2 ^ 32) {rest : List Nat} {ts : List Tok}
    (h : lex rest = some ts) : lex (refText name o ++ rest) = some (El.refToks name o ++ ts) := by
  cases o with
  | none => exact h
  | some n => exact lex_attr hn (number_quote (ho n rfl)) h

theorem name_ref : Name sRef := by unfold Name; exact ⟨⟨_, rfl, .inl (by decide)⟩, by decide⟩
theorem name_content : Name sContent := by unfold Name; exact ⟨⟨_, rfl, .inl (by decide)⟩, by decide⟩
theorem name_idx : Name sIdx := by unfold Name; exact ⟨⟨_, rfl, .inl (by decide)⟩, by decide⟩
theorem name_null : Name sNull := by unfold Name; exact ⟨⟨_, rfl, .inl (by decide)⟩, by decide⟩

theorem lex_attrs {e : El} (h1 : ∀ n, e.ref = some n → n < 2 ^ 32) (h2 : ∀ n, e.cref = some n → n < 2 ^ 32) (h3 : ∀ n, e.refd = some n → n < 2 ^ 32)
    {rest : List Nat} {ts : List Tok} (h : lex rest = some ts) : lex (attrText e ++ rest) = some (e.attrToks ++ ts) := by
  unfold attrText El.attrToks
  simp only [List.append_assoc]
  refine lex_ref name_ref h1 (lex_ref name_content h2 (lex_ref name_idx h3 ?_))
  cases e.null with
  | false => exact h
  | true => exact lex_attr name_null (by decide) h

theorem ends_ref (name : List Nat) (o : Option Nat) {rest : List Nat} (h : Ends rest) : Ends (refText name o ++ rest) := by
  cases o with
  | none => exact h
  | some n => exact ⟨32, _, rfl, .inl rfl⟩

theorem ends_attrs (e : El) {rest : List Nat} (h : Ends rest) : Ends (attrText e ++ rest) := by
  unfold attrText
  simp only [List.append_assoc]
  refine ends_ref _ _ (ends_ref _ _ (ends_ref _ _ ?_))
  cases e.null with
  | false => exact h
  | true => exact ⟨32, _, rfl, .inl rfl⟩

/-- what is written for a node, before its children -/
structure NodeText (ra : List Pd) (pd : Pd) (x : Info) (closed : Bool) (t : List Nat) : Prop where
  pre : ∀ (info : List Info) (o : Out) (i : Nat) (level : Int), ra[i]? = some pd → info[i]? = some x →
    prePrint info ra o i level = some (o.1 ++ (newline level ++ (60 :: (x.name ++ (attrText (el ra pd x none []) ++ (if closed then [47, 62] else 62 :: t))))),
      fun j => if j = i then closed else o.2 j)
  shut : closed = true → kidsHead pd = 0 ∧ t = []
  nonref : closed = false → (pd.ref || pd.cref) = false
  lt : ∀ c ∈ t, c ≠ 60
  kids : t ≠ [] → kidsHead pd = 0
  unquoted : ∃ v, unquoted t = some v ∧ ((pd.ref || pd.cref) = false → x.null = false → valued pd.ty = true → ReadAs x.leaf v) ∧ (t = [] → v = [])
  value : (pd.ref || pd.cref) = false → x.null = false → valued pd.ty = true → kidsHead pd = 0
  none : (pd.ref || pd.cref) = true ∨ x.null = true ∨ valued pd.ty = false → t = []

theorem handler_valued {ty : MrType} (h : valued ty = true) (l : Leaf) : handler ty l = leafText l := by
  revert h; cases ty <;> simp [valued, structLike, handler]

theorem handler_not {ty : MrType} (h : valued ty = false) (l : Leaf) : handler ty l = some [] := by
  revert h; cases ty <;> simp [valued, structLike, handler]

theorem unquoted_nil : unquoted [] = some [] := rfl

theorem node_ok {ra : List Pd} {pd : Pd} {x : Info} (h : NodeOK ra pd x) : ∃ closed t, NodeText ra pd x closed t := by
  -- the text up to the end of the attributes
  have hpre : ∀ (info : List Info) (o : Out) (i : Nat) (level : Int), ra[i]? = some pd → info[i]? = some x →
      prePrint info ra o i level =
        (let out := o.1 ++ newline level ++ 60 :: x.name ++ attrText (el ra pd x none [])
        if x.null || pd.ref || pd.cref then some (out ++ [47, 62], fun j => if j = i then true else o.2 j)
        else (handler pd.ty x.leaf).bind fun t =>
          if pd.firstChild = 0 ∧ t = [] then some (out ++ [47, 62], fun j => if j = i then true else o.2 j)
          else some (out ++ 62 :: t, fun j => if j = i then false else o.2 j)) := by
    intro info o i level hi hx
    unfold prePrint
    simp only [hi, hx, Option.bind_eq_bind, Option.bind_some]
    cases hp : pd.ref <;> cases hq : pd.cref
    · simp only [attrText, el, hp, hq, refText]
      cases pd.refd <;> cases x.null <;> simp [refText]
    all_goals
      obtain ⟨t, ht, _⟩ := h.ref (by simp [hp, hq])
      simp only [attrText, el, hp, hq, refText, tgt, ht, Option.bind_some, if_true]
      cases pd.refd <;> cases x.null <;> simp [refText]
  by_cases hspec : (x.null || pd.ref || pd.cref) = true
  · refine ⟨true, [], fun info o i level hi hx => ?_, fun _ => ⟨?_, rfl⟩, (fun h => by cases h), by simp, by simp, ⟨[], rfl, fun h1 h2 => ?_, fun _ => rfl⟩, fun h1 h2 => ?_, fun _ => rfl⟩
    · rw [hpre info o i level hi hx]
      simp only [hspec, if_true]
      simp
    · unfold kidsHead
      split
      · rfl
      · rename_i hrc
        have hrc' : (pd.ref || pd.cref) = false := by simpa using hrc
        refine h.children hrc' (.inl ?_)
        simp only [Bool.or_eq_false_iff] at hrc'
        simpa [hrc'.1, hrc'.2] using hspec
    · simp only [Bool.or_eq_false_iff] at h1
      simp [h1.1, h1.2, h2] at hspec
    · simp only [Bool.or_eq_false_iff] at h1
      simp [h1.1, h1.2, h2] at hspec
  · have hs' : (x.null || pd.ref || pd.cref) = false := by simpa using hspec
    simp only [Bool.or_eq_false_iff] at hs'
    obtain ⟨⟨hn, hr⟩, hc⟩ := hs'
    have hrc : (pd.ref || pd.cref) = false := by simp [hr, hc]
    have hkh : kidsHead pd = pd.firstChild := by unfold kidsHead; rw [if_neg (by simp [hrc])]
    by_cases hv : valued pd.ty = true
    · obtain ⟨t, v, h1, h2, h3, h4⟩ := leaf_ok (h.leaf hrc hn hv)
      have hk : pd.firstChild = 0 := h.children hrc (.inr hv)
      refine ⟨decide (t = []), t, fun info o i level hi hx => ?_, fun ht => ⟨by rw [hkh, hk], by simpa using ht⟩, fun _ => hrc, h2, fun _ => by rw [hkh, hk],
        ⟨v, h3, fun _ _ _ => h4, fun ht => ?_⟩, fun _ _ _ => by rw [hkh, hk], ?_⟩
      · rw [hpre info o i level hi hx]
        simp only [hspec]
        rw [handler_valued hv, h1]
        simp only [Option.bind_some, hk, true_and]
        by_cases ht : t = [] <;> simp [ht]
      · subst ht
        rw [unquoted_nil] at h3
        cases h3; rfl
      · rintro (h5 | h5 | h5)
        · rw [hrc] at h5; cases h5
        · rw [hn] at h5; cases h5
        · rw [hv] at h5; cases h5
    · have hv' : valued pd.ty = false := by simpa using hv
      refine ⟨decide (pd.firstChild = 0), [], fun info o i level hi hx => ?_, fun ht => ⟨by rw [hkh]; simpa using ht, rfl⟩, fun _ => hrc, by simp, by simp,
        ⟨[], rfl, fun _ _ h => absurd h hv, fun _ => rfl⟩, fun _ _ h => absurd h hv, fun _ => rfl⟩
      rw [hpre info o i level hi hx]
      simp only [hspec]
      rw [handler_not hv']
      simp only [Option.bind_some, and_true]
      by_cases ht : pd.firstChild = 0 <;> simp [ht]

theorem postPrint_eq {info : List Info} {ra : List Pd} {i : Nat} {pd : Pd} {x : Info} (hi : ra[i]? = some pd) (hx : info[i]? = some x) (o : Out) (level : Int) :
    postPrint info ra o i level = some (o.1 ++ ((if kidsHead pd = 0 then [] else newline level) ++ (if o.2 i then [] else 60 :: 47 :: (x.name ++ [62]))), o.2) := by
  have hk : (pd.firstChild ≠ 0 ∧ (pd.ref || pd.cref) = false) ↔ kidsHead pd ≠ 0 := by
    unfold kidsHead
    cases hr : (pd.ref || pd.cref) <;> simp
  unfold postPrint
  simp only [hi, hx, Option.bind_eq_bind, Option.bind_some]
  by_cases h : kidsHead pd = 0
  · rw [if_neg (fun h' => hk.1 h' h), if_pos h]
    cases o.2 i <;> simp
  · rw [if_pos (hk.2 h), if_neg h]
    cases o.2 i <;> simp

/-- the element written for a node -/
def Same (ra : List Pd) (pd : Pd) (x : Info) (e : El) : Prop :=
  ∃ body after, e = el ra pd x body after ∧
    ((pd.ref || pd.cref) = false → x.null = false → valued pd.ty = true → ReadAs x.leaf (match body with | some b => b.2 | none => [])) ∧
    ((pd.ref || pd.cref) = true ∨ x.null = true ∨ valued pd.ty = false → ∀ c ∈ (match body with | some b => b.2 | none => []), isspace c = true)

/-- the elements in document order -/
def els : DF → List El
  | .nil => []
  | .cons e k s => e :: (els k ++ els s)

theorem els_length (D : DF) : (els D).length = D.shape.nodes.length := by
  induction D with
  | nil => rfl
  | cons e k s ih1 ih2 => simp [els, shape, Forest.nodes, ih1, ih2]

theorem els_data (D : DF) : D.data = (els D).map El.data := by
  induction D with
  | nil => rfl
  | cons e k s ih1 ih2 => simp [els, DF.data, ih1, ih2]

theorem canon_get (known : List Nat → Bool) (D : DF) : ∀ (p n j : Nat) (e : El), WF known D → (els D)[j]? = some e →
    ∃ q : Pd, (canon p n D)[j]? = some q ∧ q.ref = e.ref.isSome ∧ q.cref = e.cref.isSome ∧ q.refd = e.refd.isSome ∧ q.idx = e.refd.getD 0 ∧
      (e.isRef = true → q.firstChild = e.cref.getD (e.ref.getD 0)) := by
  induction D with
  | nil => intro p n j e _ h; simp [els] at h
  | cons e0 k s ih1 ih2 =>
    intro p n j e hwf h
    obtain ⟨_, h2, h3, h4⟩ := hwf
    cases j with
    | zero =>
      simp only [els, List.getElem?_cons_zero, Option.some.injEq] at h
      subst h
      refine ⟨_, rfl, rfl, rfl, rfl, rfl, fun hr => ?_⟩
      have := h2 (.inr hr)
      subst this
      rfl
    | succ j =>
      simp only [els, List.getElem?_cons_succ, List.getElem?_append, els_length] at h
      simp only [canon, List.getElem?_cons_succ, List.getElem?_append, canon_length]
      split at h
      · rename_i hlt
        rw [if_pos hlt]
        exact ih1 _ _ _ _ h3 h
      · rename_i hlt
        rw [if_neg hlt]
        exact ih2 _ _ _ _ h4 h

theorem newline_space (level : Int) : ∀ c ∈ newline level, isspace c = true := by
  intro c hc
  simp only [newline, List.mem_cons] at hc
  rcases hc with rfl | hc
  · rfl
  · rw [List.eq_of_mem_replicate hc]; rfl

theorem space_lt {c : Nat} (h : isspace c = true) : c ≠ 60 ∧ c ≠ 38 := by
  constructor <;> (rintro rfl; simp [isspace] at h)

theorem opens_append {a b : List Nat} (ha : Opens a) (hb : Opens b) : Opens (a ++ b) := by
  rcases ha with rfl | ⟨t, rfl⟩
  · exact hb
  · exact .inr ⟨t ++ b, rfl⟩

/-- what is written for a forest: the calls append the text; with white space after it the text is white space
followed by elements -/
theorem print_forest (known : List Nat → Bool) (ra : List Pd) (info : List Info) (f : Forest) : ∀ (par head : Nat) (level : Int),
    Rep ra par head f → f.nodes.Nodup → Writable known ra info f.nodes →
    ∃ text : List Nat, (f = .nil → text = []) ∧
      (∀ (o : Out) (es : List (Nat × Int × Order)), ∃ r : Nat → Bool, (∀ j, j ∉ f.nodes → r j = o.2 j) ∧
        callAll (printNode info) (f.events level ++ es) (ra, o) = callAll (printNode info) es (ra, (o.1 ++ text, r))) ∧
      ∀ w : List Nat, (∀ c ∈ w, isspace c = true) → ∃ lead body D, text ++ w = lead ++ body ∧ (∀ c ∈ lead, isspace c = true) ∧ Opens body ∧
        WF known D ∧ (∀ n, Ptrs.number n D.shape = Ptrs.number n f) ∧ (D.shape = .nil ↔ f = .nil) ∧ D.shape.nodes.length = f.nodes.length ∧
        (∀ rest ts, Opens rest → lex rest = some ts → lex (body ++ rest) = some (D.toks ++ ts)) ∧
        (∀ (j i : Nat), f.nodes[j]? = some i → ∃ pd x e, ra[i]? = some pd ∧ info[i]? = some x ∧ (els D)[j]? = some e ∧ Same ra pd x e) := by
  induction f with
  | nil =>
    intro par head level _ _ _
    refine ⟨[], fun _ => rfl, fun o es => ⟨o.2, fun _ _ => rfl, by simp [Forest.events]⟩, fun w hw => ?_⟩
    exact ⟨w, [], .nil, by simp, hw, .inl rfl, trivial, fun n => rfl, by simp [shape], rfl, fun rest ts _ h => h, fun j i h => by simp [Forest.nodes] at h⟩
  | cons i k s ih1 ih2 =>
    intro par head level hrep hnd hw
    obtain ⟨_, hi0, pd, hpd, hpp, hk, hs⟩ := hrep
    simp only [Forest.nodes, List.nodup_cons, List.mem_append, not_or] at hnd
    obtain ⟨⟨hik, his⟩, hnd2⟩ := hnd
    rw [List.nodup_append] at hnd2
    obtain ⟨hndk, hnds, hdisj⟩ := hnd2
    obtain ⟨x, hx, hok, hkn⟩ := hw i (by simp [Forest.nodes]) pd hpd
    obtain ⟨closed, t, ht⟩ := node_ok hok
    obtain ⟨Pk, k0, k1, k2⟩ := ih1 i _ (level + 1) hk hndk (fun j hj => hw j (by simp [Forest.nodes, hj]))
    obtain ⟨Ps, s0, s1, s2⟩ := ih2 par _ level hs hnds (fun j hj => hw j (by simp [Forest.nodes, hj]))
    have hkn' : kidsHead pd = 0 ↔ k = .nil := Lemmas.Dfs.rep_nil_iff hk
    refine ⟨newline level ++ (60 :: (x.name ++ (attrText (el ra pd x none []) ++ (if closed then [47, 62] else 62 :: t)))) ++ Pk ++
      ((if kidsHead pd = 0 then [] else newline level) ++ (if closed then [] else 60 :: 47 :: (x.name ++ [62]))) ++ Ps, (fun h => by cases h), ?_, ?_⟩
    · intro o es
      obtain ⟨r1, r1a, r1b⟩ := k1 (o.1 ++ (newline level ++ (60 :: (x.name ++ (attrText (el ra pd x none []) ++ (if closed then [47, 62] else 62 :: t))))),
        fun j => if j = i then closed else o.2 j) ((i, level, .post) :: (s.events level ++ es))
      obtain ⟨r2, r2a, r2b⟩ := s1 ((o.1 ++ (newline level ++ (60 :: (x.name ++ (attrText (el ra pd x none []) ++ (if closed then [47, 62] else 62 :: t))))) ++ Pk) ++
        ((if kidsHead pd = 0 then [] else newline level) ++ (if closed then [] else 60 :: 47 :: (x.name ++ [62]))), r1) es
      refine ⟨r2, fun j hj => ?_, ?_⟩
      · simp only [Forest.nodes, List.mem_cons, List.mem_append, not_or] at hj
        rw [r2a j hj.2.2]
        simp only
        rw [r1a j hj.2.1]
        simp only
        rw [if_neg hj.1]
      · simp only [Forest.events, List.cons_append, List.append_assoc]
        rw [callAll]
        simp only [printNode, Option.bind_eq_bind]
        rw [ht.pre info o i level hpd hx]
        simp only [Option.bind_some, Bool.true_eq_false, if_false]
        refine r1b.trans ?_
        rw [callAll]
        simp only [printNode, Option.bind_eq_bind]
        rw [postPrint_eq hpd hx]
        have hclo : r1 i = closed := by rw [r1a i hik]; simp
        simp only [Option.bind_some, Bool.true_eq_false, if_false, hclo]
        refine r2b.trans ?_
        simp only [List.append_assoc, List.cons_append]
    · intro w hw'
      obtain ⟨ls, bs, Ds, q1, q2, q3, q4, q5, q6, q7, q8, q9⟩ := s2 w hw'
      obtain ⟨lk, bk, Dk, p1, p2, p3, p4, p5, p6, p7, p8, p9⟩ := k2 (if kidsHead pd = 0 then [] else newline level)
        (by split; · simp
            exact newline_space level)
      have hnokids : kidsHead pd = 0 → lk = [] ∧ bk = [] ∧ Dk = .nil := by
        intro h
        rw [if_pos h, k0 (hkn'.1 h)] at p1
        simp only [List.append_nil] at p1
        have := List.append_eq_nil_iff.1 p1.symm
        exact ⟨this.1, this.2, shape_nil.1 (p6.2 (hkn'.1 h))⟩
      obtain ⟨v, v1, v2, v3⟩ := ht.unquoted
      let e := el ra pd x (if closed then none else some (t ++ lk, v ++ lk)) ls
      have hisref : e.isRef = (pd.ref || pd.cref) := by
        show ((if pd.ref then some (tgt ra pd) else none : Option Nat).isSome || (if pd.cref then some (tgt ra pd) else none : Option Nat).isSome) = _
        cases pd.ref <;> cases pd.cref <;> rfl
      have htgt : (pd.ref || pd.cref) = true → tgt ra pd < 2 ^ 32 := by
        intro h
        obtain ⟨u, hu, hu2⟩ := hok.ref h
        unfold tgt
        rw [hu]
        exact hu2
      have heok : e.OK known := by
        refine ⟨hok.name, hkn, ?_, ?_, ?_, ?_, ?_⟩
        · intro n hn
          have hn : (if pd.ref then some (tgt ra pd) else none) = some n := hn
          split at hn
          · rename_i h; cases hn; exact htgt (by simp [h])
          · cases hn
        · intro n hn
          have hn : (if pd.cref then some (tgt ra pd) else none) = some n := hn
          split at hn
          · rename_i h; cases hn; exact htgt (by simp [h])
          · cases hn
        · intro n hn
          have hn : (if pd.refd then some pd.idx else none) = some n := hn
          split at hn
          · rename_i h; cases hn; exact hok.refd h
          · cases hn
        · intro b hb
          have hb : (if closed then none else some (t ++ lk, v ++ lk)) = some b := hb
          split at hb
          · cases hb
          · cases hb
            by_cases h0 : t = []
            · subst h0
              rw [v3 rfl]
              simp only [List.nil_append]
              exact unquoted_plain fun c hc => (space_lt (p2 c hc)).2
            · rw [(hnokids (ht.kids h0)).1]
              simpa using v1
        · exact List.all_eq_true.2 q2
      have hwf : WF known (.cons e Dk Ds) := by
        refine ⟨heok, ?_, p4, q4⟩
        rintro (h | h)
        · refine (hnokids ?_).2.2
          cases hc : closed with
          | true => exact (ht.shut hc).1
          | false =>
            have h : (if closed then none else some (t ++ lk, v ++ lk)) = none := h
            simp [hc] at h
        · rw [hisref] at h
          refine (hnokids ?_).2.2
          unfold kidsHead
          rw [if_pos h]
      refine ⟨newline level, 60 :: (x.name ++ (attrText e ++ ((if closed then [47, 62] else 62 :: (t ++ lk ++ (bk ++ 60 :: 47 :: (x.name ++ [62])))) ++ (ls ++ bs)))),
        .cons e Dk Ds, ?_, newline_space level, .inr ⟨_, rfl⟩, hwf, ?_, by simp [shape], ?_, ?_, ?_⟩
      · cases hc : closed with
        | true =>
          obtain ⟨c1, c2⟩ := ht.shut hc
          simp only [if_true, c1, k0 (hkn'.1 c1), List.append_nil, List.append_assoc, List.cons_append, List.nil_append, q1]
          rfl
        | false =>
          simp only [List.append_assoc, List.cons_append, Bool.false_eq_true, if_false, List.nil_append]
          rw [q1]
          have : ∀ z : List Nat, Pk ++ ((if kidsHead pd = 0 then [] else newline level) ++ z) = lk ++ (bk ++ z) := by
            intro z
            rw [← List.append_assoc, p1, List.append_assoc]
          rw [this]
          rfl
      · intro n
        simp only [shape, Ptrs.number, p5, q5, p7]
      · simp only [shape, Forest.nodes, List.length_cons, List.length_append, p7, q7]
      · intro rest ts ho hl
        have hob : Opens (bs ++ rest) := opens_append q3 ho
        have hlt : ∀ {l : List Nat}, (∀ c ∈ l, isspace c = true) → ∀ c ∈ l, c ≠ 60 := fun h c hc => (space_lt (h c hc)).1
        have hls := q8 rest ts ho hl
        have key : lex ((if closed then [47, 62] else 62 :: (t ++ lk ++ (bk ++ 60 :: 47 :: (x.name ++ [62])))) ++ (ls ++ bs) ++ rest) =
            some ((match e.body with
              | none => [.closeEmpty e.after]
              | some b => .content b.1 :: (Dk.toks ++ [.closeTag e.name, .content e.after])) ++ (Ds.toks ++ ts)) := by
          cases hc : closed with
          | true =>
            have hb : e.body = none := by show (if closed then none else some (t ++ lk, v ++ lk)) = none; simp [hc]
            rw [hb]
            have := lex_empty (c := ls) (hlt q2) hob hls
            have ha : e.after = ls := rfl
            simpa [List.append_assoc, ha] using this
          | false =>
            have hb : e.body = some (t ++ lk, v ++ lk) := by show (if closed then none else some (t ++ lk, v ++ lk)) = _; simp [hc]
            rw [hb]
            have h1 := lex_content (c := ls) (hlt q2) hob hls
            have h2 := lex_close hok.name h1
            have h3 := p8 (60 :: 47 :: (x.name ++ 62 :: (ls ++ (bs ++ rest)))) _ (.inr ⟨_, rfl⟩) h2
            have h4 := lex_content (c := t ++ lk) (fun c hc => by
              rcases List.mem_append.1 hc with h | h
              · exact ht.lt c h
              · exact hlt p2 c h) (opens_append p3 (.inr ⟨_, rfl⟩)) h3
            simp only [Bool.false_eq_true, if_false, List.append_assoc, List.cons_append, List.nil_append] at h4 ⊢
            exact h4
        have hends : Ends ((if closed then [47, 62] else 62 :: (t ++ lk ++ (bk ++ 60 :: 47 :: (x.name ++ [62])))) ++ (ls ++ bs) ++ rest) := by
          cases closed
          · exact ⟨62, _, rfl, .inr (.inr rfl)⟩
          · exact ⟨47, _, rfl, .inr (.inl rfl)⟩
        have h5 := lex_open hok.name (ends_attrs e hends) (lex_attrs heok.ref heok.cref heok.refd key)
        rw [toks_cons]
        simp only [elToks, List.append_assoc, List.cons_append] at h5 ⊢
        exact h5
      · intro j i' hj
        simp only [Forest.nodes] at hj
        cases j with
        | zero =>
          simp only [List.getElem?_cons_zero, Option.some.injEq] at hj
          subst hj
          refine ⟨pd, x, e, hpd, hx, rfl, _, _, rfl, ?_, ?_⟩
          · intro h1 h2 h3
            have := v2 h1 h2 h3
            have hl0 := (hnokids (ht.value h1 h2 h3)).1
            cases hc : closed with
            | true =>
              have := v3 (ht.shut hc).2
              subst this
              simpa using v2 h1 h2 h3
            | false => simpa [hl0] using this
          · intro h
            have h0 := ht.none h
            have hv0 := v3 h0
            cases hc : closed with
            | true => simp
            | false => simpa [hv0] using p2
        | succ j =>
          rw [List.getElem?_cons_succ, List.getElem?_append] at hj
          simp only [els, List.getElem?_cons_succ, List.getElem?_append, els_length, p7]
          split at hj
          · rename_i hlt
            rw [if_pos hlt]
            exact p9 j i' hj
          · rename_i hlt
            rw [if_neg hlt]
            exact q9 _ i' hj

end Verif.Lemmas.Xml1Print
