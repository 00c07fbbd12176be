import Verif.Lemmas.JsonLoad
import Verif.Lemmas.Dfs
/-!
# The text of a JSON document and its tokens
-/
namespace Verif.Lemmas.JsonPrint
open Verif.Model Verif.Model.Ptrs Verif.Model.Json Verif.Spec Verif.Spec.Ptrs Verif.Spec.Json
open Verif.Lemmas.JsonLex Verif.Lemmas.JsonLoad Verif.Lemmas.JsonLoad.DF

theorem indent_space (level : Int) : ∀ c ∈ indent level, isspace c = true := by
  intro c hc
  rw [List.eq_of_mem_replicate hc]
  rfl

theorem structTypes_eq (t : MrType) : structTypes t = structLike t := by
  cases t <;> rfl

/-- the name of a member -/
def nameText : Option (List Nat) → List Nat
  | none => []
  | some nm => 34 :: (nm ++ [34, 58, 32])

theorem lex_name {name : Option (List Nat)} (h : ∀ nm, name = some nm → ∀ c ∈ nm, c ≠ 34 ∧ c ≠ 92) {rest : List Nat} {ts : List Tok}
    (ht : lex rest = some ts) : lex (nameText name ++ rest) = some (nameToks name ++ ts) := by
  cases name with
  | none => exact ht
  | some nm =>
    have h1 : lex (58 :: 32 :: rest) = some (.colon :: ts) := lex_colon (lex_space rfl ht)
    have h2 := lex_string (plain_lexable (h nm rfl)) h1
    simpa [nameText, nameToks] using h2

/-- what follows the name: text, closing mark and its meaning -/
structure NodeText (ra : List Pd) (pd : Pd) (x : Info) (text : List Nat) (clo : Option Nat) (b : Body) : Prop where
  null : (pd.ref || pd.cref) = false → x.null = true → (entry b).null = true ∧ (entry b).value = .int 0
  list : (pd.ref || pd.cref) = false → x.null = false → compound pd.ty = true → (entry b).null = false ∧ (entry b).value = .none
  leaf : (pd.ref || pd.cref) = false → x.null = false → compound pd.ty = false → ReadAs x.leaf (entry b).null (entry b).value
  ref : (pd.ref || pd.cref) = true → ∃ t : Pd, ra[pd.firstChild]? = some t ∧ (entry b).null = false ∧
    (entry b).value = .int (word (if pd.cref then - (t.idx : Int) else t.idx))
  body : match b with
    | .obj => clo = some 125 ∧ structLike pd.ty = true ∧ ∀ rest ts, lex rest = some ts → lex (text ++ rest) = some (.lbrace :: ts)
    | .arr => clo = some 93 ∧ structLike pd.ty = false ∧ ∀ rest ts, lex rest = some ts → lex (text ++ rest) = some (.lbracket :: ts)
    | .empty => clo = none ∧ kidsHead pd = 0 ∧ ∀ rest ts, Ends rest → lex rest = some ts → lex (text ++ rest) = some (.lbrace :: .rbrace :: ts)
    | .tok t n v => clo = none ∧ kidsHead pd = 0 ∧ meaning t = some (n, v) ∧
        ∀ rest ts, Ends rest → lex rest = some ts → lex (text ++ rest) = some (t :: ts)

/-- the part of `json_pre_print_node` after the name -/
def valueText (ra : List Pd) (pd : Pd) (x : Info) : Option (List Nat × Option Nat) :=
  if pd.ref || pd.cref then do
    let t ← ra[pd.firstChild]?
    some ((if pd.cref then [45] else []) ++ Enum.fmtInt (t.idx % 4294967296), none)
  else if x.null then some ([110, 117, 108, 108], none)
  else handler pd.ty x.leaf

theorem value_ok {ra : List Pd} {pd : Pd} {x : Info} (h : NodeOK ra pd x) :
    ∃ text clo b, valueText ra pd x = some (text, clo) ∧ NodeText ra pd x text clo b := by
  unfold valueText
  cases hr : (pd.ref || pd.cref) with
  | true =>
    rw [if_pos rfl]
    obtain ⟨t, ht, hi⟩ := h.ref hr
    rw [ht]
    refine ⟨_, _, .tok (.int (if pd.cref then (2 ^ 128 - t.idx) % 2 ^ 128 else t.idx)) false (.int (if pd.cref then (2 ^ 128 - t.idx) % 2 ^ 128 else t.idx)), rfl, ?_⟩
    have hk : kidsHead pd = 0 := by unfold kidsHead; rw [if_pos hr]
    have e : (if pd.cref then [45] else []) ++ Enum.fmtInt ((t.idx : Int) % 4294967296) = numeral pd.cref t.idx := by
      have : ((t.idx : Int) % 4294967296) = (t.idx : Int) := by omega
      rw [this, Enum.fmtInt_eq (by omega)]
      have h0 : ¬ ((t.idx : Int) < 0) := by omega
      simp [numeral, h0]
    refine ⟨(fun h => by rw [h] at hr; cases hr), (fun h => by rw [h] at hr; cases hr), (fun h => by rw [h] at hr; cases hr), fun _ => ⟨t, ht, rfl, ?_⟩, rfl, hk, rfl, fun rest ts he hl => ?_⟩
    · simp only [entry, word, Value.int.injEq]
      split <;> omega
    · rw [e]
      exact lex_numeral (by omega) he hl
  | false =>
    rw [if_neg (by simp)]
    cases hn : x.null with
    | true =>
      rw [if_pos rfl]
      have hk : kidsHead pd = 0 := by unfold kidsHead; rw [if_neg (by simp [hr])]; exact h.children hr (.inl hn)
      refine ⟨_, _, .tok .null true (.int 0), rfl, ⟨fun _ _ => ⟨rfl, rfl⟩, (fun _ e => by rw [hn] at e; cases e), (fun _ e => by rw [hn] at e; cases e), (fun e => by rw [hr] at e; cases e), rfl, hk, rfl, fun rest ts he hl => ?_⟩⟩
      exact lex_keyword (k := 0) (by simp) he hl
    | false =>
      rw [if_neg (by simp)]
      obtain ⟨t1, t2, t3⟩ := h.type hr hn
      by_cases hs : structLike pd.ty = true
      · have hc : compound pd.ty = true := by unfold compound; simp [hs]
        have hh : handler pd.ty x.leaf = some ([123, 10], some 125) := by
          revert hs; generalize pd.ty = ty; cases ty <;> simp [structLike, handler]
        refine ⟨_, _, .obj, hh, ⟨(fun _ e => by rw [hn] at e; cases e), fun _ _ _ => ⟨rfl, rfl⟩, (fun _ _ e => by rw [hc] at e; cases e), (fun e => by rw [hr] at e; cases e), rfl, hs, fun rest ts hl => ?_⟩⟩
        exact lex_lbrace (lex_space rfl hl)
      · have hs' : structLike pd.ty = false := by simpa using hs
        by_cases ha : pd.ty = .array ∨ pd.ty = .pointer
        · have hc : compound pd.ty = true := by unfold compound; rcases ha with e | e <;> simp [e]
          have hh : handler pd.ty x.leaf = some ([91, 10], some 93) := by rcases ha with e | e <;> simp [e, handler]
          refine ⟨_, _, .arr, hh, ⟨(fun _ e => by rw [hn] at e; cases e), fun _ _ _ => ⟨rfl, rfl⟩, (fun _ _ e => by rw [hc] at e; cases e), (fun e => by rw [hr] at e; cases e), rfl, hs', fun rest ts hl => ?_⟩⟩
          exact lex_lbracket (lex_space rfl hl)
        · have hc : compound pd.ty = false := by
            unfold compound
            simp only [Bool.or_eq_false_iff, decide_eq_false_iff_not]
            exact ⟨⟨hs', fun e => ha (.inl e)⟩, fun e => ha (.inr e)⟩
          have hk : kidsHead pd = 0 := by unfold kidsHead; rw [if_neg (by simp [hr])]; exact h.children hr (.inr hc)
          obtain ⟨t, toks, h1, h2, h3⟩ := lex_leaf (h.leaf hr hn hc)
          have hh : handler pd.ty x.leaf = some (t, none) := by
            revert t1 t2 t3 hs' ha; generalize pd.ty = ty
            cases ty <;> simp [structLike, handler, h1]
          rcases h3 with ⟨rfl, h3⟩ | ⟨tok, n, v, rfl, h3, h4⟩
          · exact ⟨t, none, .empty, hh, ⟨(fun _ e => by rw [hn] at e; cases e), (fun _ _ e => by rw [hc] at e; cases e), fun _ _ _ => h3, (fun e => by rw [hr] at e; cases e), rfl, hk, h2⟩⟩
          · exact ⟨t, none, .tok tok n v, hh, ⟨(fun _ e => by rw [hn] at e; cases e), (fun _ _ e => by rw [hc] at e; cases e), fun _ _ _ => h4, (fun e => by rw [hr] at e; cases e), rfl, hk, h3, h2⟩⟩

theorem prePrint_eq {info : List Info} {ra : List Pd} {i : Nat} {pd : Pd} {x : Info} (hi : ra[i]? = some pd) (hx : info[i]? = some x)
    (hok : NodeOK ra pd x) (hpar : pd.parent = 0 ∨ ∃ pp, ra[pd.parent]? = some pp) (m : Bool) (hm : isMember ra pd ↔ m = true)
    {text : List Nat} {clo : Option Nat} (hv : valueText ra pd x = some (text, clo)) (o : Out) (level : Int) :
    prePrint info ra o i level = some (o.1 ++ (indent level ++ (nameText (if m then some x.name else none) ++ text)), fun j => if j = i then clo else o.2 j) := by
  unfold prePrint
  simp only [hi, hx, Option.bind_eq_bind, Option.bind_some]
  have hun : (if (x.unnamed && decide (pd.parent ≠ 0)) = true then do
      let pp ← ra[pd.parent]?
      some (!structTypes pp.ty)
    else some x.unnamed) = some (!m) := by
    by_cases hc : (x.unnamed && decide (pd.parent ≠ 0)) = true
    · rw [if_pos hc]
      simp only [Bool.and_eq_true, decide_eq_true_eq] at hc
      rcases hpar with h0 | ⟨pp, hpp⟩
      · exact absurd h0 hc.2
      · rw [hpp]
        simp only [Option.bind_eq_bind, Option.bind_some, Option.some.injEq]
        rw [structTypes_eq]
        have : structLike pp.ty = m := by
          rw [Bool.eq_iff_iff, ← hm]
          constructor
          · intro h; exact ⟨hc.2, pp, hpp, h⟩
          · rintro ⟨_, pp', h1, h2⟩
            rw [hpp] at h1
            cases h1
            exact h2
        rw [this]
    · rw [if_neg hc]
      cases hu : x.unnamed with
      | false =>
        have := hm.1 (hok.named hu)
        simp [this]
      | true =>
        rw [hu] at hc
        have h0 : pd.parent = 0 := by simpa using hc
        have : m = false := by
          cases m with
          | false => rfl
          | true => exact absurd h0 (hm.2 rfl).1
        simp [this]
  simp only [Option.bind_eq_bind] at hun
  rw [hun]
  simp only [Option.bind_some]
  have hname : (if (!m) = true then o.1 ++ indent level else o.1 ++ indent level ++ [34] ++ x.name ++ [34, 58, 32]) =
      o.1 ++ (indent level ++ nameText (if m then some x.name else none)) := by
    cases m <;> simp [nameText]
  rw [hname]
  unfold valueText at hv
  cases hr : (pd.ref || pd.cref) with
  | true =>
    rw [hr, if_pos rfl] at hv
    rw [if_pos rfl]
    obtain ⟨t, ht, h2⟩ := Option.bind_eq_some_iff.1 hv
    cases h2
    rw [ht]
    simp only [Option.bind_some]
    cases pd.cref <;> simp
  | false =>
    rw [hr, if_neg (by simp)] at hv
    rw [if_neg (by simp)]
    cases hn : x.null with
    | true =>
      rw [hn, if_pos rfl] at hv
      rw [if_pos rfl]
      cases hv
      simp
    | false =>
      rw [hn, if_neg (by simp)] at hv
      rw [if_neg (by simp), hv]
      simp

theorem postPrint_eq {ra : List Pd} {i : Nat} {pd : Pd} (hi : ra[i]? = some pd) (o : Out) (level : Int) :
    postPrint ra o i level = some (o.1 ++ ((match o.2 i with | some c => indent level ++ [c] | none => []) ++
      ((if pd.next ≠ 0 then [44] else []) ++ [10])), o.2) := by
  unfold postPrint
  simp only [hi, Option.bind_eq_bind, Option.bind_some]
  cases o.2 i <;> (split <;> simp)

theorem ends_tail (b : Bool) (rest : List Nat) : Ends ((if b then [44] else []) ++ 10 :: rest) := by
  intro c t h
  rw [word_iff]
  cases b <;> simp at h <;> omega

theorem print_forest (known : List Nat → Bool) (ra : List Pd) (info : List Info) (f : Forest) : ∀ (par head : Nat) (level : Int) (m : Bool),
    Rep ra par head f → f.nodes.Nodup → Writable known ra info f.nodes → (par = 0 ∨ ∃ pp, ra[par]? = some pp) →
    ((par ≠ 0 ∧ ∃ pp, ra[par]? = some pp ∧ structLike pp.ty = true) ↔ m = true) →
    ∃ D text, WF known m D ∧ (∀ n, number n D.shape = number n f) ∧ (D.shape = .nil ↔ f = .nil) ∧ D.shape.nodes.length = f.nodes.length ∧
      (∀ (o : Out) (es : List (Nat × Int × Order)), ∃ r : Nat → Option Nat, (∀ j, j ∉ f.nodes → r j = o.2 j) ∧
        callAll (printNode info) (f.events level ++ es) (ra, o) = callAll (printNode info) es (ra, (o.1 ++ text, r))) ∧
      (∀ rest ts, lex rest = some ts → lex (text ++ rest) = some (D.toks ++ ts)) ∧
      (∀ (j i : Nat), f.nodes[j]? = some i → ∃ pd x y, ra[i]? = some pd ∧ info[i]? = some x ∧ D.data[j]? = some y ∧ SameNode ra pd x y) := by
  induction f with
  | nil =>
    intro par head level m _ _ _ _ _
    exact ⟨.nil, [], trivial, fun n => rfl, by simp [shape], rfl, fun o es => ⟨o.2, fun _ _ => rfl, by simp [Forest.events]⟩,
      fun rest ts h => h, fun j i h => by simp [Forest.nodes] at h⟩
  | cons i k s ih1 ih2 =>
    intro par head level m hrep hnd hw hpar hm
    obtain ⟨_, hi0, pd, hpd, hpp, hk, hs⟩ := hrep
    simp only [Forest.nodes, List.nodup_cons, List.mem_append, not_or] at hnd
    obtain ⟨⟨hik, his⟩, hnd2⟩ := hnd
    rw [List.nodup_append] at hnd2
    obtain ⟨hndk, hnds, hdisj⟩ := hnd2
    obtain ⟨x, hx, hok, hkn⟩ := hw i (by simp [Forest.nodes]) pd hpd
    have hmem : isMember ra pd ↔ m = true := by unfold isMember; rw [hpp]; exact hm
    obtain ⟨vt, clo, b, hv, hb⟩ := value_ok hok
    obtain ⟨Dk, tk, k1, k2, k3, k4, k5, k6, k7⟩ := ih1 i _ (level + 1) (structLike pd.ty) hk hndk
      (fun j hj => hw j (by simp [Forest.nodes, hj])) (.inr ⟨pd, hpd⟩)
      ⟨fun ⟨_, pp, h1, h2⟩ => by rw [hpd] at h1; cases h1; exact h2, fun h => ⟨hi0, pd, hpd, h⟩⟩
    obtain ⟨Ds, tS, s1, s2, s3, s4, s5, s6, s7⟩ := ih2 par _ level m hs hnds (fun j hj => hw j (by simp [Forest.nodes, hj])) hpar hm
    have hnext : (pd.next ≠ 0) = (s ≠ .nil) := by
      have := Lemmas.Dfs.rep_nil_iff hs
      simp only [ne_eq, this]
    have hkn' : kidsHead pd = 0 → Dk = .nil := fun h => shape_nil.1 (k3.2 ((Lemmas.Dfs.rep_nil_iff hk).1 h))
    refine ⟨.cons (if m then some x.name else none) b Dk Ds,
      indent level ++ (nameText (if m then some x.name else none) ++ vt) ++ tk ++ ((match clo with | some c => indent level ++ [c] | none => []) ++
        ((if pd.next ≠ 0 then [44] else []) ++ [10])) ++ tS, ?_, ?_, ?_, ?_, ?_, ?_, ?_⟩
    · refine ⟨?_, ?_, s1⟩
      · cases m with
        | false => simp
        | true => simpa using hkn (hmem.2 rfl)
      · have hbody := hb.body
        cases b with
        | obj => simp only at hbody ⊢; rw [hbody.2.1] at k1; exact k1
        | arr => simp only at hbody ⊢; rw [hbody.2.1] at k1; exact k1
        | empty => exact hkn' hbody.2.1
        | tok t n v => exact ⟨hkn' hbody.2.1, hbody.2.2.1⟩
    · intro n
      simp only [shape, number, k2, s2, k4]
    · simp [shape]
    · simp only [shape, Forest.nodes, List.length_cons, List.length_append, k4, s4]
    · intro o es
      obtain ⟨r1, r1a, r1b⟩ := k5 (o.1 ++ (indent level ++ (nameText (if m then some x.name else none) ++ vt)), fun j => if j = i then clo else o.2 j)
        ((i, level, .post) :: (s.events level ++ es))
      obtain ⟨r2, r2a, r2b⟩ := s5 ((o.1 ++ (indent level ++ (nameText (if m then some x.name else none) ++ vt)) ++ tk) ++
        ((match clo with | some c => indent level ++ [c] | none => []) ++ ((if pd.next ≠ 0 then [44] else []) ++ [10])), r1) es
      refine ⟨r2, fun j hj => ?_, ?_⟩
      · simp only [Forest.nodes, List.mem_cons, List.mem_append, not_or] at hj
        rw [r2a j hj.2.2]
        simp only
        rw [r1a j hj.2.1]
        simp only
        rw [if_neg hj.1]
      · simp only [Forest.events, List.cons_append, List.append_assoc]
        rw [callAll]
        simp only [printNode, Option.bind_eq_bind]
        rw [prePrint_eq hpd hx hok (by rw [hpp]; exact hpar) m hmem hv]
        simp only [Option.bind_some, Bool.true_eq_false, if_false]
        refine r1b.trans ?_
        rw [callAll]
        simp only [printNode, Option.bind_eq_bind]
        rw [postPrint_eq hpd]
        have hclo : r1 i = clo := by rw [r1a i hik]; simp
        simp only [Option.bind_some, Bool.true_eq_false, if_false, hclo]
        refine r2b.trans ?_
        simp only [List.append_assoc]
        rfl
    · intro rest ts hl
      have hl1 := s6 rest ts hl
      have hsn : Ds.shape = .nil ↔ pd.next = 0 := by rw [s3]; exact (Lemmas.Dfs.rep_nil_iff hs).symm
      -- the end of the line and what follows
      have htail : lex ((if pd.next ≠ 0 then [44] else []) ++ 10 :: (tS ++ rest)) =
          some ((if Ds.shape = .nil then [] else .comma :: Ds.toks) ++ ts) := by
        have h10 : lex (10 :: (tS ++ rest)) = some (Ds.toks ++ ts) := lex_space rfl hl1
        by_cases hn : pd.next = 0
        · have hds : Ds = .nil := shape_nil.1 (hsn.2 hn)
          subst hds
          simpa [hn, shape, toks] using h10
        · have : ¬ Ds.shape = .nil := fun h => hn (hsn.1 h)
          simp only [hn, ne_eq, not_false_eq_true, if_true, this, if_false]
          exact lex_comma h10
      have hends : Ends ((if pd.next ≠ 0 then [44] else []) ++ 10 :: (tS ++ rest)) := by
        have := ends_tail (decide (pd.next ≠ 0)) (tS ++ rest)
        simpa using this
      rw [toks_cons]
      have hname : ∀ nm, (if m then some x.name else none) = some nm → ∀ c ∈ nm, c ≠ 34 ∧ c ≠ 92 := by
        intro nm hnm
        cases m with
        | false => simp at hnm
        | true =>
          simp only [if_true, Option.some.injEq] at hnm
          subst hnm
          exact hok.name (hmem.2 rfl)
      have key : lex (vt ++ (tk ++ ((match clo with | some c => indent level ++ [c] | none => []) ++ ((if pd.next ≠ 0 then [44] else []) ++ 10 :: (tS ++ rest))))) =
          some (bodyToks b Dk ++ ((if Ds.shape = .nil then [] else .comma :: Ds.toks) ++ ts)) := by
        have hbody := hb.body
        cases b with
        | obj =>
          obtain ⟨rfl, _, h3⟩ := hbody
          have hc : lex (indent level ++ [125] ++ ((if pd.next ≠ 0 then [44] else []) ++ 10 :: (tS ++ rest))) = some (.rbrace ::
              ((if Ds.shape = .nil then [] else .comma :: Ds.toks) ++ ts)) := by
            rw [List.append_assoc]
            exact lex_spaces (indent_space level) (lex_rbrace htail)
          rw [h3 _ _ (k6 _ _ hc)]
          by_cases hkn2 : Dk = .nil
          · subst hkn2; rfl
          · simp only [bodyToks]
            rw [if_neg (fun h => hkn2 (shape_nil.1 h))]
            simp
        | arr =>
          obtain ⟨rfl, _, h3⟩ := hbody
          have hc : lex (indent level ++ [93] ++ ((if pd.next ≠ 0 then [44] else []) ++ 10 :: (tS ++ rest))) = some (.rbracket ::
              ((if Ds.shape = .nil then [] else .comma :: Ds.toks) ++ ts)) := by
            rw [List.append_assoc]
            exact lex_spaces (indent_space level) (lex_rbracket htail)
          rw [h3 _ _ (k6 _ _ hc)]
          by_cases hkn2 : Dk = .nil
          · subst hkn2; rfl
          · simp only [bodyToks]
            rw [if_neg (fun h => hkn2 (shape_nil.1 h))]
            simp
        | empty =>
          obtain ⟨rfl, h2, h3⟩ := hbody
          have htk : lex (tk ++ ((if pd.next ≠ 0 then [44] else []) ++ 10 :: (tS ++ rest))) = some ((if Ds.shape = .nil then [] else .comma :: Ds.toks) ++ ts) := by
            have := k6 _ _ htail
            rw [hkn' h2] at this
            exact this
          have ht0 : tk = [] := by
            have hkf : k = .nil := (Lemmas.Dfs.rep_nil_iff hk).1 h2
            subst hkf
            obtain ⟨r, _, h5⟩ := k5 ([], fun _ => none) []
            simp [Forest.events, callAll] at h5
            exact h5.1
          subst ht0
          exact h3 _ _ hends htail
        | tok t n v =>
          obtain ⟨rfl, h2, _, h3⟩ := hbody
          have ht0 : tk = [] := by
            have hkf : k = .nil := (Lemmas.Dfs.rep_nil_iff hk).1 h2
            subst hkf
            obtain ⟨r, _, h5⟩ := k5 ([], fun _ => none) []
            simp [Forest.events, callAll] at h5
            exact h5.1
          subst ht0
          exact h3 _ _ hends htail
      have := lex_spaces (indent_space level) (lex_name hname key)
      simpa [List.append_assoc] using this
    · intro j i' hj
      simp only [Forest.nodes] at hj
      cases j with
      | zero =>
        simp only [List.getElem?_cons_zero, Option.some.injEq] at hj
        subst hj
        refine ⟨pd, x, _, hpd, hx, by simp [data]; rfl, ?_, ?_, ?_, ?_, ?_⟩
        · constructor
          · intro h; rw [hmem.1 h]; rfl
          · intro h
            cases m with
            | false => rfl
            | true => exact absurd (hmem.2 rfl) h
        · exact hb.ref
        · exact hb.null
        · exact hb.list
        · exact hb.leaf
      | succ j =>
        rw [List.getElem?_cons_succ, List.getElem?_append] at hj
        simp only [data, List.getElem?_cons_succ, List.getElem?_append, data_length, k4]
        split at hj
        · rename_i hlt
          rw [if_pos hlt]
          exact k7 j i' hj
        · rename_i hlt
          rw [if_neg hlt]
          exact s7 _ i' hj

end Verif.Lemmas.JsonPrint
