import Verif.Lemmas.YamlLoad
import Verif.Lemmas.Dfs
import Verif.Lemmas.ScmTok
import Verif.Spec.Yaml
import Verif.Props.Decimal
/-!
# The events of a YAML document
-/
namespace Verif.Lemmas.YamlPrint
open Verif.Model Verif.Model.Ptrs Verif.Model.Yaml Verif.Spec Verif.Spec.Yaml Verif.Lemmas.YamlLoad Verif.Lemmas.YamlLoad.DF
open Verif.Spec.Ptrs hiding run
open Verif.Model.Scm (Leaf Info isRef)
open Verif.Model.Xml1 (sNull)

/-! ### values -/

theorem hex_table : ∀ c < 256, 48 :: 120 :: Scanf.printRadix 16 2 false c =
    ascii "0x" ++ [(ascii "0123456789abcdef").getD (c / 16) 0, (ascii "0123456789abcdef").getD (c % 16) 0] := by decide +kernel

theorem digit_table : ∀ d < 16, Scanf.digitChar false d = (ascii "0123456789abcdef").getD d 0 := by decide +kernel

theorem radix_head : ∀ (f n : Nat), n < 16 ^ (f + 1) → (Scanf.radix 16 (f + 1) n).head? = some 0 → Scanf.radix 16 (f + 1) n = [0]
  | 0, n, h, h0 => by
    have h : n < 16 := by simpa using h
    rw [Scanf.radix, if_pos h] at h0 ⊢
    simpa using h0
  | f + 1, n, h, h0 => by
    rw [Scanf.radix] at h0 ⊢
    by_cases h1 : n < 16
    · rw [if_pos h1] at h0 ⊢
      simpa using h0
    · rw [if_neg h1] at h0
      exfalso
      have hlt : n / 16 < 16 ^ (f + 1) := by rw [Nat.pow_succ] at h; omega
      obtain ⟨_, h3, h4⟩ := ScmTok.radix_spec f (n / 16) hlt
      have : (Scanf.radix 16 (f + 1) (n / 16)).head? = some 0 := by
        rw [List.head?_append] at h0
        cases hh : (Scanf.radix 16 (f + 1) (n / 16)).head? with
        | none => exact absurd (List.head?_eq_none_iff.1 hh) h4
        | some x => rw [hh] at h0; simpa using h0
      have := radix_head f (n / 16) hlt this
      rw [this] at h3
      simp [positional] at h3
      omega

theorem leaf_ok {utf8 : List Nat → Bool} {l : Leaf} (h : LeafOK utf8 l) : ∃ t, leafText l = some (some t) ∧ ReadAs l t := by
  have hl := h.range
  cases l with
  | bool b =>
    cases b with
    | false => exact ⟨_, rfl, .false⟩
    | true => exact ⟨_, rfl, .true⟩
  | int v =>
    simp only at hl
    refine ⟨_, rfl, .int v _ ?_⟩
    rw [Enum.fmtInt_eq (by omega)]
    have hd := Lemmas.Decimal.natDigits_isDecimal v.natAbs
    unfold IsDecimalInt
    by_cases hv : v < 0
    · rw [if_pos hv]
      refine ⟨(Decimal.natDigits v.natAbs).map (· + 48), ?_, ?_⟩ <;> simp [hv, hd]
    · rw [if_neg hv]
      simp [hv, hd]
  | int128 v =>
    obtain ⟨t, h1, h2⟩ := Props.Decimal.C05_print_signed (List.replicate Model.Decimal.bufSize 0) (by simp) v
    exact ⟨t, by simp [leafText, h1], .int128 v t h2⟩
  | uint128 v =>
    obtain ⟨t, h1, h2⟩ := Props.Decimal.C05_print_unsigned (List.replicate Model.Decimal.bufSize 0) (by simp) v
    exact ⟨t, by simp [leafText, h1], .uint128 v t h2⟩
  | real t => exact ⟨t, by simp only at hl; simp [leafText, hl], .real t⟩
  | char c =>
    simp only at hl
    refine ⟨_, rfl, ?_⟩
    unfold charText
    by_cases hc : 32 ≤ c ∧ c < 128
    · rw [if_pos hc]
      exact .char c hc.1 hc.2
    · rw [if_neg hc]
      exact .hexChar c _ (by omega) (hex_table c hl)
  | text s => exact ⟨s, rfl, .text s⟩
  | quoted s => exact ⟨s, by simp only at hl; simp [leafText, hl], .quoted s⟩
  | address v =>
    simp only at hl
    refine ⟨_, rfl, .address v _ ?_⟩
    have hv : v < 16 ^ (32 + 1) := by omega
    obtain ⟨h1, h2, h3⟩ := ScmTok.radix_spec 32 v hv
    refine ⟨Scanf.radix 16 33 v, ?_, h1, h2, h3, radix_head 32 v hv⟩
    have e : Scm.hexDigits v = (Scanf.radix 16 33 v).map (Scanf.digitChar false) := by
      simp [Scm.hexDigits, Scanf.printRadix]
    rw [e]
    show [48, 120] ++ _ = _
    rw [show ascii "0x" = [48, 120] by decide]
    congr 1
    exact List.map_congr_left fun d hd => digit_table d (h1 d hd)
  | undefined => exact absurd hl (by simp)

/-! ### nodes -/

/-- the public index of the target -/
def tgt (ra : List Pd) (pd : Pd) : Nat := match ra[pd.firstChild]? with | some t => t.idx | none => 0

/-- the element of a node -/
structure Same (ra : List Pd) (pd : Pd) (x : Info) (e : El) : Prop where
  name : e.name = if nameless pd x then none else some x.name
  anchor : e.anchor = if pd.refd then some pd.idx else none
  ref : pd.ref = true → e.body = .ref (tgt ra pd)
  cref : pd.cref = true → e.body = .cref (tgt ra pd)
  null : (pd.ref || pd.cref) = false → x.null = true → e.body = .null
  map : ¬ Alias pd x → mapping pd.ty = true → e.body = .map
  seq : ¬ Alias pd x → sequence pd.ty = true → e.body = .seq
  leaf : ¬ Alias pd x → mapping pd.ty = false → sequence pd.ty = false → ∃ t, e.body = .scalar t ∧ ReadAs x.leaf t

/-- the event at the end of an element -/
def endEvs (e : El) : List Event := match e.body with | .map => [.mapEnd] | .seq => [.seqEnd] | _ => []

theorem emit_eq {utf8 : List Nat → Bool} {ra : List Pd} {out : List Event} {pd : Pd} {x : Info} {ev : Event} {e : El}
    (hn : e.name = if nameless pd x then none else some x.name) (hu : nameless pd x = false → utf8 x.name = true)
    (hr : replaced ra pd x ev = some e.event) : emitField utf8 ra out pd x ev = some (true, out ++ (e.nameEvs ++ [e.event])) := by
  unfold emitField
  rw [hr]
  simp only [Option.bind_eq_bind, Option.bind_some]
  have : unnamed pd x = nameless pd x := rfl
  rw [this]
  unfold El.nameEvs
  cases hb : nameless pd x with
  | true => rw [hn, hb]; simp
  | false => rw [hn, hb, hu hb]; simp

theorem string_eq {utf8 : List Nat → Bool} {ra : List Pd} {out : List Event} {pd : Pd} {x : Info} {t : List Nat} {e : El}
    (hn : e.name = if nameless pd x then none else some x.name) (hu : nameless pd x = false → utf8 x.name = true) (ht : utf8 t = true)
    (hr : replaced ra pd x (.scalar (getAnchor pd) t) = some e.event) : emitString utf8 ra out pd x t = some (true, out ++ (e.nameEvs ++ [e.event])) := by
  unfold emitString
  rw [if_pos ht]
  exact emit_eq hn hu hr

theorem leaf_eq {utf8 : List Nat → Bool} {ra : List Pd} {out : List Event} {pd : Pd} {x : Info} {t : List Nat} {e : El}
    (hn : e.name = if nameless pd x then none else some x.name) (hu : nameless pd x = false → utf8 x.name = true)
    (hl : leafText x.leaf = some (some t)) (ht : utf8 t = true)
    (hr : replaced ra pd x (.scalar (getAnchor pd) t) = some e.event) : emitLeaf utf8 ra out pd x = some (true, out ++ (e.nameEvs ++ [e.event])) := by
  unfold emitLeaf
  rw [hl]
  exact string_eq hn hu ht hr

/-- the types of nodes with a text -/
def textual (t : MrType) : Bool := !(mapping t || sequence t || t = .none || t = .void || t = .endAnonUnion || t = .last)

theorem pre_text {utf8 : List Nat → Bool} {ra : List Pd} {out : List Event} {pd : Pd} {x : Info} (h : textual pd.ty = true) (hs : ¬ (pd.ty = .string ∧ x.null = true)) :
    preSave utf8 ra out pd x = emitLeaf utf8 ra out pd x ∧ postSave out pd x = (true, out) := by
  unfold preSave postSave
  cases ht : pd.ty <;> simp [ht, textual, mapping, sequence, structLike] at h hs ⊢ <;> simp [hs]

theorem pre_map {utf8 : List Nat → Bool} {ra : List Pd} {out : List Event} {pd : Pd} {x : Info} (h : mapping pd.ty = true) :
    preSave utf8 ra out pd x = emitField utf8 ra out pd x (.mapStart (getAnchor pd)) ∧ postSave out pd x = (true, out ++ [.mapEnd]) := by
  unfold preSave postSave
  cases ht : pd.ty <;> simp [ht, mapping, structLike] at h ⊢

theorem anchor_eq (pd : Pd) : getAnchor pd = (if pd.refd then some pd.idx else none).map idxText := by
  unfold getAnchor
  cases pd.refd <;> rfl

theorem replaced_ref {ra : List Pd} {pd t : Pd} {x : Info} {ev : Event} (h : (pd.ref || pd.cref) = true) (ht : ra[pd.firstChild]? = some t) :
    replaced ra pd x ev = some (.alias (if pd.cref then contentText t.idx else idxText t.idx)) := by
  unfold replaced
  rw [if_pos ⟨h, (List.getElem?_eq_some_iff.1 ht).1⟩, ht]

theorem replaced_null {ra : List Pd} {pd : Pd} {x : Info} {ev : Event} (h : (pd.ref || pd.cref) = false) (hx : x.null = true) :
    replaced ra pd x ev = some (.alias sNull) := by
  unfold replaced
  rw [if_neg (by unfold isRef; simp [h]), if_pos hx]

theorem replaced_plain {ra : List Pd} {pd : Pd} {x : Info} {ev : Event} (h : ¬ Alias pd x) : replaced ra pd x ev = some ev := by
  unfold replaced
  have h1 : (pd.ref || pd.cref) = false := by
    cases hh : (pd.ref || pd.cref) with
    | false => rfl
    | true => exact absurd (.inl hh) h
  rw [if_neg (by unfold isRef; simp [h1]), if_neg (fun hx => h (.inr hx))]

/-- what is written for a node before and after its children -/
theorem node_eq {utf8 : List Nat → Bool} {ra : List Pd} {pd : Pd} {x : Info} (hok : NodeOK utf8 ra pd x) (h0 : utf8 [] = true)
    (htgt : (pd.ref || pd.cref) = true → ∃ t, ra[pd.firstChild]? = some t) :
    ∃ e, Same ra pd x e ∧ (∀ out, preSave utf8 ra out pd x = some (true, out ++ (e.nameEvs ++ [e.event]))) ∧
      ∀ out, postSave out pd x = (true, out ++ endEvs e) := by
  by_cases hA : Alias pd x
  · -- an alias: the type is that of a pointer, a string or a function
    have hty : pd.ty = .pointer ∨ (textual pd.ty = true ∧ mapping pd.ty = false ∧ sequence pd.ty = false) := by
      rcases hA with h | h
      · rcases (hok.ref h).1 with h | h
        · exact .inl h
        · right; rw [h]; decide
      · rcases hok.null h with h | h | h | h
        · exact .inl h
        all_goals (right; rw [h]; decide)
    have hall : ∀ e : El, e.name = (if nameless pd x then none else some x.name) → (∀ ev, replaced ra pd x ev = some e.event) →
        ((∀ out, preSave utf8 ra out pd x = some (true, out ++ (e.nameEvs ++ [e.event]))) ∧ ∀ out, postSave out pd x = (true, out)) := by
      intro e hn hr
      have hal : isAlias pd x = true := by
        unfold isAlias isRef
        rcases hA with h | h
        · rw [h]; simp
        · rw [h]; simp
      rcases hty with h | ⟨h1, h2, h3⟩
      · refine ⟨fun out => ?_, fun out => ?_⟩
        · unfold preSave
          rw [h]
          simp only [hal, if_true]
          exact string_eq hn hok.name h0 (hr _)
        · unfold postSave
          rw [h]
          simp [hal]
      · by_cases hs : pd.ty = .string ∧ x.null = true
        · refine ⟨fun out => ?_, fun out => ?_⟩
          · unfold preSave
            rw [hs.1]
            simp only [hs.2, if_true]
            exact string_eq hn hok.name h0 (hr _)
          · unfold postSave
            rw [hs.1]
        · have hl := (hok.leaf h2 h3).resolve_left hs
          obtain ⟨t, ht1, ht2⟩ := leaf_ok hl
          refine ⟨fun out => ?_, fun out => (pre_text (ra := ra) (utf8 := utf8) h1 hs).2⟩
          rw [(pre_text h1 hs).1]
          exact leaf_eq hn hok.name ht1 (hl.utf8 t ht2) (hr _)
    cases hr : (pd.ref || pd.cref) with
    | true =>
      obtain ⟨t, ht⟩ := htgt hr
      have htg : tgt ra pd = t.idx := by unfold tgt; rw [ht]
      have hboth := (hok.ref hr).2
      refine ⟨⟨if nameless pd x then none else some x.name, if pd.refd then some pd.idx else none, if pd.cref then .cref t.idx else .ref t.idx⟩, ?_, ?_⟩
      · refine ⟨rfl, rfl, fun h => ?_, fun h => ?_, fun h => ?_, fun h => absurd hA h, fun h => absurd hA h, fun h => absurd hA h⟩
        · have : pd.cref = false := by cases hc : pd.cref with | false => rfl | true => exact absurd ⟨h, hc⟩ hboth
          simp [this, htg]
        · simp [h, htg]
        · rw [hr] at h; cases h
      · obtain ⟨h1, h2⟩ := hall ⟨if nameless pd x then none else some x.name, if pd.refd then some pd.idx else none, if pd.cref then .cref t.idx else .ref t.idx⟩ rfl
          (fun ev => by rw [replaced_ref hr ht]; unfold El.event; cases pd.cref <;> rfl)
        refine ⟨h1, fun out => ?_⟩
        rw [h2]
        unfold endEvs
        cases pd.cref <;> simp
    | false =>
      have hx : x.null = true := by
        rcases hA with h | h
        · rw [hr] at h; cases h
        · exact h
      refine ⟨⟨if nameless pd x then none else some x.name, if pd.refd then some pd.idx else none, .null⟩, ?_, ?_⟩
      · refine ⟨rfl, rfl, fun h => ?_, fun h => ?_, fun _ _ => rfl, fun h => absurd hA h, fun h => absurd hA h, fun h => absurd hA h⟩
        · rw [h] at hr; simp at hr
        · rw [h] at hr; simp at hr
      · obtain ⟨h1, h2⟩ := hall ⟨if nameless pd x then none else some x.name, if pd.refd then some pd.idx else none, .null⟩ rfl
          (fun ev => replaced_null hr hx)
        refine ⟨h1, fun out => ?_⟩
        rw [h2]
        simp [endEvs]
  · -- the node itself is written
    have hr : (pd.ref || pd.cref) = false := by
      cases hh : (pd.ref || pd.cref) with
      | false => rfl
      | true => exact absurd (.inl hh) hA
    have hx : x.null = false := by
      cases hh : x.null with
      | false => rfl
      | true => exact absurd (.inr hh) hA
    have hp1 : pd.ref = true → False := fun h => by rw [h] at hr; simp at hr
    have hp2 : pd.cref = true → False := fun h => by rw [h] at hr; simp at hr
    have hal : isAlias pd x = false := by unfold isAlias isRef; rw [hr, hx]; rfl
    cases hm : mapping pd.ty with
    | true =>
      have hs : sequence pd.ty = false := by
        revert hm
        cases pd.ty <;> decide
      refine ⟨⟨if nameless pd x then none else some x.name, if pd.refd then some pd.idx else none, .map⟩, ?_, fun out => ?_, fun out => ?_⟩
      · refine ⟨rfl, rfl, fun h => (hp1 h).elim, fun h => (hp2 h).elim, fun _ h => ?_, fun _ _ => rfl, fun _ h => ?_, fun _ h => ?_⟩
        · rw [hx] at h; cases h
        · rw [hs] at h; cases h
        · rw [hm] at h; cases h
      · rw [(pre_map hm).1]
        refine emit_eq rfl hok.name ?_
        rw [replaced_plain hA, anchor_eq]
        rfl
      · rw [(pre_map (ra := ra) (utf8 := utf8) hm).2]
        rfl
    | false =>
      cases hs : sequence pd.ty with
      | true =>
        refine ⟨⟨if nameless pd x then none else some x.name, if pd.refd then some pd.idx else none, .seq⟩, ?_, fun out => ?_, fun out => ?_⟩
        · refine ⟨rfl, rfl, fun h => (hp1 h).elim, fun h => (hp2 h).elim, fun _ h => ?_, fun _ h => ?_, fun _ _ => rfl, fun _ _ h => ?_⟩
          · rw [hx] at h; cases h
          · rw [hm] at h; cases h
          · rw [hs] at h; cases h
        · have : preSave utf8 ra out pd x = emitField utf8 ra out pd x (.seqStart (getAnchor pd)) := by
            unfold preSave
            cases ht : pd.ty <;> simp [ht, sequence, hal] at hs ⊢
          rw [this]
          refine emit_eq rfl hok.name ?_
          rw [replaced_plain hA, anchor_eq]
          rfl
        · unfold postSave
          cases ht : pd.ty <;> simp [ht, sequence, hal, endEvs] at hs ⊢
      | false =>
        have htx : textual pd.ty = true := by
          obtain ⟨k1, k2, k3, k4⟩ := hok.kind
          unfold textual
          simp [hm, hs, k1, k2, k3, k4]
        have hsn : ¬ (pd.ty = .string ∧ x.null = true) := fun h => by rw [hx] at h; cases h.2
        have hl := (hok.leaf hm hs).resolve_left hsn
        obtain ⟨t, ht1, ht2⟩ := leaf_ok hl
        refine ⟨⟨if nameless pd x then none else some x.name, if pd.refd then some pd.idx else none, .scalar t⟩, ?_, fun out => ?_, fun out => ?_⟩
        · refine ⟨rfl, rfl, fun h => (hp1 h).elim, fun h => (hp2 h).elim, fun _ h => ?_, fun _ h => ?_, fun _ h => ?_, fun _ _ _ => ⟨t, rfl, ht2⟩⟩
          · rw [hx] at h; cases h
          · rw [hm] at h; cases h
          · rw [hs] at h; cases h
        · rw [(pre_text htx hsn).1]
          refine leaf_eq rfl hok.name ht1 (hl.utf8 t ht2) ?_
          rw [replaced_plain hA, anchor_eq]
          rfl
        · rw [(pre_text (ra := ra) (utf8 := utf8) htx hsn).2]
          simp [endEvs]

/-! ### forests -/

/-- the elements in document order -/
def els : DF → List El
  | .nil => []
  | .cons e k s => e :: (els k ++ els s)

theorem els_length (D : DF) : (els D).length = D.shape.nodes.length := by
  induction D with
  | nil => rfl
  | cons e k s ih1 ih2 => simp [els, shape, Forest.nodes, ih1, ih2]

theorem els_data (D : DF) : D.data = (els D).map El.data := by
  induction D with
  | nil => rfl
  | cons e k s ih1 ih2 => simp [els, DF.data, ih1, ih2]

/-- do the children of this node have names? -/
def namedOf (ra : List Pd) (par : Nat) : Bool := par ≠ 0 && (match ra[par]? with | some p => mapping p.ty | none => false)

/-- the forest read from the events -/
structure Read (w : List Nat → Bool) (ra : List Pd) (info : List Info) (f : Forest) (par : Nat) (D : DF) : Prop where
  wf : WF w (namedOf ra par) D
  number : ∀ n, Ptrs.number n D.shape = Ptrs.number n f
  length : D.shape.nodes.length = f.nodes.length
  same : ∀ (j i : Nat), f.nodes[j]? = some i → ∃ pd x e, ra[i]? = some pd ∧ info[i]? = some x ∧ (els D)[j]? = some e ∧ Same ra pd x e

theorem call_pre {utf8 : List Nat → Bool} {info : List Info} {ra : List Pd} {i : Nat} {pd : Pd} {x : Info} (hi : ra[i]? = some pd) (hx : info[i]? = some x)
    {out out' : List Event} (h : preSave utf8 ra out pd x = some (true, out')) (level : Int) (es : List (Nat × Int × Order)) :
    callAll (printNode utf8 info) ((i, level, .pre) :: es) (ra, out) = callAll (printNode utf8 info) es (ra, out') := by
  rw [callAll]
  simp only [printNode, hi, hx, h, Option.bind_eq_bind, Option.bind_some]
  rfl

theorem call_post {utf8 : List Nat → Bool} {info : List Info} {ra : List Pd} {i : Nat} {pd : Pd} {x : Info} (hi : ra[i]? = some pd) (hx : info[i]? = some x)
    {out out' : List Event} (h : postSave out pd x = (true, out')) (level : Int) (es : List (Nat × Int × Order)) :
    callAll (printNode utf8 info) ((i, level, .post) :: es) (ra, out) = callAll (printNode utf8 info) es (ra, out') := by
  rw [callAll]
  simp only [printNode, hi, hx, h, Option.bind_eq_bind, Option.bind_some]
  rfl

theorem print_forest (utf8 w : List Nat → Bool) (ra : List Pd) (info : List Info) (h0 : utf8 [] = true) (f : Forest) : ∀ (par head : Nat),
    Rep ra par head f →
    (∀ i ∈ f.nodes, ∀ pd, ra[i]? = some pd → ∃ x, info[i]? = some x ∧ NodeOK utf8 ra pd x ∧ NamesOK ra pd x ∧ (nameless pd x = false → w x.name = true)) →
    (∀ i ∈ f.nodes, ∀ pd, ra[i]? = some pd → pd.idx < 2 ^ 32 ∧ ((pd.ref || pd.cref) = true → ∃ t, ra[pd.firstChild]? = some t ∧ t.idx < 2 ^ 32)) →
    (par = 0 ∨ par < ra.length) →
    ∃ D, Read w ra info f par D ∧ ∀ (level : Int) (out : List Event) (es : List (Nat × Int × Order)),
      callAll (printNode utf8 info) (f.events level ++ es) (ra, out) = callAll (printNode utf8 info) es (ra, out ++ D.evs) := by
  induction f with
  | nil =>
    intro par head _ _ _ _
    refine ⟨.nil, ⟨trivial, fun _ => rfl, rfl, fun j i h => by simp [Forest.nodes] at h⟩, fun level out es => ?_⟩
    simp [Forest.events, DF.evs]
  | cons i k s ih1 ih2 =>
    intro par head hrep hw hidx hpar
    obtain ⟨_, hi0, pd, hpd, hpp, hk, hs⟩ := hrep
    obtain ⟨x, hx, hok, hnames, hknown⟩ := hw i (by simp [Forest.nodes]) pd hpd
    obtain ⟨hid, htg⟩ := hidx i (by simp [Forest.nodes]) pd hpd
    obtain ⟨e, hsame, hpre, hpost⟩ := node_eq hok h0 (fun h => let ⟨t, h1, _⟩ := htg h; ⟨t, h1⟩)
    obtain ⟨Dk, hRk, hCk⟩ := ih1 i (kidsHead pd) hk (fun j hj => hw j (by simp [Forest.nodes, hj])) (fun j hj => hidx j (by simp [Forest.nodes, hj]))
      (.inr (List.getElem?_eq_some_iff.1 hpd).1)
    obtain ⟨Ds, hRs, hCs⟩ := ih2 par pd.next hs (fun j hj => hw j (by simp [Forest.nodes, hj])) (fun j hj => hidx j (by simp [Forest.nodes, hj])) hpar
    have hkids : namedOf ra i = mapping pd.ty := by
      unfold namedOf
      rw [hpd]
      simp [hi0]
    have htgt : (pd.ref || pd.cref) = true → tgt ra pd < 2 ^ 32 := by
      intro h
      obtain ⟨t, h1, h2⟩ := htg h
      unfold tgt
      rw [h1]
      exact h2
    -- nodes without children
    have hleaf : (match e.body with | .map | .seq => False | _ => True) → Dk = .nil ∧ endEvs e = [] := by
      intro hb
      have hk0 : kidsHead pd = 0 := by
        unfold kidsHead
        cases hr : (pd.ref || pd.cref) with
        | true => simp
        | false =>
          simp only [Bool.false_eq_true, if_false]
          refine hok.children hr ?_
          cases hxn : x.null with
          | true => exact .inl rfl
          | false =>
            right
            have hA : ¬ Alias pd x := by
              rintro (h | h)
              · rw [hr] at h; cases h
              · rw [hxn] at h; cases h
            constructor
            · cases hm : mapping pd.ty with
              | false => rfl
              | true => rw [hsame.map hA hm] at hb; exact hb.elim
            · cases hm : sequence pd.ty with
              | false => rfl
              | true => rw [hsame.seq hA hm] at hb; exact hb.elim
      have hkn := (Dfs.rep_nil_iff hk).1 hk0
      refine ⟨?_, ?_⟩
      · have := hRk.length
        rw [hkn] at this
        cases Dk with
        | nil => rfl
        | cons _ _ _ => simp [shape, Forest.nodes] at this
      · unfold endEvs
        cases hB : e.body <;> simp only [hB] at hb ⊢
    have hbodyk : match e.body with | .map => WF w true Dk | .seq => WF w false Dk | _ => Dk = .nil := by
      have hwk := hRk.wf
      rw [hkids] at hwk
      -- a compound node
      have hcomp : (e.body = .map → mapping pd.ty = true) ∧ (e.body = .seq → mapping pd.ty = false) := by
        by_cases hA : Alias pd x
        · have : e.body ≠ .map ∧ e.body ≠ .seq := by
            cases hr : (pd.ref || pd.cref) with
            | true =>
              rcases Bool.or_eq_true_iff.1 hr with h | h
              · rw [hsame.ref h]; simp
              · rw [hsame.cref h]; simp
            | false =>
              have hxn : x.null = true := by
                rcases hA with h | h
                · rw [hr] at h; cases h
                · exact h
              rw [hsame.null hr hxn]; simp
          exact ⟨fun h => absurd h this.1, fun h => absurd h this.2⟩
        · cases hm : mapping pd.ty with
          | true => exact ⟨fun _ => rfl, fun h => by rw [hsame.map hA hm] at h; cases h⟩
          | false =>
            refine ⟨fun h => ?_, fun _ => rfl⟩
            cases hs : sequence pd.ty with
            | true => rw [hsame.seq hA hs] at h; cases h
            | false =>
              obtain ⟨t, ht, _⟩ := hsame.leaf hA hm hs
              rw [ht] at h; cases h
      cases hB : e.body with
      | map => rw [hcomp.1 hB] at hwk; exact hwk
      | seq => rw [hcomp.2 hB] at hwk; exact hwk
      | scalar v => exact (hleaf (by rw [hB]; trivial)).1
      | ref v => exact (hleaf (by rw [hB]; trivial)).1
      | cref v => exact (hleaf (by rw [hB]; trivial)).1
      | null => exact (hleaf (by rw [hB]; trivial)).1
    have hevs : e.evs Dk.evs = e.nameEvs ++ [e.event] ++ (Dk.evs ++ endEvs e) := by
      unfold El.evs El.rest endEvs
      have := hleaf
      unfold endEvs at this
      cases hB : e.body <;> simp only [hB] at this ⊢
      · simp
      · simp
      all_goals (rw [(this trivial).1]; simp [DF.evs])
    refine ⟨.cons e Dk Ds, ⟨⟨⟨?_, ?_, ?_, ?_⟩, hbodyk, hRs.wf⟩, fun n => ?_, ?_, ?_⟩, fun level out es => ?_⟩
    · -- names
      rw [hsame.name]
      unfold NamesOK at hnames
      rw [hpp] at hnames
      unfold namedOf
      cases hn : nameless pd x with
      | true =>
        rcases hnames.1 hn with h | ⟨p, h1, h2⟩
        · simp [h]
        · simp [h1, h2]
      | false =>
        have : ¬ (par = 0 ∨ ∃ p, ra[par]? = some p ∧ mapping p.ty = false) := fun h => by rw [hnames.2 h] at hn; cases hn
        have hp0 : par ≠ 0 := fun h => this (.inl h)
        have hlt : par < ra.length := by omega
        rw [List.getElem?_eq_getElem hlt] at this ⊢
        have hm : mapping ra[par].ty = true := by
          cases hm : mapping ra[par].ty with
          | true => rfl
          | false => exact absurd (.inr ⟨_, rfl, hm⟩) this
        simp [hp0, hm]
    · intro n hn
      rw [hsame.name] at hn
      cases hb : nameless pd x with
      | true => rw [hb] at hn; simp at hn
      | false =>
        rw [hb] at hn
        simp only [Bool.false_eq_true, if_false, Option.some.injEq] at hn
        rw [← hn]
        exact hknown hb
    · intro n hn
      rw [hsame.anchor] at hn
      split at hn
      · cases hn; exact hid
      · cases hn
    · intro n hn
      cases hr : (pd.ref || pd.cref) with
      | true =>
        rcases Bool.or_eq_true_iff.1 hr with h | h
        · rw [hsame.ref h] at hn
          rcases hn with hn | hn <;> cases hn
          exact htgt hr
        · rw [hsame.cref h] at hn
          rcases hn with hn | hn <;> cases hn
          exact htgt hr
      | false =>
        exfalso
        have hne : e.body = .null ∨ e.body = .map ∨ e.body = .seq ∨ ∃ t, e.body = .scalar t := by
          by_cases hA : Alias pd x
          · have hxn : x.null = true := by
              rcases hA with h | h
              · rw [hr] at h; cases h
              · exact h
            exact .inl (hsame.null hr hxn)
          · cases hm : mapping pd.ty with
            | true => exact .inr (.inl (hsame.map hA hm))
            | false =>
              cases hs : sequence pd.ty with
              | true => exact .inr (.inr (.inl (hsame.seq hA hs)))
              | false =>
                obtain ⟨t, ht, _⟩ := hsame.leaf hA hm hs
                exact .inr (.inr (.inr ⟨t, ht⟩))
        rcases hne with h | h | h | ⟨t, h⟩ <;> rw [h] at hn <;> rcases hn with hn | hn <;> cases hn
    · simp only [shape, Ptrs.number]
      rw [hRk.number, hRk.length, hRs.number]
    · simp [shape, Forest.nodes, hRk.length, hRs.length]
    · intro j m hj
      cases j with
      | zero =>
        simp only [Forest.nodes, List.getElem?_cons_zero, Option.some.injEq] at hj
        subst hj
        exact ⟨pd, x, e, hpd, hx, rfl, hsame⟩
      | succ j =>
        simp only [Forest.nodes, List.getElem?_cons_succ, List.getElem?_append] at hj
        simp only [els, List.getElem?_cons_succ, List.getElem?_append, els_length, hRk.length]
        split at hj
        · rename_i hlt
          simp only [hlt, if_true]
          exact hRk.same j m hj
        · rename_i hlt
          simp only [hlt, if_false]
          exact hRs.same _ m hj
    · simp only [Forest.events, List.cons_append, List.append_assoc]
      rw [call_pre hpd hx (hpre out), hCk, call_post hpd hx (hpost _), hCs]
      simp only [DF.evs, hevs, List.append_assoc]

theorem canon_get (w : List Nat → Bool) (D : DF) : ∀ (p n j : Nat) (b : Bool) (e : El), WF w b D → (els D)[j]? = some e →
    ∃ q : Pd, (canon p n D)[j]? = some q ∧ ∃ p', q.ref = (e.pd p').ref ∧ q.cref = (e.pd p').cref ∧ q.refd = (e.pd p').refd ∧ q.idx = (e.pd p').idx ∧
      (e.isRef = true → q.firstChild = (e.pd p').firstChild) := by
  induction D with
  | nil => intro p n j b e _ h; simp [els] at h
  | cons e0 k s ih1 ih2 =>
    intro p n j b e hwf h
    obtain ⟨_, h2, h4⟩ := hwf
    obtain ⟨bk, h3⟩ := kids_wf h2
    cases j with
    | zero =>
      simp only [els, List.getElem?_cons_zero, Option.some.injEq] at h
      subst h
      refine ⟨_, rfl, p, rfl, rfl, rfl, rfl, fun hr => ?_⟩
      have := ref_leaf h2 hr
      subst this
      rfl
    | succ j =>
      simp only [els, List.getElem?_cons_succ, List.getElem?_append, els_length] at h
      simp only [canon, List.getElem?_cons_succ, List.getElem?_append, canon_length]
      split at h
      · rename_i hlt
        rw [if_pos hlt]
        exact ih1 _ _ _ _ _ h3 h
      · rename_i hlt
        rw [if_neg hlt]
        exact ih2 _ _ _ _ _ h4 h

end Verif.Lemmas.YamlPrint
