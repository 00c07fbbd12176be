import Verif.Lemmas.LoadFits
import Verif.Props.LoadSays
/-!
# C55: a document that fits the type is loaded, if there is enough memory

`Plenty` and `Fits` are in Spec/LoadFits.lean.
-/
namespace Verif.Props.LoadFits
open Verif.Model Verif.Model.Ptrs Verif.Model.Save Verif.Model.Copy Verif.Model.Load Verif.Spec Verif.Spec.Save Verif.Spec.Load Verif.Spec.LoadSays Verif.Spec.LoadFits
  Verif.Lemmas.LoadInv Verif.Lemmas.LoadStep Verif.Lemmas.LoadRow Verif.Lemmas.LoadOpen Verif.Lemmas.LoadEnd Verif.Lemmas.LoadFits Verif.Props.Load
open Verif.Spec.Copy (Apart Layout span Allocator Grown)

section
variable {E : Env} {m : Bytes} {live : Blocks} {dst : Nat} {f : Fd} {size : Nat} {R : Nat → Fd → Prop}

/-- everything but the references -/
theorem fill_goes (S : Setup E dst f.size live) (hD : Destination E.tds m live dst f) (h1 : 1 < E.ra.length) (hM : Plenty E.alloc live E.ra.length size) (F : Fits E size R)
    (hR : R 1 f) (hd0 : dst ≠ 0) : ∃ s, fill E m live dst f = some (true, s) ∧ Going live size R s := by
  obtain ⟨hg, hr⟩ := good_root hD.type
  have hinv := inv_start (E := E) (m := m) (live := live) (dst := dst) S.tree f.size
  have hslot : Slot (E := E) (dst := dst) (ext := f.size) (live0 := live) 0 { m := m, live := live, nodes := initial E.ra } 1 dst f := by
    refine ⟨h1, hg, .inl ⟨Nat.le_refl _, by omega⟩, fun _ k hk => hD.zero k (by omega), fun j x hx hc => ?_, fun x hx => (initial_get S.tree hx).1, fun pd hpd => .inl (S.tree.top pd hpd)⟩
    have := (initial_get S.tree hx).2.1
    unfold isCell at hc
    rw [this] at hc
    rcases hc with hc | hc <;> cases hc
  have G : Going live size R { m := m, live := live, nodes := initial E.ra } := by
    refine ⟨fun b hb => ?_, fun j x hx h0 => absurd (initial_get S.tree hx).1 h0⟩
    simp only [List.drop_length] at hb
    cases hb
  obtain ⟨ok, s, e, hs⟩ := (load_works (m0 := m) S E.ra.length 0 0 (by omega) (by omega)).1 _ 1 dst f hinv (by omega) hslot
  obtain ⟨rfl, G'⟩ := load_goes (m0 := m) S hM F E.ra.length 0 0 (by omega) (by omega) _ 1 dst f hinv (by omega) hslot G hR hd0 ok s e
  unfold fill
  rw [e]
  simp only [Option.bind_eq_bind, Option.bind_some, if_true]
  rw [List.range_eq_range']
  exact postponed_goes S hM F E.ra.length 0 s (by omega) hs.inv G'

theorem load_true (htab : E.table = true) {s : LSt} (e : fill E m live dst f = some (true, s)) {ok : Bool} {s' : LSt} (h : Load.load E m live dst f = some (ok, s')) : ok = true := by
  unfold Verif.Model.Load.load at h
  rw [e] at h
  simp only [Option.bind_eq_bind, Option.bind_some, if_true] at h
  obtain ⟨⟨ok2, s2⟩, e2, h⟩ := Option.bind_eq_some_iff.1 h
  unfold setCrossrefs at e2
  rw [if_neg (by rw [htab]; simp)] at e2
  simp only [Option.bind_eq_bind] at e2
  obtain ⟨_, _, e2⟩ := Option.bind_eq_some_iff.1 e2
  obtain ⟨_, _, e2⟩ := Option.bind_eq_some_iff.1 e2
  simp only [Option.some.injEq, Prod.mk.injEq] at e2
  obtain ⟨rfl, _⟩ := e2
  simp only [if_true, Option.some.injEq, Prod.mk.injEq] at h
  exact h.1.symm

/-- C55.  A document whose nodes can be read as objects of the types that are asked for, the first as the object itself, is loaded
if there is memory for as many blocks as there are nodes, and for the table of references.  Then the object is what the document
says.  Content references lead to pointers and strings. -/
theorem C55_load_succeeds_partial (hK : Types E.tds) (hL : Layout E.tds) (hF : Fields E.tds) (hB : BitsApart E.tds) (hT : Tree E.ra) (h1 : 1 < E.ra.length)
    (hlen : E.data.length = E.ra.length) (hN : Distinct E.ra E.data) (hA : Allocator E.alloc) (hP : ∀ b ∈ live, 0 < b.2) (hD : Destination E.tds m live dst f) (hd0 : dst ≠ 0)
    (hI : ∀ d ∈ E.data, d.val ≠ .int (BitVec.ofNat 128 (2 ^ 127)))
    (hFits : Fits E size R) (hR : R 1 f) (hM : Plenty E.alloc live E.ra.length size) (htab : E.table = true)
    (hC : ∀ (i k : Nat) (g h : Fd) (v : BitVec 128) (pk : Pd), R i g → g.ty = .pointer ∨ g.ty = .string → Numbered E i v → v.toInt < 0 →
      E.ra[k]? = some pk → pk.idx = (-v).toNat % 2 ^ 32 → R k h → h.ty = .pointer ∨ h.ty = .string) :
    ∃ s new place type, Load.load E m live dst f = some (true, s) ∧ s.live = live ++ new ∧ Says E dst f s.m new place type := by
  have S : Setup E dst f.size live := ⟨⟨hK, hL, hF⟩, hT, hlen, hN, hA, hD.space.1, hP, hI⟩
  obtain ⟨s1, e1, G⟩ := fill_goes S hD h1 hM hFits hR hd0
  have hcont : ∀ s, fill E m live dst f = some (true, s) → Content E s := by
    intro s e x t k pk hx hh hcr hk hi ht
    rw [e1] at e; cases e
    obtain ⟨i, hxi⟩ := List.mem_iff_getElem?.1 hx
    obtain ⟨hx0, hty, v, k1, k2, k3⟩ := LoadSays.numbered_of hB S hD h1 e1 hxi hh hcr
    by_cases ht0 : t.addr = 0
    · exact .inl ht0
    · obtain ⟨r1, r2, _⟩ := G.typed k t ht ht0
      obtain ⟨q1, q2, _⟩ := G.typed i x hxi hx0
      right
      unfold Holds
      rw [r2]
      exact hC i k x.fd t.fd v pk q1 (by rw [← hty]; exact hh) k1 k2 hk (hi.trans k3) r1
  obtain ⟨ok, s, e, _⟩ := C52_load_safe_partial hK hL hF hT h1 hlen hN hA hP hD hI hcont
  obtain rfl := load_true htab e1 e
  obtain ⟨new, place, type, k1, k2⟩ := LoadSays.C53_load_says_partial hK hL hF hB hT h1 hlen hN hA hP hD hI hcont e
  exact ⟨s, new, place, type, e, k1, k2⟩

end

/-! ## an example, and what is not enough -/

namespace Example
open Verif.Props.Load.Example Verif.Props.Copy Verif.Props.Copy.Example Verif.Props.Save.Example Verif.Props.Save Verif.Lemmas.JsonLoad Verif.Lemmas.JsonLoad.DF Verif.Lemmas.TopDown
open Verif.Lemmas.LoadSafe
open Verif.Model.XdrGraph (tdAt)

def fails : Conv → Bool
  | .fail => true
  | _ => false

/-- the conditions of `Fits` for one node -/
def fitsAt (E : Env) (size : Nat) (rel : Nat → Option Fd) (i : Nat) (f : Fd) : Bool :=
  match E.data[i]?, kids E i with
  | some d, some l =>
    (match d.name with | some n => f.unnamed || f.name == [] || n == f.name | none => true) && d.typed.all (· == f.td) &&
    (f.ty != .endAnonUnion && f.ty != .last) && (!(Spec.LoadSays.valueType f.ty) || (valueBytes E f i d).isSome) && (f.ty != .bitfield || !fails (E.conv f i)) &&
    (f.ty != .string || d.null || match d.val with | .int _ => true | .text t => decide (t.length < size) | _ => false) &&
    (f.ty != .struct || match tdAt E.tds f.td with
      | some t => (List.range l.length).all fun q => match l[q]? with
        | some c => (List.range t.fields.length).any fun k => match t.fields[k]?, E.data[c]? with
          | some g, some d => (match d.name with | some n => g.name == n | none => k == q) && rel c == some g
          | _, _ => false
        | none => true
      | none => true) &&
    (f.ty != .array || ((f.dims.headD 0 == 0 || f.size != 0) && decide (l.length ≤ f.dims.headD 0) && l.all fun c => rel c == some (Spec.LoadSays.element E.tds f))) &&
    (f.ty != .pointer || d.null || (match d.val with | .int _ => true | _ => false) || l.isEmpty ||
      ((Spec.LoadSays.target E.tds f).size != 0 && decide (l.length * (Spec.LoadSays.target E.tds f).size ≤ size) && l.all fun c => rel c == some (Spec.LoadSays.target E.tds f)))
  | _, _ => false

theorem fits_of {E : Env} {size : Nat} {rel : Nat → Option Fd} (hT : Tree E.ra)
    (h : ((List.range E.ra.length).all fun i => (rel i).all fun f => fitsAt E size rel i f) = true) (hrel : ∀ i f, rel i = some f → i < E.ra.length) :
    Fits E size fun i f => rel i = some f := by
  have key : ∀ i f, rel i = some f → fitsAt E size rel i f = true := by
    intro i f hf
    have := List.all_eq_true.1 h i (List.mem_range.2 (hrel i f hf))
    rw [hf] at this
    exact this
  have kid : ∀ i pd l, E.ra[i]? = some pd → Siblings E.ra pd.firstChild l → kids E i = some l := by
    intro i pd l h1 h2
    obtain ⟨pd', l', g1, g2, g3, _⟩ := kids_ok hT (List.getElem?_eq_some_iff.1 h1).1
    rw [h1] at g1; cases g1
    rw [siblings_unique h2 g2]; exact g3
  have conds : ∀ i f d l, rel i = some f → E.data[i]? = some d → kids E i = some l → _ := fun i f d l h1 h2 h3 => by
    have := key i f h1
    unfold fitsAt at this
    rw [h2, h3] at this
    simp only [Bool.and_eq_true] at this
    exact this
  have ex : ∀ i f, rel i = some f → ∃ d l, E.data[i]? = some d ∧ kids E i = some l := by
    intro i f h1
    have := key i f h1
    unfold fitsAt at this
    split at this
    · next d l e1 e2 => exact ⟨d, l, e1, e2⟩
    · cases this
  refine ⟨fun i f d h1 h2 => ?_, fun i f h1 => ?_, fun i f d h1 ht h2 => ?_, fun i f h1 ht => ?_, fun i f d h1 ht h2 => ?_, fun i f pd l h1 ht h2 h3 t htd q c hq => ?_,
    fun i f pd l h1 ht h2 h3 => ?_, fun i f d pd l h1 ht h2 h3 h4 hn hv hl => ?_⟩
  · obtain ⟨_, l, e1, e2⟩ := ex i f h1
    obtain ⟨⟨⟨⟨⟨⟨⟨⟨c1, c2⟩, c3⟩, c4⟩, c5⟩, c6⟩, c7⟩, c8⟩, c9⟩ := conds i f d l h1 h2 e2
    refine ⟨fun n hn hu hne => ?_, fun t ht => ?_⟩
    · rw [hn] at c1; simp [hu, hne] at c1; exact c1
    · rw [ht] at c2; simpa using c2
  · obtain ⟨d, l, e1, e2⟩ := ex i f h1
    obtain ⟨⟨⟨⟨⟨⟨⟨⟨c1, c2⟩, c3⟩, c4⟩, c5⟩, c6⟩, c7⟩, c8⟩, c9⟩ := conds i f d l h1 e1 e2
    have c := c3
    simpa using c
  · obtain ⟨_, l, e1, e2⟩ := ex i f h1
    obtain ⟨⟨⟨⟨⟨⟨⟨⟨c1, c2⟩, c3⟩, c4⟩, c5⟩, c6⟩, c7⟩, c8⟩, c9⟩ := conds i f d l h1 h2 e2
    have c := c4
    rw [ht] at c
    intro e
    rw [e] at c
    simp at c
  · obtain ⟨d, l, e1, e2⟩ := ex i f h1
    obtain ⟨⟨⟨⟨⟨⟨⟨⟨c1, c2⟩, c3⟩, c4⟩, c5⟩, c6⟩, c7⟩, c8⟩, c9⟩ := conds i f d l h1 e1 e2
    have c := c5
    rw [ht] at c
    intro e
    rw [e] at c
    simp [fails] at c
  · obtain ⟨_, l, e1, e2⟩ := ex i f h1
    obtain ⟨⟨⟨⟨⟨⟨⟨⟨c1, c2⟩, c3⟩, c4⟩, c5⟩, c6⟩, c7⟩, c8⟩, c9⟩ := conds i f d l h1 h2 e2
    have c := c6
    rw [ht] at c
    simp only [Bool.or_eq_true] at c
    rcases c with (c | c) | c
    · simp at c
    · exact .inl c
    · cases e : d.val with
      | int v => exact .inr (.inl ⟨v, rfl⟩)
      | text t => rw [e] at c; exact .inr (.inr ⟨t, rfl, of_decide_eq_true c⟩)
      | none => rw [e] at c; cases c
      | other => rw [e] at c; cases c
  · obtain ⟨d, _, e1, _⟩ := ex i f h1
    obtain ⟨⟨⟨⟨⟨⟨⟨⟨c1, c2⟩, c3⟩, c4⟩, c5⟩, c6⟩, c7⟩, c8⟩, c9⟩ := conds i f d l h1 e1 (kid i pd l h2 h3)
    have c' := c7
    rw [ht, htd] at c'
    simp only [Bool.or_eq_true] at c'
    rcases c' with c' | c'
    · simp at c'
    have c' := List.all_eq_true.1 c' q (List.mem_range.2 (List.getElem?_eq_some_iff.1 hq).1)
    rw [hq] at c'
    obtain ⟨k, _, c'⟩ := List.any_eq_true.1 c'
    split at c'
    · next g d' g1 g2 =>
      simp only [Bool.and_eq_true, beq_iff_eq] at c'
      refine ⟨k, g, d', g1, g2, fun n hn => ?_, fun hn => ?_, c'.2⟩
      · have := c'.1; rw [hn] at this; simpa using this
      · have := c'.1; rw [hn] at this; simpa using this
    · cases c'
  · obtain ⟨d, _, e1, _⟩ := ex i f h1
    obtain ⟨⟨⟨⟨⟨⟨⟨⟨c1, c2⟩, c3⟩, c4⟩, c5⟩, c6⟩, c7⟩, c8⟩, c9⟩ := conds i f d l h1 e1 (kid i pd l h2 h3)
    have c := c8
    rw [ht] at c
    simp only [Bool.or_eq_true, Bool.and_eq_true, decide_eq_true_eq, List.all_eq_true, beq_iff_eq] at c
    rcases c with c | ⟨⟨c1, c2⟩, c3⟩
    · simp at c
    · refine ⟨fun h => ?_, c2, c3⟩
      rcases c1 with c1 | c1
      · exact absurd c1 h
      · simpa using c1
  · obtain ⟨⟨⟨⟨⟨⟨⟨⟨c1, c2⟩, c3⟩, c4⟩, c5⟩, c6⟩, c7⟩, c8⟩, c9⟩ := conds i f d l h1 h2 (kid i pd l h3 h4)
    have c := c9
    rw [ht] at c
    simp only [Bool.or_eq_true, Bool.and_eq_true, decide_eq_true_eq, List.all_eq_true, beq_iff_eq] at c
    rcases c with (((c | c) | c) | c) | ⟨⟨c1, c2⟩, c3⟩
    · simp at c
    · rw [hn] at c; cases c
    · cases e : d.val with
      | int v => exact absurd e (hv v)
      | text t => cases c
      | none => cases c
      | other => cases c
    · exact absurd (by simpa using c) hl
    · exact ⟨by simpa using c1, c2, c3⟩

/-- the allocator above has enough memory -/
theorem bump_plenty {live : Blocks} {count size : Nat} (h : top live + count * size ≤ 2 ^ 64) : Plenty bump live count size := by
  have hpos : ∀ l : Blocks, 0 < top l := fun l => by have := (foldl_max l 4096).1; unfold top; omega
  have htop : ∀ new : Blocks, Grown bump live new → top (live ++ new) ≤ top live + (new.map Prod.snd).sum := by
    intro new hg
    induction hg with
    | none => simp
    | @more new n hg hne ih =>
      rw [← List.append_assoc]
      have e : bump (live ++ new) n = top (live ++ new) := by
        unfold bump at hne ⊢
        split at hne
        · next h => rw [if_pos h]
        · exact absurd rfl hne
      rw [e]
      unfold top at ih ⊢
      rw [List.foldl_append (l := live ++ new)]
      simp only [List.foldl_cons, List.foldl_nil, List.map_append, List.map_cons, List.map_nil, List.sum_append, List.sum_cons, List.sum_nil]
      rw [show ∀ a b : Nat, a.max b = if a ≤ b then b else a from fun a b => rfl, if_pos (by omega)]
      omega
  intro new n hg hl hs hn0 hn
  have h1 := htop new hg
  have h2 : ∀ l : Blocks, (∀ b ∈ l, b.2 ≤ size) → (l.map Prod.snd).sum ≤ l.length * size := by
    intro l
    induction l with
    | nil => intro _; simp
    | cons b l ih =>
      intro hb
      have := ih fun c hc => hb c (List.mem_cons_of_mem _ hc)
      have := hb b (List.mem_cons_self ..)
      rw [List.map_cons, List.sum_cons, List.length_cons, Nat.succ_mul]
      omega
  have h3 := h2 new hs
  have h4 : (new.length + 1) * size ≤ count * size := Nat.mul_le_mul_right _ (by omega)
  rw [Nat.succ_mul] at h4
  unfold bump
  rw [if_pos (by omega)]
  have := hpos (live ++ new)
  omega

/-- the types of the nodes of `{"p": [{"s": "a", "n": 1}, {"s": "b", "n": 2}], "t": -4, "q": 8, "k": 7}` -/
def goodTypes (i : Nat) : Option Fd :=
  [none, some (rootFd 2 32), tBox.fields[0]?, some (Spec.LoadSays.target types (ptrField 0 .struct 1)), Load.Example.tItem.fields[0]?, Load.Example.tItem.fields[1]?,
    some (Spec.LoadSays.target types (ptrField 0 .struct 1)), Load.Example.tItem.fields[0]?, Load.Example.tItem.fields[1]?, tBox.fields[1]?, tBox.fields[2]?, tBox.fields[3]?].getD i none

/-- numbers in the place of pointers and strings are not negative, or lead to pointers and strings -/
def leads (E : Env) (rel : Nat → Option Fd) (i : Nat) : Bool :=
  match E.data[i]? with
  | some { val := .int v, .. } => decide (v.toNat < 2 ^ 127) || (List.range E.ra.length).all fun k => match E.ra[k]?, rel k with
    | some pk, some h => pk.idx != (-v).toNat % 2 ^ 32 || h.ty == .pointer || h.ty == .string
    | _, _ => true
  | _ => true

/-- the document is loaded: the conditions hold -/
example : ∃ s new place type, Load.load (env good) (fun _ => 0) [(500, 32)] 500 (rootFd 2 32) = some (true, s) ∧ s.live = [(500, 32)] ++ new ∧ Says (env good) 500 (rootFd 2 32) s.m new place type := by
  have hwf : WF known false good := by
    simp [good, Verif.Props.Load.Example.object, mem, elt, WF, int, neg, str, Verif.Lemmas.JsonLex.meaning]
    decide +kernel
  obtain ⟨lc, h⟩ := loads hwf (text := goodText) (by decide +kernel)
  have hT : Tree (env good).ra := Verif.Lemmas.LoadJson.canon_tree good.shape (by decide +kernel)
  have hN : Distinct (env good).ra (env good).data := Verif.Lemmas.LoadJson.distinct_of h _ (fun _ => rfl) hT (unrepeated_of (ra := (ptrs good 0).ra) (by decide +kernel))
  have hI : ∀ d ∈ (env good).data, d.val ≠ .int (BitVec.ofNat 128 (2 ^ 127)) := by decide +kernel
  refine C55_load_succeeds_partial (size := 32) (R := fun i f => goodTypes i = some f) types_ok types_layout types_fields LoadSays.Example.types_apart hT (by decide +kernel) (by decide +kernel) hN bump_ok (by decide)
    destination (by decide) hI (fits_of hT (by decide +kernel) fun i f hf => ?_) rfl (bump_plenty (by decide +kernel)) rfl ?_
  · unfold goodTypes at hf
    rw [show (env good).ra.length = 12 from by decide +kernel]
    refine Nat.lt_of_not_le fun hge => ?_
    rw [List.getD_eq_getElem?_getD, List.getElem?_eq_none (by simpa using hge)] at hf
    cases hf
  · have hall : ((List.range 12).all fun i => leads (env good) goodTypes i) = true := by decide +kernel
    intro i k g h v pk h1 _ hnum hneg hk hi hh
    obtain ⟨d, hd, _, hv⟩ := hnum
    have hlt := (List.getElem?_eq_some_iff.1 hd).1
    rw [show (env good).data.length = 12 from by decide +kernel] at hlt
    have := List.all_eq_true.1 hall i (List.mem_range.2 hlt)
    unfold leads at this
    obtain ⟨n, t, u, w⟩ := d
    simp only at hv
    subst hv
    rw [hd] at this
    simp only [Bool.or_eq_true, decide_eq_true_eq] at this
    rcases this with this | this
    · have := BitVec.toInt_eq_toNat_of_lt (x := v) (by omega)
      omega
    · have := List.all_eq_true.1 this k (List.mem_range.2 (List.getElem?_eq_some_iff.1 hk).1)
      rw [hk, hh] at this
      simp only [Bool.or_eq_true, bne_iff_ne, ne_eq, beq_iff_eq] at this
      rcases this with (this | this) | this
      · exact absurd hi this
      · exact .inl this
      · exact .inr this

/-- an allocator that gives only blocks of up to `n` bytes -/
def upTo (n : Nat) (live : Blocks) (k : Nat) : Nat := if k ≤ n then bump live k else 0

/-- The bound on the size of blocks is needed: the array of items has 32 bytes. -/
example : ((Load.load { env good with alloc := upTo 32 } (fun _ => 0) [(500, 32)] 500 (rootFd 2 32)).map Prod.fst = some true) ∧
    (Load.load { env good with alloc := upTo 31 } (fun _ => 0) [(500, 32)] 500 (rootFd 2 32)).map Prod.fst = some false := by decide +kernel

/-- Each of these does not fit and fails: a number that is no number, a string that is a structure, a name that is none of the structure (which is taken for
the first field, but is no pointer to items then). -/
example : (run (object (mem "k" (str "x") .nil .nil))).map Prod.fst = some false ∧ (run (object (mem "t" .obj (mem "k" (int 1) .nil .nil) .nil))).map Prod.fst = some false ∧
    (run (object (mem "n" (int 1) .nil .nil))).map Prod.fst = some false := by decide +kernel

end Example
end Verif.Props.LoadFits
