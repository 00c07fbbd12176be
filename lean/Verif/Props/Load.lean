import Verif.Lemmas.LoadEnd
import Verif.Lemmas.LoadJson
import Verif.Model.LoadJson
import Verif.Props.XdrSafe
/-!
# C52: filling an object from any parsed document is safe, and a failure releases everything

`load` is `none` if the program does something undefined: an access outside of the blocks in use, `free` of something
that is no block.
-/
namespace Verif.Props.Load
open Verif.Model Verif.Model.Ptrs Verif.Model.Save Verif.Model.Copy Verif.Model.Load Verif.Spec Verif.Spec.Save Verif.Spec.Load
  Verif.Lemmas.CopyMem Verif.Lemmas.LoadSafe Verif.Lemmas.LoadInv Verif.Lemmas.LoadStep Verif.Lemmas.LoadRow Verif.Lemmas.LoadOpen Verif.Lemmas.LoadEnd
open Verif.Lemmas (JsonLoad.DF JsonLoad.data_length TopDown.canon_length)
open Verif.Spec.Copy (Apart Layout span Allocator Grown)
open Verif.Lemmas.XdrSafe (home home_mono home_live not_home)

section
variable {E : Env} {m : Bytes} {live : Blocks} {dst : Nat} {f : Fd}

theorem good_root (hT : FdOK E.tds f ∧ f.ty ≠ .bitfield ∧ (f.ty = .pointer → f.size = 8)) : Good E.tds f ∧ room E.tds f ≤ f.size := by
  obtain ⟨⟨a1, _, a3, a4⟩, hb, hp⟩ := hT
  constructor
  · refine ⟨a1, a3, ?_⟩
    revert a4
    cases e : f.ty <;> intro a4 <;> first | exact trivial | exact a4 | skip
    · exact absurd e hb
    · obtain ⟨b, c, q1, q2, _, q4, q5⟩ := a4
      exact ⟨b, c, q1, q2, q4, q5⟩
    · rcases a4 with h | ⟨b, q1, q2, _⟩
      · exact .inl h
      · exact .inr ⟨b, q1, q2⟩
  · by_cases hpl : plain f.ty = true
    · rw [room_plain hpl, a3 hpl]; exact Nat.le_refl _
    · by_cases hpt : f.ty = .pointer
      · rw [hp hpt]; unfold room; rw [hpt]; exact Nat.le_refl _
      · unfold room
        revert hpl hb hpt
        cases e : f.ty <;> simp [plain]

theorem initial_get {ra : List Pd} (hT : Tree ra) {j : Nat} {x : Node} (h : (initial ra)[j]? = some x) :
    x.addr = 0 ∧ x.ty = .none ∧ x.ref = false ∧ x.cref = false := by
  unfold initial at h
  rw [List.getElem?_map] at h
  obtain ⟨pd, h1, rfl⟩ := Option.map_eq_some_iff.1 h
  have := hT.bare pd (List.mem_of_getElem? h1)
  exact ⟨rfl, this.2.2.1, this.1, this.2.1⟩

theorem inv_start (hT : Tree E.ra) (ext : Nat) : Inv E dst ext live m 0 { m := m, live := live, nodes := initial E.ra } := by
  have hn : ∀ {j : Nat} {x : Node}, (initial E.ra)[j]? = some x → ¬ isCell x := by
    intro j x hx hc
    have := (initial_get hT hx).2.1
    unfold isCell at hc
    rw [this] at hc
    rcases hc with hc | hc <;> cases hc
  have hd : live.drop live.length = [] := List.drop_length
  refine ⟨by simp [initial], List.prefix_rfl, by rw [hd]; exact .none, fun b hb => ?_, fun _ _ => rfl, fun j x hx _ => (initial_get hT hx).2.1,
    fun j x hx hc => absurd hc (hn hx), fun j k x y _ hx _ hc => absurd hc (hn hx), fun j x hx hc => absurd hc (hn hx), fun j k x y _ hx _ hc => absurd hc (hn hx),
    fun b hb => ?_, fun c pc x _ hx h0 => absurd (initial_get hT hx).1 h0, fun j x hx ht => absurd (.inl ht) (hn hx), fun j x hx ht => absurd (.inl ht) (hn hx),
    fun j x hx hc => absurd hc (hn hx), fun j x hx h0 => absurd (initial_get hT hx).1 h0, fun x hx => (initial_get hT hx).1, fun j x hx _ => (initial_get hT hx).2.2,
    fun j x hx ht => absurd (.inl ht) (hn hx), fun j x hx hc => ?_⟩
  · rw [hd] at hb; cases hb
  · rw [hd] at hb; cases hb
  · rw [(initial_get hT hx).2.2.2] at hc; cases hc

/-- everything but the references -/
theorem fill_ok (S : Setup E dst f.size live) (hD : Destination E.tds m live dst f) (h1 : 1 < E.ra.length) :
    ∃ ok s, fill E m live dst f = some (ok, s) ∧ Inv E dst f.size live m E.ra.length s := by
  obtain ⟨hg, hr⟩ := good_root hD.type
  have hinv := inv_start (E := E) (m := m) (live := live) (dst := dst) S.tree f.size
  have hslot : Slot (E := E) (dst := dst) (ext := f.size) (live0 := live) 0 { m := m, live := live, nodes := initial E.ra } 1 dst f := by
    refine ⟨h1, hg, .inl ⟨Nat.le_refl _, by omega⟩, fun _ k hk => hD.zero k (by omega), fun j x hx hc => ?_, fun x hx => (initial_get S.tree hx).1, fun pd hpd => .inl (S.tree.top pd hpd)⟩
    have := (initial_get S.tree hx).2.1
    unfold isCell at hc
    rw [this] at hc
    rcases hc with hc | hc <;> cases hc
  obtain ⟨ok, s, e, hs⟩ := (load_works (m0 := m) S E.ra.length 0 0 (by omega) (by omega)).1 _ 1 dst f hinv (by omega) hslot
  unfold fill
  rw [e]
  simp only [Option.bind_eq_bind, Option.bind_some]
  cases ok with
  | false => exact ⟨false, s, rfl, inv_mono (by omega) hs.inv⟩
  | true =>
    simp only [if_true]
    rw [List.range_eq_range']
    exact postponed_ok S E.ra.length 0 s (by omega) hs.inv

/-- C52.  For all types (without unions and size fields), all parsed documents, all conversions of values and all
allocators: filling an object ends and does nothing undefined; if it fails everything that was allocated is released, and
if it succeeds everything that was allocated can be reached.

The nodes form a tree whose nodes are numbered from the root down; the members of an object have different names;
content references lead to pointers and strings; no number is −2^127. -/
theorem C52_load_safe_partial (hK : Types E.tds) (hL : Layout E.tds) (hF : Fields E.tds) (hT : Tree E.ra) (h1 : 1 < E.ra.length) (hlen : E.data.length = E.ra.length)
    (hN : Distinct E.ra E.data) (hA : Allocator E.alloc) (hP : ∀ b ∈ live, 0 < b.2) (hD : Destination E.tds m live dst f)
    (hI : ∀ d ∈ E.data, d.val ≠ .int (BitVec.ofNat 128 (2 ^ 127)))
    (hC : ∀ s, fill E m live dst f = some (true, s) → Content E s) :
    ∃ ok s, Load.load E m live dst f = some (ok, s) ∧ (ok = false → Released m live dst f.size s) ∧ (ok = true → ∃ new, Filled E.alloc m live dst f.size s new) := by
  have S : Setup E dst f.size live := ⟨⟨hK, hL, hF⟩, hT, hlen, hN, hA, hD.space.1, hP, hI⟩
  obtain ⟨ok, s, e, hinv⟩ := fill_ok S hD h1
  have hlive : live ++ s.live.drop live.length = s.live := by
    obtain ⟨l, e⟩ := hinv.live
    rw [← e, List.drop_left]
  have hnull : ∀ x : Node, s.nodes[0]? = some x → ¬ isCell x := fun x hx hc => cell_addr hinv hx hc (hinv.null x hx)
  -- release
  have hrel : ∃ s', cleanup (List.range E.ra.length).tail.reverse s = some s' ∧ Released m live dst f.size s' := by
    have hrest : Rest dst f.size live s.nodes (E.ra.length - 1 + 1) (s.live.drop live.length) s := by
      have hapart := grown_apart hA hinv.grown
      refine ⟨rfl, hlive.symm, fun b hb => ⟨grown_pos hinv.grown b hb, fun c hc e => ?_⟩, ?_, fun j x _ hx hc => ?_, hinv.apart, fun j x _ hx hc => hinv.val j x hx hc,
        fun j k x y hne _ _ hx hy hcx hcy => hinv.uniq j k x y hne hx hy hcx hcy, fun b hb => ?_, fun j x hj hx => ?_⟩
      · have h2 := grown_old hA hinv.grown b hb c hc
        have h3 := hinv.size b hb
        have h4 := hP c hc
        unfold Apart at h2
        omega
      · refine hapart.imp_of_mem ?_
        intro b c hb hc h2 h3
        have := hinv.size b hb
        have := hinv.size c hc
        unfold Apart at h2
        omega
      · rcases hinv.cell j x hx hc with h2 | ⟨b, hb, h2, h3⟩
        · exact .inl h2
        · exact .inr ⟨b, hb, h2, fun k y _ hy hcy e => (h3 k y hy hcy e).1⟩
      · obtain ⟨j, x, hx, hc, e⟩ := hinv.held b hb
        have := (List.getElem?_eq_some_iff.1 hx).1
        rw [hinv.len] at this
        exact ⟨j, x, by omega, hx, hc, e⟩
      · have := (List.getElem?_eq_some_iff.1 hx).1
        rw [hinv.len] at this
        omega
    obtain ⟨s', e1, g1, g2, g3, g4⟩ := release_ok S (E.ra.length - 1) _ s (by rw [hinv.len]; omega) hnull hrest
    refine ⟨s', ?_, g1, fun p hp hnd => ?_, fun x hx hc hin => ?_⟩
    · rw [← e1, List.range_eq_range']
      congr 2
      obtain ⟨n, hn⟩ : ∃ n, E.ra.length = n + 1 := ⟨E.ra.length - 1, by omega⟩
      rw [hn, List.range'_succ, List.tail_cons, Nat.add_sub_cancel]
    · have hout : ∀ b ∈ s.live.drop live.length, ¬ (b.1 ≤ p ∧ p < b.1 + b.2) := by
        intro b hb hin
        rw [covered_mem] at hp
        obtain ⟨c, hc, h2⟩ := hp
        have := grown_old hA hinv.grown b hb c hc
        unfold Apart at this
        omega
      rw [g3 p]
      · refine hinv.kept p ?_
        cases ec : covered (home dst f.size live s.live) p 1 with
        | false => rfl
        | true =>
          rw [covered_mem] at ec
          obtain ⟨b, hb, h2⟩ := ec
          unfold home at hb
          rcases List.mem_cons.1 hb with rfl | hb
          · exact absurd ⟨h2.1, by simp only at h2; omega⟩ hnd
          · exact absurd ⟨h2.1, by omega⟩ (hout b hb)
      · intro j x hx hc hin hpx
        rcases hin with hin | ⟨b, hb, hin⟩
        · exact hnd ⟨by omega, by omega⟩
        · exact hout b hb ⟨by omega, by omega⟩
    · rw [g2] at hx
      obtain ⟨j, hj⟩ := List.mem_iff_getElem?.1 hx
      exact g4 j x hj hc hin
  obtain ⟨sr, er, hr⟩ := hrel
  unfold Verif.Model.Load.load
  rw [e]
  simp only [Option.bind_eq_bind, Option.bind_some]
  cases ok with
  | false =>
    simp only [Bool.false_eq_true, if_false, Option.bind_some, er]
    exact ⟨false, sr, rfl, fun _ => hr, fun h => by cases h⟩
  | true =>
    simp only [if_true]
    obtain ⟨ok, m', e2, hlk, hsame⟩ := crossrefs_ok S hD.space.2 hinv (hC s e)
    rw [e2]
    simp only [Option.bind_some]
    cases ok with
    | false =>
      have := hsame rfl
      subst this
      simp only [Bool.false_eq_true, if_false, er, Option.bind_some]
      exact ⟨false, sr, rfl, fun _ => hr, fun h => by cases h⟩
    | true =>
      simp only [if_true]
      refine ⟨true, _, rfl, (fun h => by cases h), fun _ => ⟨s.live.drop live.length, hlive.symm, hinv.grown, fun p h2 h3 => hlk.kept p ?_, fun x hx hc => ?_, fun x hx hc => ?_, fun b hb => ?_,
        fun j k x y hne hx hy hcx hcy r1 r2 r3 r4 => ?_⟩⟩
      · cases ec : covered (home dst f.size live s.live) p 1 with
        | false => rfl
        | true =>
          rw [covered_mem] at ec
          obtain ⟨b, hb, h4⟩ := ec
          unfold home at hb
          rcases List.mem_cons.1 hb with rfl | hb
          · exact absurd ⟨h4.1, by simp only at h4; omega⟩ h2
          · have : covered (s.live.drop live.length) p 1 = true := by rw [covered_mem]; exact ⟨b, hb, h4⟩
            rw [this] at h3
            cases h3
      · obtain ⟨j, hj⟩ := List.mem_iff_getElem?.1 hx
        exact sits_home (hinv.cell j x hj hc)
      · obtain ⟨j, hj⟩ := List.mem_iff_getElem?.1 hx
        exact hlk.value j x hj hc
      · obtain ⟨j, x, hx, hc, ew⟩ := hinv.held b hb
        have hr1 : x.ref = false ∧ x.cref = false := by
          have h0 := grown_pos hinv.grown b hb
          constructor
          · cases er : x.ref with
            | false => rfl
            | true => exact absurd (ew.symm.trans (hinv.flag j x hx hc (.inl er))) h0
          · cases er : x.cref with
            | false => rfl
            | true => exact absurd (ew.symm.trans (hinv.flag j x hx hc (.inr er))) h0
        exact ⟨x, List.mem_of_getElem? hx, hc, hr1.1, hr1.2, (hlk.same j x hx hc hr1.1 hr1.2).trans ew⟩
      · show word m' x.addr ≠ 0 → word m' x.addr ≠ word m' y.addr
        rw [hlk.same j x hx hcx r1 r2, hlk.same k y hy hcy r3 r4]
        exact hinv.uniq j k x y hne hx hy hcx hcy

/-- C52 for documents in which no negative number is the opposite of the number of a node: then there are no content
references, whatever the types are. -/
theorem C52_no_content_references_partial (hK : Types E.tds) (hL : Layout E.tds) (hF : Fields E.tds) (hT : Tree E.ra) (h1 : 1 < E.ra.length) (hlen : E.data.length = E.ra.length)
    (hN : Distinct E.ra E.data) (hA : Allocator E.alloc) (hP : ∀ b ∈ live, 0 < b.2) (hD : Destination E.tds m live dst f)
    (hI : ∀ d ∈ E.data, d.val ≠ .int (BitVec.ofNat 128 (2 ^ 127)))
    (hC : ∀ d ∈ E.data, ∀ v, d.val = .int v → v.toInt < 0 → ∀ pd ∈ E.ra, pd.idx ≠ u32 (-v).toNat) :
    ∃ ok s, Load.load E m live dst f = some (ok, s) ∧ (ok = false → Released m live dst f.size s) ∧ (ok = true → ∃ new, Filled E.alloc m live dst f.size s new) := by
  refine C52_load_safe_partial hK hL hF hT h1 hlen hN hA hP hD hI fun s e => ?_
  have S : Setup E dst f.size live := ⟨⟨hK, hL, hF⟩, hT, hlen, hN, hA, hD.space.1, hP, hI⟩
  obtain ⟨ok', s', e', hinv⟩ := fill_ok S hD h1
  rw [e] at e'
  cases e'
  intro x t k pk hx _ hcr hk hi _
  obtain ⟨j, hj⟩ := List.mem_iff_getElem?.1 hx
  obtain ⟨d, hd, v, hv, hneg, hfst⟩ := hinv.back j x hj hcr
  exact absurd (hi.trans hfst) (hC d hd v hv hneg pk (List.mem_of_getElem? hk))

end

/-! ## documents in JSON -/

/-- the nodes of a text form a tree -/
theorem json_ok {tds : List Td} {known : List Nat → Bool} {text : List Nat} {ptrs : Ptrs} {data : List Json.Loaded}
    (hP : Json.Loads known text ptrs data) (hlen : ptrs.ra.length < 2 ^ 32) (hU : Unrepeated ptrs.ra (data.map LoadJson.doc)) (hI : ∀ d ∈ data, ∀ v, d.value = .int v → v % 2 ^ 128 ≠ 2 ^ 127)
    {alloc : Blocks → Nat → Nat} {conv : Fd → Nat → Conv} {table : Bool} {E : Env} (hE : E = LoadJson.env tds ptrs data conv alloc table) :
    Tree E.ra ∧ 1 < E.ra.length ∧ E.data.length = E.ra.length ∧ Distinct E.ra E.data ∧ ∀ d ∈ E.data, d.val ≠ .int (BitVec.ofNat 128 (2 ^ 127)) := by
  subst hE
  obtain ⟨b, k, hwf, hra, hdata⟩ := Verif.Lemmas.LoadJson.loads_tree hP
  have hl : ptrs.ra.length = (JsonLoad.DF.cons none b k .nil).shape.nodes.length + 1 := by rw [hra, List.length_cons, TopDown.canon_length]
  have hT : Tree ptrs.ra := by
    rw [hra]
    exact Verif.Lemmas.LoadJson.canon_tree _ (by omega)
  refine ⟨hT, ?_, ?_, Verif.Lemmas.LoadJson.distinct_of hP _ (fun _ => rfl) hT hU, ?_⟩
  · show 1 < ptrs.ra.length
    rw [hl, JsonLoad.DF.shape, Ptrs.Forest.nodes, List.length_cons]
    omega
  · show (data.map LoadJson.doc).length = ptrs.ra.length
    rw [List.length_map, hra, hdata, List.length_cons, List.length_cons, JsonLoad.data_length, TopDown.canon_length]
  · intro d hd e
    obtain ⟨x, hx, rfl⟩ := List.mem_map.1 hd
    unfold LoadJson.doc at e
    simp only at e
    cases hv : x.value <;> rw [hv] at e <;> simp only [Val.int.injEq, reduceCtorEq] at e
    have := congrArg BitVec.toNat e
    simp only [BitVec.toNat_ofNat] at this
    exact hI x hx _ hv (by omega)

/-- C52 for JSON: the nodes of every text that is accepted form a tree, so all that is left of the conditions is
that there are less than 2^32 values, no object has two members with the same name, and the number −2^127 does not occur. -/
theorem C52_json_text_partial {tds : List Td} (hK : Types tds) (hL : Layout tds) (hF : Fields tds) {known : List Nat → Bool} {text : List Nat} {ptrs : Ptrs} {data : List Json.Loaded}
    (hP : Json.Loads known text ptrs data) (hlen : ptrs.ra.length < 2 ^ 32) (hU : Unrepeated ptrs.ra (data.map LoadJson.doc)) (hI : ∀ d ∈ data, ∀ v, d.value = .int v → v % 2 ^ 128 ≠ 2 ^ 127)
    {alloc : Blocks → Nat → Nat} (hA : Allocator alloc) {m : Bytes} {live : Blocks} {dst : Nat} {f : Fd} (hB : ∀ b ∈ live, 0 < b.2) (hD : Destination tds m live dst f)
    (conv : Fd → Nat → Conv) (table : Bool)
    (hC : ∀ s, fill (LoadJson.env tds ptrs data conv alloc table) m live dst f = some (true, s) → Content (LoadJson.env tds ptrs data conv alloc table) s) :
    ∃ ok s, Load.load (LoadJson.env tds ptrs data conv alloc table) m live dst f = some (ok, s) ∧
      (ok = false → Released m live dst f.size s) ∧ (ok = true → ∃ new, Filled alloc m live dst f.size s new) := by
  obtain ⟨hT, h1, h2, hN, h3⟩ := json_ok hP hlen hU hI (E := LoadJson.env tds ptrs data conv alloc table) rfl
  exact C52_load_safe_partial hK hL hF hT h1 h2 hN hA hB hD h3 hC

/-! ## examples and what goes wrong -/

namespace Example
open Verif.Props.Copy Verif.Props.Copy.Example Verif.Props.Save.Example Verif.Props.Save Verif.Lemmas.JsonLoad Verif.Lemmas.JsonLoad.DF Verif.Lemmas.TopDown

def named (n : String) (f : Fd) : Fd := { f with name := ascii n }

/-- `struct item { char * s; int n; }` -/
def tItem : Td := { ty := .struct, size := 16, fields := [named "s" { ty := .string, size := 8, offset := 0 }, named "n" (intField 8)] }

/-- `struct box { struct item * p; char * t; int * q; int k; }` -/
def tBox : Td := { ty := .struct, size := 32, fields := [named "p" (ptrField 0 .struct 1), named "t" { ty := .string, size := 8, offset := 8 }, named "q" (ptrField 16 .int32 0), named "k" (intField 24)] }

def types : List Td := [tInt, tItem, tBox]

theorem types_ok : Types types := by
  refine ⟨?_, ?_, (fun t d ht => have : ∀ d ∈ types, d.ty = .enum → typeSize d.effective ≤ d.size := by decide +kernel
    this d (List.mem_of_getElem? ht)), ⟨fun t => t, ?_⟩⟩
  · intro t d ht hd f hf
    have hcases : t = 0 ∨ t = 1 ∨ t = 2 := by
      have := (List.getElem?_eq_some_iff.1 ht).1
      simp [types] at this; omega
    have hI : ∀ n o, FdOK types (named n (intField o)) ∧ (named n (intField o)).nonPersistent = false := fun n o => ⟨⟨rfl, rfl, (fun _ => rfl), trivial⟩, rfl⟩
    have hP : ∀ n o ty t d, types[t]? = some d → d.ty = ty → plain ty = true → FdOK types (named n (ptrField o ty t)) ∧ (named n (ptrField o ty t)).nonPersistent = false := fun n o ty t d h1 h2 h3 =>
      ⟨⟨rfl, rfl, (fun h => by cases h), Or.inr ⟨ty, ⟨t, d, rfl, h1, h2⟩, Or.inl ⟨rfl, h3⟩, fun _ => rfl⟩⟩, rfl⟩
    have hS : ∀ n o, FdOK types (named n { ty := .string, size := 8, offset := o }) ∧ (named n { ty := .string, size := 8, offset := o }).nonPersistent = false :=
      fun n o => ⟨⟨rfl, rfl, (fun _ => rfl), trivial⟩, rfl⟩
    rcases hcases with rfl | rfl | rfl
    · cases ht; cases hd
    · cases ht
      simp only [tItem, List.mem_cons, List.not_mem_nil, or_false] at hf
      rcases hf with rfl | rfl
      · exact hS _ _
      · exact hI _ _
    · cases ht
      simp only [tBox, List.mem_cons, List.not_mem_nil, or_false] at hf
      rcases hf with rfl | rfl | rfl | rfl
      · exact hP "p" 0 .struct 1 tItem rfl rfl rfl
      · exact hS _ _
      · exact hP "q" 16 .int32 0 tInt rfl rfl rfl
      · exact hI _ _
  · intro t d ht _
    have : ∀ d ∈ types, 0 < d.size := by decide +kernel
    exact this d (List.mem_of_getElem? ht)
  · intro t d f t' ht hd hf hty htd
    have : ∀ t ∈ List.range 3, ∀ d ∈ (types[t]?).toList, ∀ f ∈ d.fields, (f.ty = .struct ∨ f.ty = .array ∧ f.aux = .struct) → f.td.all (· < t) = true := by decide +kernel
    have h4 := (List.getElem?_eq_some_iff.1 ht).1
    have := this t (List.mem_range.2 h4) d (by rw [ht]; simp) f hf hty
    rw [htd] at this
    simpa using this

theorem types_layout : Layout types := layout_of_list (by decide +kernel) (by decide +kernel)

theorem types_fields : Fields types := by
  refine ⟨fun t d f ht hd hf => ?_, fun t d f ht hd hf => ?_, fun t d ht hd => ?_⟩
  · have : ∀ d ∈ types, ∀ f ∈ d.fields, f.ty = .bitfield → f.shift < 8 ∧ 1 ≤ f.width ∧ f.width ≤ 128 := by decide +kernel
    exact this d (List.mem_of_getElem? ht) f hf
  · have : ∀ d ∈ types, ∀ f ∈ d.fields, f.unnamed = false ∧ f.name ≠ [] := by decide +kernel
    exact this d (List.mem_of_getElem? ht) f hf
  · have : ∀ d ∈ types, (d.fields.map Fd.name).Nodup := by decide +kernel
    exact this d (List.mem_of_getElem? ht)

/-- the box at 500 -/
theorem destination : Destination types (fun _ => 0) [(500, 32)] 500 (rootFd 2 32) :=
  ⟨⟨⟨rfl, rfl, (fun _ => rfl), ⟨2, tBox, rfl, rfl, rfl⟩⟩, by decide, by decide⟩, by decide +kernel, fun _ _ => rfl⟩

/-! documents: values, members of objects and elements of arrays -/
def str (s : String) : Body := .tok (.string (ascii s)) false (.string (ascii s))
def int (v : Nat) : Body := .tok (.int v) false (.int v)
def neg (v : Nat) : Body := int (2 ^ 128 - v)
def mem (n : String) (b : Body) (k s : DF) : DF := .cons (some (ascii n)) b k s
def elt (b : Body) (k s : DF) : DF := .cons none b k s
def object (k : DF) : DF := .cons none .obj k .nil

/-- the nodes of a document -/
def ptrs (D : DF) (lc : Nat) : Ptrs := { ra := {} :: canon 0 1 D.shape, lastChild := lc }
def data (D : DF) : List Json.Loaded := {} :: D.data

/-- the names of the fields of the types above -/
def known (n : List Nat) : Bool := types.any fun d => d.fields.any fun f => f.name == n

/-- numbers are stored, texts are no numbers -/
def conv (D : DF) (_ : Fd) (i : Nat) : Conv :=
  match (data D)[i]? with
  | some { value := .int v, .. } => .store fun k => UInt8.ofNat (v / 256 ^ k)
  | _ => .fail

def env (D : DF) : Env := LoadJson.env types (ptrs D 0) (data D) (conv D) bump true

/-- load a document into the box of 32 bytes at 500, where `m` is: success, blocks, the four words of the box -/
def run (D : DF) (m : Bytes := fun _ => 0) : Option (Bool × Blocks × List Nat) := do
  let (ok, s) ← Load.load (env D) m [(500, 32)] 500 (rootFd 2 32)
  some (ok, s.live, [500, 508, 516, 524].map (word s.m))

/-- a text with these tokens is loaded into these nodes -/
theorem loads {text : List Nat} {b : Body} {k : DF} (hwf : WF known false (.cons none b k .nil)) (h : Json.lex text = some (DF.cons none b k .nil).toks) :
    ∃ lc, Json.Loads known text (ptrs (.cons none b k .nil) lc) (data (.cons none b k .nil)) := by
  obtain ⟨lc, h1⟩ := build_root known b k hwf
  exact ⟨lc, _, _, h, h1, rfl, rfl⟩

/-- two items, a text shared with the first one, a pointer into the second one -/
def good : DF := object (mem "p" .arr (elt .obj (mem "s" (str "a") .nil (mem "n" (int 1) .nil .nil)) (elt .obj (mem "s" (str "b") .nil (mem "n" (int 2) .nil .nil)) .nil))
  (mem "t" (neg 4) .nil (mem "q" (int 8) .nil (mem "k" (int 7) .nil .nil))))

def goodText : List Nat := ascii "{\"p\": [{\"s\": \"a\", \"n\": 1}, {\"s\": \"b\", \"n\": 2}], \"t\": -4, \"q\": 8, \"k\": 7}"

example : Json.lex goodText = some good.toks := by decide +kernel

/-- The array of items is at 4096, the texts behind it.  `t` is the text of the first item, `q` leads to `n` of the second. -/
example : run good = some (true, [(500, 32), (4096, 32), (4128, 2), (4130, 2)], [4096, 4128, 4096 + 16 + 8, 7]) := by decide +kernel

/-- the same with a text as the last number: everything is released, and the box is as before but for the numbers in it -/
def bad : DF := object (mem "p" .arr (elt .obj (mem "s" (str "a") .nil (mem "n" (int 1) .nil .nil)) (elt .obj (mem "s" (str "b") .nil (mem "n" (str "x") .nil .nil)) .nil))
  (mem "t" (str "text") .nil (mem "k" (int 7) .nil .nil)))

example : run bad = some (false, [(500, 32)], [0, 0, 0, 7]) := by decide +kernel

/-- a reference to something that is not there is NULL -/
example : run (object (mem "q" (int 99) .nil .nil)) = some (true, [(500, 32)], [0, 0, 0, 0]) := by decide +kernel

def badText : List Nat := ascii "{\"p\": [{\"s\": \"a\", \"n\": 1}, {\"s\": \"b\", \"n\": \"x\"}], \"t\": \"text\", \"k\": 7}"

theorem unrepeated_of {ra : List Pd} {data : List Doc}
    (h : ∀ j ∈ List.range ra.length, ∀ k ∈ List.range ra.length, j ≠ k → (ra[j]?).map Pd.parent = (ra[k]?).map Pd.parent → ((data[j]?).bind Doc.name).isSome = true →
      (data[j]?).bind Doc.name ≠ (data[k]?).bind Doc.name) : Unrepeated ra data := by
  intro j k pj pk x y n hne hj hk hp hx hy hxn hyn
  refine h j (List.mem_range.2 (List.getElem?_eq_some_iff.1 hj).1) k (List.mem_range.2 (List.getElem?_eq_some_iff.1 hk).1) hne ?_ ?_ ?_ <;> simp [*]

theorem smallest_of {data : List Json.Loaded} (h : ∀ d ∈ data, ∀ v ∈ (match d.value with | .int v => [v] | _ => []), v % 2 ^ 128 ≠ 2 ^ 127) :
    ∀ d ∈ data, ∀ v, d.value = .int v → v % 2 ^ 128 ≠ 2 ^ 127 := fun d hd v hv => h d hd v (by rw [hv]; simp)

theorem content_of {E : Env} {m : Bytes} {live : Blocks} {dst : Nat} {f : Fd}
    (h : ∀ ns ∈ ((fill E m live dst f).map fun r => r.2.nodes).toList, ∀ x ∈ ns, x.cref = true → ∀ k ∈ List.range E.ra.length, ∀ pk ∈ (E.ra[k]?).toList, pk.idx = x.first →
      ∀ t ∈ (ns[k]?).toList, t.addr = 0 ∨ t.ty = .pointer ∨ t.ty = .string) :
    ∀ s, fill E m live dst f = some (true, s) → Content E s := by
  intro s e x t k pk hx _ hc hk hi ht
  exact h s.nodes (by rw [e]; simp) x hx hc k (List.mem_range.2 (List.getElem?_eq_some_iff.1 hk).1) pk (by rw [hk]; simp) hi t (by rw [ht]; simp)

/-- the first document: the hypotheses of `C52_json_text_partial` hold -/
example : ∃ lc, ∃ ok s, Load.load (LoadJson.env types (ptrs good lc) (data good) (conv good) bump true) (fun _ => 0) [(500, 32)] 500 (rootFd 2 32) = some (ok, s) ∧
    (ok = false → Released (fun _ => 0) [(500, 32)] 500 32 s) ∧ (ok = true → ∃ new, Filled bump (fun _ => 0) [(500, 32)] 500 32 s new) := by
  have hwf : WF known false good := by
    simp [good, object, mem, elt, WF, int, neg, str, Verif.Lemmas.JsonLex.meaning]
    decide +kernel
  obtain ⟨lc, hl⟩ := loads hwf (text := goodText) (by decide +kernel)
  exact ⟨lc, C52_json_text_partial types_ok types_layout types_fields hl (by show (ptrs good 0).ra.length < _; decide +kernel) (unrepeated_of (ra := (ptrs good 0).ra) (by decide +kernel))
    (smallest_of (by decide +kernel)) bump_ok (by decide) destination (conv good) true (content_of (E := env good) (by decide +kernel))⟩

/-- the second document -/
example : ∃ lc, ∃ ok s, Load.load (LoadJson.env types (ptrs bad lc) (data bad) (conv bad) bump true) (fun _ => 0) [(500, 32)] 500 (rootFd 2 32) = some (ok, s) ∧
    (ok = false → Released (fun _ => 0) [(500, 32)] 500 32 s) ∧ (ok = true → ∃ new, Filled bump (fun _ => 0) [(500, 32)] 500 32 s new) := by
  have hwf : WF known false bad := by
    simp [bad, object, mem, elt, WF, int, str, Verif.Lemmas.JsonLex.meaning]
    decide +kernel
  obtain ⟨lc, hl⟩ := loads hwf (text := badText) (by decide +kernel)
  exact ⟨lc, C52_json_text_partial types_ok types_layout types_fields hl (by show (ptrs bad 0).ra.length < _; decide +kernel) (unrepeated_of (ra := (ptrs bad 0).ra) (by decide +kernel))
    (smallest_of (by decide +kernel)) bump_ok (by decide) destination (conv bad) true (content_of (E := env bad) (by decide +kernel))⟩

/-- no negative number -/
def small : Val → Bool
  | .int v => decide (v.toNat < 2 ^ 127)
  | _ => true

/-- the second document has no negative numbers -/
example : ∃ ok s, Load.load (env bad) (fun _ => 0) [(500, 32)] 500 (rootFd 2 32) = some (ok, s) ∧
    (ok = false → Released (fun _ => 0) [(500, 32)] 500 32 s) ∧ (ok = true → ∃ new, Filled bump (fun _ => 0) [(500, 32)] 500 32 s new) := by
  have hwf : WF known false bad := by
    simp [bad, object, mem, elt, WF, int, str, Verif.Lemmas.JsonLex.meaning]
    decide +kernel
  obtain ⟨lc, h⟩ := loads hwf (text := badText) (by decide +kernel)
  have hT : Tree (env bad).ra := Verif.Lemmas.LoadJson.canon_tree bad.shape (by decide +kernel)
  have hN : Distinct (env bad).ra (env bad).data := Verif.Lemmas.LoadJson.distinct_of h _ (fun _ => rfl) hT (unrepeated_of (ra := (ptrs bad 0).ra) (by decide +kernel))
  have hI : ∀ d ∈ (env bad).data, d.val ≠ .int (BitVec.ofNat 128 (2 ^ 127)) := by decide +kernel
  have hC : ∀ d ∈ (env bad).data, ∀ v, d.val = .int v → v.toInt < 0 → ∀ pd ∈ (env bad).ra, pd.idx ≠ u32 (-v).toNat := by
    have : ((env bad).data.all fun d => small d.val) = true := by decide +kernel
    intro d hd v hv hn
    have h1 := List.all_eq_true.1 this d hd
    rw [hv] at h1
    have h2 := of_decide_eq_true h1
    have := BitVec.toInt_eq_toNat_of_lt (x := v) (by omega)
    omega
  exact C52_no_content_references_partial types_ok types_layout types_fields hT (by decide +kernel) (by decide +kernel) hN bump_ok (by decide) destination hI hC

/-- **Deviation.** A member twice, and a failure: `{"p": [{"s": "a", "n": "x"}], "p": []}`.  Two nodes are at the same pointer; the
block is released for the second one (src/mr_load.c:911–917), and then the string in the block is read. -/
theorem C52_deviation_member_twice_failure :
    Json.lex (ascii "{\"p\": [{\"s\": \"a\", \"n\": \"x\"}], \"p\": []}") =
      some (object (mem "p" .arr (elt .obj (mem "s" (str "a") .nil (mem "n" (str "x") .nil .nil)) .nil) (mem "p" .arr .nil .nil))).toks ∧
    run (object (mem "p" .arr (elt .obj (mem "s" (str "a") .nil (mem "n" (str "x") .nil .nil)) .nil) (mem "p" .arr .nil .nil))) = none := by
  decide +kernel

/-- **Deviation.** A member twice without a failure: `{"t": "a", "t": "b"}`.  The block of the first text is lost. -/
theorem C52_deviation_member_twice_leak :
    Json.lex (ascii "{\"t\": \"a\", \"t\": \"b\"}") = some (object (mem "t" (str "a") .nil (mem "t" (str "b") .nil .nil))).toks ∧
    run (object (mem "t" (str "a") .nil (mem "t" (str "b") .nil .nil))) = some (true, [(500, 32), (4096, 2), (4098, 2)], [0, 4098, 0, 0]) := by
  decide +kernel

/-- **Deviation.** A negative number as a string is a content reference.  `{"q": [5], "t": -3}`: the target is an `int` in a block of
four bytes, of which eight are read (src/mr_load.c:82–91).  `{"k": 7, "t": -2}`: the target is the number 7, and the
string is at the address 7. -/
theorem C52_deviation_content_reference :
    Json.lex (ascii "{\"q\": [5], \"t\": -3}") = some (object (mem "q" .arr (elt (int 5) .nil .nil) (mem "t" (neg 3) .nil .nil))).toks ∧
    run (object (mem "q" .arr (elt (int 5) .nil .nil) (mem "t" (neg 3) .nil .nil))) = none ∧
    run (object (mem "k" (int 7) .nil (mem "t" (neg 2) .nil .nil))) = some (true, [(500, 32)], [0, 7, 0, 7]) := by
  decide +kernel

/-- **Deviation.** References have no types: after `{"k": 7, "p": 2}` the pointer to items of 16 bytes leads to the last eight
bytes of the box at 500. -/
theorem C52_deviation_reference_type :
    run (object (mem "k" (int 7) .nil (mem "p" (int 2) .nil .nil))) = some (true, [(500, 32)], [524, 0, 0, 7]) ∧ covered [(500, 32)] 524 16 = false := by
  decide +kernel

/-- **Deviation.** The number of a reference is cut to 32 bits: 2^32 + 2 is node 2. -/
theorem C52_deviation_reference_truncated :
    run (object (mem "k" (int 7) .nil (mem "q" (int (2 ^ 32 + 2)) .nil .nil))) = run (object (mem "k" (int 7) .nil (mem "q" (int 2) .nil .nil))) := by
  decide +kernel

/-- **Deviation.** −2^127 as a reference: its opposite is computed with 128 bits, which overflows (src/mr_load.c:460, 722). -/
theorem C52_deviation_smallest_number :
    Json.lex (ascii "{\"t\": -170141183460469231731687303715884105728}") = some (object (mem "t" (neg (2 ^ 127)) .nil .nil)).toks ∧
    run (object (mem "t" (neg (2 ^ 127)) .nil .nil)) = none ∧ run (object (mem "t" (neg (2 ^ 127 - 1)) .nil .nil)) ≠ none := by
  decide +kernel

/-- **Deviation.** The object has to be zero: pointers are set to NULL after everything else was loaded, so if that fails
whatever was in the pointer is released.  (The macros do this; `mr_load` itself does not.) -/
theorem C52_deviation_destination_not_zero :
    run (object (mem "p" .arr .nil (mem "k" (str "x") .nil .nil))) (fun _ => 1) = none ∧
    run (object (mem "p" .arr .nil (mem "k" (str "x") .nil .nil))) = some (false, [(500, 32)], [0, 0, 0, 0]) := by
  decide +kernel

/-- **Deviation.** Formats in which the document gives the number of a node (src/xml1_load.y:174, src/cinit_load.y:139,
src/scm_load.y:137): the largest number is a table of `max_idx + 1 = 0` elements, and a store outside of it
(src/mr_load.c:33–54). -/
theorem C52_deviation_largest_number :
    Load.load { tds := types, ra := [{}, { idx := 2 ^ 32 - 1 }], data := [{}, {}], conv := fun _ _ => .fail, alloc := bump, table := true }
      (fun _ => 0) [(500, 32)] 500 (rootFd 2 32) = none := by
  have : (Load.load { tds := types, ra := [{}, { idx := 2 ^ 32 - 1 }], data := [{}, {}], conv := fun _ _ => .fail, alloc := bump, table := true }
      (fun _ => 0) [(500, 32)] 500 (rootFd 2 32)).isNone = true := by decide +kernel
  simpa using this

/-- **Deviation.** Formats in which a node can be marked as a reference whatever its type is (src/cinit_load.y:128–136): the
number of the target, 3, is taken for the first child of the structure, which it is not. -/
theorem C52_deviation_reference_of_structure :
    Load.load { tds := types, ra := [{}, { firstChild := 3, ref := true }], data := [{}, {}], conv := fun _ _ => .fail, alloc := bump, table := true }
      (fun _ => 0) [(500, 32)] 500 (rootFd 2 32) = none := by
  have : (Load.load { tds := types, ra := [{}, { firstChild := 3, ref := true }], data := [{}, {}], conv := fun _ _ => .fail, alloc := bump, table := true }
      (fun _ => 0) [(500, 32)] 500 (rootFd 2 32)).isNone = true := by decide +kernel
  simpa using this

end Example
end Verif.Props.Load
