import Verif.Lemmas.LoadFinal
import Verif.Props.Load
/-!
# C53: an object that was filled from a parsed document is what the document says
-/
namespace Verif.Props.LoadSays
open Verif.Model Verif.Model.Ptrs Verif.Model.Save Verif.Model.Copy Verif.Model.Load Verif.Spec Verif.Spec.Save Verif.Spec.Load Verif.Spec.LoadSays
  Verif.Lemmas.CopyMem Verif.Lemmas.LoadSafe Verif.Lemmas.LoadInv Verif.Lemmas.LoadStep Verif.Lemmas.LoadRow Verif.Lemmas.LoadOpen Verif.Lemmas.LoadEnd
  Verif.Lemmas.LoadSays Verif.Lemmas.LoadTree Verif.Lemmas.LoadPtr Verif.Lemmas.LoadRef Verif.Lemmas.LoadFinal Verif.Props.Load
open Verif.Spec.Copy (Apart Layout span Allocator Grown)
open Verif.Spec.XdrGraph (bitAt)
open Verif.Lemmas.XdrSafe (home home_mono home_live not_home)

section
variable {E : Env} {m : Bytes} {live : Blocks} {dst : Nat} {f : Fd}

/-- everything but the references -/
theorem fill_told (hB : BitsApart E.tds) (S : Setup E dst f.size live) (hD : Destination E.tds m live dst f) (h1 : 1 < E.ra.length) {s : LSt} (e : fill E m live dst f = some (true, s)) :
    All E dst f.size live E.ra.length s ∧ ∃ x, s.nodes[1]? = some x ∧ x.addr = dst ∧ x.fd = f := by
  obtain ⟨hg, hr⟩ := good_root hD.type
  have hinv := inv_start (E := E) (m := m) (live := live) (dst := dst) S.tree f.size
  have hslot : Slot (E := E) (dst := dst) (ext := f.size) (live0 := live) 0 { m := m, live := live, nodes := initial E.ra } 1 dst f := by
    refine ⟨h1, hg, .inl ⟨Nat.le_refl _, by omega⟩, fun _ k hk => hD.zero k (by omega), fun j x hx hc => ?_, fun x hx => (initial_get S.tree hx).1, fun pd hpd => .inl (S.tree.top pd hpd)⟩
    have := (initial_get S.tree hx).2.1
    unfold isCell at hc
    rw [this] at hc
    rcases hc with hc | hc <;> cases hc
  obtain ⟨ok, s1, e1, hs⟩ := (load_works (m0 := m) S E.ra.length 0 0 (by omega) (by omega)).1 _ 1 dst f hinv (by omega) hslot
  unfold fill at e
  rw [e1] at e
  simp only [Option.bind_eq_bind, Option.bind_some] at e
  cases ok with
  | false => simp at e
  | true =>
    simp only [if_true] at e
    have hT := load_told (m0 := m) S hB E.ra.length 0 0 (by omega) (by omega) _ 1 dst f s1 hinv (by omega) hslot e1
    rw [List.range_eq_range'] at e
    have hroom : covered (home dst f.size live s1.live) dst f.size = true := by
      rw [covered_mem]; exact ⟨(dst, f.size), by unfold home; simp, Nat.le_refl _, Nat.le_refl _⟩
    have hA : All E dst f.size live 0 s1 := by
      refine ⟨fun j x hx hx0 => ?_, fun j x _ _ hj => by omega, fun p hp => ?_⟩
      · rcases hT.fresh j x hx hx0 with ⟨x0, g1, g2⟩ | ⟨g1, g2, g3, g4⟩
        · exact absurd (initial_get S.tree g1).1 g2
        · exact ⟨g1, covered_part hroom g2 (by omega), g4⟩
      · have hin : dst ≤ p / 8 ∧ p / 8 < dst + f.size := by
          rcases hp with hp | ⟨k, y, n', hy, hty, hb', hq⟩
          · exact hp
          · have := hs.inv.fresh k y hy hty (Nat.zero_le _)
            rw [this] at hb'
            exact absurd rfl (part_pos S hs.inv hb')
        by_cases hch : bitAt s1.m p = bitAt m p
        · right
          rw [hch]
          unfold bitAt
          have := hD.zero (p / 8 - dst) (by omega)
          rw [show dst + (p / 8 - dst) = p / 8 from by omega] at this
          rw [this]
          simp
        · rcases hT.rest p hch with g | g
          · exact .inl g
          · exfalso
            have hc : covered (home dst f.size live live) (p / 8) 1 = true := by
              rw [covered_mem]; exact ⟨(dst, f.size), by unfold home; simp, hin.1, by simp only; omega⟩
            have := not_covered_of_apart (apart_later S.alloc S.space hinv hs.inv hs.live hc) (Nat.le_refl _) (Nat.lt_succ_self _)
            simp only at this g
            rw [this] at g
            cases g
    obtain ⟨a1, a2⟩ := postponed_told S hB E.ra.length 0 s1 s (by omega) hs.inv hA e
    obtain ⟨x, x1, x2, x3, x4⟩ := hT.node
    obtain ⟨x', g1, g2, g3⟩ := a2 1 x x1 (by rw [x2]; exact x3)
    exact ⟨a1, x', g1, g2.trans x2, g3.trans x4⟩

/-- C53.  If filling an object succeeds, the object and everything that was allocated are what the document says. -/
theorem C53_load_says_partial (hK : Types E.tds) (hL : Layout E.tds) (hF : Fields E.tds) (hB : BitsApart E.tds) (hT : Tree E.ra) (h1 : 1 < E.ra.length)
    (hlen : E.data.length = E.ra.length) (hN : Distinct E.ra E.data) (hA : Allocator E.alloc) (hP : ∀ b ∈ live, 0 < b.2) (hD : Destination E.tds m live dst f)
    (hI : ∀ d ∈ E.data, d.val ≠ .int (BitVec.ofNat 128 (2 ^ 127)))
    (hC : ∀ s, fill E m live dst f = some (true, s) → Content E s) {s : LSt} (h : Load.load E m live dst f = some (true, s)) :
    ∃ new place type, s.live = live ++ new ∧ Says E dst f s.m new place type := by
  have S : Setup E dst f.size live := ⟨⟨hK, hL, hF⟩, hT, hlen, hN, hA, hD.space.1, hP, hI⟩
  obtain ⟨ok, s1, e, hinv⟩ := fill_ok S hD h1
  unfold Verif.Model.Load.load at h
  rw [e] at h
  simp only [Option.bind_eq_bind, Option.bind_some] at h
  cases ok with
  | false =>
    simp only [Bool.false_eq_true, if_false] at h
    obtain ⟨_, _, h⟩ := Option.bind_eq_some_iff.1 h
    simp at h
  | true =>
    simp only [if_true] at h
    obtain ⟨⟨ok, s2⟩, e2, h⟩ := Option.bind_eq_some_iff.1 h
    cases ok with
    | false =>
      simp only [Bool.false_eq_true, if_false] at h
      obtain ⟨_, _, h⟩ := Option.bind_eq_some_iff.1 h
      simp at h
    | true =>
      simp only [if_true, Option.some.injEq, Prod.mk.injEq, true_and] at h
      subst h
      obtain ⟨a1, a2⟩ := fill_told hB S hD h1 e
      refine ⟨_, _, _, ?_, says S hD.space.2 hinv a1 rfl a2 (hC s1 e) e2⟩
      have := (crossrefs_told S hD.space.2 hinv (hC s1 e) e2).1
      rw [this]
      obtain ⟨l, e⟩ := hinv.live
      rw [← e, List.drop_left]

/-- a content reference is a negative number in the document -/
theorem numbered_of (hB : BitsApart E.tds) (S : Setup E dst f.size live) (hD : Destination E.tds m live dst f) (h1 : 1 < E.ra.length) {s : LSt} (e : fill E m live dst f = some (true, s))
    {i : Nat} {x : Node} (hxi : s.nodes[i]? = some x) (hh : Holds x) (hcr : x.cref = true) :
    x.addr ≠ 0 ∧ x.ty = x.fd.ty ∧ ∃ v, Numbered E i v ∧ v.toInt < 0 ∧ x.first = (-v).toNat % 2 ^ 32 := by
  obtain ⟨ok, s1, e1, hinv⟩ := fill_ok S hD h1
  rw [e] at e1
  cases e1
  obtain ⟨a1, a2⟩ := fill_told hB S hD h1 e
  have hx0 : x.addr ≠ 0 := by
    intro h0
    rw [(hinv.bare i x hxi h0).2] at hcr
    cases hcr
  obtain ⟨o1, _⟩ := a1.ok i x hxi hx0
  obtain ⟨d, hd, hv⟩ := o1.vals
  have hty := o1.own.1
  have hlt : i < E.ra.length := by rw [← hinv.len]; exact (List.getElem?_eq_some_iff.1 hxi).1
  refine ⟨hx0, hty, ?_⟩
  rcases hh with hh | hh
  · obtain ⟨d, hd, hp⟩ := a1.ptr i x hxi hh hlt
    rcases hp with ⟨_, _, hp⟩ | ⟨hn, ⟨v, hv, hf⟩, _⟩ | ⟨_, _, hp, _⟩
    · rw [hp.2] at hcr; cases hcr
    · rcases hf with ⟨_, _, hf, _⟩ | ⟨h2, _, _, h3⟩
      · rw [hf] at hcr; cases hcr
      · exact ⟨v, ⟨d, hd, hn, hv⟩, h2, h3⟩
    · rw [hp.2] at hcr; cases hcr
  · unfold Lemmas.LoadSays.Vals at hv
    rw [← hty, hh] at hv
    simp only at hv
    rcases hv with ⟨_, _, hp⟩ | ⟨_, _, _, hp, _⟩ | ⟨hn, v, hv, hf, _⟩
    · rw [hp.2] at hcr; cases hcr
    · rw [hp.2] at hcr; cases hcr
    · rcases hf with ⟨_, _, hf, _⟩ | ⟨h2, _, _, h3⟩
      · rw [hf] at hcr; cases hcr
      · exact ⟨v, ⟨d, hd, hn, hv⟩, h2, h3⟩

/-- The conditions of C52 and C53 on content references in terms of the document: a negative number in the place of a pointer or
a string leads to a node that describes a pointer or a string, or nothing.  Moreover the blocks are what the allocator gave, and
nothing else has changed. -/
theorem C53_references_partial (hK : Types E.tds) (hL : Layout E.tds) (hF : Fields E.tds) (hB : BitsApart E.tds) (hT : Tree E.ra) (h1 : 1 < E.ra.length)
    (hlen : E.data.length = E.ra.length) (hN : Distinct E.ra E.data) (hA : Allocator E.alloc) (hP : ∀ b ∈ live, 0 < b.2) (hD : Destination E.tds m live dst f)
    (hI : ∀ d ∈ E.data, d.val ≠ .int (BitVec.ofNat 128 (2 ^ 127)))
    (hC : ∀ place type, Shape E dst f place type → ∀ (i k : Nat) (v : BitVec 128) (pk : Pd), place i ≠ 0 → (type i).ty = .pointer ∨ (type i).ty = .string → Numbered E i v → v.toInt < 0 →
      E.ra[k]? = some pk → pk.idx = (-v).toNat % 2 ^ 32 → place k = 0 ∨ (type k).ty = .pointer ∨ (type k).ty = .string) :
    ∃ ok s, Load.load E m live dst f = some (ok, s) ∧ (ok = false → Released m live dst f.size s) ∧
      (ok = true → ∃ new place type, s.live = live ++ new ∧ Says E dst f s.m new place type ∧ Grown E.alloc live new ∧
        ∀ p, ¬ (dst ≤ p ∧ p < dst + f.size) → covered new p 1 = false → s.m p = m p) := by
  have S : Setup E dst f.size live := ⟨⟨hK, hL, hF⟩, hT, hlen, hN, hA, hD.space.1, hP, hI⟩
  have hcont : ∀ s, fill E m live dst f = some (true, s) → Content E s := by
    intro s e
    obtain ⟨ok, s1, e1, hinv⟩ := fill_ok S hD h1
    rw [e] at e1
    cases e1
    obtain ⟨a1, a2⟩ := fill_told hB S hD h1 e
    have hS := shape S hinv a1 a2
    intro x t k pk hx hh hcr hk hi ht
    obtain ⟨i, hxi⟩ := List.mem_iff_getElem?.1 hx
    obtain ⟨f1, f2⟩ := placeOf_some hxi
    obtain ⟨g1, g2⟩ := placeOf_some ht
    obtain ⟨hx0, hty, v, k1, k2, k3⟩ := numbered_of hB S hD h1 e hxi hh hcr
    have := hC _ _ hS i k v pk (by rw [f1]; exact hx0) (by rw [f2, ← hty]; exact hh) k1 k2 hk (hi.trans k3)
    rw [g1, g2] at this
    by_cases ht0 : t.addr = 0
    · exact .inl ht0
    · rcases this with h | h
      · exact .inl h
      · right
        obtain ⟨o1, _⟩ := a1.ok k t ht ht0
        unfold Holds
        rw [o1.own.1]
        exact h
  obtain ⟨ok, s, e, hr, hf⟩ := C52_load_safe_partial hK hL hF hT h1 hlen hN hA hP hD hI hcont
  refine ⟨ok, s, e, hr, fun hok => ?_⟩
  subst hok
  obtain ⟨new, hF'⟩ := hf rfl
  obtain ⟨new', place, type, e1, e2⟩ := C53_load_says_partial hK hL hF hB hT h1 hlen hN hA hP hD hI hcont e
  have : new' = new := by
    have := hF'.blocks
    rw [e1] at this
    exact List.append_cancel_left this
  subst this
  exact ⟨new', place, type, e1, e2, hF'.grown, hF'.kept⟩

end

/-- C53 for JSON: see `C52_json_text_partial` for the conditions. -/
theorem C53_json_text_partial {tds : List Td} (hK : Types tds) (hL : Layout tds) (hF : Fields tds) (hBA : BitsApart tds) {known : List Nat → Bool} {text : List Nat} {ptrs : Ptrs} {data : List Json.Loaded}
    (hP : Json.Loads known text ptrs data) (hlen : ptrs.ra.length < 2 ^ 32) (hU : Unrepeated ptrs.ra (data.map LoadJson.doc)) (hI : ∀ d ∈ data, ∀ v, d.value = .int v → v % 2 ^ 128 ≠ 2 ^ 127)
    {alloc : Blocks → Nat → Nat} (hA : Allocator alloc) {m : Bytes} {live : Blocks} {dst : Nat} {f : Fd} (hB : ∀ b ∈ live, 0 < b.2) (hD : Destination tds m live dst f)
    (conv : Fd → Nat → Conv) (table : Bool)
    (hC : ∀ s, fill (LoadJson.env tds ptrs data conv alloc table) m live dst f = some (true, s) → Content (LoadJson.env tds ptrs data conv alloc table) s)
    {s : LSt} (h : Load.load (LoadJson.env tds ptrs data conv alloc table) m live dst f = some (true, s)) :
    ∃ new place type, s.live = live ++ new ∧ Says (LoadJson.env tds ptrs data conv alloc table) dst f s.m new place type := by
  obtain ⟨hT, h1, h2, hN, h3⟩ := json_ok hP hlen hU hI (E := LoadJson.env tds ptrs data conv alloc table) rfl
  exact C53_load_says_partial hK hL hF hBA hT h1 h2 hN hA hB hD h3 hC h

/-! ## examples and what goes wrong -/

namespace Example
open Verif.Props.Load.Example Verif.Props.Copy Verif.Props.Copy.Example Verif.Props.Save.Example Verif.Props.Save Verif.Lemmas.JsonLoad Verif.Lemmas.JsonLoad.DF Verif.Lemmas.TopDown

theorem types_apart : BitsApart types := by
  intro t d i j g g' ht hd hi hj hne hg
  have : ∀ d ∈ types, ∀ g ∈ d.fields, g.ty ≠ .bitfield := by decide +kernel
  exact absurd hg (this d (List.mem_of_getElem? ht) g (List.mem_of_getElem? hi))

/-- `{"p": [{"s": "a", "n": 1}, {"s": "b", "n": 2}], "t": -4, "q": 8, "k": 7}`: the hypotheses hold and the object is filled -/
example : ∃ lc s, Load.load (LoadJson.env types (ptrs good lc) (Verif.Props.Load.Example.data good) (conv good) bump true) (fun _ => 0) [(500, 32)] 500 (rootFd 2 32) = some (true, s) ∧
    ∃ new place type, s.live = [(500, 32)] ++ new ∧ Says (LoadJson.env types (ptrs good lc) (Verif.Props.Load.Example.data good) (conv good) bump true) 500 (rootFd 2 32) s.m new place type := by
  have hwf : WF known false good := by
    simp [good, Verif.Props.Load.Example.object, mem, elt, WF, int, neg, str, Verif.Lemmas.JsonLex.meaning]
    decide +kernel
  obtain ⟨lc, hl⟩ := loads hwf (text := goodText) (by decide +kernel)
  have hok : (Load.load (env good) (fun _ => 0) [(500, 32)] 500 (rootFd 2 32)).map Prod.fst = some true := by decide +kernel
  obtain ⟨⟨ok, s⟩, e, e'⟩ := Option.map_eq_some_iff.1 hok
  simp only at e'
  subst e'
  exact ⟨lc, s, e, C53_json_text_partial types_ok types_layout types_fields types_apart hl (by show (ptrs good 0).ra.length < _; decide +kernel)
    (unrepeated_of (ra := (ptrs good 0).ra) (by decide +kernel))
    (smallest_of (by decide +kernel)) bump_ok (by decide) destination (conv good) true (content_of (E := env good) (by decide +kernel)) e⟩

/-- **Deviation.** What a reference to the content of another reference gives depends on the order of the nodes (one pass,
src/mr_load.c:57–100).  In `{"t": -5, "p": [{"s": -7}, {"s": "x"}]}` the text `t` is that of the first item, which is that of
the second; `t` is NULL, while `s` is the text.  With `t` after `p` both are. -/
theorem C53_deviation_reference_to_reference :
    run (object (mem "t" (neg 5) .nil (mem "p" .arr (elt .obj (mem "s" (neg 7) .nil .nil) (elt .obj (mem "s" (str "x") .nil .nil) .nil)) .nil))) =
      some (true, [(500, 32), (4096, 32), (4128, 2)], [4096, 0, 0, 0]) ∧
    run (object (mem "p" .arr (elt .obj (mem "s" (neg 6) .nil .nil) (elt .obj (mem "s" (str "x") .nil .nil) .nil)) (mem "t" (neg 4) .nil .nil))) =
      some (true, [(500, 32), (4096, 32), (4128, 2)], [4096, 4128, 0, 0]) := by
  decide +kernel

/-- **Deviation.** A reference to something that is not there is no error: `{"q": 99}` is NULL. -/
theorem C53_deviation_missing_target : run (object (mem "q" (int 99) .nil .nil)) = some (true, [(500, 32)], [0, 0, 0, 0]) := by decide +kernel

end Example
end Verif.Props.LoadSays
