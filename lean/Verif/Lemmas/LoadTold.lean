import Verif.Lemmas.LoadSays
/-!
Loading a tree of nodes: what is stored is what the nodes say.  The handlers of the types.
-/
namespace Verif.Lemmas.LoadTold
open Verif.Model Verif.Model.Ptrs Verif.Model.Save Verif.Model.Copy Verif.Model.Load Verif.Spec Verif.Spec.Save Verif.Spec.Load Verif.Spec.LoadSays
  Verif.Lemmas.XdrMem Verif.Lemmas.CopyMem Verif.Lemmas.LoadSafe Verif.Lemmas.LoadInv Verif.Lemmas.LoadStep Verif.Lemmas.LoadRow Verif.Lemmas.LoadOpen Verif.Lemmas.LoadEnd
  Verif.Lemmas.LoadSays
open Verif.Model.XdrGraph (put peek bytesAt bitBytes toBits ofBits bytesWord tdAt tdType wordBytes)
open Verif.Spec.Copy (Apart Layout span Allocator Grown)
open Verif.Spec.XdrGraph (bitAt)
open Verif.Lemmas.XdrSafe (home home_mono home_live not_home)

section
variable {E : Env} {dst ext : Nat} {live0 : Blocks} {m0 : Bytes}

/-- the node when its object is opened -/
structure Begun (s : LSt) (i a : Nat) (f : Fd) (x : Node) : Prop where
  node : s.nodes[i]? = some x
  addr : x.addr = a
  fd : x.fd = f
  own : x.ty = f.ty ∧ x.aux = f.aux ∧ x.td = f.td
  plain : Plain x

/-- after the object was opened -/
structure Opened (E : Env) (live0 : Blocks) (s s' : LSt) (i : Nat) (f : Fd) (x : Node) (d : Doc) (items : List Item) : Prop where
  others : ∀ k, k ≠ i → s'.nodes[k]? = s.nodes[k]?
  node : ∃ x', s'.nodes[i]? = some x' ∧ x'.addr = x.addr ∧ x'.fd = x.fd ∧ x'.ty = x.ty ∧ x'.aux = x.aux ∧ x'.td = x.td ∧ (¬ compound f.ty → Vals E live0 s' i x' d)
  leaf : ¬ compound f.ty → items = []
  comp : compound f.ty → s' = s
  bits : f.ty = .bitfield → ∀ p, ¬ (8 * x.addr + f.shift ≤ p ∧ p < 8 * x.addr + f.shift + f.width) → bitAt s'.m p = bitAt s.m p

theorem poke_eq {s s' : LSt} {a : Nat} {bs : List Nat} (h : s.poke a bs = some s') : s' = { s with m := put s.m a bs } := by
  unfold LSt.poke at h
  split at h
  · injection h with h; exact h.symm
  · cases h

theorem store_eq {s s' : LSt} {a v : Nat} (h : s.store a v = some s') : s' = { s with m := setWord s.m a v } := by
  unfold LSt.store at h
  split at h
  · injection h with h; exact h.symm
  · cases h

/-- the same nodes -/
theorem opened_same {s : LSt} {m' : Bytes} {i a : Nat} {f : Fd} {x : Node} {d : Doc} {live' : Blocks} (B : Begun s i a f x) (hv : Vals E live0 { s with m := m', live := live' } i x d) (hb : f.ty ≠ .bitfield)
    (hnc : ¬ compound f.ty) : Opened E live0 s { s with m := m', live := live' } i f x d [] :=
  ⟨fun _ _ => rfl, ⟨x, B.node, rfl, rfl, rfl, rfl, rfl, fun _ => hv⟩, fun _ => rfl, fun h => absurd h hnc, fun h => absurd h hb⟩

theorem ofNat_toNat (u : UInt8) : UInt8.ofNat u.toNat = u := by
  simp

theorem conv_told {s s' : LSt} {i a : Nat} {f : Fd} {items : List Item} (hz : ∀ k, k < room E.tds f → s.m (a + k) = 0)
    (e : loadScalar E s i a f = some (true, s', items)) :
    items = [] ∧ ∃ m', s' = { s with m := m' } ∧ ∃ b, converted E f i = some b ∧ ∀ k, k < room E.tds f → m' (a + k) = b k := by
  unfold loadScalar at e
  unfold converted
  cases hc : E.conv f i with
  | fail => rw [hc] at e; simp [failed] at e
  | keep =>
    rw [hc] at e
    simp only [finished, Option.some.injEq, Prod.mk.injEq, true_and] at e
    obtain ⟨rfl, rfl⟩ := e
    exact ⟨rfl, s.m, rfl, _, rfl, fun k hk => hz k hk⟩
  | store b =>
    rw [hc] at e
    simp only [Option.bind_eq_bind] at e
    obtain ⟨s1, e1, e⟩ := Option.bind_eq_some_iff.1 e
    have := poke_eq e1
    subst this
    simp only [finished, Option.some.injEq, Prod.mk.injEq, true_and] at e
    obtain ⟨rfl, rfl⟩ := e
    refine ⟨rfl, _, rfl, _, rfl, fun k hk => ?_⟩
    show put s.m a (convBytes (valueSize f) b) (a + k) = if k < numberSize f then b k else 0
    rw [show numberSize f = valueSize f from rfl]
    by_cases hk' : k < valueSize f
    · rw [if_pos hk', put_in (v := (b k).toNat) (by simp [convBytes, hk']), ofNat_toNat]
    · rw [if_neg hk', put_out (by simp [convBytes]; omega)]
      exact hz k hk

theorem vals_default {s : LSt} {i : Nat} {x : Node} {d : Doc} (hv : valueType x.fd.ty = true) (h : ∃ b, valueBytes E x.fd i d = some b ∧ ∀ k, k < room E.tds x.fd → s.m (x.addr + k) = b k) :
    Vals E live0 s i x d := by
  unfold Vals
  cases e : x.fd.ty <;> rw [e] at hv <;> first | exact h | (simp [valueType] at hv)

theorem scalar_told {s s' : LSt} {i a : Nat} {f : Fd} {x : Node} {d : Doc} {items : List Item} (B : Begun s i a f x) (hz : ∀ k, k < room E.tds f → s.m (a + k) = 0)
    (e : loadScalar E s i a f = some (true, s', items)) (hv : valueType f.ty = true) (hvb : valueBytes E f i d = converted E f i) : Opened E live0 s s' i f x d items := by
  obtain ⟨rfl, m', rfl, b, h1, h2⟩ := conv_told hz e
  refine opened_same B (vals_default (by rw [B.fd]; exact hv) ⟨b, by rw [B.fd, hvb]; exact h1, by rw [B.fd, B.addr]; exact h2⟩) ?_ ?_
  · intro e; rw [e] at hv; cases hv
  · rintro (e | e) <;> (rw [e] at hv; cases hv)

theorem func_told {s s' : LSt} {i a : Nat} {f : Fd} {x : Node} {d : Doc} {items : List Item} (B : Begun s i a f x) (hz : ∀ k, k < room E.tds f → s.m (a + k) = 0)
    (e : loadFunc E s i a f d = some (true, s', items)) (ht : f.ty = .func ∨ f.ty = .funcType) : Opened E live0 s s' i f x d items := by
  have hr : room E.tds f = 8 := by unfold room; rcases ht with ht | ht <;> rw [ht] <;> simp [elementSize, typeSize]
  unfold loadFunc at e
  simp only [Option.bind_eq_bind] at e
  obtain ⟨s1, e1, e2⟩ := Option.bind_eq_some_iff.1 e
  clear e
  have h1 := store_eq e1
  rw [setWord_zero (zero_word fun k hk => hz k (by omega))] at h1
  have h1 : s1 = s := h1
  subst h1
  have e := e2
  have hv : valueType f.ty = true := by rcases ht with ht | ht <;> rw [ht] <;> rfl
  by_cases hn : d.null = true
  · rw [if_pos hn] at e
    simp only [finished, Option.some.injEq, Prod.mk.injEq, true_and] at e
    obtain ⟨rfl, rfl⟩ := e
    refine opened_same (m' := s1.m) (live' := s1.live) B (vals_default (by rw [B.fd]; exact hv) ⟨fun _ => 0, ?_, by rw [B.fd, B.addr]; exact hz⟩) ?_ ?_
    · rw [B.fd]; unfold valueBytes; rcases ht with ht | ht <;> rw [ht] <;> simp [hn]
    · intro e; rw [e] at hv; cases hv
    · rintro (e | e) <;> (rw [e] at hv; cases hv)
  · rw [if_neg hn] at e
    exact scalar_told B hz e hv (by unfold valueBytes; rcases ht with ht | ht <;> rw [ht] <;> simp [hn])

theorem chars_told {s s' : LSt} {i a : Nat} {f : Fd} {x : Node} {d : Doc} {items : List Item} (B : Begun s i a f x) (hz : ∀ k, k < room E.tds f → s.m (a + k) = 0)
    (e : loadChars E s i a f d = some (true, s', items)) (ht : f.ty = .charArray) : Opened E live0 s s' i f x d items := by
  have hr : room E.tds f = f.size := by unfold room; rw [ht]
  rw [hr] at hz
  unfold loadChars at e
  simp only [Option.bind_eq_bind] at e
  obtain ⟨s1, e1, e⟩ := Option.bind_eq_some_iff.1 e
  have h1 : s1 = { s with m := s1.m } ∧ ∀ k, k < f.size → s1.m (a + k) = 0 := by
    unfold LSt.emptied at e1
    split at e1
    · have := poke_eq e1
      subst this
      refine ⟨rfl, fun k hk => ?_⟩
      show put s.m a [0] (a + k) = 0
      by_cases hk0 : k = 0
      · subst hk0
        exact put_in (k := 0) (v := 0) rfl
      · rw [put_out (by simp only [List.length_cons, List.length_nil]; omega)]
        exact hz k hk
    · injection e1 with e1
      subst e1
      exact ⟨rfl, hz⟩
  obtain ⟨h1, hz1⟩ := h1
  cases hval : d.val with
  | none => rw [hval] at e; simp [failed] at e
  | int v => rw [hval] at e; simp [failed] at e
  | other => rw [hval] at e; simp [failed] at e
  | text t =>
    rw [hval] at e
    simp only at e
    obtain ⟨_, _, e⟩ := Option.bind_eq_some_iff.1 e
    obtain ⟨_, _, e⟩ := Option.bind_eq_some_iff.1 e
    split at e
    · cases e
    obtain ⟨s2, e2, e⟩ := Option.bind_eq_some_iff.1 e
    have h2 := poke_eq e2
    have hv : ∀ k, k < f.size → s2.m (a + k) = UInt8.ofNat (t.getD k 0) := by
      intro k hk
      rw [h2]
      show put s1.m a (t.take f.size) (a + k) = _
      by_cases hkl : k < t.length
      · rw [put_in (v := t[k]) (by rw [List.getElem?_take_of_lt hk, List.getElem?_eq_getElem hkl]), List.getD_eq_getElem?_getD, List.getElem?_eq_getElem hkl]
        rfl
      · rw [put_out (by simp only [List.length_take]; omega), hz1 k hk, List.getD_eq_getElem?_getD, List.getElem?_eq_none (by omega)]
        rfl
    have hvt : valueType f.ty = true := by rw [ht]; rfl
    have hfin : ∃ m', some (true, s', items) = finished { s with m := m' } ∧ ∀ k, k < f.size → m' (a + k) = UInt8.ofNat (t.getD k 0) := by
      split at e
      · next hlt =>
        obtain ⟨s3, e3, e⟩ := Option.bind_eq_some_iff.1 e
        have h3 := poke_eq e3
        rw [← e]
        refine ⟨s3.m, ?_, fun k hk => ?_⟩
        · rw [h3, h2, h1]
        · rw [h3]
          show put s2.m (a + (t.take f.size).length) [0] (a + k) = _
          by_cases hkl : k = (t.take f.size).length
          · rw [hkl, show put s2.m (a + (t.take f.size).length) [0] (a + (t.take f.size).length) = 0 from put_in (k := 0) (v := 0) rfl]
            rw [List.length_take] at hlt ⊢
            rw [List.getD_eq_getElem?_getD, List.getElem?_eq_none (by omega)]
            rfl
          · rw [put_out (by simp only [List.length_cons, List.length_nil]; omega)]
            exact hv k hk
      · rw [← e]
        exact ⟨s2.m, by rw [h2, h1], hv⟩
    obtain ⟨m', e4, hv4⟩ := hfin
    simp only [finished, Option.some.injEq, Prod.mk.injEq, true_and] at e4
    obtain ⟨rfl, rfl⟩ := e4
    refine opened_same (live' := s.live) B (vals_default (by rw [B.fd]; exact hvt) ⟨fun k => UInt8.ofNat (t.getD k 0), ?_, ?_⟩) (by rw [ht]; simp) (by rw [ht]; rintro (e | e) <;> cases e)
    · rw [B.fd]; unfold valueBytes; rw [ht]; simp [hval]
    · rw [B.fd, B.addr, hr]; exact hv4

theorem bits_told {s s' : LSt} {i a : Nat} {f : Fd} {x : Node} {d : Doc} {items : List Item} (B : Begun s i a f x) (hg : Good E.tds f)
    (e : loadBits E s i a f = some (true, s', items)) (ht : f.ty = .bitfield) : Opened E live0 s s' i f x d items := by
  obtain ⟨_, _, hg⟩ := hg
  rw [ht] at hg
  have hnc : ¬ compound f.ty := by rw [ht]; rintro (e | e) <;> cases e
  unfold loadBits at e
  cases hc : E.conv f i with
  | fail => rw [hc] at e; simp [failed] at e
  | keep =>
    rw [hc] at e
    simp only [finished, Option.some.injEq, Prod.mk.injEq, true_and] at e
    obtain ⟨rfl, rfl⟩ := e
    refine ⟨fun _ _ => rfl, ⟨x, B.node, rfl, rfl, rfl, rfl, rfl, fun _ => ?_⟩, fun _ => rfl, fun h => absurd h hnc, fun _ _ _ => rfl⟩
    unfold Vals
    rw [B.fd, ht, hc]
    trivial
  | store v =>
    rw [hc] at e
    simp only [Option.bind_eq_bind] at e
    obtain ⟨l, e1, e⟩ := Option.bind_eq_some_iff.1 e
    obtain ⟨b, e2, e⟩ := Option.bind_eq_some_iff.1 e
    obtain ⟨s1, e3, e⟩ := Option.bind_eq_some_iff.1 e
    have h3 := poke_eq e3
    simp only [finished, Option.some.injEq, Prod.mk.injEq, true_and] at e
    obtain ⟨rfl, rfl⟩ := e
    unfold peek at e1
    split at e1
    · injection e1 with e1
      subst e1
      have htl : (toBits (bytesAt s.m a (bitBytes f))).length = bitBytes f := by unfold toBits; rw [List.length_map, bytesAt_length]
      have hbb : (f.shift + f.width + 7) / 8 ≤ bitBytes f := Nat.le_max_right _ _
      obtain ⟨mem', e4, hl, hv⟩ := Bitfield.load_ok (toBits (bytesAt s.m a (bitBytes f))) f.shift f.width (bytesWord (convBytes 16 v)) hg.1 hg.2.1 hg.2.2 (by rw [htl]; omega)
      rw [e2] at e4
      injection e4 with e4
      subst e4
      rw [htl] at hl
      have hget : ∀ j, j < 8 * bitBytes f → bitAt s1.m (8 * a + j) =
          if f.shift ≤ j ∧ j < f.shift + f.width then (bytesWord (convBytes 16 v)).getLsbD (j - f.shift) else bitAt s.m (8 * a + j) := by
        intro j hj
        rw [h3]
        show bitAt (put s.m a (ofBits b)) _ = _
        rw [put_memBit (by rw [hl]; exact hj), hv j, memBit_bytes hj]
      refine ⟨fun _ _ => by rw [h3], ⟨x, by rw [h3]; exact B.node, rfl, rfl, rfl, rfl, rfl, fun _ => ?_⟩, fun _ => rfl, fun h => absurd h hnc, fun _ p hp => ?_⟩
      · unfold Vals
        rw [B.fd, ht, hc, B.addr]
        intro q hq
        rw [hget _ (by omega), if_pos (by omega), show f.shift + q - f.shift = q from by omega]
      · rw [B.addr] at hp
        by_cases hin : 8 * a ≤ p ∧ p < 8 * a + 8 * bitBytes f
        · have := hget (p - 8 * a) (by omega)
          rw [if_neg (by omega), show 8 * a + (p - 8 * a) = p from by omega] at this
          exact this
        · rw [h3]
          refine put_other ?_
          simp only [ofBits, List.length_map, hl]
          omega
    · cases e1

theorem flagged_flag {x : Node} (hp : Plain x) (v : BitVec 128) : Flag (flagged x v) v := by
  unfold Flag flagged
  by_cases h : 0 ≤ v.toInt
  · rw [if_pos h]; exact .inl ⟨h, rfl, hp.2, rfl⟩
  · rw [if_neg h]; exact .inr ⟨by omega, hp.1, rfl, rfl⟩

theorem flagged_same (x : Node) (v : BitVec 128) : (flagged x v).addr = x.addr ∧ (flagged x v).fd = x.fd ∧ (flagged x v).ty = x.ty ∧ (flagged x v).aux = x.aux ∧ (flagged x v).td = x.td := by
  unfold flagged
  split <;> exact ⟨rfl, rfl, rfl, rfl, rfl⟩

theorem reference_eq {s s' : LSt} {i : Nat} {x : Node} {v : BitVec 128} (hx : s.nodes[i]? = some x) (h : reference s i v = some s') :
    s'.m = s.m ∧ s'.live = s.live ∧ (∀ k, k ≠ i → s'.nodes[k]? = s.nodes[k]?) ∧ s'.nodes[i]? = some (flagged x v) := by
  unfold reference at h
  unfold flagged
  split at h
  · next h0 =>
    obtain ⟨y, hy, h1, h2, h3, h4, _⟩ := setNode_get h
    rw [hx] at hy; cases hy
    rw [if_pos h0]
    exact ⟨h1, h2, h4, h3⟩
  · next h0 =>
    split at h
    · cases h
    · obtain ⟨y, hy, h1, h2, h3, h4, _⟩ := setNode_get h
      rw [hx] at hy; cases hy
      rw [if_neg h0]
      exact ⟨h1, h2, h4, h3⟩

theorem string_told (S : Setup E dst ext live0) {cur : Nat} {s s' : LSt} (h : Inv E dst ext live0 m0 cur s) {i a : Nat} {f : Fd} {x : Node} {d : Doc} {items : List Item} (B : Begun s i a f x)
    (hz : ∀ k, k < room E.tds f → s.m (a + k) = 0) (hcov : covered s.live a 8 = true)
    (e : loadString E s i a d = some (true, s', items)) (ht : f.ty = .string) : Opened E live0 s s' i f x d items := by
  have hr : room E.tds f = 8 := by unfold room; rw [ht]; simp [elementSize, typeSize]
  have hnc : ¬ compound f.ty := by rw [ht]; rintro (e | e) <;> cases e
  have hnb : f.ty ≠ .bitfield := by rw [ht]; simp
  have hw : word s.m a = 0 := zero_word fun k hk => hz k (by omega)
  have hst : ∀ {s1 : LSt} {y : Node}, y.fd = f → Str live0 s1 y d → Vals E live0 s1 i y d := by
    intro s1 y hy hs
    unfold Vals
    rw [hy, ht]
    exact hs
  have hle : live0.length ≤ s.live.length := by obtain ⟨l, e⟩ := h.live; rw [← e]; simp
  unfold loadString at e
  rw [B.node] at e
  simp only [Option.bind_eq_bind, Option.bind_some, store_zero hcov hw] at e
  by_cases hn : (d.null || x.ref || x.cref) = true
  · rw [if_pos hn] at e
    rw [B.plain.1, B.plain.2] at hn
    simp only [Bool.or_false] at hn
    simp only [finished, Option.some.injEq, Prod.mk.injEq, true_and] at e
    obtain ⟨rfl, rfl⟩ := e
    exact opened_same (m' := s.m) (live' := s.live) B (hst B.fd (.inl ⟨hn, by rw [B.addr]; exact hw, B.plain⟩)) hnb hnc
  rw [if_neg hn] at e
  have hnull : d.null = false := by
    simp only [Bool.or_eq_true, not_or, Bool.not_eq_true] at hn
    exact hn.1.1
  cases hval : d.val with
  | none => rw [hval] at e; simp [failed] at e
  | other => rw [hval] at e; simp [failed] at e
  | text t =>
    rw [hval] at e
    simp only [LSt.calloc] at e
    by_cases h0 : E.alloc s.live (t.length + 1) = 0
    · simp [h0, store_zero hcov hw, failed] at e
    · have hap := alloc_apart S h0 hcov
      have hsp := S.alloc.space _ _ h0
      simp only [h0, if_false] at e
      obtain ⟨s1, e1, e⟩ := Option.bind_eq_some_iff.1 e
      obtain ⟨s2, e2, e⟩ := Option.bind_eq_some_iff.1 e
      have h1 := store_eq e1
      have h2 := poke_eq e2
      simp only [finished, Option.some.injEq, Prod.mk.injEq, true_and] at e
      obtain ⟨rfl, rfl⟩ := e
      subst h1
      subst h2
      obtain ⟨m1, m2⟩ := mem_store (m := s.m) hsp (by omega) hap (t := t) (by omega)
      refine opened_same B (hst B.fd (.inr (.inl ⟨hnull, t, hval, B.plain, ?_, fun k hk => ?_⟩))) hnb hnc
      · rw [B.addr]
        simp only [m1]
        rw [List.drop_append_of_le_length hle]
        simp
      · rw [B.addr]
        simp only [m1]
        by_cases hkl : k < t.length
        · rw [put_in (v := t[k]) (List.getElem?_eq_getElem hkl), List.getD_eq_getElem?_getD, List.getElem?_eq_getElem hkl]
          rfl
        · unfold Apart at hap
          rw [put_out (by omega), setWord_other (by omega), put_in (bs := List.replicate (t.length + 1) 0) (k := k) (v := 0) (by rw [List.getElem?_replicate, if_pos (by omega)]), List.getD_eq_getElem?_getD, List.getElem?_eq_none (by omega)]
          rfl
  | int v =>
    rw [hval] at e
    simp only at e
    obtain ⟨s1, e1, e⟩ := Option.bind_eq_some_iff.1 e
    simp only [finished, Option.some.injEq, Prod.mk.injEq, true_and] at e
    obtain ⟨rfl, rfl⟩ := e
    obtain ⟨k1, k2, k3, k4⟩ := reference_eq B.node e1
    have hs := flagged_same x v
    refine ⟨k3, ⟨_, k4, hs.1, hs.2.1, hs.2.2.1, hs.2.2.2.1, hs.2.2.2.2, fun _ => hst (hs.2.1.trans B.fd) (.inr (.inr ⟨hnull, v, hval, flagged_flag B.plain v, ?_⟩))⟩, fun _ => rfl, fun h => absurd h hnc, fun h => absurd h hnb⟩
    rw [k1, hs.1, B.addr]
    exact hw

theorem struct_state {s s' : LSt} {i a : Nat} {f : Fd} {ok : Bool} {items : List Item} (e : loadStruct E s i a f = some (ok, s', items)) : s' = s := by
  unfold loadStruct at e
  cases e1 : tdAt E.tds f.td with
  | none => rw [e1] at e; simp only [failed, Option.some.injEq, Prod.mk.injEq] at e; exact e.2.1.symm
  | some d =>
    rw [e1] at e
    simp only [Option.bind_eq_bind] at e
    obtain ⟨_, _, e⟩ := Option.bind_eq_some_iff.1 e
    obtain ⟨_, _, e⟩ := Option.bind_eq_some_iff.1 e
    simp only [Option.some.injEq, Prod.mk.injEq] at e
    exact e.2.1.symm

theorem array_state {s s' : LSt} {i a : Nat} {f : Fd} {ok : Bool} {items : List Item} (e : loadArray E s i a f = some (ok, s', items)) : s' = s := by
  unfold loadArray at e
  simp only [Option.bind_eq_bind] at e
  obtain ⟨l, _, e⟩ := Option.bind_eq_some_iff.1 e
  by_cases hc : f.dims.headD 0 = 0
  · rw [if_pos hc] at e
    by_cases hl : l = []
    · rw [if_pos hl] at e
      simp only [finished, Option.some.injEq, Prod.mk.injEq] at e
      exact e.2.1.symm
    · rw [if_neg hl] at e
      simp only [failed, Option.some.injEq, Prod.mk.injEq] at e
      exact e.2.1.symm
  · rw [if_neg hc] at e
    by_cases hs : f.size = 0
    · rw [if_pos hs] at e
      simp only [failed, Option.some.injEq, Prod.mk.injEq] at e
      exact e.2.1.symm
    · rw [if_neg hs] at e
      simp only [Option.some.injEq, Prod.mk.injEq] at e
      exact e.2.1.symm

theorem open_told (S : Setup E dst ext live0) {cur : Nat} {s s' : LSt} (h : Inv E dst ext live0 m0 cur s) {i a : Nat} {f : Fd} {x : Node} {d : Doc} {items : List Item} (B : Begun s i a f x)
    (H : Entered (E := E) (dst := dst) (ext := ext) (live0 := live0) cur s i a f)
    (e : openNode E s i a f d = some (true, s', items)) : Opened E live0 s s' i f x d items ∧
      (f.ty = .struct → loadStruct E s i a f = some (true, s, items)) ∧ (f.ty = .array → loadArray E s i a f = some (true, s, items)) := by
  have hcov := cell_live S h H.sits
  have hdone : ∀ {s1 : LSt} {its : List Item}, finished s = some (true, s1, its) → f.ty = .none ∨ f.ty = .void ∨ f.ty = .pointer → Opened E live0 s s1 i f x d its := by
    intro s1 its e ht
    simp only [finished, Option.some.injEq, Prod.mk.injEq, true_and] at e
    obtain ⟨rfl, rfl⟩ := e
    refine opened_same (m' := s.m) (live' := s.live) B ?_ ?_ ?_
    · unfold Vals
      rw [B.fd]
      rcases ht with ht | ht | ht <;> rw [ht] <;> trivial
    · rcases ht with ht | ht | ht <;> rw [ht] <;> simp
    · rcases ht with ht | ht | ht <;> rw [ht] <;> (rintro (e | e) <;> cases e)
  have hvt : valueType f.ty = true → f.ty ≠ .struct ∧ f.ty ≠ .array := by
    intro hv
    constructor <;> (intro e; rw [e] at hv; cases hv)
  unfold openNode at e
  cases ht : f.ty <;> simp only [ht] at e
  case none => exact ⟨hdone e (.inl ht), (fun e => by cases e), (fun e => by cases e)⟩
  case void => exact ⟨hdone e (.inr (.inl ht)), (fun e => by cases e), (fun e => by cases e)⟩
  case pointer => exact ⟨hdone e (.inr (.inr ht)), (fun e => by cases e), (fun e => by cases e)⟩
  case string =>
    have hr : room E.tds f = 8 := by unfold room; rw [ht]; simp [elementSize, typeSize]
    exact ⟨string_told S h B (H.zero (by rw [ht]; simp)) (by rw [← hr]; exact hcov) e ht, (fun e => by cases e), (fun e => by cases e)⟩
  case charArray => exact ⟨chars_told B (H.zero (by rw [ht]; simp)) e ht, (fun e => by cases e), (fun e => by cases e)⟩
  case bitfield => exact ⟨bits_told B H.good e ht, (fun e => by cases e), (fun e => by cases e)⟩
  case struct =>
    have := struct_state e
    subst this
    exact ⟨⟨fun _ _ => rfl, ⟨x, B.node, rfl, rfl, rfl, rfl, rfl, fun hn => absurd (.inl ht) hn⟩, fun hn => absurd (.inl ht) hn, fun _ => rfl, fun _ _ _ => rfl⟩, fun _ => e, (fun e => by cases e)⟩
  case array =>
    have := array_state e
    subst this
    exact ⟨⟨fun _ _ => rfl, ⟨x, B.node, rfl, rfl, rfl, rfl, rfl, fun hn => absurd (.inr ht) hn⟩, fun hn => absurd (.inr ht) hn, fun _ => rfl, fun _ _ _ => rfl⟩, (fun e => by cases e), fun _ => e⟩
  case func => exact ⟨func_told B (H.zero (by rw [ht]; simp)) e (.inl ht), (fun e => by cases e), (fun e => by cases e)⟩
  case funcType => exact ⟨func_told B (H.zero (by rw [ht]; simp)) e (.inr ht), (fun e => by cases e), (fun e => by cases e)⟩
  all_goals first
    | cases e
    | exact ⟨scalar_told B (H.zero (by rw [ht]; simp)) e (by rw [ht]; rfl) (by unfold valueBytes; rw [ht]), (fun e => by cases e), (fun e => by cases e)⟩

end
end Verif.Lemmas.LoadTold
