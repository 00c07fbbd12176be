import Verif.Lemmas.LoadRow
import Verif.Lemmas.Bitfield
/-!
Loading an arbitrary tree of nodes: one node.
-/
namespace Verif.Lemmas.LoadOpen
open Verif.Model Verif.Model.Ptrs Verif.Model.Save Verif.Model.Copy Verif.Model.Load Verif.Spec Verif.Spec.Save Verif.Spec.Load
  Verif.Lemmas.XdrMem Verif.Lemmas.CopyMem Verif.Lemmas.LoadSafe Verif.Lemmas.LoadInv Verif.Lemmas.LoadStep Verif.Lemmas.LoadRow
open Verif.Model.XdrGraph (put peek bytesAt bitBytes toBits ofBits bytesWord tdAt tdType wordBytes)
open Verif.Spec.Copy (Apart Layout span Allocator Grown)
open Verif.Lemmas.XdrSafe (home home_mono home_live not_home)

section
variable {E : Env} {dst ext : Nat} {live0 : Blocks} {m0 : Bytes}

/-- a node that was taken for the object at `a` -/
structure Entered (cur : Nat) (s : LSt) (i a : Nat) (f : Fd) : Prop where
  index : i < E.ra.length
  good : Good E.tds f
  sits : Sits dst ext live0 s i a (room E.tds f)
  zero : f.ty ≠ .bitfield → ∀ k, k < room E.tds f → s.m (a + k) = 0
  away : ∀ (j : Nat) (x : Node), j ≠ i → s.nodes[j]? = some x → isCell x → Apart x.addr 8 a (room E.tds f)
  node : ∃ x, s.nodes[i]? = some x ∧ x.addr = a ∧ a ≠ 0 ∧ x.ty = f.ty
  kids : ∀ (c : Nat) (pc : Pd) (x : Node), E.ra[c]? = some pc → pc.parent = i → s.nodes[c]? = some x → x.addr = 0
  par : ∀ pd : Pd, E.ra[i]? = some pd → pd.parent = 0 ∨
    ∃ y, s.nodes[pd.parent]? = some y ∧ y.addr ≠ 0 ∧ (y.ty = .pointer → pd.parent < cur ∧ f.ty ≠ .charArray)

theorem entered (S : Setup E dst ext live0) {cur : Nat} {s s' : LSt} (h : Inv E dst ext live0 m0 cur s) {i a : Nat} {f : Fd}
    (hi : Slot (E := E) (dst := dst) (ext := ext) (live0 := live0) cur s i a f) (ha : a ≠ 0) (hi0 : i ≠ 0)
    (hs : s.setNode i (fun x => { x with addr := a, ty := f.ty, aux := f.aux, td := f.td, sized := f.sizeField.isSome, fd := f }) = some s') :
    Entered (E := E) (dst := dst) (ext := ext) (live0 := live0) cur s' i a f := by
  obtain ⟨hst, ⟨x, hx, hxa, hxt, _⟩, em, el⟩ := enter h hi ha hi0 hs
  obtain ⟨_, _, _, _, _, hj, _⟩ := setNode_get hs
  refine ⟨hi.index, hi.good, hst.sits h hi.sits, fun hb k hk => by rw [em]; exact hi.zero hb k hk, fun j y hne hy hc => ?_, ⟨x, hx, hxa, ha, hxt⟩, fun c pc y hpc hp hy => ?_, fun pd hpd => ?_⟩
  · rw [hj j hne] at hy
    exact hi.away j y hy hc
  · have hci : c ≠ i := by
      intro e
      subst e
      rcases S.tree.up c pc hpc with h1 | h1 <;> omega
    rw [hj c hci] at hy
    refine Classical.byContradiction fun hne => ?_
    rcases h.ready c pc y hpc hy hne with h1 | ⟨z, h1, h2, _⟩
    · omega
    · rw [hp] at h1
      exact h2 (hi.blank z h1)
  · rcases hi.par pd hpd with h1 | ⟨y, h1, h2, h3⟩
    · exact .inl h1
    · obtain ⟨y', g1, g2, g3, _⟩ := hst.keep _ y h1 h2
      exact .inr ⟨y', g1, by rw [g2]; exact h2, by rw [g3]; exact h3⟩

/-- bytes are stored where no pointer or string is -/
theorem poke_step (S : Setup E dst ext live0) {cur i a n : Nat} {bit : Bool} {s : LSt} (h : Inv E dst ext live0 m0 cur s) (hs : covered (home dst ext live0 s.live) a n = true)
    (haw : ∀ (j : Nat) (x : Node), s.nodes[j]? = some x → isCell x → Apart x.addr 8 a n) {b : Nat} {bs : List Nat} (h1 : a ≤ b) (h2 : b + bs.length ≤ a + n) :
    ∃ s', s.poke b bs = some s' ∧ Step E dst ext live0 m0 cur i a n bit s s' ∧ s'.nodes = s.nodes ∧ s'.live = s.live := by
  have hc := covered_part hs h1 h2
  refine ⟨{ s with m := put s.m b bs }, ?_, ?_, rfl, rfl⟩
  · unfold LSt.poke
    rw [if_pos (home_live S.space h.live hc)]
  · have hw : ∀ (j : Nat) (x : Node), s.nodes[j]? = some x → isCell x → word (put s.m b bs) x.addr = word s.m x.addr := by
      intro j x hx hcx
      have := haw j x hx hcx
      unfold Apart at this
      refine word_congr fun k hk => put_out ?_
      by_cases h0 : bs.length = 0 <;> omega
    refine ⟨inv_mem h hw (fun p hp => put_out (not_home hc hp)), List.prefix_rfl, fun p hp _ => put_out (by omega), fun j x hx _ => ⟨x, hx, rfl, rfl, rfl, fun _ => rfl⟩,
      fun j x hx h0 => .inl ⟨x, hx, h0⟩, fun j x hx hc => .inl ⟨x, hx, cell_addr h hx hc⟩, fun c hc k x hx hcx e => ⟨x, hx, hcx, ?_, rfl⟩⟩
    rw [← hw k x hx hcx]
    exact e

/-- a block for a pointer or a string -/
theorem step_alloc (S : Setup E dst ext live0) {cur i a n0 : Nat} {bit : Bool} {s : LSt} (h : Inv E dst ext live0 m0 cur s) {j n : Nat} {x : Node} (hx : s.nodes[j]? = some x) (hc : isCell x)
    (h0 : word s.m x.addr = 0) (hr : x.ref = false ∧ x.cref = false) (hp : x.ty = .pointer → j < cur) (hn : 0 < n) (ha : E.alloc s.live n ≠ 0) {m' : Bytes}
    (hw : word m' x.addr = E.alloc s.live n)
    (hm : ∀ p, ¬ (x.addr ≤ p ∧ p < x.addr + 8) → ¬ (E.alloc s.live n ≤ p ∧ p < E.alloc s.live n + n) → m' p = s.m p) (h1 : a ≤ x.addr) (h2 : x.addr + 8 ≤ a + n0) :
    Step E dst ext live0 m0 cur i a n0 bit s { s with m := m', live := s.live ++ [(E.alloc s.live n, n)] } := by
  obtain ⟨hinv, hback⟩ := inv_alloc S h hx hc h0 hr hp hn ha hw hm
  refine ⟨hinv, List.prefix_append _ _, fun p hp hc => ?_, fun j x hx _ => ⟨x, hx, rfl, rfl, rfl, fun _ => rfl⟩, fun j x hx h0 => .inl ⟨x, hx, h0⟩,
    fun j x hx hc => .inl ⟨x, hx, cell_addr h hx hc⟩, fun b hb k y hy hcy e => ⟨y, hy, hcy, hback b hb k y hy hcy e, rfl⟩⟩
  refine hm p (by omega) fun hin => ?_
  rw [List.drop_left] at hc
  have : covered [(E.alloc s.live n, n)] p 1 = true := by
    rw [covered_mem]
    exact ⟨_, List.mem_singleton.2 rfl, by simp only; omega⟩
  rw [this] at hc
  cases hc

theorem mem_store {m : Bytes} {x : Nat} {a n : Nat} (ha : a + n ≤ 2 ^ 64) (hn : 0 < n) (hap : Apart a n x 8) {t : List Nat} (ht : t.length ≤ n) :
    word (put (setWord (put m a (List.replicate n 0)) x a) a t) x = a ∧
    ∀ p, ¬ (x ≤ p ∧ p < x + 8) → ¬ (a ≤ p ∧ p < a + n) → put (setWord (put m a (List.replicate n 0)) x a) a t p = m p := by
  constructor
  · rw [word_congr (m' := setWord (put m a (List.replicate n 0)) x a) (a' := x)]
    · exact word_setWord (by omega)
    · intro k hk
      unfold Apart at hap
      exact put_out (by omega)
  · intro p h1 h2
    rw [put_out (by omega), setWord_other h1, put_out (by simpa using h2)]

/-- a node that became a reference -/
def flagged (x : Node) (v : BitVec 128) : Node :=
  if 0 ≤ v.toInt then { x with first := u32 v.toNat, ref := true } else { x with first := u32 (-v).toNat, cref := true }

/-- a number becomes a reference -/
theorem reference_ok {cur i a n : Nat} {bit : Bool} {s : LSt} (h : Inv E dst ext live0 m0 cur s) {j : Nat} {x : Node} (hx : s.nodes[j]? = some x)
    (h0 : isCell x → word s.m x.addr = 0) (hxa : x.addr ≠ 0) (hxp : x.ty = .pointer → j < cur) (hxc : x.cref = false) (hij : Desc E.ra i j) {d : Doc} (hd : d ∈ E.data)
    {v : BitVec 128} (hdv : d.val = .int v) (hv : v ≠ BitVec.ofNat 128 (2 ^ 127)) :
    ∃ s', reference s j v = some s' ∧ Step E dst ext live0 m0 cur i a n bit s s' ∧ s'.m = s.m ∧ s'.live = s.live ∧
      (∀ k, k ≠ j → s'.nodes[k]? = s.nodes[k]?) ∧ s'.nodes[j]? = some (flagged x v) := by
  have key : ∀ F : Node → Node, ((F x).cref = true → v.toInt < 0 ∧ (F x).first = u32 (-v).toNat) →
      (∀ x, (F x).addr = x.addr ∧ (F x).ty = x.ty ∧ (F x).aux = x.aux ∧ (F x).td = x.td ∧ (F x).sized = x.sized ∧ (F x).fd = x.fd) →
      ∃ s', s.setNode j F = some s' ∧ Step E dst ext live0 m0 cur i a n bit s s' ∧ s'.m = s.m ∧ s'.live = s.live ∧
      (∀ k, k ≠ j → s'.nodes[k]? = s.nodes[k]?) ∧ s'.nodes[j]? = some (F x) := by
    intro F hFx hF
    obtain ⟨s', hs'⟩ := setNode_ok (F := F) (List.getElem?_eq_some_iff.1 hx).1
    obtain ⟨hinv, hb, hf⟩ := inv_flag h hs' hF (fun y hy hc => by rw [hx] at hy; cases hy; exact h0 hc)
      (fun y hy => by rw [hx] at hy; cases hy; exact ⟨hxa, hxp, fun hc => ⟨d, hd, v, hdv, hFx hc⟩⟩)
    obtain ⟨x', hx', em, el, hi, hj, _⟩ := setNode_get hs'
    rw [hx] at hx'; cases hx'
    have hcell : ∀ {x y : Node}, y.ty = x.ty → isCell y → isCell x := by intro x y e; unfold isCell; rw [e]; exact id
    refine ⟨s', hs', ⟨hinv, by rw [el]; exact List.prefix_rfl, fun p _ _ => by rw [em], fun k y hy _ => ?_, fun k y hy hne => ?_, fun k y hy hc => ?_, fun b _ k y hy hc e => ?_⟩, em, el, hj, hi⟩
    · obtain ⟨z, g1, g2, g3, g4, g5⟩ := hf k y hy
      exact ⟨z, g1, g2, g3, g4, fun hn => g5 fun e => hn (by rw [e]; exact hij)⟩
    · obtain ⟨z, g1, g2, _⟩ := hb k y hy
      exact .inl ⟨z, g1, by rw [← g2]; exact hne⟩
    · obtain ⟨z, g1, g2, g3, _⟩ := hb k y hy
      exact .inl ⟨z, g1, cell_addr h g1 (hcell g3 hc)⟩
    · obtain ⟨z, g1, g2, g3, _⟩ := hb k y hy
      exact ⟨z, g1, hcell g3 hc, by rw [← g2, ← em]; exact e, g3.symm⟩
  unfold reference flagged
  by_cases h1 : 0 ≤ v.toInt
  · rw [if_pos h1, if_pos h1]
    exact key _ (fun hc => by rw [show ({ x with first := u32 v.toNat, ref := true } : Node).cref = x.cref from rfl, hxc] at hc; cases hc) fun x => ⟨rfl, rfl, rfl, rfl, rfl, rfl⟩
  · rw [if_neg h1, if_neg h1, if_neg hv]
    exact key _ (fun _ => ⟨by omega, rfl⟩) fun x => ⟨rfl, rfl, rfl, rfl, rfl, rfl⟩

theorem flagged_set {x : Node} {v : BitVec 128} : ((flagged x v).ref || (flagged x v).cref) = true := by
  unfold flagged
  split <;> simp

def Post (E : Env) (dst ext : Nat) (live0 : Blocks) (m0 : Bytes) (cur : Nat) (s : LSt) (i a : Nat) (f : Fd) (r : Res) : Prop :=
  ∃ ok s' items, r = some (ok, s', items) ∧ Step E dst ext live0 m0 cur i a (room E.tds f) (bitty f) s s' ∧
    Row E dst ext live0 cur s' i a (room E.tds f) items

theorem post_done {cur i a : Nat} {f : Fd} {ok : Bool} {s s' : LSt} (h : Step E dst ext live0 m0 cur i a (room E.tds f) (bitty f) s s') :
    Post E dst ext live0 m0 cur s i a f (some (ok, s', [])) := ⟨ok, s', [], rfl, h, trivial⟩

variable (S : Setup E dst ext live0)
include S

theorem scalar_ok {cur i a : Nat} {f : Fd} {s : LSt} (h : Inv E dst ext live0 m0 cur s) (hc : covered (home dst ext live0 s.live) a (room E.tds f) = true)
    (haw : ∀ (j : Nat) (x : Node), s.nodes[j]? = some x → isCell x → Apart x.addr 8 a (room E.tds f)) (hv : valueSize f ≤ room E.tds f) :
    Post E dst ext live0 m0 cur s i a f (loadScalar E s i a f) := by
  unfold loadScalar
  split
  · exact post_done h.step
  · exact post_done h.step
  · next b _ =>
    obtain ⟨s', e, hs, _⟩ := poke_step S (i := i) (bit := bitty f) h hc haw (bs := convBytes (valueSize f) b) (Nat.le_refl a) (by simp [convBytes]; exact hv)
    rw [e]
    exact post_done hs

theorem bits_ok {cur i a : Nat} {f : Fd} {s : LSt} (h : Inv E dst ext live0 m0 cur s) (hc : covered (home dst ext live0 s.live) a (room E.tds f) = true)
    (haw : ∀ (j : Nat) (x : Node), s.nodes[j]? = some x → isCell x → Apart x.addr 8 a (room E.tds f)) (ht : f.ty = .bitfield) (hg : Good E.tds f) :
    Post E dst ext live0 m0 cur s i a f (loadBits E s i a f) := by
  have hr : room E.tds f = bitBytes f := by unfold room; rw [ht]
  obtain ⟨_, _, hg⟩ := hg
  rw [ht] at hg
  unfold loadBits
  split
  · exact post_done h.step
  · exact post_done h.step
  · next v _ =>
    have hpk : peek s.live s.m a (bitBytes f) = some (bytesAt s.m a (bitBytes f)) := peek_ok (home_live S.space h.live (by rw [← hr]; exact hc))
    rw [hpk]
    have htl : (toBits (bytesAt s.m a (bitBytes f))).length = bitBytes f := by unfold toBits; rw [List.length_map, bytesAt_length]
    have hbb : (f.shift + f.width + 7) / 8 ≤ bitBytes f := Nat.le_max_right _ _
    obtain ⟨mem', e1, hl, _⟩ := Bitfield.load_ok (toBits (bytesAt s.m a (bitBytes f))) f.shift f.width (bytesWord (convBytes 16 v)) hg.1 hg.2.1 hg.2.2 (by rw [htl]; omega)
    simp only [e1, Option.bind_eq_bind, Option.bind_some]
    obtain ⟨s', e, hs, _⟩ := poke_step S (i := i) (bit := bitty f) h hc haw (bs := ofBits mem') (Nat.le_refl a) (by
      unfold ofBits; rw [List.length_map, hl, htl, hr]; exact Nat.le_refl _)
    rw [e]
    exact post_done hs

omit S in
theorem store_zero {s : LSt} {a : Nat} (hc : covered s.live a 8 = true) (h0 : word s.m a = 0) : s.store a 0 = some s := by
  unfold LSt.store
  rw [if_pos hc, setWord_zero h0]

theorem func_ok {cur i a : Nat} {f : Fd} {s : LSt} {d : Doc} (h : Inv E dst ext live0 m0 cur s) (hc : covered (home dst ext live0 s.live) a (room E.tds f) = true)
    (haw : ∀ (j : Nat) (x : Node), s.nodes[j]? = some x → isCell x → Apart x.addr 8 a (room E.tds f)) (hv : valueSize f ≤ room E.tds f)
    (hr : room E.tds f = 8) (hz : ∀ k, k < room E.tds f → s.m (a + k) = 0) :
    Post E dst ext live0 m0 cur s i a f (loadFunc E s i a f d) := by
  unfold loadFunc
  rw [store_zero (home_live S.space h.live (by rw [← hr]; exact hc)) (zero_word fun k hk => hz k (by omega))]
  simp only [Option.bind_eq_bind, Option.bind_some]
  split
  · exact post_done h.step
  · exact scalar_ok S h hc haw hv

theorem string_ok {cur i a : Nat} {f : Fd} {s : LSt} {d : Doc} (h : Inv E dst ext live0 m0 cur s)
    (H : Entered (E := E) (dst := dst) (ext := ext) (live0 := live0) cur s i a f) (ht : f.ty = .string) (hd : d ∈ E.data) :
    Post E dst ext live0 m0 cur s i a f (loadString E s i a d) := by
  have hr : room E.tds f = 8 := by unfold room; rw [ht]; simp [elementSize, typeSize]
  have hw : word s.m a = 0 := zero_word fun k hk => H.zero (by rw [ht]; simp) k (by omega)
  have hcov : covered s.live a 8 = true := by have := cell_live S h H.sits; rw [hr] at this; exact this
  obtain ⟨x, hx, hxa, ha, hxt⟩ := H.node
  have hcx : isCell x := .inr (hxt.trans ht)
  unfold loadString
  rw [hx]
  simp only [Option.bind_eq_bind, Option.bind_some, store_zero hcov hw]
  by_cases hn : (d.null || x.ref || x.cref) = true
  · rw [if_pos hn]; exact post_done h.step
  rw [if_neg hn]
  simp only [Bool.or_eq_true, not_or, Bool.not_eq_true] at hn
  split
  · next t _ =>
    unfold LSt.calloc
    by_cases h0 : E.alloc s.live (t.length + 1) = 0
    · simp only [h0, if_true, store_zero hcov hw, Option.bind_some]
      exact post_done h.step
    · simp only [h0, if_false]
      have hap := alloc_apart S h0 hcov
      have hsp := S.alloc.space _ _ h0
      have hc1 : covered (s.live ++ [(E.alloc s.live (t.length + 1), t.length + 1)]) a 8 = true := covered_mono hcov
      have hc2 : covered (s.live ++ [(E.alloc s.live (t.length + 1), t.length + 1)]) (E.alloc s.live (t.length + 1)) t.length = true := by
        rw [covered_mem]
        exact ⟨_, List.mem_append_right _ (List.mem_singleton.2 rfl), by simp only; omega⟩
      simp only [LSt.store, hc1, if_true, Option.bind_some, LSt.poke, hc2]
      obtain ⟨m1, m2⟩ := mem_store (m := s.m) hsp (by omega) hap (t := t) (by omega)
      refine post_done (step_alloc S h hx hcx (by rw [hxa]; exact hw) ⟨hn.1.2, hn.2⟩ (fun e => by rw [hxt, ht] at e; cases e) (by omega) h0 (by rw [hxa]; exact m1) (by rw [hxa]; exact m2) (by omega) (by omega))
  · next v e =>
    have hv : v ≠ BitVec.ofNat 128 (2 ^ 127) := fun ev => S.least d hd (by rw [e, ev])
    obtain ⟨s', e1, h1, _⟩ := reference_ok (i := i) (a := a) (n := room E.tds f) (bit := bitty f) h hx (fun _ => by rw [hxa]; exact hw) (by rw [hxa]; exact ha)
      (fun e => by rw [hxt, ht] at e; cases e) hn.2 .self hd e hv
    rw [e1]
    exact post_done h1
  · exact post_done h.step

theorem chars_ok {cur i a : Nat} {f : Fd} {s : LSt} {d : Doc} (h : Inv E dst ext live0 m0 cur s)
    (H : Entered (E := E) (dst := dst) (ext := ext) (live0 := live0) cur s i a f) (ht : f.ty = .charArray)
    (haw : ∀ (j : Nat) (x : Node), s.nodes[j]? = some x → isCell x → Apart x.addr 8 a (room E.tds f)) :
    Post E dst ext live0 m0 cur s i a f (loadChars E s i a f d) := by
  have hr : room E.tds f = f.size := by unfold room; rw [ht]
  have hc := sits_home H.sits
  have h1 : ∃ s1, (if f.size > 0 then s.poke a [0] else some s) = some s1 ∧ Step E dst ext live0 m0 cur i a (room E.tds f) (bitty f) s s1 ∧ s1.nodes = s.nodes ∧ s1.live = s.live := by
    split
    · exact poke_step S h hc haw (Nat.le_refl a) (by simp only [List.length_cons, List.length_nil]; omega)
    · exact ⟨s, rfl, h.step, rfl, rfl⟩
  obtain ⟨s1, e1, hs1, hn1, hl1⟩ := h1
  unfold loadChars LSt.emptied
  rw [e1]
  simp only [Option.bind_eq_bind, Option.bind_some]
  split
  · next t _ =>
    rw [List.getElem?_eq_getElem H.index]
    simp only [Option.bind_some]
    have hpar := H.par _ (List.getElem?_eq_getElem H.index)
    have hup := S.tree.up i _ (List.getElem?_eq_getElem H.index)
    have hplt : (E.ra[i]'H.index).parent < s1.nodes.length := by
      rw [hn1, h.len]
      have := H.index
      omega
    rw [List.getElem?_eq_getElem hplt]
    simp only [Option.bind_some]
    rw [if_neg]
    · obtain ⟨s2, e2, hs2, hn2, hl2⟩ := poke_step S (i := i) (a := a) (n := room E.tds f) (bit := bitty f) (b := a) hs1.inv (by rw [hl1]; exact hc) (by rw [hn1]; exact haw) (bs := t.take f.size) (Nat.le_refl a)
        (by simp only [List.length_take]; omega)
      have hs12 := hs1.trans hs2 .self (.inl ⟨Nat.le_refl _, Nat.le_refl _, id⟩)
      rw [e2]
      simp only [Option.bind_some]
      split
      · next hlt =>
        obtain ⟨s3, e3, hs3, hn3, hl3⟩ := poke_step S (i := i) (a := a) (n := room E.tds f) (bit := bitty f) (b := a + (t.take f.size).length) hs2.inv (by rw [hl2, hl1]; exact hc)
          (by rw [hn2, hn1]; exact haw) (bs := [0]) (by omega) (by simp only [List.length_cons, List.length_nil]; omega)
        rw [e3]
        exact post_done (hs12.trans hs3 .self (.inl ⟨Nat.le_refl _, Nat.le_refl _, id⟩))
      · exact post_done hs12
    · rintro ⟨_, hp0, hpt⟩
      rcases hpar with h2 | ⟨y, h2, h3, h4⟩
      · exact hp0 h2
      · have : s1.nodes[(E.ra[i]'H.index).parent]'hplt = y := by
          have e := List.getElem?_eq_getElem hplt
          rw [← hn1, e] at h2
          injection h2
        rw [this] at hpt
        exact (h4 hpt).2 ht
  · exact post_done hs1

/-- the children of a structure or an array -/
theorem entered_frame {cur i a : Nat} {f : Fd} {s : LSt} {n : Nat} (H : Entered (E := E) (dst := dst) (ext := ext) (live0 := live0) cur s i a f) (ht : f.ty ≠ .pointer ∧ f.ty ≠ .string ∧ f.ty ≠ .bitfield)
    (hn : n = room E.tds f) : Frame (E := E) (dst := dst) (ext := ext) (live0 := live0) cur s i a n True := by
  subst hn
  obtain ⟨x, hx, hxa, ha, hxt⟩ := H.node
  refine ⟨sits_part H.sits (by omega) (Nat.le_refl _) (Nat.le_refl _), H.zero ht.2.2, fun j y hy hc => ?_, ⟨x, hx, by rw [hxa]; exact ha, fun e => absurd (hxt.symm.trans e) ht.1⟩, H.kids⟩
  refine H.away j y (fun e => ?_) hy hc
  subst e
  rw [hx] at hy; cases hy
  unfold isCell at hc
  rw [hxt] at hc
  rcases hc with hc | hc
  · exact ht.1 hc
  · exact ht.2.1 hc

theorem struct_ok {cur i a : Nat} {f : Fd} {s : LSt} (h : Inv E dst ext live0 m0 cur s)
    (H : Entered (E := E) (dst := dst) (ext := ext) (live0 := live0) cur s i a f) (ht : f.ty = .struct) :
    Post E dst ext live0 m0 cur s i a f (loadStruct E s i a f) := by
  have hg := H.good.2.2
  rw [ht] at hg
  obtain ⟨t, d, e1, e2, e3, e4⟩ := XdrSafe.hasTd_at hg
  have hr : d.size = room E.tds f := by
    unfold room
    rw [ht]
    simp [elementSize, typeSize, e1, e2]
  unfold loadStruct
  rw [e4]
  obtain ⟨pd, l, h1, h2, h3, h4, h5⟩ := kids_ok S.tree H.index
  rw [h3]
  simp only [Option.bind_eq_bind, Option.bind_some]
  obtain ⟨items, e5⟩ := assign_ok S e2 e3 (a := a) l none (fun c hc => by obtain ⟨_, pc, hpc, _⟩ := h5 c hc; exact (List.getElem?_eq_some_iff.1 hpc).1)
  rw [e5]
  refine ⟨true, s, items, rfl, h.step, ?_⟩
  rw [← hr]
  exact (row_assign S e2 e3 (entered_frame S H (by rw [ht]; simp) hr) l none items h4 h5 (S.names i pd l h1 h2) e5).1

theorem array_ok {cur i a : Nat} {f : Fd} {s : LSt} (h : Inv E dst ext live0 m0 cur s)
    (H : Entered (E := E) (dst := dst) (ext := ext) (live0 := live0) cur s i a f) (ht : f.ty = .array) :
    Post E dst ext live0 m0 cur s i a f (loadArray E s i a f) := by
  have hg := H.good.2.2
  rw [ht] at hg
  obtain ⟨b, c, g1, g2, g3, g4⟩ := hg
  have hr : f.size = room E.tds f := by unfold room; rw [ht]
  unfold loadArray
  obtain ⟨pd, l, h1, h2, h3, h4, h5⟩ := kids_ok S.tree H.index
  rw [h3]
  simp only [Option.bind_eq_bind, Option.bind_some, g3, List.headD_cons, List.length_cons, List.length_nil, Nat.zero_add, if_true]
  by_cases hc0 : c = 0
  · rw [if_pos hc0]
    split
    · exact post_done h.step
    · exact post_done h.step
  rw [if_neg hc0]
  by_cases hs0 : f.size = 0
  · rw [if_pos hs0]; exact post_done h.step
  rw [if_neg hs0]
  have hdiv : f.size / c = elementSize E.tds f.aux f.td := by rw [g4]; exact Nat.mul_div_cancel_left _ (by omega)
  obtain ⟨k1, k2, k3, k4⟩ := good_elem (tds := E.tds) (aux := f.aux) (td := f.td)
    (g := { f with nonPersistent := true, unnamed := true, offset := 0, size := f.size / c, ty := f.aux, aux := tdType E.tds f.td, dims := [c] })
    (.inr ⟨b, g1, g2⟩) rfl rfl rfl H.good.1 hdiv
  refine ⟨true, s, _, rfl, h.step, ?_⟩
  exact (row_elements S.tree (entered_frame S H (by rw [ht]; simp) rfl) k1 k2 k3 k4 (by simp only; rw [hdiv, ← hr, g4]; exact Nat.le_refl _) l 0 h4 h5).1

theorem open_ok {cur i a : Nat} {f : Fd} {s : LSt} {d : Doc} (h : Inv E dst ext live0 m0 cur s)
    (H : Entered (E := E) (dst := dst) (ext := ext) (live0 := live0) cur s i a f) (hd : d ∈ E.data) :
    Post E dst ext live0 m0 cur s i a f (openNode E s i a f d) := by
  have hc := sits_home H.sits
  have haw : f.ty ≠ .pointer → f.ty ≠ .string → ∀ (j : Nat) (x : Node), s.nodes[j]? = some x → isCell x → Apart x.addr 8 a (room E.tds f) := by
    intro h1 h2 j y hy hcy
    refine H.away j y (fun e => ?_) hy hcy
    subst e
    obtain ⟨x, hx, _, _, hxt⟩ := H.node
    rw [hx] at hy; cases hy
    unfold isCell at hcy
    rw [hxt] at hcy
    rcases hcy with hcy | hcy
    · exact h1 hcy
    · exact h2 hcy
  have hval : plain f.ty = true → valueSize f ≤ room E.tds f := by
    intro hp
    rw [room_plain hp]
    unfold valueSize
    split
    · rw [← H.good.2.1 hp]; exact Nat.min_le_left _ _
    · unfold elementSize
      split
      · exact Nat.le_refl _
      · omega
  unfold openNode
  split
  · exact post_done h.step
  · exact post_done h.step
  · exact post_done h.step
  · next e => exact string_ok S h H e hd
  · next e => exact chars_ok S h H e (haw (by rw [e]; simp) (by rw [e]; simp))
  · next e => exact bits_ok S h hc (haw (by rw [e]; simp) (by rw [e]; simp)) e H.good
  · next e => exact struct_ok S h H e
  · next e => exact array_ok S h H e
  · next e => exact func_ok S h hc (haw (by rw [e]; simp) (by rw [e]; simp)) (hval (by rw [e]; rfl)) (by unfold room; rw [e]; simp [elementSize, typeSize]) (H.zero (by rw [e]; simp))
  · next e => exact func_ok S h hc (haw (by rw [e]; simp) (by rw [e]; simp)) (hval (by rw [e]; rfl)) (by unfold room; rw [e]; simp [elementSize, typeSize]) (H.zero (by rw [e]; simp))
  · next e => have := H.good.2.2; rw [e] at this; exact this.elim
  · next e => have := H.good.2.2; rw [e] at this; exact this.elim
  · next e => have := H.good.2.2; rw [e] at this; exact this.elim
  · exact post_done h.step
  · exact post_done h.step
  · next n1 n2 n3 n4 n5 n6 n7 n8 n9 n10 n11 n12 n13 n14 n15 =>
    have hp : plain f.ty = true := by
      revert n1 n2 n3 n4 n5 n6 n7 n8 n9 n10 n11 n12 n13 n14 n15
      cases f.ty <;> simp [plain]
    refine scalar_ok S h hc (haw ?_ ?_) (hval hp)
    · intro e; exact absurd e (by assumption)
    · intro e; exact absurd e (by assumption)

/-- every node -/
theorem load_works : ∀ (fuel cur i0 : Nat), i0 < E.ra.length → E.ra.length < fuel + (i0 + 1) → Works E dst ext live0 m0 cur i0 (mrLoad E fuel) := by
  intro fuel
  induction fuel with
  | zero => intro cur i0 h1 h2; omega
  | succ fuel ih =>
    intro cur i0 h1 h2
    refine ⟨fun s i a f h hi0 hsl => ?_, fun s i a f hdm => ?_⟩
    · unfold mrLoad
      by_cases hz : a = 0 ∨ i = 0 ∨ i ≥ s.nodes.length
      · rw [if_pos hz]; exact ⟨false, s, rfl, h.step⟩
      rw [if_neg hz]
      simp only [not_or, Nat.not_le] at hz
      have hid : i < E.data.length := by rw [S.data]; exact hsl.index
      simp only [List.getElem?_eq_getElem hid, Option.bind_eq_bind, Option.bind_some]
      by_cases hrf : refused s i a f (E.data[i]'hid) = true
      · rw [if_pos hrf]; exact ⟨false, s, rfl, h.step⟩
      rw [if_neg hrf]
      obtain ⟨s1, e1⟩ := setNode_ok (F := fun x => { x with addr := a, ty := f.ty, aux := f.aux, td := f.td, sized := f.sizeField.isSome, fd := f }) (show i < s.nodes.length by omega)
      rw [e1]
      simp only [Option.bind_some]
      have hst := (enter h hsl hz.1 hz.2.1 e1).1
      have H := entered S h hsl hz.1 hz.2.1 e1
      obtain ⟨ok, s2, items, e2, hs2, hrow⟩ := open_ok S hst.inv H (List.getElem_mem hid)
      rw [e2]
      simp only [Option.bind_some]
      have h12 := hst.trans hs2 .self (.inl ⟨Nat.le_refl _, Nat.le_refl _, id⟩)
      cases ok with
      | false => exact ⟨false, s2, rfl, h12⟩
      | true =>
        simp only [if_true]
        by_cases hlast : items = []
        · subst hlast
          exact ⟨true, s2, rfl, h12⟩
        · obtain ⟨ok, s3, e3, hs3⟩ := loadAll_ok S (i0 := i) (a0 := a) (n0 := room E.tds f) (ih cur i hsl.index (by omega)) items s2 hs2.inv hrow
          have hnb : bitty f = false := by
            cases hb : bitty f with
            | false => rfl
            | true =>
              simp only [bitty, decide_eq_true_eq] at hb
              exfalso
              unfold openNode at e2
              rw [hb] at e2
              simp only at e2
              unfold loadBits at e2
              split at e2
              · cases e2
              · simp only [finished, Option.some.injEq, Prod.mk.injEq] at e2
                exact hlast e2.2.2.symm
              · obtain ⟨_, _, e2⟩ := Option.bind_eq_some_iff.1 e2
                obtain ⟨_, _, e2⟩ := Option.bind_eq_some_iff.1 e2
                obtain ⟨_, _, e2⟩ := Option.bind_eq_some_iff.1 e2
                simp only [finished, Option.some.injEq, Prod.mk.injEq] at e2
                exact hlast e2.2.2.symm
          refine ⟨ok, s3, e3, h12.trans hs3 .self (.inl ⟨Nat.le_refl _, Nat.le_refl _, fun e => by rw [hnb] at e; cases e⟩)⟩
    · obtain ⟨d, n, k1, k2, k3, k4, k5⟩ := hdm
      unfold mrLoad
      split
      · rfl
      · simp only [k1, Option.bind_eq_bind, Option.bind_some]
        rw [if_pos]
        unfold refused
        rw [k2, k3]
        simp [k4, k5]

end
end Verif.Lemmas.LoadOpen
