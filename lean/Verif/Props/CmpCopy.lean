import Verif.Lemmas.CmpCopy
import Verif.Props.Cmp
/-!
# C32: a deep copy is equal to the original

The hypotheses are those of `C30_copy_partial` in Props/Copy.lean and `Comparable` in Spec/CmpCopy.lean.
-/
namespace Verif.Props.CmpCopy
open Verif.Model Verif.Model.Ptrs Verif.Model.Save Verif.Model.Copy Verif.Model.Cmp Verif.Spec.Ptrs Verif.Spec.Save Verif.Spec.Copy Verif.Spec.Cmp Verif.Spec.CmpCopy
  Verif.Lemmas.SaveTree Verif.Lemmas.SaveInv Verif.Lemmas.CopyView Verif.Lemmas.SimTwin Verif.Lemmas.CmpCopy Verif.Lemmas.CmpTwin

variable {alloc : Blocks → Nat → Nat} {m : Bytes} {mem : Mem} {tds : List Td} {live : Blocks} {dst max : Nat}

/-- a node of the list of nodes -/
theorem nodes_at {s : St} {i : Nat} {a : Pd × Info} (h : (nodes s)[i]? = some a) : s.ptrs.ra[i]? = some a.1 ∧ s.info[i]? = some a.2 := by
  unfold nodes at h
  rw [List.getElem?_zip_eq_some] at h
  exact h

/-- what `Final` says holds for a state with the same links, addresses and members of nodes -/
theorem final_twin {root : Obj} {st s : St} {k : Forest} {obj : Nat → Obj} (F : Final mem tds root st k obj) (h : Twin st s)
    (ha : ∀ (i : Nat) (x : Info), 1 ≤ i → s.info[i]? = some x → x.addr = (obj i).addr) : Final mem tds root s k obj := by
  have hfd : ∀ c : Nat, (s.info[c]?).bind Info.fd = (st.info[c]?).bind Info.fd := by
    intro c
    cases hx : st.info[c]? with
    | none =>
      have : s.info[c]? = none := by
        rw [List.getElem?_eq_none_iff] at hx ⊢
        rw [h.len]; exact hx
      rw [this]
    | some x =>
      obtain ⟨y, hy, he⟩ := h.get hx
      rw [hy]
      exact (core_eq he).1
  obtain ⟨f1, f2, f3, f4, f5, f6, f7, f8, f9, f10, f11, f12, f13⟩ := F
  rw [← h.ptrs] at f1 f2 f3 f5 f6 f8 f9 f10 f11 f12 f13
  refine ⟨by rw [h.len]; exact f1, f2, f3, f4, f5, f6, f7, ?_, ?_, f10, f11, f12, ?_⟩
  · intro i pd i1 hp
    obtain ⟨x, e1, e2, e3, e4, e5⟩ := f8 i pd i1 hp
    obtain ⟨y, hy, he⟩ := h.get e1
    obtain ⟨d1, d2, _⟩ := core_eq he
    exact ⟨y, hy, ha i y i1 hy, e3, by rw [d1]; exact e4, by rw [d2]; exact e5⟩
  · intro i pd hi hp h1 h2
    obtain ⟨a, b, l, c, d, e⟩ := f9 i pd hi hp h1 h2
    exact ⟨a, b, l, c, d, fun ht => by rw [← e ht]; exact List.map_congr_left fun c _ => hfd c⟩
  · intro i pd x i1 hp hx ht
    have hi : i < st.info.length := by rw [← h.len]; exact (List.getElem?_eq_some_iff.1 hx).1
    obtain ⟨y, hy, he⟩ := h.get (List.getElem?_eq_getElem hi)
    rw [hx] at hy
    cases hy
    rw [(core_eq he).2.2.2.2.1]
    exact f13 i pd _ i1 hp (List.getElem?_eq_getElem hi) ht

/-- Copy a graph, then save the original and the copy: the comparison finds them equal and they have the same hash
value. -/
theorem C32_copy_partial (hT : Types tds) (hL : Layout tds) {data : Nat} {fd : Fd} (hok : FdOK tds fd) (hfin : Finite mem tds (ofFd data fd))
    (hS : Source m mem tds (ofFd data fd) live dst max) (hA : Allocator alloc) (hE : Enough alloc m mem tds (ofFd data fd) live)
    (hR : Comparable m mem tds (ofFd data fd) live dst max) :
    ∃ N, ∀ fuel, N ≤ fuel → ∃ st m' live', mrSave mem tds fuel data fd = some (st, 1) ∧ copyRecursively alloc fuel m live st dst = some (true, m', live') ∧
      ∀ mem' : Mem, (∀ a, mem'.ptr a = word m' a) → ∃ N', ∀ fuel', N' ≤ fuel' → ∃ s t,
        mrSave mem' tds fuel' data fd = some (s, 1) ∧ mrSave mem' tds fuel' dst fd = some (t, 1) ∧
        (∀ fdAt, cmpStructs fdAt tds m' fuel' s t = some 0) ∧ ∃ v, hashStruct tds m' fuel' s = some v ∧ hashStruct tds m' fuel' t = some v := by
  obtain ⟨N, hN⟩ := Props.Copy.ctx_ok hT hL hok hfin hS
  obtain ⟨L, hL'⟩ := save_sim hT hok hfin
  refine ⟨N + max + L, fun fuel hf => ?_⟩
  obtain ⟨st, k, n, obj, top, e, C, st0, ks, O, hg, hlen, hO, hI⟩ := hN fuel (by omega)
  rcases Props.Copy.run_ok C hA (by omega : max ≤ fuel) with ⟨m', new, place, h1, h2⟩ | ⟨i, c, s, _, g1, g2, g3, g4, g5, g6⟩
  · refine ⟨st, m', live ++ new, e, h1, fun mem' hmem' => ?_⟩
    obtain ⟨hC, hK⟩ := h2 mem' hmem'
    subst hlen
    have hrok : ObjOK tds (ofFd data fd) := by have := C.V.ok 1 (Nat.le_refl _) C.V.n1; rw [C.V.F.top] at this; exact this
    obtain ⟨N1, hN1⟩ := hL' mem' _ (iso_original hS hC hmem')
    obtain ⟨N2, hN2⟩ := hL' mem' _ (iso_copy hT hL hrok hS hR hC hmem')
    refine ⟨N1 + N2 + max, fun fuel' hf' => ?_⟩
    obtain ⟨s, s1, s2, s3⟩ := hN1 fuel fuel' (by omega) (by omega) st0 ks obj O st hg hI hO e (void_original hS hR hC hmem' hI _)
    obtain ⟨t, t1, t2, t3⟩ := hN2 fuel fuel' (by omega) (by omega) st0 ks obj O st hg hI hO e (void_copy hR hC hI hK C.V.complete)
    rw [show (ofFd data fd).addr = data from Verif.Lemmas.SaveRun.object_addr _ _ _ _ _ _] at s1
    rw [hC.top] at t1
    refine ⟨s, t, s1, t1, ?_⟩
    have hlen := C.V.len
    have hleni := C.V.leni
    -- the values of the nodes
    have hsame : ∀ i p x y, i ∈ 1 :: k.nodes → st.ptrs.ra[i]? = some p → s.info[i]? = some x → t.info[i]? = some y →
        core y = core x ∧ (∃ v, value tds m' fuel' p x = some v ∧ value tds m' fuel' p y = some v) ∧ hashLeaf tds m' fuel' p y = hashLeaf tds m' fuel' p x := by
      intro i p x y hi hp hx hy
      obtain ⟨i2, i1⟩ := final_range C.V.F hi
      rw [hlen] at i2
      have ex : ni s.info i = x := by unfold ni; rw [hx]; rfl
      have ey : ni t.info i = y := by unfold ni; rw [hy]; rfl
      have c1 := s2.ni i
      have c2 := t2.ni i
      rw [ex] at c1
      rw [ey] at c2
      obtain ⟨a1, a2, _⟩ := core_eq c1
      obtain ⟨b1, b2, _⟩ := core_eq c2
      have hpt : p.ty = (obj i).ty := by
        obtain ⟨_, _, _, e3, _⟩ := C.V.F.node i p i1 hp
        exact e3
      have hm := same_mem hT hL hS hR hC hmem' C.V hi (x := x) (y := y) a1 a2 (by rw [← ex]; exact s3 i i1 i2) (by rw [← ey]; exact t3 i i1 i2)
      rw [← hpt] at hm
      exact ⟨c2.trans c1.symm, Verif.Lemmas.CmpSame.value_same (b1.trans a1.symm) (b2.trans a2.symm) (by omega) hm⟩
    have hl1 : s.info.length = st0.ptrs.ra.length := by rw [s2.len]; exact hleni
    have hl2 : t.info.length = st0.ptrs.ra.length := by rw [t2.len]; exact hleni
    have hp1 : s.ptrs = st.ptrs := s2.ptrs
    have hp2 : t.ptrs = st.ptrs := t2.ptrs
    have hget : ∀ i, i < st0.ptrs.ra.length → ∃ p x y, st.ptrs.ra[i]? = some p ∧ s.info[i]? = some x ∧ t.info[i]? = some y := by
      intro i hi
      exact ⟨_, _, _, List.getElem?_eq_getElem (by omega), List.getElem?_eq_getElem (by omega), List.getElem?_eq_getElem (by omega)⟩
    have hzero : ∀ i p, 1 ≤ i → st.ptrs.ra[i]? = some p → p.idx ≠ 0 → i ∈ 1 :: k.nodes := by
      intro i p i1 hp hz
      apply Classical.byContradiction
      intro hni
      exact hz (C.V.F.off i p i1 hp hni).1
    have n1 := C.V.n1
    have nl : ∀ w : St, w.ptrs = st.ptrs → w.info.length = st0.ptrs.ra.length → (nodes w).length = st0.ptrs.ra.length := by
      intro w h1 h2
      unfold nodes
      rw [List.length_zip, h1, h2, hlen, Nat.min_self]
    have nn : ∀ w : St, w.ptrs = st.ptrs → w.info.length = st0.ptrs.ra.length → nodes w ≠ [] := by
      intro w h1 h2 h3
      have := nl w h1 h2
      rw [h3] at this
      simp at this
      omega
    refine ⟨fun fdAt => (Cmp.C32_equal s t (nn s hp1 hl1) (nn t hp2 hl2)).2 ⟨by rw [nl s hp1 hl1, nl t hp2 hl2], fun i a b i1 ha hb => ?_⟩, ?_⟩
    · obtain ⟨a1, a2⟩ := nodes_at ha
      obtain ⟨b1, b2⟩ := nodes_at hb
      rw [hp1] at a1
      rw [hp2, a1] at b1
      have hab : a.1 = b.1 := Option.some.inj b1
      refine ⟨by rw [hab], fun hz => ?_⟩
      obtain ⟨c1, ⟨v, v1, v2⟩, _⟩ := hsame i a.1 a.2 b.2 (hzero i a.1 i1 a1 hz) a1 a2 b2
      rw [← hab]
      obtain ⟨d1, d2, d3, d4, d5, d6⟩ := core_eq c1
      exact ⟨by unfold header flags; rw [d1, d2, d3, d4, d5, d6], v, v, v1, v2, .inl rfl⟩
    · have hF : Final mem tds (ofFd data fd) s k obj := by
        refine final_twin C.V.F s2 fun i x i1 hx => ?_
        have hi := (List.getElem?_eq_some_iff.1 hx).1
        have := s3 i i1 (by omega)
        unfold ni at this
        rw [hx] at this
        exact this
      obtain ⟨v, hv⟩ := Cmp.C32_hash_defined (m := m') (fuel := fuel') s hF (by
        intro i a i1 hi hz
        obtain ⟨a1, a2⟩ := nodes_at hi
        rw [hp1] at a1
        have hr := (List.getElem?_eq_some_iff.1 a1).1
        obtain ⟨p, x, y, q1, q2, q3⟩ := hget i (by omega)
        rw [a1] at q1
        cases q1
        rw [a2] at q2
        cases q2
        obtain ⟨_, ⟨v, v1, _⟩, _⟩ := hsame i _ _ y (hzero i _ i1 a1 hz) a1 a2 q3
        rw [v1]
        simp)
      refine ⟨v, hv, ?_⟩
      rw [← hv]
      refine hashStruct_twin (T := fun i => i ∈ 1 :: k.nodes) ⟨by rw [hp1, hp2], fun i hi => (final_range hF hi).1, ?_, fun i p hi hp => final_closed hF i p hi hp⟩ (by simp) ?_
      · intro i p q _ hp hq
        rw [hp2, ← hp1, hp] at hq
        cases hq
        exact ⟨rfl, rfl, rfl, rfl, rfl⟩
      · intro i hi
        have := (final_range hF hi).1
        rw [hp1] at this
        obtain ⟨p, x, y, q1, q2, q3⟩ := hget i (by omega)
        exact ⟨p, p, x, y, by rw [hp1]; exact q1, by rw [hp2]; exact q1, q2, q3, (hsame i p x y hi q1 q2 q3).2.2⟩
  · exact absurd g6 (Verif.Lemmas.CopyDone.enough_ok C hE g1 g2 g3 g4 g5)

/-! ## graphs that can be compared with their copies -/

namespace Example
open Verif.Props.Save Verif.Props.Save.Example Verif.Props.Copy Verif.Props.Copy.Example

theorem plainGraph : Comparable bytes heap' sample (ofFd 1000 (rootFd 3 32)) blocks 500 10 where
  notNull := by decide
  void := by
    have : ∀ o ∈ objs, ¬ (o.ty = .pointer ∧ untyped o.aux = true) := by decide +kernel
    exact fun o ho h1 h2 => absurd ⟨h1, h2⟩ (this o (reach' o ho))
  noText := by
    have : ∀ o ∈ objs, ¬ (o.ty = .pointer ∧ untyped o.aux = true) := by decide +kernel
    exact fun o _ _ ho h1 h2 => absurd ⟨h1, h2⟩ (this o (reach' o ho))
  chars := by
    have : ∀ d ∈ sample, ∀ f ∈ d.fields, f.ty ≠ .charArray := by decide +kernel
    exact fun _ _ d f _ _ _ hd hf h => absurd h (this d (List.mem_of_getElem? hd) f hf)
  bits := by
    have : ∀ d ∈ sample, ∀ f ∈ d.fields, f.ty ≠ .bitfield := by decide +kernel
    exact fun _ d f hd _ hf h => absurd h (this d (List.mem_of_getElem? hd) f hf)

example := C32_copy_partial types layout root_ok ⟨objs, reach'⟩ source bump_ok enough plainGraph

/-- `enum color` -/
def tColor : Td := { ty := .enum, size := 4, effective := .uint32 }

/-- `struct rich { char name[4]; unsigned a : 3; unsigned b : 5; enum color c; void * v; char * s; void * w; }` -/
def tRich : Td := { ty := .struct, size := 40, fields := [
  { ty := .charArray, base := .charArray, size := 4, offset := 0 },
  { ty := .bitfield, aux := .uint32, base := .uint32, size := 4, offset := 4, shift := 0, width := 3 },
  { ty := .bitfield, aux := .uint32, base := .uint32, size := 4, offset := 4, shift := 3, width := 5 },
  { ty := .enum, aux := .uint32, base := .enum, td := some 0, size := 4, offset := 8 },
  { ty := .pointer, aux := .void, base := .void, size := 8, offset := 16 },
  { ty := .string, base := .string, size := 8, offset := 24 },
  { ty := .pointer, aux := .void, base := .void, size := 8, offset := 32 }] }

def rich : List Td := [tColor, tRich]

/-- at 1000: the name "ab", the bits 5 and 17, the color 7; `v` leads to the color, `s` to "hi", `w` to other memory -/
def richBytes : Bytes :=
  setWord (setWord (setWord (setWord (setWord (setWord (fun _ => 0) 1000 (0x6261 + 2 ^ 32 * (5 + 8 * 17))) 1008 7) 1016 1008) 1024 2000) 1032 3004) 2000 0x6968

def richHeap : Mem := { ptr := word richBytes, int := fun _ => 0 }
def richBlocks : Blocks := [(1000, 40), (2000, 3), (3000, 8), (500, 40)]

def richObjs : List Obj :=
  [{ addr := 1000, ty := .struct, td := some 1 }, { addr := 1000, ty := .charArray }, { addr := 1004, ty := .bitfield }, { addr := 1008, ty := .enum, td := some 0 },
   { addr := 1016, ty := .pointer, aux := .void }, { addr := 1024, ty := .string }, { addr := 1032, ty := .pointer, aux := .void }, { addr := 2000, ty := .charArray }]

theorem richReach : ∀ o, Reach richHeap rich (ofFd 1000 (rootFd 1 40)) o → o ∈ richObjs := fun _ h =>
  reach_closed richObjs (by decide +kernel) (by decide +kernel) (by decide +kernel) h

theorem richRank (t : Nat) (d : Td) (h : rich[t]? = some d) : (t = 0 ∧ d = tColor) ∨ (t = 1 ∧ d = tRich) := by
  have := (List.getElem?_eq_some_iff.1 h).1
  simp [rich] at this
  have : t = 0 ∨ t = 1 := by omega
  rcases this with rfl | rfl
  · cases h; exact .inl ⟨rfl, rfl⟩
  · cases h; exact .inr ⟨rfl, rfl⟩

theorem richTypes : Types rich where
  fields t d ht hd f hf := by
    rcases richRank t d ht with ⟨rfl, rfl⟩ | ⟨rfl, rfl⟩
    · cases hd
    · simp only [tRich, List.mem_cons, List.not_mem_nil, or_false] at hf
      rcases hf with rfl | rfl | rfl | rfl | rfl | rfl | rfl
      · exact ⟨⟨rfl, rfl, (fun h => by cases h), trivial⟩, rfl⟩
      · exact ⟨⟨rfl, rfl, (fun h => by cases h), trivial⟩, rfl⟩
      · exact ⟨⟨rfl, rfl, (fun h => by cases h), trivial⟩, rfl⟩
      · exact ⟨⟨rfl, rfl, (fun _ => rfl), ⟨0, tColor, rfl, rfl, rfl⟩, by decide⟩, rfl⟩
      · exact ⟨⟨rfl, rfl, (fun h => by cases h), Or.inl rfl⟩, rfl⟩
      · exact ⟨⟨rfl, rfl, (fun _ => rfl), trivial⟩, rfl⟩
      · exact ⟨⟨rfl, rfl, (fun h => by cases h), Or.inl rfl⟩, rfl⟩
  sized t d ht _ := by rcases richRank t d ht with ⟨rfl, rfl⟩ | ⟨rfl, rfl⟩ <;> decide
  enums t d ht _ := by rcases richRank t d ht with ⟨rfl, rfl⟩ | ⟨rfl, rfl⟩ <;> decide
  nested := ⟨fun _ => 0, fun t d f t' ht hd hf hty htd => by
    rcases richRank t d ht with ⟨rfl, rfl⟩ | ⟨rfl, rfl⟩
    · cases hd
    · have : ∀ f ∈ tRich.fields, ¬ (f.ty = .struct ∨ f.ty = .array ∧ f.aux = .struct) := by decide +kernel
      exact absurd hty (this f hf)⟩

theorem richRoot : FdOK rich (rootFd 1 40) := ⟨rfl, rfl, (fun _ => rfl), ⟨1, tRich, rfl, rfl, rfl⟩⟩

theorem richLayout : Layout rich := layout_of_list (by decide +kernel) (by decide +kernel)

theorem richText (a : Nat) (h : a = 1000 ∨ a = 2000) : Text richBytes a 2 := by
  have : ∀ k ∈ List.range 2, richBytes (1000 + k) ≠ 0 ∧ richBytes (2000 + k) ≠ 0 := by decide +kernel
  rcases h with rfl | rfl
  · exact ⟨by decide +kernel, fun k hk => (this k (List.mem_range.2 hk)).1⟩
  · exact ⟨by decide +kernel, fun k hk => (this k (List.mem_range.2 hk)).2⟩

theorem richTarget : ∀ x ∈ richObjs, ∀ o ∈ (target richHeap rich x).toList, x.ty = .string ∧ o = { addr := 2000, ty := .charArray } := by decide +kernel

theorem richSource : Source richBytes richHeap rich (ofFd 1000 (rootFd 1 40)) richBlocks 500 10 where
  ptr := fun _ => rfl
  base := by decide +kernel
  single := by
    refine single_of_list richObjs richReach (by decide +kernel) (by decide +kernel) ?_
    have : ∀ x ∈ richObjs, ∀ o ∈ (target richHeap rich x).toList, ∀ y ∈ richObjs, o ∉ components rich y := by decide +kernel
    exact fun x hx o ho y hy hc => absurd hc (this x hx o ho y hy)
  parts := by
    have : ∀ x ∈ richObjs, ∀ y ∈ richObjs, ∀ c ∈ components rich x, c ∈ components rich y → x = y := by decide +kernel
    exact fun x y c hx hy h1 h2 => this x (richReach x hx) y (richReach y hy) c h1 h2
  cells := by
    intro x o hx ho
    rw [(richTarget x (richReach x hx) o (by rw [ho]; simp)).2]
    rfl
  read := by
    have : ∀ o ∈ richObjs, covered richBlocks o.addr (extent rich o) = true := by decide +kernel
    exact fun o ho => this o (richReach o ho)
  ends := by
    intro x o hx ht ho
    rw [(richTarget x (richReach x hx) o (by rw [ho]; simp)).2]
    exact ⟨2, by decide, richText _ (.inr rfl), by decide +kernel⟩
  room := by decide +kernel
  away := by
    have : ∀ o ∈ richObjs, 500 + extent rich (ofFd 1000 (rootFd 1 40)) ≤ o.addr := by decide +kernel
    exact fun o ho => Or.inl (this o (richReach o ho))
  texts := by
    intro x o n hx ht ho _
    rw [(richTarget x (richReach x hx) o (by rw [ho]; simp)).2]
    exact Or.inl (by decide +kernel)

theorem richEnough : Enough bump richBytes richHeap rich (ofFd 1000 (rootFd 1 40)) richBlocks := by
  refine ⟨3, ?_, ?_⟩
  · intro new n hg hs
    have ht := bump_grown hg
    have : top richBlocks = 4096 := by decide +kernel
    unfold bump
    rw [if_pos (by omega)]
    omega
  · intro l hn hl
    have hb : ∀ p ∈ l, p.1 = { addr := 2000, ty := .charArray } ∧ p.2 = 3 := by
      intro p hp
      obtain ⟨⟨⟨x, hx, hxl⟩, _⟩, h2⟩ := hl p hp
      have h := (richTarget x (richReach x hx) p.1 (by rw [hxl]; simp)).2
      rw [h] at h2
      obtain ⟨k, h3, h4⟩ := h2
      have := Lemmas.CopyMem.text_unique h4 (richText 2000 (.inr rfl))
      exact ⟨h, by omega⟩
    match l, hn, hb with
    | [], _, _ => simp
    | [a], _, hb => have := hb a (by simp); simp; omega
    | a :: b :: l, hn, hb =>
      simp at hn
      exact absurd ((hb a (by simp)).1.trans (hb b (by simp)).1.symm) hn.1.1

theorem richGraph : Comparable richBytes richHeap rich (ofFd 1000 (rootFd 1 40)) richBlocks 500 10 where
  notNull := by decide
  void := by
    have h : ∀ o ∈ richObjs, o.ty = .pointer → untyped o.aux = true → richHeap.ptr o.addr = 1008 ∨ richHeap.ptr o.addr = 3004 := by decide +kernel
    intro o ho h1 h2
    rcases h o (richReach o ho) h1 h2 with h | h
    · exact .inr (.inl ⟨{ addr := 1008, ty := .enum, td := some 0 }, .part .self (by decide +kernel), h.symm⟩)
    · refine .inr (.inr ?_)
      rw [h]
      exact ⟨⟨(3000, 8), by decide, by decide, by decide⟩, by decide +kernel⟩
  noText := by
    have h : ∀ o ∈ richObjs, o.ty = .pointer → untyped o.aux = true → richHeap.ptr o.addr = 1008 ∨ richHeap.ptr o.addr = 3004 := by decide +kernel
    intro o x t ho h1 h2 hx _ hl
    rw [(richTarget x (richReach x hx) t (by rw [hl]; simp)).2]
    rcases h o (richReach o ho) h1 h2 with h | h <;> rw [h] <;> decide
  chars := by
    have h : ∀ o ∈ richObjs, o.ty = .struct → o.addr = 1000 := by decide +kernel
    intro o t d f ho hs _ hd hf hc
    have : ∀ d ∈ rich, ∀ f ∈ d.fields, f.ty = .charArray → f.offset = 0 ∧ f.size = 4 := by decide +kernel
    obtain ⟨h1, h2⟩ := this d (List.mem_of_getElem? hd) f hf hc
    rw [h o (richReach o ho) hs, h1, h2]
    exact ⟨2, by decide, by decide, richText _ (.inl rfl)⟩
  bits := by
    have : ∀ d ∈ rich, ∀ f ∈ d.fields, f.ty = .bitfield → f.shift < 8 ∧ 1 ≤ f.width ∧ f.width ≤ 128 := by decide +kernel
    exact fun _ d f hd _ hf h => this d (List.mem_of_getElem? hd) f hf h

example := C32_copy_partial richTypes richLayout richRoot ⟨richObjs, richReach⟩ richSource bump_ok richEnough richGraph

end Example

open Verif.Props.Save.Example Verif.Props.Copy Verif.Props.Copy.Deviation in
/-- A `void *` to the text of a string: the copy leads to the string instead (`C30_deviation_void_text`), and it is not
equal to the original. -/
theorem C32_deviation_copy_differs :
    ((mrSave { ptr := word nameBytes, int := fun _ => 0 } [tName] 40 1000 (rootFd 0 16)).bind fun r =>
      (copyRecursively bump 10 nameBytes [(1000, 16), (2000, 3), (500, 16)] r.1 500).bind fun (ok, m, _) =>
        (mrSave { ptr := word m, int := fun _ => 0 } [tName] 40 1000 (rootFd 0 16)).bind fun s =>
          (mrSave { ptr := word m, int := fun _ => 0 } [tName] 40 500 (rootFd 0 16)).bind fun t =>
            (cmpStructs (fun _ => 0) [tName] m 10 s.1 t.1).map fun d => (ok, d != 0)) = some (true, true) := by decide +kernel

end Verif.Props.CmpCopy
