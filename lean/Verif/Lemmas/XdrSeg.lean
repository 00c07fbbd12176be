import Verif.Lemmas.XdrMem
import Verif.Lemmas.CopyDone
/-!
The bits of memory that belong to a node do not belong to another one.
-/
namespace Verif.Lemmas.XdrSeg
open Verif.Model Verif.Model.Ptrs Verif.Model.Save Verif.Model.Copy Verif.Model.Xdr Verif.Model.XdrGraph Verif.Spec.Ptrs Verif.Spec.Save Verif.Spec.Copy Verif.Spec.XdrGraph
  Verif.Lemmas.SaveTree Verif.Lemmas.SaveFinal Verif.Lemmas.SaveInv Verif.Lemmas.CopyLayout Verif.Lemmas.CopyView Verif.Lemmas.CopyTops Verif.Lemmas.CopyMem Verif.Lemmas.CopyPlace Verif.Lemmas.CopyDone

/-- the first bit of a node after its address and the one behind its last -/
def seg (ld : Nat) (tds : List Td) (o : Obj) (fd : Option Fd) : Nat × Nat :=
  match o.ty with
  | .bitfield => ((fd.getD {}).shift, (fd.getD {}).shift + (fd.getD {}).width)
  | .charArray => (0, 8 * (fd.getD {}).size)
  | .string | .pointer => (0, 64)
  | t => (0, 8 * ((scalar ld tds t o.td).map Sc.size).getD 0)

theorem intSc_size {t : MrType} {k : Sc} (h : intSc t = some k) : k.size = typeSize t ∧ Spec.scOk k ∧ integer t = true := by
  cases t <;> simp [intSc] at h <;> subst h <;> simp [Sc.size, typeSize, Spec.scOk, integer]

theorem intSc_some {t : MrType} (h : integer t = true) : ∃ k, intSc t = some k := by
  cases t <;> simp [integer, intSc] at h ⊢

/-- numbers fit into their object, and have no parts -/
theorem scalar_fits {ld : Nat} {tds : List Td} (hT : Types tds) (hld : ld ≤ 16) {o : Obj} (hok : ObjOK tds o) {k : Sc} (h : scalar ld tds o.ty o.td = some k) :
    k.size ≤ extent tds o ∧ Spec.scOk k ∧ components tds o = [] ∧ isCell o = false ∧ plain o.ty = true := by
  unfold extent
  by_cases he : o.ty = .enum
  · unfold ObjOK at hok
    rw [he] at hok h
    obtain ⟨t, d, h1, h2, h3⟩ := hok
    simp only [scalar, tdAt, h1, Option.bind_some, h2] at h
    obtain ⟨g1, g2, g3⟩ := intSc_size h
    have := hT.enums t d h2 h3
    refine ⟨?_, g2, by simp [components, he], by simp [isCell, he], by simp [he, plain]⟩
    rw [he]
    simp only [plain, if_true]
    unfold elementSize
    rw [if_neg (by simp [typeSize]), h1]
    simp only [h2, Option.map_some, Option.getD_some]
    omega
  · cases hty : o.ty <;> rw [hty] at h he <;> simp [scalar, intSc] at h he <;> subst h <;>
      simp [Sc.size, plain, elementSize, typeSize, components, isCell, hty, Spec.scOk] <;> omega

variable {m : Bytes} {mem : Mem} {tds : List Td} {root : Obj} {live : Blocks} {max : Nat} {st : St} {k : Forest} {n : Nat} {obj : Nat → Obj} {top : Nat → Nat}
  {ld : Nat}

/-- a node of the tree that is a bit field or a character array -/
structure Member (tds : List Td) (st : St) (n : Nat) (obj : Nat → Obj) (i : Nat) (l : List Nat) (j : Nat) (t : Nat) (d : Td) (f : Fd) : Prop where
  i1 : 1 < i
  p : 1 ≤ pa st i ∧ pa st i < n
  str : (obj (pa st i)).ty = .struct
  nodup : l.Nodup
  all : ∀ c, c ∈ l ↔ 1 < c ∧ c < n ∧ pa st c = pa st i
  at_ : l[j]? = some i
  part : (components tds (obj (pa st i)))[j]? = some (obj i)
  td : (obj (pa st i)).td = some t
  dd : tds[t]? = some d
  dty : d.ty = .struct
  ff : d.fields[j]? = some f
  fd : (ni st.info i).fd = some f
  here : obj i = ofFd ((obj (pa st i)).addr + f.offset) f

variable (C : GCtx m mem tds root live max st k n obj top)
include C

/-- a node whose parent is a structure -/
theorem member_of {i : Nat} (h1 : 1 < i) (h2 : i < n) (hs : (obj (pa st i)).ty = .struct) : ∃ l j t d f, Member tds st n obj i l j t d f := by
  have hp := C.V.up i h1 h2
  obtain ⟨l, l1, l2, l3, l4⟩ := C.V.fields _ hp.1 hp.2 hs
  obtain ⟨j, hj⟩ := List.mem_iff_getElem?.1 ((l3 i).2 ⟨h1, h2, rfl⟩)
  have hc : (components tds (obj (pa st i)))[j]? = some (obj i) := by rw [← l2, List.getElem?_map, hj]; rfl
  obtain ⟨t, d, f, t1, t2, t3, t4⟩ := part_struct hs hc
  have hd := (struct_td (C.V.ok _ hp.1 hp.2) hs t1 t2).1
  refine ⟨l, j, t, d, f, h1, hp, hs, l1, l3, hj, hc, t1, t2, hd, t3, ?_, t4⟩
  rw [l4 j i hj]
  simp [members, t1, t2, t3]

theorem array_kid {i : Nat} (h1 : 1 < i) (h2 : i < n) (hs : (obj (pa st i)).ty = .array) : plain (obj i).ty = true ∨ (obj i).ty = .pointer := by
  have hp := C.V.up i h1 h2
  have hc := C.V.part h1 h2 (by simp [isCell, hs])
  obtain ⟨j, hj⟩ := List.mem_iff_getElem?.1 hc
  obtain ⟨_, g⟩ := part_array hs hj
  have hok := C.V.ok _ hp.1 hp.2
  unfold ObjOK at hok
  rw [hs] at hok
  obtain ⟨b, _, hl, _⟩ := hok
  have ht : (obj i).ty = (obj (pa st i)).aux := by rw [g, object_ty]
  rcases hl with ⟨e, hb⟩ | ⟨e, _⟩
  · left; rw [ht, e]; exact hb
  · right; rw [ht, e]

theorem member_ok {i : Nat} (hi : i ∈ 1 :: k.nodes) (hty : (obj i).ty = .bitfield ∨ (obj i).ty = .charArray ∨ (obj i).ty = .array) :
    ∃ l j t d f, Member tds st n obj i l j t d f := by
  obtain ⟨⟨h1, h2⟩, h3⟩ := (C.V.inTree i).1 hi
  have hnp : ∀ t : MrType, (t = .bitfield ∨ t = .charArray ∨ t = .array) → plain t = false := by rintro t (rfl | rfl | rfl) <;> rfl
  have hi1 : i ≠ 1 := by
    rintro rfl
    have := C.S.base.1
    rw [← C.V.F.top, hnp _ hty] at this
    cases this
  have h1 : 1 < i := by omega
  have hp := C.V.up i h1 h2
  refine member_of C h1 h2 ?_
  have hnc : isCell (obj (pa st i)) = false := by
    cases hc : isCell (obj (pa st i)) with
    | false => rfl
    | true =>
      have hpl : (obj (pa st i)).ty = .pointer ∨ (obj (pa st i)).ty = .string := by simpa [isCell] using hc
      rcases hpl with hpl | hpl
      · rcases SaveResolve.target_ty (C.V.ok _ hp.1 hp.2) (C.V.lead i h1 h2 hc) with ⟨_, h | h⟩ | ⟨h, _⟩
        · rw [hnp _ hty] at h; cases h
        · rw [h] at hty; rcases hty with h | h | h <;> cases h
        · rw [hpl] at h; cases h
      · exact absurd ⟨hi1, hpl⟩ h3
  rcases part_ty (C.V.part h1 h2 hnc) with h | h
  · exact h
  · rcases array_kid C h1 h2 h with g | g
    · rw [hnp _ hty] at g; cases g
    · rw [g] at hty; rcases hty with h | h | h <;> cases h

omit C in
theorem Member.ty {i j t : Nat} {l : List Nat} {d : Td} {f : Fd} (M : Member tds st n obj i l j t d f) : (obj i).ty = f.ty := by
  rw [M.here]; exact object_ty _ _ _ _ _ _

omit C in
theorem Member.addr {i j t : Nat} {l : List Nat} {d : Td} {f : Fd} (M : Member tds st n obj i l j t d f) : (obj i).addr = (obj (pa st i)).addr + f.offset := by
  rw [M.here]
  unfold ofFd object
  cases f.ty <;> simp only
  split <;> rfl

omit C in
theorem Member.inFields {i j t : Nat} {l : List Nat} {d : Td} {f : Fd} (M : Member tds st n obj i l j t d f) : f ∈ d.fields := List.mem_of_getElem? M.ff

variable (hS : Storable tds) (hld : ld ≤ 16)
include hS

theorem member_span {i j t : Nat} {l : List Nat} {d : Td} {f : Fd} (M : Member tds st n obj i l j t d f) (hty : (obj i).ty = .bitfield ∨ (obj i).ty = .charArray) :
    (seg ld tds (obj i) (ni st.info i).fd).2 ≤ 8 * span f ∧ f.offset + span f ≤ d.size ∧ extent tds (obj (pa st i)) = d.size := by
  refine ⟨?_, (C.L.inside t d f M.dd M.dty M.inFields).2, (struct_td (C.V.ok _ M.p.1 M.p.2) M.str M.td M.dd).2⟩
  unfold seg
  rw [M.fd, Option.getD_some]
  have ht := M.ty
  rcases hty with h | h
  · rw [h] at ht
    rw [h]
    simp only [span, ← ht, if_true]
    omega
  · rw [h] at ht
    rw [h]
    simp only [span, ← ht]
    simp

include hld

theorem seg_solid {i : Nat} (h1 : 1 ≤ i) (h2 : i < n) (hty : ¬ ((obj i).ty = .bitfield ∨ (obj i).ty = .charArray)) :
    (seg ld tds (obj i) (ni st.info i).fd).1 = 0 ∧ (seg ld tds (obj i) (ni st.info i).fd).2 ≤ 8 * extent tds (obj i) ∧
    (0 < (seg ld tds (obj i) (ni st.info i).fd).2 → components tds (obj i) = []) := by
  have hok := C.V.ok i h1 h2
  cases hc : isCell (obj i) with
  | true =>
    have hpl : (obj i).ty = .pointer ∨ (obj i).ty = .string := by simpa [isCell] using hc
    have he := extent_cell (tds := tds) hc
    rw [he]
    rcases hpl with h | h <;> simp [seg, components, h]
  | false =>
    cases hs : scalar ld tds (obj i).ty (obj i).td with
    | some k =>
      obtain ⟨g1, g2, g3, g4, g5⟩ := scalar_fits C.T hld hok hs
      have : seg ld tds (obj i) (ni st.info i).fd = (0, 8 * k.size) := by
        unfold seg
        cases hty' : (obj i).ty <;> rw [hty'] at hs g5 <;> simp [hs, plain] at g5 ⊢
        simp [isCell, hty'] at hc
      rw [this]
      exact ⟨rfl, by simp only; omega, fun _ => g3⟩
    | none =>
      have : seg ld tds (obj i) (ni st.info i).fd = (0, 0) := by
        unfold seg
        cases hty' : (obj i).ty <;> rw [hty'] at hs hty <;> simp [isCell, hty', hs] at hty hc ⊢
      rw [this]
      exact ⟨rfl, by simp, fun h => by simp at h⟩

omit hS in
omit hld in
omit C in
theorem inside_leaf {a b : Obj} (h : components tds a = []) (hi : Inside tds a b) : b = a := by
  cases inner_of hi with
  | self => rfl
  | step hc _ => rw [h] at hc; cases hc

/-- the bits of two nodes in the source -/
theorem seg_source {i i' : Nat} (hi : i ∈ 1 :: k.nodes) (hi' : i' ∈ 1 :: k.nodes) (hne : i ≠ i') (htop : top i = top i') {s : Nat}
    (h1 : 8 * (obj i).addr + (seg ld tds (obj i) (ni st.info i).fd).1 ≤ s) (h2 : s < 8 * (obj i).addr + (seg ld tds (obj i) (ni st.info i).fd).2)
    (h3 : 8 * (obj i').addr + (seg ld tds (obj i') (ni st.info i').fd).1 ≤ s) (h4 : s < 8 * (obj i').addr + (seg ld tds (obj i') (ni st.info i').fd).2) : False := by
  obtain ⟨⟨r1, r2⟩, _⟩ := (C.V.inTree i).1 hi
  obtain ⟨⟨r1', r2'⟩, _⟩ := (C.V.inTree i').1 hi'
  have htr := start_range C.V (top_start C.V C.tops i r1 r2)
  have hokt := C.V.ok _ htr.1 htr.2
  have tin : ∀ {a : Nat}, 1 ≤ a → a < n → top a = top i → Inside tds (obj (top i)) (obj a) := by
    intro a a1 a2 a3
    rw [← a3]; exact top_inside C.V C.tops a a1 a2
  -- the structure around a bit field or character array
  have hmem : ∀ {a : Nat}, a ∈ 1 :: k.nodes → ((obj a).ty = .bitfield ∨ (obj a).ty = .charArray) → ∃ l j t d f, Member tds st n obj a l j t d f ∧
      top (pa st a) = top a := by
    intro a ha hty
    obtain ⟨l, j, t, d, f, M⟩ := member_ok C ha (by rcases hty with h | h <;> simp [h])
    refine ⟨l, j, t, d, f, M, ?_⟩
    have := ((C.V.inTree a).1 ha).1
    rw [C.tops.up a M.i1 this.2 (by simp [isCell, M.str])]
  -- a bit field or character array against something inside of the structure
  have hout : ∀ {a : Nat} {l : List Nat} {j t : Nat} {d : Td} {f : Fd} {c x : Obj}, a ∈ 1 :: k.nodes → ((obj a).ty = .bitfield ∨ (obj a).ty = .charArray) →
      Member tds st n obj a l j t d f → 8 * (obj a).addr ≤ s → s < 8 * (obj a).addr + (seg ld tds (obj a) (ni st.info a).fd).2 →
      c ∈ components tds (obj (pa st a)) → Inner tds c x → 8 * x.addr ≤ s → s < 8 * (x.addr + extent tds x) → x.ty ≠ .bitfield → x.ty ≠ .charArray → False := by
    intro a l j t d f c x ha hty M g1 g2 hc hin g3 g4 hxb hxc
    obtain ⟨j', hj'⟩ := List.mem_iff_getElem?.1 hc
    obtain ⟨t', d', f', e1, e2, e3, e4⟩ := part_struct M.str hj'
    rw [M.td] at e1; cases e1
    rw [M.dd] at e2; cases e2
    have hpok := C.V.ok _ M.p.1 M.p.2
    have hcok := components_ok C.T hpok hc
    have hir := inside_range C.T C.L hcok (inside_of hin)
    have hcty : c.ty = f'.ty := by rw [e4]; exact object_ty _ _ _ _ _ _
    have hnp : f'.ty ≠ .bitfield ∧ f'.ty ≠ .charArray := by
      have : ∀ ty : MrType, (ty = .bitfield ∨ ty = .charArray) → c.ty = ty → x.ty = ty := by
        intro ty hty hcty
        have hnone : components tds c = [] := by rcases hty with h | h <;> simp [components, hcty, h]
        rw [inside_leaf hnone (inside_of hin)]; exact hcty
      exact ⟨fun h => hxb (this _ (Or.inl rfl) (hcty.trans h)), fun h => hxc (this _ (Or.inr rfl) (hcty.trans h))⟩
    have hfty := M.ty
    have hjj : j ≠ j' := by
      rintro rfl
      rw [M.ff] at e3; cases e3
      rw [hfty] at hty
      rcases hty with h | h
      · exact hnp.1 h
      · exact hnp.2 h
    have hsp := member_span C hS (ld := ld) M hty
    have hext : extent tds c ≤ span f' := by
      rw [e4]
      exact extent_ofFd (C.T.fields t d M.dd M.dty f' (List.mem_of_getElem? e3)).1 (C.L.pointer t d f' M.dd M.dty (List.mem_of_getElem? e3)) _
    have hca : c.addr = (obj (pa st a)).addr + f'.offset := by
      rw [e4]
      unfold ofFd object
      cases f'.ty <;> simp only
      split <;> rfl
    have haa := M.addr
    rcases C.L.apart t d j j' f f' M.dd M.dty M.ff e3 hjj with h | h
    · exact hnp.1 h.2
    · unfold Apart at h
      omega
  -- a bit field or character array against another object without parts
  have hmix : ∀ {a a' : Nat}, a ∈ 1 :: k.nodes → a' ∈ 1 :: k.nodes → top a = top i → top a' = top i → ((obj a).ty = .bitfield ∨ (obj a).ty = .charArray) →
      ¬ ((obj a').ty = .bitfield ∨ (obj a').ty = .charArray) →
      8 * (obj a).addr ≤ s → s < 8 * (obj a).addr + (seg ld tds (obj a) (ni st.info a).fd).2 →
      8 * (obj a').addr ≤ s → s < 8 * (obj a').addr + (seg ld tds (obj a') (ni st.info a').fd).2 → False := by
    intro a a' ha ha' ht ht' hty hty' g1 g2 g3 g4
    obtain ⟨l, j, t, d, f, M, htp⟩ := hmem ha hty
    have hsp := member_span C hS (ld := ld) M hty
    have hPadr := M.addr
    have hPin := tin M.p.1 M.p.2 (htp.trans ht)
    obtain ⟨⟨q1, q2⟩, _⟩ := (C.V.inTree a').1 ha'
    obtain ⟨s1, s2, s3⟩ := seg_solid C hS hld q1 q2 hty'
    have hcomp := s3 (by omega)
    have hself : obj (pa st a) ≠ obj a' := by
      intro h
      have := M.part
      rw [h, hcomp] at this
      cases this
    rcases laminar C.T C.L hokt hPin (tin q1 q2 ht') (x := s / 8) (by omega) (by omega) (by omega) (by omega) with h | h
    · have hin := inner_of h
      generalize ho : obj a' = o' at hin hself g3 s2 hty' g4
      cases hin with
      | self => exact hself rfl
      | step hc hin => exact (hout ha hty M (by omega) g2 hc hin (by omega) (by omega) (fun h => hty' (Or.inl h)) (fun h => hty' (Or.inr h))).elim
    · exact hself (inside_leaf hcomp h)
  by_cases hty : (obj i).ty = .bitfield ∨ (obj i).ty = .charArray
  · obtain ⟨l, j, t, d, f, M, htp⟩ := hmem hi hty
    have hsp := member_span C hS (ld := ld) M hty
    have hPadr := M.addr
    have hPin := tin M.p.1 M.p.2 htp
    by_cases hty' : (obj i').ty = .bitfield ∨ (obj i').ty = .charArray
    · obtain ⟨l', j', t', d', f', M', htp'⟩ := hmem hi' hty'
      have hsp' := member_span C hS (ld := ld) M' hty'
      have hPadr' := M'.addr
      have hPin' := tin M'.p.1 M'.p.2 (htp'.trans htop.symm)
      -- both in the same structure or one structure in the other
      have hcase : obj (pa st i) = obj (pa st i') := by
        rcases laminar C.T C.L hokt hPin hPin' (x := s / 8) (by omega) (by omega) (by omega) (by omega) with h | h
        · have hin := inner_of h
          have hstr := M'.str
          generalize obj (pa st i') = o' at hin hstr hPadr' hsp' ⊢
          cases hin with
          | self => rfl
          | step hc hin =>
            exact (hout hi hty M (by omega) h2 hc hin (by omega) (by omega) (by rw [hstr]; simp) (by rw [hstr]; simp)).elim
        · have hin := inner_of h
          have hstr := M.str
          generalize obj (pa st i) = o' at hin hstr hPadr hsp ⊢
          cases hin with
          | self => rfl
          | step hc hin =>
            exact (hout hi' hty' M' (by omega) h4 hc hin (by omega) (by omega) (by rw [hstr]; simp) (by rw [hstr]; simp)).elim
      have hPP : pa st i = pa st i' := C.V.uniq _ _ M.p.1 M.p.2 M'.p.1 M'.p.2 (by rw [M.str]; rfl) hcase
      have htd := M.td
      rw [hPP, M'.td] at htd; cases htd
      have hdd := M.dd
      rw [M'.dd] at hdd; cases hdd
      -- different fields
      obtain ⟨l0, l1, l2, l3, l4⟩ := C.V.fields _ M.p.1 M.p.2 M.str
      obtain ⟨x, hx⟩ := List.mem_iff_getElem?.1 ((l3 i).2 ⟨M.i1, r2, rfl⟩)
      obtain ⟨y, hy⟩ := List.mem_iff_getElem?.1 ((l3 i').2 ⟨M'.i1, r2', hPP.symm⟩)
      have hxy : x ≠ y := by
        rintro rfl
        rw [hx] at hy
        exact hne (Option.some.inj hy)
      have hmb : members tds (obj (pa st i)) = d.fields := by simp [members, M.td, M.dd]
      have hfx := l4 x i hx
      have hfy := l4 y i' hy
      rw [hmb, M.fd] at hfx
      rw [hmb, M'.fd] at hfy
      have hfty := M.ty
      have hfty' := M'.ty
      rcases C.L.apart t d x y f f' M.dd M.dty hfx.symm hfy.symm hxy with h | h
      · have := hS.apart t d x y f f' M.dd M.dty hfx.symm hfy.symm hxy h.1 h.2
        rw [h.1] at hfty
        rw [h.2] at hfty'
        simp only [seg, hfty, hfty', M.fd, M'.fd, Option.getD_some] at h1 h2 h3 h4
        unfold Apart at this
        rw [hPP] at hPadr
        omega
      · unfold Apart at h
        rw [hPP] at hPadr
        omega
    · exact hmix hi hi' rfl htop.symm hty hty' (by omega) h2 (by omega) h4
  · by_cases hty' : (obj i').ty = .bitfield ∨ (obj i').ty = .charArray
    · exact hmix hi' hi htop.symm rfl hty' hty (by omega) h4 (by omega) h2
    · obtain ⟨s1, s2, s3⟩ := seg_solid C hS hld r1 r2 hty
      obtain ⟨s1', s2', s3'⟩ := seg_solid C hS hld r1' r2' hty'
      have hob : obj i = obj i' := by
        rcases laminar C.T C.L hokt (tin r1 r2 rfl) (tin r1' r2' htop.symm) (x := s / 8) (by omega) (by omega) (by omega) (by omega) with h | h
        · exact (inside_leaf (s3 (by omega)) h).symm
        · exact inside_leaf (s3' (by omega)) h
      cases hid : identified (obj i).ty with
      | true => exact hne (C.V.uniq i i' r1 r2 r1' r2' hid hob)
      | false =>
        refine hne (cell_uniq C r1 r2 r1' r2' ?_ hob)
        unfold isCell
        cases h : (obj i).ty <;> rw [h] at hid hty <;> simp [identified] at hid hty ⊢

end Verif.Lemmas.XdrSeg
