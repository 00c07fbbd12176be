import Verif.Lemmas.SimPost
import Verif.Lemmas.CmpSame
import Verif.Lemmas.CmpTwin
import Verif.Props.Copy
import Verif.Spec.CmpCopy
/-!
A graph and its copy are saved as the same nodes with the same values.
-/
namespace Verif.Lemmas.CmpCopy
open Verif.Model Verif.Model.Ptrs Verif.Model.Save Verif.Model.Copy Verif.Model.Cmp Verif.Spec.Ptrs Verif.Spec.Save Verif.Spec.Copy Verif.Spec.CmpCopy
  Verif.Lemmas.SaveTree Verif.Lemmas.SaveInv Verif.Lemmas.SavePost Verif.Lemmas.SimTwin Verif.Lemmas.SimObj Verif.Lemmas.SimGraph Verif.Lemmas.SimPost
  Verif.Lemmas.CopyLayout Verif.Lemmas.CopyView Verif.Lemmas.CopyMem Verif.Lemmas.CopyDone Verif.Lemmas.CmpSame

variable {mem : Mem} {tds : List Td}

/-- the nodes of an isomorphic graph -/
theorem save_sim (hT : Types tds) {data : Nat} {fd : Fd} (hok : FdOK tds fd) (hfin : Finite mem tds (ofFd data fd)) :
    ∃ L, ∀ (mem' : Mem) (pl : Obj → Nat), Iso mem mem' tds (ofFd data fd) pl → ∃ N, ∀ fuel fuel', L ≤ fuel → N ≤ fuel' → ∀ st0 ks obj O f,
      saveGraph mem tds fuel data fd = some (st0, 1) → Inv mem tds (Single mem tds (ofFd data fd)) (ofFd data fd) st0 ks obj O (fun _ => False) →
      (∀ j, 1 ≤ j → j < st0.ptrs.ra.length → O j = none) → mrSave mem tds fuel data fd = some (f, 1) →
      Void mem mem' (nd st0.ptrs.ra) (ni st0.info) st0.ptrs.ra.length obj pl (fun i => lk (nd f.ptrs.ra i)) →
      ∃ f', mrSave mem' tds fuel' (pl (ofFd data fd)) fd = some (f', 1) ∧ Twin f f' ∧ ∀ i, 1 ≤ i → i < st0.ptrs.ra.length → (ni f'.info i).addr = pl (obj i) := by
  obtain ⟨L, hL⟩ := graph_sim hT hok hfin
  refine ⟨L, fun mem' pl hiso => ?_⟩
  obtain ⟨N, hN⟩ := hL mem' pl hiso
  refine ⟨N, fun fuel fuel' hf hf' st0 ks obj O f hg hI hO hs hv => ?_⟩
  obtain ⟨st, st', ks1, ks', obj1, obj', O1, O', e1, e2, ht, _, h4, _, h6, h7, _⟩ := hN fuel fuel' hf hf'
  rw [hg] at e1
  cases e1
  have hobj := (same_st hiso ht hI h4).objs
  have hlen : st'.ptrs.ra.length = st0.ptrs.ra.length := by rw [ht.ptrs]
  obtain ⟨g, k, a1, _⟩ := SaveFinal.post_ok hI hO h7 (SaveIdx.saveGraph_z hg)
  obtain ⟨g', k', b1, b2, _⟩ := SaveFinal.post_ok h4 h6 (by omega) (SaveIdx.saveGraph_z e2)
  unfold mrSave at hs
  rw [hg] at hs
  simp only [Option.bind_eq_bind, Option.bind_some, Nat.one_ne_zero, if_false, a1, Option.some.injEq, Prod.mk.injEq, and_true] at hs
  subst hs
  refine ⟨g', ?_, post_sim hI hO h4 h6 ht h7 (SaveIdx.saveGraph_z hg) hobj a1 b1 hv, fun i h1 h2 => ?_⟩
  · unfold mrSave
    rw [e2]
    simp [b1]
  · rw [b2.addr, (h4.inv.seen i h1 (by omega)).addr, hobj i h1 h2]
    rfl

variable {alloc : Blocks → Nat → Nat} {m m' : Bytes} {mem' : Mem} {live new : Blocks} {dst max : Nat} {root : Obj} {place : Obj → Nat}

/-- the memory of the original is not changed -/
theorem original (hS : Source m mem tds root live dst max) (hC : Copied m m' mem mem' tds root dst live new place) {a n : Nat} (h1 : covered live a n = true)
    (h2 : Apart dst (extent tds root) a n) (k : Nat) (hk : k < n) : m' (a + k) = m (a + k) := by
  obtain ⟨b, hb, h3⟩ := covered_mem.1 h1
  refine hC.kept _ ?_ ?_
  · unfold Apart at h2; omega
  · intro c hc
    have := hC.apart c hc b hb
    unfold Apart at this
    omega

theorem original_obj (hS : Source m mem tds root live dst max) (hC : Copied m m' mem mem' tds root dst live new place) {o : Obj} (ho : Reach mem tds root o)
    (k : Nat) (hk : k < extent tds o) : m' (o.addr + k) = m (o.addr + k) := original hS hC (hS.read o ho) (hS.away o ho) k hk

/-- pointers of the original are not changed -/
theorem original_ptr (hS : Source m mem tds root live dst max) (hC : Copied m m' mem mem' tds root dst live new place) (hmem' : ∀ a, mem'.ptr a = word m' a)
    {o : Obj} (ho : Reach mem tds root o) (he : 8 ≤ extent tds o) : mem'.ptr o.addr = mem.ptr o.addr := by
  rw [hmem', hS.ptr]
  exact word_congr fun k hk => original_obj hS hC ho k (by omega)

theorem moved_self (o : Obj) : moved o o.addr = o := rfl

theorem map_self {l : List Obj} : (l.map fun c => moved c c.addr) = l := by simp [moved_self]

theorem func_extent {o : Obj} (h : o.ty = .func ∨ o.ty = .funcType) : extent tds o = 8 := by
  unfold extent
  rcases h with h | h <;> rw [h] <;> simp [plain, elementSize, typeSize]

theorem iso_original (hS : Source m mem tds root live dst max) (hC : Copied m m' mem mem' tds root dst live new place) (hmem' : ∀ a, mem'.ptr a = word m' a) :
    Iso mem mem' tds root Obj.addr where
  inj a b _ _ h := by rw [moved_self, moved_self] at h; exact h
  parts o _ := by rw [map_self]; rfl
  lead o ho := by
    rw [moved_self]
    have : (target mem tds o).map (fun t => moved t t.addr) = target mem tds o := by cases target mem tds o <;> rfl
    rw [this]
    by_cases hc : isCell o = true
    · have := original_ptr hS hC hmem' ho (by rw [extent_cell hc]; exact Nat.le_refl _)
      unfold target
      rw [this]
    · unfold isCell at hc
      unfold target
      cases hty : o.ty <;> rw [hty] at hc <;> simp at hc ⊢
  null o ho h := by
    rw [original_ptr hS hC hmem' ho]
    rcases h with h | h | ⟨h, _⟩
    · rw [func_extent (.inl h)]; exact Nat.le_refl _
    · rw [func_extent (.inr h)]; exact Nat.le_refl _
    · rw [extent_cell (by simp [isCell, h])]; exact Nat.le_refl _

theorem reach_pos (hT : Types tds) (hL : Layout tds) (hok : ObjOK tds root) (h0 : root.addr ≠ 0) {o : Obj} (h : Reach mem tds root o) : ObjOK tds o ∧ o.addr ≠ 0 := by
  induction h with
  | self => exact ⟨hok, h0⟩
  | part _ hc ih =>
    have := part_range hT hL ih.1 hc
    have h1 := ih.2
    exact ⟨components_ok hT ih.1 hc, by omega⟩
  | @lead b c _ hc ih =>
    refine ⟨target_ok ih.1 hc, ?_⟩
    unfold target at hc
    split at hc
    · split at hc
      · cases hc
      · rename_i h1
        injection hc with hc
        rw [← hc, SaveRun.object_addr]
        intro h2
        rw [h2] at h1
        simp at h1
    · split at hc
      · cases hc
      · rename_i h1
        injection hc with hc
        rw [← hc]
        exact h1
    · cases hc

/-- bytes of an object without parts that is no pointer and no string -/
theorem copy_obj (hS : Source m mem tds root live dst max) (hC : Copied m m' mem mem' tds root dst live new place) {o : Obj} (ho : Reach mem tds root o)
    (hc : isCell o = false) (hp : components tds o = []) (k : Nat) (hk : k < extent tds o) : m' (place o + k) = m' (o.addr + k) := by
  rw [original_obj hS hC ho k hk]
  refine hC.data o ho k hk fun p hp' hcell => ?_
  have : p = o := by
    generalize hoo : o = o' at hp'
    cases hp' with
    | self => rfl
    | @part b c hb hc' =>
      exfalso
      have : b = o' := by
        have hi := inner_of hb
        cases hi with
        | self => rfl
        | step h1 _ => rw [← hoo, hp] at h1; cases h1
      rw [this, ← hoo, hp] at hc'
      cases hc'
  rw [this, hc] at hcell
  cases hcell

theorem iso_copy (hT : Types tds) (hL : Layout tds) (hok : ObjOK tds root) (hS : Source m mem tds root live dst max) (hR : Comparable m mem tds root live dst max)
    (hC : Copied m m' mem mem' tds root dst live new place) (hmem' : ∀ a, mem'.ptr a = word m' a) : Iso mem mem' tds root place where
  inj := hC.inj
  parts := hC.parts
  lead := hC.lead
  null o ho h := by
    have hfun : o.ty = .func ∨ o.ty = .funcType → (mem'.ptr (place o) = 0 ↔ mem.ptr o.addr = 0) := by
      intro h
      have he := func_extent (tds := tds) h
      have e1 : mem'.ptr (place o) = mem'.ptr o.addr := by
        rw [hmem', hmem']
        refine word_congr fun k hk => copy_obj hS hC ho ?_ ?_ k (by omega)
        · unfold isCell; rcases h with h | h <;> rw [h] <;> rfl
        · unfold components; rcases h with h | h <;> rw [h]
      rw [e1, original_ptr hS hC hmem' ho (by omega)]
    rcases h with h | h | ⟨h, hu⟩
    · exact hfun (.inl h)
    · exact hfun (.inr h)
    · have hnt : ∀ t, Outer mem tds root t → t.ty = .charArray → t.addr ≠ mem.ptr o.addr := by
        intro t ht hty
        obtain ⟨⟨x, hx, hxt⟩, _⟩ := ht
        have hxok := (reach_pos hT hL hok hR.notNull hx).1
        refine hR.noText o x t ho h hu hx ?_ hxt
        apply Classical.byContradiction
        intro hns
        have hxp : x.ty = .pointer := by
          unfold target at hxt
          split at hxt
          · assumption
          · exact absurd ‹_› hns
          · cases hxt
        exact SaveFinal.pointer_target hxok hxp hxt hty
      rcases hC.void o ho h hu hnt with ⟨t, h1, h2, h3⟩ | ⟨h1, _⟩
      · rw [h3, ← h2]
        exact ⟨fun h => absurd h (hC.nonNull t h1), fun h => absurd h (reach_pos hT hL hok hR.notNull h1).2⟩
      · rw [h1]

section
variable {st0 : St} {ks : Nat → List Nat} {obj : Nat → Obj} {O : Nat → Option Nat} {n : Nat}

theorem no_text (hR : Comparable m mem tds root live dst max) {U : Prop} (hI : Inv mem tds U root st0 ks obj O (fun _ => False)) {i b : Nat} (h1 : 1 ≤ i)
    (h2 : i < st0.ptrs.ra.length) (hp : (obj i).ty = .pointer) (hu : untyped (obj i).aux = true) (b1 : 1 ≤ b) (b2 : b < st0.ptrs.ra.length)
    (hb : (obj b).addr = mem.ptr (obj i).addr) : ¬ SavePost.Text (nd st0.ptrs.ra) b := by
  rintro ⟨g1, g2⟩
  have hb1 : b ≠ 1 := by rintro rfl; exact g1 hI.inv.tree.root
  obtain ⟨p1, p2, _⟩ := hI.inv.tree.own _ _ (hI.inv.tree.mem b (by omega) b2)
  have hty := (hI.inv.seen _ p1 p2).ty
  rw [g2] at hty
  rcases edge hI.inv (by omega : 1 < b) b2 with ⟨_, h4, _⟩ | ⟨h4, _⟩
  · exact hR.noText _ _ _ (reach_root hI.inv h1 h2) hp hu (reach_root hI.inv p1 p2) hty.symm h4 hb
  · rw [← hty] at h4
    cases h4

theorem void_original (hS : Source m mem tds root live dst max) (hR : Comparable m mem tds root live dst max)
    (hC : Copied m m' mem mem' tds root dst live new place) (hmem' : ∀ a, mem'.ptr a = word m' a) {U : Prop}
    (hI : Inv mem tds U root st0 ks obj O (fun _ => False)) (F : Nat → Nat × Bool × Bool) :
    Void mem mem' (nd st0.ptrs.ra) (ni st0.info) st0.ptrs.ra.length obj Obj.addr F where
  noText i b h1 h2 hp hu _ b1 b2 hb := no_text hR hI h1 h2 hp hu b1 b2 hb
  hit i b h1 h2 hp hu _ b1 b2 _ hb := ⟨by
    rw [original_ptr hS hC hmem' (reach_root hI.inv h1 h2) (by rw [extent_cell (by simp [isCell, hp])]; exact Nat.le_refl _), hb], fun j _ _ h => h⟩
  miss i h1 h2 hp hu _ _ hno j j1 j2 := by
    rw [original_ptr hS hC hmem' (reach_root hI.inv h1 h2) (by rw [extent_cell (by simp [isCell, hp])]; exact Nat.le_refl _)]
    exact hno j j1 j2

theorem void_copy (hR : Comparable m mem tds root live dst max)
    (hC : Copied m m' mem mem' tds root dst live new place) {U : Prop}
    (hI : Inv mem tds U root st0 ks obj O (fun _ => False)) {st : St} (hK : Linked mem mem' st st0.ptrs.ra.length obj place)
    (hcomplete : ∀ o, Reach mem tds root o → ∃ i, 1 ≤ i ∧ i < st0.ptrs.ra.length ∧ obj i = o) :
    Void mem mem' (nd st0.ptrs.ra) (ni st0.info) st0.ptrs.ra.length obj place (fun i => lk (nd st.ptrs.ra i)) where
  noText i b h1 h2 hp hu _ b1 b2 hb := no_text hR hI h1 h2 hp hu b1 b2 hb
  hit i b h1 h2 hp hu _ b1 b2 hl hb := by
    simp only [lk, Prod.mk.injEq] at hl
    have := (hK i h1 h2 hp hu).1 hl.2.1
    rw [hl.1] at this
    exact ⟨this, fun j j1 j2 h => hC.addr _ _ (reach_root hI.inv j1 j2) (reach_root hI.inv b1 b2) h⟩
  miss i h1 h2 hp hu _ hl hno j j1 j2 := by
    simp only [lk, Prod.mk.injEq] at hl
    rw [(hK i h1 h2 hp hu).2 hl.2.1 hl.2.2]
    have hrj := reach_root hI.inv j1 j2
    intro he
    rcases hR.void _ (reach_root hI.inv h1 h2) hp hu with h | ⟨t, ht, h⟩ | ⟨⟨b, hb, h3⟩, h4⟩
    · rw [h] at he; exact hC.nonNull _ hrj he
    · obtain ⟨q, q1, q2, rfl⟩ := hcomplete t ht
      exact hno q q1 q2 h
    · rcases hC.fresh _ hrj with h5 | ⟨c, hc, h5⟩
      · omega
      · have := hC.apart c hc b hb
        unfold Apart at this
        omega

end

/-- the place of a field -/
theorem place_field (hC : Copied m m' mem mem' tds root dst live new place) {o : Obj} (ho : Reach mem tds root o) {c : Obj} {j : Nat} {f : Fd} {t : Nat} {d : Td}
    (hty : o.ty = .struct) (ht : o.td = some t) (hd : tds[t]? = some d) (hf : d.fields[j]? = some f) (hc : (components tds o)[j]? = some c) :
    c.addr = o.addr + f.offset ∧ place c = place o + f.offset := by
  have h1 : ∀ a, (components tds (moved o a))[j]? = some (ofFd (a + f.offset) f) := by
    intro a
    have : components tds (moved o a) = d.fields.map fun f => ofFd (a + f.offset) f := by
      unfold components
      rw [show (moved o a).ty = o.ty from rfl, hty, show (moved o a).td = o.td from rfl, ht]
      simp only [Option.bind_some, hd]
      rfl
    rw [this, List.getElem?_map, hf]
    rfl
  have h2 := h1 o.addr
  rw [moved_self, hc] at h2
  have h3 := h1 (place o)
  rw [hC.parts o ho, List.getElem?_map, hc] at h3
  have e1 := Option.some.inj h2
  have e2 := Option.some.inj h3
  refine ⟨by rw [e1]; exact SaveRun.object_addr _ _ _ _ _ _, ?_⟩
  have := congrArg Obj.addr e2
  rw [show (ofFd (place o + f.offset) f).addr = place o + f.offset from SaveRun.object_addr _ _ _ _ _ _] at this
  exact this

/-- the bytes of a bit field or an array of characters in a structure -/
theorem copy_field (hT : Types tds) (hL : Layout tds) (hS : Source m mem tds root live dst max) (hC : Copied m m' mem mem' tds root dst live new place) {o : Obj}
    (hok : ObjOK tds o) (ho : Reach mem tds root o) {c : Obj} {j : Nat} {f : Fd} {t : Nat} {d : Td}
    (hty : o.ty = .struct) (ht : o.td = some t) (hd : tds[t]? = some d) (hf : d.fields[j]? = some f) (hc : (components tds o)[j]? = some c)
    (hft : f.ty = .bitfield ∨ f.ty = .charArray) (k : Nat) (hk : k < span f) : m' (place c + k) = m (c.addr + k) ∧ m' (c.addr + k) = m (c.addr + k) := by
  obtain ⟨e1, e2⟩ := place_field hC ho hty ht hd hf hc
  obtain ⟨h1, h2⟩ := struct_td hok hty ht hd
  have hin := hL.inside t d f hd h1 (List.mem_of_getElem? hf)
  have hck : f.offset + k < extent tds o := by omega
  have hcty : c.ty = f.ty := by
    obtain ⟨t', d', f', g1, g2, g3, g4⟩ := part_struct hty hc
    rw [ht] at g1; cases g1
    rw [hd] at g2; cases g2
    rw [hf] at g3; cases g3
    rw [g4]
    exact SaveRun.object_ty _ _ _ _ _ _
  rw [e1, e2, Nat.add_assoc, Nat.add_assoc]
  refine ⟨hC.data o ho _ hck fun p hp hcell hr => ?_, original_obj hS hC ho _ hck⟩
  have hpx := extent_cell (tds := tds) hcell
  have hi := inner_of hp
  cases hi with
  | self => unfold isCell at hcell; rw [hty] at hcell; cases hcell
  | @step _ _ q hq hqp =>
    obtain ⟨i, hi⟩ := List.mem_iff_getElem?.1 hq
    have hqok := components_ok hT hok hq
    have hqr := inside_range hT hL hqok (inside_of hqp)
    obtain ⟨t', d', g, g1, g2, g3, g4⟩ := part_struct hty hi
    rw [ht] at g1; cases g1
    rw [hd] at g2; cases g2
    have hgm := List.mem_of_getElem? g3
    have hqe := extent_ofFd (hT.fields t d hd h1 g hgm).1 (hL.pointer t d g hd h1 hgm) (o.addr + g.offset)
    rw [← g4] at hqe
    have hqa : q.addr = o.addr + g.offset := by rw [g4]; exact SaveRun.object_addr _ _ _ _ _ _
    have hqt : q.ty = g.ty := by rw [g4]; exact SaveRun.object_ty _ _ _ _ _ _
    by_cases hij : i = j
    · subst hij
      rw [hf] at g3
      cases g3
      have : p = q := by
        cases hqp with
        | self => rfl
        | step h _ =>
          have := part_ty h
          rw [hqt] at this
          rcases hft with h' | h' <;> rw [h'] at this <;> rcases this with h | h <;> cases h
      rw [this] at hcell
      unfold isCell at hcell
      rw [hqt] at hcell
      rcases hft with h' | h' <;> rw [h'] at hcell <;> cases hcell
    · rcases hL.apart t d j i f g hd h1 hf g3 (fun h => hij h.symm) with ⟨_, h⟩ | h
      · have : extent tds q = 0 := by
          unfold extent
          rw [hqt, h]
          rfl
        omega
      · unfold Apart at h
        omega

theorem text_of_field (hT : Types tds) (hL : Layout tds) (hS : Source m mem tds root live dst max) (hR : Comparable m mem tds root live dst max)
    (hC : Copied m m' mem mem' tds root dst live new place) {o : Obj} (hok : ObjOK tds o) (ho : Reach mem tds root o) {c : Obj} (hc : c ∈ components tds o) (hcty : c.ty = .charArray) :
    ∃ n, n < max ∧ Text m' c.addr n ∧ ∀ k, k ≤ n → m' (place c + k) = m' (c.addr + k) := by
  obtain ⟨j, hj⟩ := List.mem_iff_getElem?.1 hc
  rcases part_ty hc with hty | hty
  · obtain ⟨t, d, f, g1, g2, g3, g4⟩ := part_struct hty hj
    have hft : f.ty = .charArray := by rw [← hcty, g4]; exact (SaveRun.object_ty _ _ _ _ _ _).symm
    obtain ⟨n, n1, n2, n3⟩ := hR.chars o t d f ho hty g1 g2 (List.mem_of_getElem? g3) hft
    obtain ⟨e1, _⟩ := place_field hC ho hty g1 g2 g3 hj
    rw [← e1] at n3
    have hs : span f = f.size := if_neg (by rw [hft]; simp)
    have hb := copy_field hT hL hS hC hok ho hty g1 g2 g3 hj (.inr hft)
    refine ⟨n, n2, text_congr n3 fun k hk => (hb k (by omega)).2, fun k hk => ?_⟩
    rw [(hb k (by omega)).1, (hb k (by omega)).2]
  · obtain ⟨_, g⟩ := part_array hty hj
    unfold ObjOK at hok
    rw [hty] at hok
    obtain ⟨b, _, hl, _⟩ := hok
    have : c.ty = o.aux := by rw [g]; exact SaveRun.object_ty _ _ _ _ _ _
    rw [hcty] at this
    rcases hl with ⟨h1, h2⟩ | ⟨h1, _⟩
    · rw [← h1, ← this] at h2; cases h2
    · rw [← this] at h1; cases h1

theorem type_size {ty : MrType} (h : typeSize ty ≠ 0) (h1 : ty ≠ .void) (h2 : ty ≠ .pointer) : plain ty = true := by
  cases ty <;> simp_all [typeSize, plain]

/-- the contents of the nodes of the original and of the copy are the same -/
theorem same_mem (hT : Types tds) (hL : Layout tds) (hS : Source m mem tds root live dst max) (hR : Comparable m mem tds root live dst max)
    (hC : Copied m m' mem mem' tds root dst live new place) (hmem' : ∀ a, mem'.ptr a = word m' a)
    {st : St} {k : Forest} {n : Nat} {obj : Nat → Obj} (V : View mem tds root st k n obj) {i : Nat} (hi : i ∈ 1 :: k.nodes)
    {x y : Info} (hx : x.fd = (ni st.info i).fd) (hxa : x.aux = (ni st.info i).aux) (hxx : x.addr = (obj i).addr) (hy : y.addr = place (obj i)) :
    SameMem tds m' max (obj i).ty x y := by
  obtain ⟨⟨i1, i2⟩, hnt⟩ := (V.inTree i).1 hi
  have hr := V.reach i i1 i2
  have hok := V.ok i i1 i2
  have hrok : ObjOK tds root := by have := V.ok 1 (Nat.le_refl _) V.n1; rw [V.F.top] at this; exact this
  have hscalar : isCell (obj i) = false → components tds (obj i) = [] → ∀ k, k < extent tds (obj i) → m' (y.addr + k) = m' (x.addr + k) := by
    intro h1 h2 k hk
    rw [hy, hxx]
    exact copy_obj hS hC hr h1 h2 k hk
  have hpart : (obj i).ty = .bitfield ∨ (obj i).ty = .charArray → 1 < i ∧ isCell (obj (pa st i)) = false := by
    intro h
    have hi1 : i ≠ 1 := by
      rintro rfl
      rw [V.F.top] at h
      have := hS.base.1
      rcases h with h | h <;> rw [h] at this <;> cases this
    refine ⟨by omega, ?_⟩
    have h3 := V.up i (by omega) i2
    cases hcell : isCell (obj (pa st i)) with
    | false => rfl
    | true =>
      exfalso
      have hpl : (obj (pa st i)).ty = .pointer ∨ (obj (pa st i)).ty = .string := by simpa [isCell] using hcell
      rcases hpl with hpl | hpl
      · rcases h with h | h
        · have := hS.cells _ _ (V.reach _ h3.1 h3.2) (V.lead i (by omega) i2 hcell)
          rw [h] at this; cases this
        · exact V.ptr_ty (by omega) i2 hpl h
      · exact hnt ⟨hi1, hpl⟩
  cases hty : (obj i).ty
  case string =>
    show _ ∨ _
    have hcell : isCell (obj i) = true := by simp [isCell, hty]
    have ex : word m' x.addr = mem.ptr (obj i).addr := by
      rw [hxx, ← hmem', original_ptr hS hC hmem' hr (by rw [extent_cell hcell]; exact Nat.le_refl _)]
    have ey : word m' y.addr = mem'.ptr (place (obj i)) := by rw [hy, hmem']
    have hl := hC.lead _ hr
    rw [ex, ey]
    by_cases h0 : mem.ptr (obj i).addr = 0
    · left
      refine ⟨h0, ?_⟩
      have ht : target mem tds (obj i) = none := by unfold target; rw [hty]; simp [h0]
      rw [ht] at hl
      unfold target at hl
      rw [show (moved (obj i) (place (obj i))).ty = (obj i).ty from rfl, hty] at hl
      simp only [Option.map_none] at hl
      split at hl
      · assumption
      · cases hl
    · right
      have ht : target mem tds (obj i) = some { addr := mem.ptr (obj i).addr, ty := .charArray } := by unfold target; rw [hty]; simp [h0]
      rw [ht] at hl
      unfold target at hl
      rw [show (moved (obj i) (place (obj i))).ty = (obj i).ty from rfl, hty] at hl
      simp only [Option.map_some] at hl
      split at hl
      · cases hl
      · rename_i hne
        have he := congrArg Obj.addr (Option.some.inj hl)
        have he : mem'.ptr (place (obj i)) = place { addr := mem.ptr (obj i).addr, ty := .charArray } := he
        refine ⟨h0, hne, ?_⟩
        rw [he]
        have hrt : Reach mem tds root { addr := mem.ptr (obj i).addr, ty := .charArray } := .lead hr ht
        by_cases hpt : ∃ z, Reach mem tds root z ∧ ({ addr := mem.ptr (obj i).addr, ty := .charArray } : Obj) ∈ components tds z
        · obtain ⟨z, hz, hzc⟩ := hpt
          exact text_of_field hT hL hS hR hC (reach_pos hT hL hrok hR.notNull hz).1 hz hzc rfl
        · obtain ⟨nn, n1, n2, n3⟩ := hS.ends _ _ hr hty ht
          have n4 := hS.texts _ _ nn hr hty ht n2
          have ho : Outer mem tds root { addr := mem.ptr (obj i).addr, ty := .charArray } := by
            refine ⟨⟨_, hr, ht⟩, ?_, fun z hz hzc => hpt ⟨z, hz, hzc⟩⟩
            intro hroot
            have := hS.base.1
            rw [← hroot] at this
            cases this
          have horig := original hS hC n3 n4
          refine ⟨nn, n1, text_congr n2 fun k hk => horig k (by omega), fun k hk => ?_⟩
          rw [hC.text _ ho rfl nn n2 k hk]
          exact (horig k (by omega)).symm
  case charArray =>
    obtain ⟨p1, p2⟩ := hpart (.inr hty)
    have h3 := V.up i p1 i2
    obtain ⟨nn, n1, n2, n3⟩ := text_of_field hT hL hS hR hC (V.ok _ h3.1 h3.2) (V.reach _ h3.1 h3.2) (V.part p1 i2 p2) hty
    exact ⟨nn, n1, by rw [hxx]; exact n2, by rw [hxx, hy]; exact n3⟩
  case bitfield =>
    obtain ⟨p1, p2⟩ := hpart (.inl hty)
    have h3 := V.up i p1 i2
    have hpp := V.part p1 i2 p2
    have hst : (obj (pa st i)).ty = .struct := by
      rcases part_ty hpp with h | h
      · exact h
      · exfalso
        obtain ⟨j, hj⟩ := List.mem_iff_getElem?.1 hpp
        obtain ⟨_, g⟩ := part_array h hj
        have hpo := V.ok _ h3.1 h3.2
        unfold ObjOK at hpo
        rw [h] at hpo
        obtain ⟨b, _, hl, _⟩ := hpo
        have : (obj i).ty = (obj (pa st i)).aux := by
          have := congrArg Obj.ty g
          rw [this]
          exact SaveRun.object_ty _ _ _ _ _ _
        rw [hty] at this
        rcases hl with ⟨h1, h2⟩ | ⟨h1, _⟩
        · rw [← h1, ← this] at h2; cases h2
        · rw [← this] at h1; cases h1
    obtain ⟨j, hj, hfd⟩ := V.names i p1 i2 hst
    obtain ⟨t, d, f, g1, g2, g3, g4⟩ := part_struct hst hj
    have hmm : (members tds (obj (pa st i)))[j]? = some f := by
      unfold members
      rw [g1]
      simp [g2, g3]
    have hft : f.ty = .bitfield := by rw [← hty, g4]; exact (SaveRun.object_ty _ _ _ _ _ _).symm
    have hdt := (struct_td (V.ok _ h3.1 h3.2) hst g1 g2).1
    obtain ⟨b1, b2, b3⟩ := hR.bits t d f g2 hdt (List.mem_of_getElem? g3) hft
    refine ⟨f, by rw [hx, hfd, hmm], b1, b2, b3, fun k hk => ?_⟩
    have hs : span f = (f.shift + f.width + 7) / 8 := if_pos hft
    have := copy_field hT hL hS hC (V.ok _ h3.1 h3.2) (V.reach _ h3.1 h3.2) hst g1 g2 g3 hj (.inl hft) k (by omega)
    rw [hy, hxx, this.1, this.2]
  case enum =>
    have htd : tdOf (ni st.info i).fd = (obj i).td := by
      obtain ⟨x', e1, _, _, e4, _⟩ := V.F.node i _ i1 (V.get i2).1
      rw [(V.get i2).2] at e1
      cases e1
      exact e4 (.inr hty)
    have hex : extent tds (obj i) = elementSize tds .enum (obj i).td := by unfold extent; rw [hty]; rfl
    refine ⟨extent tds (obj i), ?_, ?_, hscalar (by simp [isCell, hty]) (by unfold components; rw [hty])⟩
    · rw [hxa, hex]; have := V.eaux i i1 i2 hty; rw [hty] at this; exact this
    · intro d hd hde
      rw [hx, htd] at hd
      obtain ⟨t, ht, hd⟩ := Option.bind_eq_some_iff.1 hd
      rw [hex, ht]
      have := hT.enums t d hd hde
      unfold elementSize
      simpa [typeSize, hd] using this
  case pointer => trivial
  case void => trivial
  all_goals
    intro k hk
    refine hscalar (by simp [isCell, hty]) ?_ k ?_
    · first
      | (simp [typeSize] at hk; done)
      | (unfold components; rw [hty])
    · unfold extent
      rw [hty]
      first
      | (simp [typeSize] at hk; done)
      | simpa [plain, elementSize, typeSize] using hk

end Verif.Lemmas.CmpCopy
