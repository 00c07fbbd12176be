import Verif.Lemmas.CopyUndo
import Verif.Props.Free
/-!
# C30: deep copy

`Source`, `Allocator`, `Enough` and `Copied` are in Spec/Copy.lean.  The theorems are about the types of Spec/Save.lean:
no unions, no size fields, no arrays of more than one dimension, no opaque data.  The object copied is no pointer,
no string and no array, and no pointer leads to a cell that holds a pointer (`Source`).
-/
namespace Verif.Props.Copy
open Verif.Model Verif.Model.Ptrs Verif.Model.Save Verif.Model.Copy Verif.Spec.Ptrs Verif.Spec.Save Verif.Spec.Copy Verif.Lemmas.SaveTree Verif.Lemmas.SaveInv
  Verif.Lemmas.CopyView Verif.Lemmas.CopyTops Verif.Lemmas.CopyPlace Verif.Lemmas.CopyRun Verif.Lemmas.CopyWalk Verif.Lemmas.CopyLink Verif.Lemmas.CopyDone
  Verif.Lemmas.CopyUndo

variable {alloc : Blocks → Nat → Nat} {m : Bytes} {mem : Mem} {tds : List Td} {live : Blocks} {dst max : Nat}

theorem ctx_ok (hT : Types tds) (hL : Layout tds) {data : Nat} {fd : Fd} (hok : FdOK tds fd) (hfin : Finite mem tds (ofFd data fd))
    (hS : Source m mem tds (ofFd data fd) live dst max) :
    ∃ N, ∀ fuel, N ≤ fuel → ∃ st k n obj top, mrSave mem tds fuel data fd = some (st, 1) ∧ Ctx m mem tds (ofFd data fd) live dst max st k n obj top ∧
      ∃ st0 ks O, saveGraph mem tds fuel data fd = some (st0, 1) ∧ st0.ptrs.ra.length = n ∧ (∀ j, 1 ≤ j → j < n → O j = none) ∧
        Inv mem tds (Single mem tds (ofFd data fd)) (ofFd data fd) st0 ks obj O (fun _ => False) := by
  obtain ⟨N, hN⟩ := view_ok hT hok hfin hS.single
  refine ⟨N, fun fuel hf => ?_⟩
  obtain ⟨st, k, n, obj, e, V, h⟩ := hN fuel hf
  obtain ⟨top, htop⟩ := tops_ok V
  exact ⟨st, k, n, obj, top, e, ⟨⟨hT, hL, hS.toGraph, V, htop⟩, hS⟩, h⟩

/-- how a copy ends -/
theorem run_ok {root : Obj} {st : St} {k : Forest} {n : Nat} {obj : Nat → Obj} {top : Nat → Nat} (C : Ctx m mem tds root live dst max st k n obj top)
    (hA : Allocator alloc) {fuel : Nat} (hfuel : max ≤ fuel) :
    (∃ m' new place, copyRecursively alloc fuel m live st dst = some (true, m', live ++ new) ∧
      ∀ mem' : Mem, (∀ a, mem'.ptr a = word m' a) → Copied m m' mem mem' tds root dst live new place ∧ Linked mem mem' st n obj place) ∨
    (∃ i c s, copyRecursively alloc fuel m live st dst = (undoLoop st (st.ptrs.ra.length - 2) s 2).bind (fun s => some (false, s.m, s.live)) ∧
      LoopInv alloc m tds root live dst st n obj i s ∧ 1 < c ∧ c < n ∧ pa st c = i ∧ isCell (obj i) = true ∧ alloc s.live (need m tds (obj c)) = 0) := by
  obtain ⟨m0, hm0, hL0⟩ := start_ok (alloc := alloc) C
  obtain ⟨ok, s, e1, h⟩ := copyLoop_ok C hA hfuel (n - 2) (by omega : 1 < 2) (by have := C.V.n1; omega) hL0
  unfold copyRecursively
  rw [if_neg C.D.room.2.1, (C.V.get C.V.n1).2]
  simp only [Option.bind_eq_bind, Option.bind_some]
  rw [hm0, C.V.len]
  simp only [Option.bind_some]
  rw [e1]
  simp only [Option.bind_some]
  rcases h with ⟨rfl, hL⟩ | ⟨rfl, i, c, hL, h⟩
  · left
    rw [if_neg (by simp)]
    obtain ⟨f, w1, w2⟩ := walk_ok C hL
    rw [w1]
    simp only [Option.bind_some]
    obtain ⟨m', w, r1, r2, r3, r4⟩ := relinkLoop_ok C hL w2
    rw [C.V.len] at r1
    rw [r1]
    obtain ⟨new, h1, _⟩ := copied_ok C hL r2 r3 r4 (mem' := { ptr := word m', int := fun _ => 0 }) (fun _ => rfl)
    refine ⟨m', new, place n obj (na top obj (base st obj dst s)), by rw [← h1]; rfl, fun mem' hmem' => ?_⟩
    obtain ⟨new', h1', h2⟩ := copied_ok C hL r2 r3 r4 hmem'
    rw [h1] at h1'
    rw [List.append_cancel_left h1']
    exact h2
  · right
    rw [if_pos rfl]
    exact ⟨i, c, s, rfl, hL, h⟩

/-- Copying ends with success and gives a copy of the whole graph, if there is memory for it. -/
theorem C30_copy_partial (hT : Types tds) (hL : Layout tds) {data : Nat} {fd : Fd} (hok : FdOK tds fd) (hfin : Finite mem tds (ofFd data fd))
    (hS : Source m mem tds (ofFd data fd) live dst max) (hA : Allocator alloc) (hE : Enough alloc m mem tds (ofFd data fd) live) :
    ∃ N, ∀ fuel, N ≤ fuel → ∃ st, mrSave mem tds fuel data fd = some (st, 1) ∧ ∃ m' new place,
      copyRecursively alloc fuel m live st dst = some (true, m', live ++ new) ∧
      ∀ mem' : Mem, (∀ a, mem'.ptr a = word m' a) → Copied m m' mem mem' tds (ofFd data fd) dst live new place := by
  obtain ⟨N, hN⟩ := ctx_ok hT hL hok hfin hS
  refine ⟨N + max, fun fuel hf => ?_⟩
  obtain ⟨st, k, n, obj, top, e, C, _⟩ := hN fuel (by omega)
  refine ⟨st, e, ?_⟩
  rcases run_ok C hA (by omega : max ≤ fuel) with ⟨m', new, place, h1, h2⟩ | ⟨i, c, s, _, g1, g2, g3, g4, g5, g6⟩
  · exact ⟨m', new, place, h1, fun mem' h => (h2 mem' h).1⟩
  · exact absurd g6 (enough_ok C hE g1 g2 g3 g4 g5)

/-- Whatever the allocator does: if copying succeeds the result is a copy. -/
theorem C30_success_partial (hT : Types tds) (hL : Layout tds) {data : Nat} {fd : Fd} (hok : FdOK tds fd) (hfin : Finite mem tds (ofFd data fd))
    (hS : Source m mem tds (ofFd data fd) live dst max) (hA : Allocator alloc) :
    ∃ N, ∀ fuel, N ≤ fuel → ∃ st, mrSave mem tds fuel data fd = some (st, 1) ∧ ∀ m' live',
      copyRecursively alloc fuel m live st dst = some (true, m', live') → ∃ new place, live' = live ++ new ∧
      ∀ mem' : Mem, (∀ a, mem'.ptr a = word m' a) → Copied m m' mem mem' tds (ofFd data fd) dst live new place := by
  obtain ⟨N, hN⟩ := ctx_ok hT hL hok hfin hS
  refine ⟨N + max, fun fuel hf => ?_⟩
  obtain ⟨st, k, n, obj, top, e, C, _⟩ := hN fuel (by omega)
  refine ⟨st, e, fun m' live' h => ?_⟩
  rcases run_ok C hA (by omega : max ≤ fuel) with ⟨m'', new, place, h1, h2⟩ | ⟨i, c, s, g0, _⟩
  · rw [h1] at h
    cases h
    exact ⟨new, place, rfl, fun mem' h => (h2 mem' h).1⟩
  · rw [g0] at h
    cases hu : undoLoop st (st.ptrs.ra.length - 2) s 2 with
    | none => rw [hu] at h; cases h
    | some s' => rw [hu] at h; cases h

/-- If nothing leads to the object copied then a copy that runs out of memory releases all it allocated and has
changed nothing but the destination. -/
theorem C30_failure_partial (hT : Types tds) (hL : Layout tds) {data : Nat} {fd : Fd} (hok : FdOK tds fd) (hfin : Finite mem tds (ofFd data fd))
    (hS : Source m mem tds (ofFd data fd) live dst max) (hA : Allocator alloc) (hpos : ∀ b ∈ live, 0 < b.2)
    (hroot : ∀ x, Reach mem tds (ofFd data fd) x → x.ty = .pointer →
      target mem tds x ≠ some (ofFd data fd) ∧ (untyped x.aux = true → mem.ptr x.addr ≠ (ofFd data fd).addr)) :
    ∃ N, ∀ fuel, N ≤ fuel → ∃ st, mrSave mem tds fuel data fd = some (st, 1) ∧ ∃ ok m' live',
      copyRecursively alloc fuel m live st dst = some (ok, m', live') ∧
      (ok = false → live' = live ∧ ∀ b ∈ live, ∀ a, b.1 ≤ a → a < b.1 + b.2 → ¬ (dst ≤ a ∧ a < dst + extent tds (ofFd data fd)) → m' a = m a) := by
  obtain ⟨N, hN⟩ := ctx_ok hT hL hok hfin hS
  refine ⟨N + max, fun fuel hf => ?_⟩
  obtain ⟨st, k, n, obj, top, e, C, _⟩ := hN fuel (by omega)
  refine ⟨st, e, ?_⟩
  rcases run_ok C hA (by omega : max ≤ fuel) with ⟨m'', new, place, h1, h2⟩ | ⟨i, c, s, g0, g1, _⟩
  · exact ⟨_, _, _, h1, fun h => by cases h⟩
  · obtain ⟨s', u1, u2, u3⟩ := undoLoop_ok C g1 hpos hroot
    rw [g0, u1]
    refine ⟨_, _, _, rfl, fun _ => ⟨u2, fun b hb a h1 h2 h3 => ?_⟩⟩
    rw [u3]
    refine g1.kept a h3 fun c hc => ?_
    have := g1.old c hc b hb
    unfold Apart at this
    omega

/-! ## what a copy is -/

/-- The objects reachable from the copy are the copies of the objects reachable from the original. -/
theorem C30_same_shape {m m' : Bytes} {mem mem' : Mem} {root : Obj} {new : Blocks} {place : Obj → Nat}
    (h : Copied m m' mem mem' tds root dst live new place) (o' : Obj) :
    Reach mem' tds (moved root dst) o' ↔ ∃ o, Reach mem tds root o ∧ o' = moved o (place o) := by
  constructor
  · intro hr
    induction hr with
    | self => exact ⟨root, .self, by rw [h.top]⟩
    | part _ hc ih =>
      obtain ⟨o, h1, rfl⟩ := ih
      rw [h.parts o h1] at hc
      obtain ⟨c, hc1, rfl⟩ := List.mem_map.1 hc
      exact ⟨c, .part h1 hc1, rfl⟩
    | lead _ hc ih =>
      obtain ⟨o, h1, rfl⟩ := ih
      rw [h.lead o h1] at hc
      cases ht : target mem tds o with
      | none => rw [ht] at hc; cases hc
      | some t =>
        rw [ht] at hc
        injection hc with hc
        exact ⟨t, .lead h1 ht, hc.symm⟩
  · rintro ⟨o, hr, rfl⟩
    induction hr with
    | self => rw [h.top]; exact .self
    | @part b c h1 hc ih => exact .part ih (by rw [h.parts b h1]; exact List.mem_map.2 ⟨c, hc, rfl⟩)
    | @lead b c h1 hc ih => exact .lead ih (by rw [h.lead b h1, hc]; rfl)

/-- Nothing reachable from the copy shares a byte with memory that was in use before, except for the destination. -/
theorem C30_fresh {m m' : Bytes} {mem mem' : Mem} {root : Obj} {new : Blocks} {place : Obj → Nat}
    (h : Copied m m' mem mem' tds root dst live new place) {o' : Obj} (ho : Reach mem' tds (moved root dst) o') :
    (dst ≤ o'.addr ∧ o'.addr + extent tds o' ≤ dst + extent tds root) ∨ ∀ b ∈ live, Apart o'.addr (extent tds o') b.1 b.2 := by
  obtain ⟨o, h1, rfl⟩ := (C30_same_shape h o').1 ho
  have he : extent tds (moved o (place o)) = extent tds o := rfl
  rw [he]
  have ha : (moved o (place o)).addr = place o := rfl
  rw [ha]
  rcases h.fresh o h1 with h2 | ⟨b, hb, h2⟩
  · exact Or.inl ⟨h2.1, h2.2.2⟩
  · right
    intro c hc
    have := h.apart b hb c hc
    unfold Apart at *
    omega

/-! ## a graph that can be copied -/

theorem layout_of_list (h1 : ∀ d ∈ tds, d.ty = .struct → ∀ f ∈ d.fields, (f.offset < d.size ∧ f.offset + span f ≤ d.size) ∧ (f.ty = .pointer → f.size = 8))
    (h2 : ∀ d ∈ tds, d.ty = .struct → ∀ i ∈ List.range d.fields.length, ∀ j ∈ List.range d.fields.length, i ≠ j →
      ∀ f ∈ (d.fields[i]?).toList, ∀ g ∈ (d.fields[j]?).toList, (f.ty = .bitfield ∧ g.ty = .bitfield) ∨ f.offset + span f ≤ g.offset ∨ g.offset + span g ≤ f.offset) :
    Layout tds := by
  refine ⟨fun t d f ht hd hf => (h1 d (List.mem_of_getElem? ht) hd f hf).1, ?_, fun t d f ht hd hf => (h1 d (List.mem_of_getElem? ht) hd f hf).2⟩
  intro t d i j f g ht hd hi hj hne
  have hi' := (List.getElem?_eq_some_iff.1 hi).1
  have hj' := (List.getElem?_eq_some_iff.1 hj).1
  exact h2 d (List.mem_of_getElem? ht) hd i (List.mem_range.2 hi') j (List.mem_range.2 hj') hne f (by rw [hi]; simp) g (by rw [hj]; simp)

/-- the end of the blocks -/
def top (live : Blocks) : Nat := live.foldl (fun a b => Nat.max a (b.1 + b.2)) 4096

/-- an allocator that never uses memory again -/
def bump (live : Blocks) (n : Nat) : Nat := if top live + n ≤ 2 ^ 64 then top live else 0

theorem foldl_max (l : Blocks) : ∀ a, a ≤ l.foldl (fun a b => Nat.max a (b.1 + b.2)) a ∧ ∀ b ∈ l, b.1 + b.2 ≤ l.foldl (fun a b => Nat.max a (b.1 + b.2)) a := by
  induction l with
  | nil => intro a; exact ⟨Nat.le_refl _, fun b h => by cases h⟩
  | cons x l ih =>
    intro a
    rw [List.foldl_cons]
    obtain ⟨h1, h2⟩ := ih (Nat.max a (x.1 + x.2))
    have h3 : a ≤ Nat.max a (x.1 + x.2) := Nat.le_max_left _ _
    have h4 : x.1 + x.2 ≤ Nat.max a (x.1 + x.2) := Nat.le_max_right _ _
    refine ⟨by omega, fun b hb => ?_⟩
    simp only [List.mem_cons] at hb
    rcases hb with rfl | hb
    · omega
    · exact h2 b hb

theorem bump_ok : Allocator bump := by
  constructor
  · intro live n h b hb
    unfold bump at h ⊢
    split at h
    · rename_i h'
      rw [if_pos h']
      right
      exact (foldl_max live 4096).2 b hb
    · exact absurd rfl h
  · intro live n h
    unfold bump at h ⊢
    split at h
    · rename_i h'
      rw [if_pos h']; exact h'
    · exact absurd rfl h

theorem bump_grown {live new : Blocks} (h : Grown bump live new) : top (live ++ new) = top live + (new.map Prod.snd).sum := by
  induction h with
  | none => simp
  | @more new n h hne ih =>
    have hb : bump (live ++ new) n = top (live ++ new) := by
      unfold bump at hne ⊢
      split at hne
      · rename_i h; rw [if_pos h]
      · exact absurd rfl hne
    rw [hb]
    have : top (live ++ (new ++ [(top (live ++ new), n)])) = top (live ++ new) + n := by
      conv => lhs; unfold top
      rw [← List.append_assoc, List.foldl_append]
      simp only [List.foldl_cons, List.foldl_nil]
      have h : (live ++ new).foldl (fun a b => Nat.max a (b.1 + b.2)) 4096 = top (live ++ new) := rfl
      rw [h]
      exact Nat.max_eq_right (Nat.le_add_right _ _)
    rw [this, ih, List.map_append, List.sum_append]
    simp
    omega

namespace Example
open Verif.Props.Save.Example Verif.Props.Save

/-- the graph of Props/Save.lean with numbers and the text "hi" -/
def bytes : Bytes :=
  setWord (setWord (setWord (setWord (setWord (setWord (setWord (setWord (fun _ => 0) 1000 2008) 1008 2000) 1016 (7 + 2 ^ 32 * 8)) 1024 2008) 2000 5) 2008 2008) 2024 3000) 3000 0x6968

def heap' : Mem := { ptr := word bytes, int := fun _ => 0 }

/-- the blocks of the graph and the destination -/
def blocks : Blocks := [(1000, 32), (2000, 32), (3000, 3), (500, 32)]

theorem reach' : ∀ o, Reach heap' sample (ofFd 1000 (rootFd 3 32)) o → o ∈ objs := fun _ h =>
  reach_closed objs (by decide +kernel) (by decide +kernel) (by decide +kernel) h

theorem single' : Single heap' sample (ofFd 1000 (rootFd 3 32)) := by
  refine single_of_list objs reach' (by decide +kernel) (by decide +kernel) ?_
  intro x hx o ho y hy hc hid hr
  have hfar : ∀ x ∈ objs, ∀ o ∈ (target heap' sample x).toList, ∀ y ∈ objs, o ∈ components sample y → o = { addr := 2008, ty := .struct, td := some 1 } ∧ y ∉ nodeObjs := by
    decide +kernel
  obtain ⟨h1, h2⟩ := hfar x hx o ho y hy hc
  subst h1
  exact h2 (reach_closed nodeObjs (by decide +kernel) (by decide +kernel) (by decide +kernel) hr)

theorem layout : Layout sample := layout_of_list (by decide +kernel) (by decide +kernel)

theorem text_hi : Text bytes 3000 2 := by
  refine ⟨by decide +kernel, ?_⟩
  have : ∀ k ∈ List.range 2, bytes (3000 + k) ≠ 0 := by decide +kernel
  exact fun k hk => this k (List.mem_range.2 hk)

theorem source : Source bytes heap' sample (ofFd 1000 (rootFd 3 32)) blocks 500 10 where
  ptr := fun _ => rfl
  base := by decide +kernel
  single := single'
  parts := by
    have : ∀ x ∈ objs, ∀ y ∈ objs, ∀ c ∈ components sample x, c ∈ components sample y → x = y := by decide +kernel
    exact fun x y c hx hy h1 h2 => this x (reach' x hx) y (reach' y hy) c h1 h2
  cells := by
    have : ∀ x ∈ objs, ∀ o ∈ (target heap' sample x).toList, identified o.ty = true := by decide +kernel
    exact fun x o hx ho => this x (reach' x hx) o (by rw [ho]; simp)
  read := by
    have : ∀ o ∈ objs, covered blocks o.addr (extent sample o) = true := by decide +kernel
    exact fun o ho => this o (reach' o ho)
  ends := by
    have : ∀ x ∈ objs, x.ty = .string → ∀ o ∈ (target heap' sample x).toList, o.addr = 3000 := by decide +kernel
    intro x o hx ht ho
    rw [this x (reach' x hx) ht o (by rw [ho]; simp)]
    exact ⟨2, by decide, text_hi, by decide +kernel⟩
  room := by decide +kernel
  away := by
    have : ∀ o ∈ objs, 500 + extent sample (ofFd 1000 (rootFd 3 32)) ≤ o.addr := by decide +kernel
    exact fun o ho => Or.inl (this o (reach' o ho))
  texts := by
    have : ∀ x ∈ objs, x.ty = .string → ∀ o ∈ (target heap' sample x).toList, o.addr = 3000 := by decide +kernel
    intro x o n hx ht ho _
    rw [this x (reach' x hx) ht o (by rw [ho]; simp)]
    exact Or.inl (by decide +kernel)

/-- the item and the text -/
theorem outer' {o : Obj} (h : Outer heap' sample (ofFd 1000 (rootFd 3 32)) o) : o = { addr := 2000, ty := .struct, td := some 2 } ∨ o = { addr := 3000, ty := .charArray } := by
  obtain ⟨⟨x, hx, hl⟩, h2, h3⟩ := h
  have : ∀ x ∈ objs, ∀ o ∈ (target heap' sample x).toList, o ∈ components sample { addr := 2000, ty := .struct, td := some 2 } ∨
      o = { addr := 2000, ty := .struct, td := some 2 } ∨ o = { addr := 3000, ty := .charArray } := by decide +kernel
  rcases this x (reach' x hx) o (by rw [hl]; simp) with h | h
  · refine absurd h (h3 _ ?_)
    have h1 : Reach heap' sample (ofFd 1000 (rootFd 3 32)) { addr := 1008, ty := .pointer, aux := .struct, td := some 2 } := .part .self (by decide +kernel)
    exact .lead h1 (by decide +kernel)
  · exact h

theorem enough_of {live : Blocks} (hl : top live = 4096) : Enough bump bytes heap' sample (ofFd 1000 (rootFd 3 32)) live := by
  refine ⟨35, ?_, ?_⟩
  · intro new n hg hs
    have ht := bump_grown hg
    unfold bump
    rw [if_pos (by omega)]
    omega
  · intro l hn hl
    have hb : ∀ p ∈ l, p.1 = { addr := 2000, ty := .struct, td := some 2 } ∧ p.2 = 32 ∨ p.1 = { addr := 3000, ty := .charArray } ∧ p.2 = 3 := by
      intro p hp
      obtain ⟨h1, h2⟩ := hl p hp
      rcases outer' h1 with h | h
      · rw [h] at h2
        exact Or.inl ⟨h, h2⟩
      · rw [h] at h2
        obtain ⟨k, h3, h4⟩ := h2
        have := Lemmas.CopyMem.text_unique h4 text_hi
        exact Or.inr ⟨h, by omega⟩
    match l, hn, hb with
    | [], _, _ => simp
    | [a], _, hb => have := hb a (by simp); simp; omega
    | [a, b], hn, hb =>
      have h1 := hb a (by simp)
      have h2 := hb b (by simp)
      simp at hn ⊢
      rcases h1 with h1 | h1 <;> rcases h2 with h2 | h2
      · exact absurd (h1.1.trans h2.1.symm) hn
      · omega
      · omega
      · exact absurd (h1.1.trans h2.1.symm) hn
    | a :: b :: c :: l, hn, hb =>
      have h1 := hb a (by simp)
      have h2 := hb b (by simp)
      have h3 := hb c (by simp)
      simp at hn
      exfalso
      rcases h1 with h1 | h1 <;> rcases h2 with h2 | h2 <;> rcases h3 with h3 | h3
      · exact hn.1.1 (h1.1.trans h2.1.symm)
      · exact hn.1.1 (h1.1.trans h2.1.symm)
      · exact hn.1.2.1 (h1.1.trans h3.1.symm)
      · exact hn.2.1.1 (h2.1.trans h3.1.symm)
      · exact hn.2.1.1 (h2.1.trans h3.1.symm)
      · exact hn.1.2.1 (h1.1.trans h3.1.symm)
      · exact hn.1.1 (h1.1.trans h2.1.symm)
      · exact hn.1.1 (h1.1.trans h2.1.symm)

theorem enough : Enough bump bytes heap' sample (ofFd 1000 (rootFd 3 32)) blocks := enough_of (by decide +kernel)

example := C30_copy_partial types layout root_ok ⟨objs, reach'⟩ source bump_ok enough
example := C30_success_partial types layout root_ok ⟨objs, reach'⟩ source bump_ok

theorem no_root : ∀ x, Reach heap' sample (ofFd 1000 (rootFd 3 32)) x → x.ty = .pointer →
    target heap' sample x ≠ some (ofFd 1000 (rootFd 3 32)) ∧ (untyped x.aux = true → heap'.ptr x.addr ≠ (ofFd 1000 (rootFd 3 32)).addr) := by
  have : ∀ x ∈ objs, x.ty = .pointer →
    target heap' sample x ≠ some (ofFd 1000 (rootFd 3 32)) ∧ (untyped x.aux = true → heap'.ptr x.addr ≠ (ofFd 1000 (rootFd 3 32)).addr) := by decide +kernel
  exact fun x hx => this x (reach' x hx)

example := C30_failure_partial types layout root_ok ⟨objs, reach'⟩ source bump_ok (by decide +kernel) no_root

/-- no memory at all -/
example := C30_failure_partial (alloc := fun _ _ => 0) types layout root_ok ⟨objs, reach'⟩ source ⟨fun _ _ h => absurd rfl h, fun _ _ h => absurd rfl h⟩ (by decide +kernel) no_root

/-- the copy at 500: its item is at 4096, the text at 4128 -/
example : ((mrSave heap' sample 40 1000 (rootFd 3 32)).bind fun r => (copyRecursively bump 10 bytes blocks r.1 500).map fun (ok, m, live) =>
      (ok, live.drop 4, [500, 508, 516, 524, 4096, 4104, 4120].map (word m), [4128, 4129, 4130].map m)) =
    some (true, [(4096, 32), (4128, 3)], [4104, 4096, 7 + 2 ^ 32 * 8, 4104, 5, 4104, 4128], [0x68, 0x69, 0]) := by
  decide +kernel

end Example

/-! ## where the claim fails -/

namespace Deviation
open Verif.Props.Save.Example

/-- `struct name { char * s; void * v; }` -/
def tName : Td := { ty := .struct, size := 16, fields := [{ ty := .string, base := .string, size := 8, offset := 0 }, { ty := .pointer, aux := .void, base := .void, size := 8, offset := 8 }] }

/-- the name at 1000: `s` and `v` lead to the text at 2000 -/
def nameBytes : Bytes := setWord (setWord (setWord (fun _ => 0) 1000 2000) 1008 2000) 2000 0x6968

/-- `struct ring { struct ring * next; char * s; }`: it leads to itself -/
def tRing : Td := { ty := .struct, size := 16, fields := [ptrField 0 .struct 0, { ty := .string, base := .string, size := 8, offset := 8 }] }
def ringBytes : Bytes := setWord (setWord (setWord (fun _ => 0) 1000 1000) 1008 2000) 2000 0x6968

/-- the words at the given addresses after the copy to 500, and the blocks -/
def result (alloc : Blocks → Nat → Nat) (m : Bytes) (tds : List Td) (fd : Fd) (live : Blocks) (l : List Nat) : Option (Bool × Blocks × List Nat) :=
  (mrSave { ptr := word m, int := fun _ => 0 } tds 40 1000 fd).bind fun r => (copyRecursively alloc 10 m live r.1 500).map fun (ok, m, live) => (ok, live, l.map (word m))

end Deviation

open Deviation Verif.Props.Save.Example in
/-- A `void *` to the text of a string: in the copy it leads to the variable that holds the string (500), not to
its text (4096). -/
theorem C30_deviation_void_text : result bump nameBytes [tName] (rootFd 0 16) [(1000, 16), (2000, 3), (500, 16)] [500, 508] =
    some (true, [(1000, 16), (2000, 3), (500, 16), (4096, 3)], [4096, 500]) := by decide +kernel

open Deviation Verif.Props.Save.Example in
/-- The object leads to itself and there is no memory for its string: the destination, which the caller provided, is
released. -/
theorem C30_deviation_frees_destination : result (fun _ _ => 0) ringBytes [tRing] (rootFd 0 16) [(1000, 16), (2000, 3), (500, 16)] [] =
    some (false, [(1000, 16), (2000, 3)], []) := by decide +kernel

open Deviation in
/-- A string that is itself the object copied is not duplicated: the copy leads to the same text. -/
theorem C30_deviation_root_string : result bump nameBytes [] { ty := .string, base := .string, size := 8, nonPersistent := true } [(1000, 16), (2000, 3), (500, 8)] [500] =
    some (true, [(1000, 16), (2000, 3), (500, 8)], [2000]) := by decide +kernel

end Verif.Props.Copy
