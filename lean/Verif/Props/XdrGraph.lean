import Verif.Lemmas.XdrLink
import Verif.Props.Copy
/-!
# C26: object graphs in XDR

`Storable` and `Loaded` are in Spec/XdrGraph.lean, `Graph`, `Layout`, `Allocator` and `Enough` in Spec/Copy.lean.  As
for copies: no unions, no size fields, no arrays of more than one dimension, no opaque data; the object saved is no
pointer, no string and no array, and no pointer leads to a cell that holds a pointer.
-/
namespace Verif.Props.XdrGraph
open Verif.Model Verif.Model.Ptrs Verif.Model.Save Verif.Model.Copy Verif.Model.XdrGraph Verif.Spec.Ptrs Verif.Spec.Save Verif.Spec.Copy Verif.Spec.XdrGraph
  Verif.Lemmas.CopyView Verif.Lemmas.CopyTops Verif.Lemmas.CopyPlace Verif.Lemmas.XdrPlan Verif.Lemmas.XdrForest Verif.Lemmas.XdrLink

variable {alloc : Blocks → Nat → Nat} {m : Bytes} {mem : Mem} {tds : List Td} {live : Blocks} {max : Nat}

/-- Saving the graph at `data` gives a document.  A program with the same types, any allocator and any memory `m0` that
loads the document into the object at `dst` gets a graph of the same shape with the same values, and allocates only what
is part of that graph.  The numbers of nodes and the size of the document are less than 2^32: XDR has no larger ones. -/
theorem C26_round_trip_partial (hT : Types tds) (hL : Layout tds) (hX : Storable tds) {data : Nat} {fd : Fd} (hok : FdOK tds fd) (hfin : Finite mem tds (ofFd data fd))
    (hG : Graph m mem tds (ofFd data fd) live max) {ld : Nat} (hld : ld ≤ 16) (hmax : max < 2 ^ 32)
    {alloc : Blocks → Nat → Nat} (hA : Allocator alloc) {live0 : Blocks} (hE : Enough alloc m mem tds (ofFd data fd) live0) {dst : Nat}
    (hd : covered live0 dst (extent tds (ofFd data fd)) = true ∧ dst ≠ 0 ∧ dst + extent tds (ofFd data fd) ≤ 2 ^ 64) :
    ∃ N, ∀ fuel, N ≤ fuel → ∃ st, mrSave mem tds fuel data fd = some (st, 1) ∧ (st.ptrs.ra.length < 2 ^ 32 →
      ∃ doc, xdrSave ⟨ld, tds, live, m, fuel⟩ st = some (true, doc) ∧ (doc.length < 2 ^ 32 →
        ∀ (m0 : Bytes) (junk : Nat → Bytes) (fuel' : Nat), st.ptrs.ra.length ≤ fuel' →
          ∃ m' new place, xdrLoad ⟨ld, tds, doc, alloc, junk⟩ fuel' m0 live0 dst fd = some (true, m', live0 ++ new) ∧
            ∀ mem' : Mem, (∀ a, mem'.ptr a = word m' a) → Loaded ld m m0 m' mem mem' tds (ofFd data fd) dst live0 new place)) := by
  obtain ⟨N, hN⟩ := view_ok hT hok hfin hG.single
  refine ⟨N + max, fun fuel hf => ?_⟩
  obtain ⟨st, k, n, obj, e, V, _⟩ := hN fuel (by omega)
  obtain ⟨top, htop⟩ := tops_ok V
  refine ⟨st, e, fun hlen => ?_⟩
  have hroot : ofFd data fd = ofFd (ofFd data fd).addr fd := by
    have : (ofFd data fd).addr = data := Lemmas.SaveFinal.object_addr _ _ _ _ _ _
    rw [this]
  have mk : ∀ junk, Plan.OK ⟨ld, m, mem, tds, ofFd data fd, fd, live, max, st, k, n, obj, top, dst, live0, alloc, fuel, junk⟩ := fun junk =>
    ⟨⟨⟨hT, hL, hG, V, htop⟩, hroot, hok⟩, hX, hld, hA, hE, hd, hmax, by show max ≤ fuel; omega, by show n < _; rw [← V.len]; exact hlen⟩
  refine ⟨_, save_all (mk fun _ => fun _ => 0), fun hdoc m0 junk fuel' hf' => ?_⟩
  have H := mk junk
  obtain ⟨m', el, hD⟩ := load_done H m0 (fuel := fuel') (Nat.le_trans H.len_le (V.len ▸ hf')) hdoc
  rw [H.live_eq _ (Nat.le_refl _)] at el
  exact ⟨m', _, _, el, fun mem' hmem' => loaded_ok H hD hmem'⟩

/-- The objects reachable in the loaded graph are the images of those of the graph that was saved. -/
theorem C26_same_shape {ld dst : Nat} {m0 m' : Bytes} {mem' : Mem} {root : Obj} {new : Blocks} {place : Obj → Nat}
    (h : Loaded ld m m0 m' mem mem' tds root dst live new place) (o' : Obj) :
    Reach mem' tds (moved root dst) o' ↔ ∃ o, Reach mem tds root o ∧ o' = moved o (place o) := by
  constructor
  · intro hr
    induction hr with
    | self => exact ⟨root, .self, by rw [h.top]⟩
    | part _ hc ih =>
      obtain ⟨o, h1, rfl⟩ := ih
      rw [h.parts o h1] at hc
      obtain ⟨c, hc1, rfl⟩ := List.mem_map.1 hc
      exact ⟨c, .part h1 hc1, rfl⟩
    | lead _ hc ih =>
      obtain ⟨o, h1, rfl⟩ := ih
      rw [h.lead o h1] at hc
      cases ht : target mem tds o with
      | none => rw [ht] at hc; cases hc
      | some t =>
        rw [ht] at hc
        injection hc with hc
        exact ⟨t, .lead h1 ht, hc.symm⟩
  · rintro ⟨o, hr, rfl⟩
    induction hr with
    | self => rw [h.top]; exact .self
    | @part b c h1 hc ih => exact .part ih (by rw [h.parts b h1]; exact List.mem_map.2 ⟨c, hc, rfl⟩)
    | @lead b c h1 hc ih => exact .lead ih (by rw [h.lead b h1, hc]; rfl)

/-- Two pointers or strings lead to the same object in the loaded graph if and only if they do in the graph that was
saved. -/
theorem C26_sharing {ld dst : Nat} {m0 m' : Bytes} {mem' : Mem} {root : Obj} {new : Blocks} {place : Obj → Nat}
    (h : Loaded ld m m0 m' mem mem' tds root dst live new place) {a b : Obj} (ha : Reach mem tds root a) (hb : Reach mem tds root b) :
    target mem' tds (moved a (place a)) = target mem' tds (moved b (place b)) ↔ target mem tds a = target mem tds b := by
  rw [h.lead a ha, h.lead b hb]
  constructor
  · intro e
    cases h1 : target mem tds a with
    | none =>
      cases h2 : target mem tds b with
      | none => rfl
      | some t => rw [h1, h2] at e; cases e
    | some s =>
      cases h2 : target mem tds b with
      | none => rw [h1, h2] at e; cases e
      | some t =>
        rw [h1, h2] at e
        injection e with e
        rw [h.inj s t (.lead ha h1) (.lead hb h2) e]
  · intro e; rw [e]

/-! ## graphs that can be saved and loaded -/

theorem storable_of_list (h1 : ∀ d ∈ tds, d.size < 2 ^ 32) (h2 : ∀ d ∈ tds, d.ty = .enum → integer d.effective = true)
    (h3 : ∀ d ∈ tds, d.ty = .struct → ∀ f ∈ d.fields, (f.ty ≠ .endAnonUnion ∧ f.ty ≠ .last) ∧ (f.ty = .bitfield →
      f.shift < 8 ∧ 1 ≤ f.width ∧ f.width ≤ 8 * typeSize (valueType tds f) ∧
      (integer (valueType tds f) = true ∨ f.aux = .bool ∨ f.aux = .char ∨ f.aux = .int128 ∨ f.aux = .uint128)))
    (h4 : ∀ d ∈ tds, d.ty = .struct → ∀ i ∈ List.range d.fields.length, ∀ j ∈ List.range d.fields.length, i ≠ j →
      ∀ f ∈ (d.fields[i]?).toList, ∀ g ∈ (d.fields[j]?).toList, f.ty = .bitfield → g.ty = .bitfield →
        8 * f.offset + f.shift + f.width ≤ 8 * g.offset + g.shift ∨ 8 * g.offset + g.shift + g.width ≤ 8 * f.offset + f.shift) : Storable tds := by
  refine ⟨fun t d ht => h1 d (List.mem_of_getElem? ht), fun t d ht => h2 d (List.mem_of_getElem? ht),
    fun t d f ht hd hf => (h3 d (List.mem_of_getElem? ht) hd f hf).1, fun t d f ht hd hf => (h3 d (List.mem_of_getElem? ht) hd f hf).2, ?_⟩
  intro t d i j f g ht hd hi hj hne
  have hi' := (List.getElem?_eq_some_iff.1 hi).1
  have hj' := (List.getElem?_eq_some_iff.1 hj).1
  exact h4 d (List.mem_of_getElem? ht) hd i (List.mem_range.2 hi') j (List.mem_range.2 hj') hne f (by rw [hi]; simp) g (by rw [hj]; simp)

namespace Example
open Verif.Props.Copy Verif.Props.Copy.Example Verif.Props.Save.Example Verif.Props.Save

theorem storable : Storable sample := storable_of_list (by decide +kernel) (by decide +kernel) (by decide +kernel) (by decide +kernel)

/-- the program that loads has a block of 32 bytes at 500 -/
example := C26_round_trip_partial types layout storable root_ok ⟨objs, reach'⟩ source.toGraph (ld := 10) (by decide) (by decide)
  bump_ok (enough_of (live := [(500, 32)]) (by decide +kernel)) (dst := 500) (by decide +kernel)

/-- save the structure at 1000 and load it into 500, where `live0` is in use and the memory is full of 0xAA -/
def run (m : Bytes) (tds : List Td) (fd : Fd) (live live0 : Blocks) (l : List Nat) : Option ((Bool × List Nat) × (Bool × Blocks × List Nat)) := do
  let (st, _) ← mrSave { ptr := word m, int := fun _ => 0 } tds 40 1000 fd
  let (ok, doc) ← xdrSave ⟨10, tds, live, m, 40⟩ st
  let (ok', m', live') ← xdrLoad ⟨10, tds, doc, bump, fun _ _ => 0xBB⟩ 40 (fun _ => 0xAA) live0 500 fd
  some ((ok, doc), (ok', live', l.map (word m')))

/-- The document of the graph of Props/Save.lean, and the graph loaded from it: its item is at 4096, the text at
4128. -/
example : run bytes sample (rootFd 3 32) blocks [(500, 32)] [500, 508, 516, 524, 4096, 4104, 4120, 4128] =
    some ((true, [0, 0, 0, 2, 0, 0, 0, 6, 0, 0, 0, 0, 0, 0, 0, 32, 0, 0, 0, 5, 0, 0, 0, 2, 0, 0, 0, 6, 0, 0, 0, 0, 0, 0, 0, 0, 0, 0, 0, 2, 104, 105, 0, 0,
        0, 0, 0, 8, 0, 0, 0, 7, 0, 0, 0, 8, 0, 0, 0, 2, 0, 0, 0, 6]),
      true, [(500, 32), (4096, 32), (4128, 3)], [4104, 4096, 7 + 2 ^ 32 * 8, 4104, 5, 4104, 4128, 0xAAAAAAAAAA006968]) := by
  decide +kernel

/-- `enum level : int16_t` -/
def tLevel : Td := { ty := .enum, size := 2, effective := .int16 }

def bitField (aux : MrType) (offset shift width : Nat) : Fd := { ty := .bitfield, aux := aux, base := aux, size := 4, offset := offset, shift := shift, width := width }

/-- `struct mixed { unsigned a : 3; int b : 9; enum level e; char s[8]; double d; void * v; }` -/
def tMixed : Td := { ty := .struct, size := 32, fields := [bitField .uint32 0 0 3, bitField .int32 0 3 9, { ty := .enum, aux := .int16, base := .enum, td := some 0, size := 2, offset := 4 },
  { ty := .charArray, base := .charArray, size := 8, offset := 8 }, { ty := .double, base := .double, size := 8, offset := 16 },
  { ty := .pointer, aux := .void, base := .void, size := 8, offset := 24 }] }

def mixed : List Td := [tLevel, tMixed]

/-- `a = 5`, `b = -2`, `e = -3`, `s = "abc"`, `v` leads to `d` -/
def mixedBytes : Bytes := setWord (setWord (setWord (setWord (fun _ => 0) 1000 (5 + 8 * 510 + 2 ^ 32 * 0xFFFD)) 1008 0x636261) 1016 0x4045000000000000) 1024 1016

def mixedHeap : Mem := { ptr := word mixedBytes, int := fun _ => 0 }

def mixedObjs : List Obj :=
  [{ addr := 1000, ty := .struct, td := some 1 }, { addr := 1000, ty := .bitfield }, { addr := 1004, ty := .enum, td := some 0 }, { addr := 1008, ty := .charArray },
   { addr := 1016, ty := .double }, { addr := 1024, ty := .pointer, aux := .void }]

theorem mixed_types : Types mixed := by
  refine ⟨?_, ?_, (fun t d ht => have : ∀ d ∈ mixed, d.ty = .enum → typeSize d.effective ≤ d.size := by decide +kernel
    this d (List.mem_of_getElem? ht)), ⟨fun t => t, ?_⟩⟩
  · intro t d ht hd f hf
    have hcases : t = 0 ∨ t = 1 := by
      have := (List.getElem?_eq_some_iff.1 ht).1
      simp [mixed] at this; omega
    rcases hcases with rfl | rfl
    · cases ht; cases hd
    · cases ht
      simp only [tMixed, List.mem_cons, List.not_mem_nil, or_false] at hf
      rcases hf with rfl | rfl | rfl | rfl | rfl | rfl
      · exact ⟨⟨rfl, rfl, (fun h => by cases h), trivial⟩, rfl⟩
      · exact ⟨⟨rfl, rfl, (fun h => by cases h), trivial⟩, rfl⟩
      · exact ⟨⟨rfl, rfl, (fun _ => rfl), ⟨0, tLevel, rfl, rfl, rfl⟩, by decide⟩, rfl⟩
      · exact ⟨⟨rfl, rfl, (fun h => by cases h), trivial⟩, rfl⟩
      · exact ⟨⟨rfl, rfl, (fun _ => rfl), trivial⟩, rfl⟩
      · exact ⟨⟨rfl, rfl, (fun h => by cases h), Or.inl rfl⟩, rfl⟩
  · intro t d ht _
    have : ∀ d ∈ mixed, 0 < d.size := by decide +kernel
    exact this d (List.mem_of_getElem? ht)
  · intro t d f t' ht hd hf hty htd
    have : ∀ d ∈ mixed, ∀ f ∈ d.fields, ¬ (f.ty = .struct ∨ f.ty = .array ∧ f.aux = .struct) := by decide +kernel
    exact absurd hty (this d (List.mem_of_getElem? ht) f hf)

theorem mixed_reach : ∀ o, Reach mixedHeap mixed (ofFd 1000 (rootFd 1 32)) o → o ∈ mixedObjs := fun _ h =>
  reach_closed mixedObjs (by decide +kernel) (by decide +kernel) (by decide +kernel) h

theorem mixed_target : ∀ x ∈ mixedObjs, target mixedHeap mixed x = none := by decide +kernel

theorem mixed_none : ∀ x, Reach mixedHeap mixed (ofFd 1000 (rootFd 1 32)) x → target mixedHeap mixed x = none :=
  fun x hx => mixed_target x (mixed_reach x hx)

theorem mixed_graph : Graph mixedBytes mixedHeap mixed (ofFd 1000 (rootFd 1 32)) [(1000, 32)] 1 where
  ptr := fun _ => rfl
  base := by decide +kernel
  single := single_of_list mixedObjs mixed_reach (by decide +kernel) (by decide +kernel) (fun x hx o ho => by rw [mixed_target x hx] at ho; cases ho)
  parts := by
    have : ∀ x ∈ mixedObjs, ∀ y ∈ mixedObjs, ∀ c ∈ components mixed x, c ∈ components mixed y → x = y := by decide +kernel
    exact fun x y c hx hy h1 h2 => this x (mixed_reach x hx) y (mixed_reach y hy) c h1 h2
  cells := fun x o hx ho => by rw [mixed_none x hx] at ho; cases ho
  read := by
    have : ∀ o ∈ mixedObjs, covered [(1000, 32)] o.addr (extent mixed o) = true := by decide +kernel
    exact fun o ho => this o (mixed_reach o ho)
  ends := fun x o hx _ ho => by rw [mixed_none x hx] at ho; cases ho

theorem mixed_enough : Enough bump mixedBytes mixedHeap mixed (ofFd 1000 (rootFd 1 32)) [(500, 32)] := by
  refine ⟨0, ?_, ?_⟩
  · intro new n hg hs
    have ht := bump_grown hg
    have : top [(500, 32)] = 4096 := by decide +kernel
    unfold bump
    rw [if_pos (by omega)]
    omega
  · intro l _ hl
    cases l with
    | nil => simp
    | cons p l =>
      obtain ⟨x, hx, hp⟩ := (hl p (by simp)).1.lead
      rw [mixed_none x hx] at hp
      cases hp

/-- bit fields, an enum, a character array and a `void *` -/
example := C26_round_trip_partial mixed_types (layout_of_list (by decide +kernel) (by decide +kernel))
  (storable_of_list (by decide +kernel) (by decide +kernel) (by decide +kernel) (by decide +kernel)) (fd := rootFd 1 32) ⟨rfl, rfl, (fun _ => rfl), ⟨1, tMixed, rfl, rfl, rfl⟩⟩
  ⟨mixedObjs, mixed_reach⟩ mixed_graph (ld := 10) (by decide) (by decide) bump_ok mixed_enough (dst := 500) (by decide +kernel)

/-- the bits and bytes that belong to no field are kept -/
example : run mixedBytes mixed (rootFd 1 32) [(1000, 32)] [(500, 32)] [500, 508, 516, 524] =
    some ((true, [0, 0, 0, 5, 255, 255, 255, 254, 255, 255, 255, 253, 0, 0, 0, 4, 97, 98, 99, 0, 64, 69, 0, 0, 0, 0, 0, 0, 0, 0, 0, 3, 0, 0, 0, 6]),
      true, [(500, 32)], [0xAAAAFFFDAAAAAFF5, 0xAAAAAAAA00636261, 0x4045000000000000, 516]) := by
  decide +kernel

end Example

end Verif.Props.XdrGraph
