import Verif.Lemmas.XdrSafe
import Verif.Props.XdrGraph
/-!
# C51: arbitrary documents in XDR

The document comes from anywhere.  Loading it ends after finitely many steps, and it reads and writes only what it may.
An access outside of the blocks in use is undefined in the model (`none`), so is a loop that does not end.

Two kinds of types are excluded because the claim is false for them: arrays (`C51_deviation_array`) and character
arrays (`C25_deviation_char_array_overrun`).  Unions and fields with a size field are not modelled.  The references of a
document are set after everything was loaded; a content reference to an object of less than eight bytes is not safe
(`C51_deviation_content_reference`).
-/
namespace Verif.Props.XdrSafe
open Verif.Model Verif.Model.Ptrs Verif.Model.Save Verif.Model.Copy Verif.Model.Xdr Verif.Model.XdrGraph Verif.Spec.Save Verif.Spec.Copy Verif.Spec.XdrGraph
  Verif.Lemmas.XdrSafe Verif.Lemmas.CopyMem

/-- nothing but the `n` bytes at `dst` and the blocks `new` was changed -/
def Confined (m m' : Bytes) (dst n : Nat) (new : Blocks) : Prop :=
  ∀ a, ¬ (dst ≤ a ∧ a < dst + n) → (∀ b ∈ new, ¬ (b.1 ≤ a ∧ a < b.1 + b.2)) → m' a = m a

theorem confined_of {dst n : Nat} {live0 new : Blocks} {m m' : Bytes}
    (h : ∀ a, covered (home dst n live0 (live0 ++ new)) a 1 = false → m' a = m a) : Confined m m' dst n new := by
  intro a h1 h2
  refine h a ?_
  cases e : covered (home dst n live0 (live0 ++ new)) a 1 with
  | false => rfl
  | true =>
    unfold home at e
    rw [List.drop_left, covered_mem] at e
    obtain ⟨b, hb, h3⟩ := e
    rcases List.mem_cons.1 hb with rfl | hb
    · exact absurd ⟨h3.1, by simp only at h3; omega⟩ h1
    · exact absurd ⟨h3.1, by omega⟩ (h2 b hb)

/-- Loading any bytes `buf` into the object at `dst` comes to an end: either the document is refused or it is loaded
(`ok`).  All accesses are to blocks in use.  Only the object and blocks given by the allocator are changed.  If every
content reference is to a place where eight bytes may be read then this is also true of setting the references. -/
theorem C51_any_document_partial {tds : List Td} (hT : Types tds) (hL : Layout tds) (hX : Storable tds)
    (hflat : ∀ (t : Nat) (d : Td) (f : Fd), tds[t]? = some d → d.ty = .struct → f ∈ d.fields → f.ty ≠ .array ∧ f.ty ≠ .charArray)
    {fd : Fd} (hok : FdOK tds fd) (hfd : fd.ty ≠ .array ∧ fd.ty ≠ .charArray ∧ fd.ty ≠ .bitfield) {ld : Nat} (hld : ld ≤ 16)
    (buf : List Nat) (hb : ∀ b ∈ buf, b < 256) (hlen : buf.length < 2 ^ 32 - 1) (alloc : Blocks → Nat → Nat) (junk : Nat → Bytes)
    {live0 : Blocks} {dst : Nat} (hd : covered live0 dst (elementSize tds fd.ty fd.td) = true) :
    ∃ N, ∀ fuel, N ≤ fuel → ∀ m : Bytes, ∃ ok s new,
      loadInner ⟨ld, tds, buf, alloc, junk⟩ fuel 0 { m := m, live := live0, nodes := [{}], pos := 0 } (dst, fd) = some (ok, s) ∧
      s.live = live0 ++ new ∧ Grown alloc live0 new ∧ Confined m s.m dst (elementSize tds fd.ty fd.td) new ∧
      ((∀ x ∈ s.nodes, x.flags.testBit 3 = true → ∀ t, s.nodes[x.first]? = some t → t.addr ≠ 0 → covered s.live t.addr 8 = true) →
        ∃ ok' m' new', xdrLoad ⟨ld, tds, buf, alloc, junk⟩ fuel m live0 dst fd = some (ok', m', live0 ++ new') ∧
          Grown alloc live0 new' ∧ Confined m m' dst (elementSize tds fd.ty fd.td) new') := by
  obtain ⟨rank, hrank⟩ := hT.nested
  obtain ⟨R, hR⟩ := rank_bound rank tds.length
  have K : Known tds := ⟨hT, hL, hX, hflat⟩
  have hg : Good tds fd := by
    obtain ⟨a1, _, _, a4⟩ := hok
    refine ⟨a1, ?_⟩
    revert a4
    cases e : fd.ty <;> intro a4 <;> first | exact trivial | exact a4 | exact a4.1 | exact (absurd e hfd.1) | exact (absurd e hfd.2.1) | exact (absurd e hfd.2.2) | skip
    rcases a4 with h | ⟨b, h1, h2, _⟩
    · exact .inl h
    · exact .inr ⟨b, h1, h2⟩
  refine ⟨cost rank R buf.length 0 fd + 1, fun fuel hf m => ?_⟩
  have hI : Inv ⟨ld, tds, buf, alloc, junk⟩ dst (elementSize tds fd.ty fd.td) live0 m { m := m, live := live0, nodes := [{}], pos := 0 } :=
    ⟨List.prefix_rfl, by rw [List.drop_length]; exact .none, Nat.zero_le _, (by
      intro x hx hty
      simp only [List.mem_singleton] at hx
      subst hx
      rcases hty with h | h <;> cases h), fun _ _ => rfl⟩
  have hroot : covered (home dst (elementSize tds fd.ty fd.td) live0 live0) dst (need ld tds fd) = true := by
    rw [covered_mem]
    have := need_element (ld := ld) hld hT hg hfd.2.2
    exact ⟨_, List.mem_cons_self, Nat.le_refl _, by simp only; omega⟩
  obtain ⟨ok, s, e, hs⟩ := load_safe (E := ⟨ld, tds, buf, alloc, junk⟩) hlen hld hd hb K hR hrank fuel 0 { m := m, live := live0, nodes := [{}], pos := 0 } (dst, fd) hI
    ⟨hg, hroot, hf⟩
  obtain ⟨new, hnew⟩ := hs.inv.live
  have hgr := hs.inv.grown
  rw [← hnew, List.drop_left] at hgr
  have hkept := hs.inv.kept
  rw [← hnew] at hkept
  refine ⟨ok, s, new, e, hnew.symm, hgr, confined_of hkept, fun href => ?_⟩
  by_cases h0 : dst = 0
  · refine ⟨false, m, [], ?_, .none, fun a _ _ => rfl⟩
    unfold xdrLoad
    rw [if_pos h0, List.append_nil]
  · obtain ⟨ok', m', e', hm'⟩ := crossrefs_safe (m0 := m) hd (List.prefix_append live0 new) (nodes := s.nodes)
      (fun x hx t h1 h2 h3 => by rw [hnew]; exact href x hx h1 t h2 h3) s.nodes.tail s.m (fun x hx => List.mem_of_mem_tail hx)
      (fun x hx hty => by rw [hnew]; exact hs.inv.cells x (List.mem_of_mem_tail hx) hty) hkept
    refine ⟨ok && ok', m', new, ?_, hgr, confined_of hm'⟩
    unfold xdrLoad
    rw [if_neg h0, e]
    rw [hnew] at e'
    simp only [e', Option.bind_eq_bind, Option.bind_some, hnew]

/-- With an allocator that gives only memory that is not in use, no other object of the program is changed. -/
theorem C51_other_objects {alloc : Blocks → Nat → Nat} (hA : Allocator alloc) {live0 new : Blocks} (hg : Grown alloc live0 new) {m m' : Bytes} {dst n : Nat}
    (hc : Confined m m' dst n new) {b : Nat × Nat} (hb : b ∈ live0) {a : Nat} (ha : b.1 ≤ a ∧ a < b.1 + b.2) (hd : ¬ (dst ≤ a ∧ a < dst + n)) : m' a = m a := by
  refine hc a hd ?_
  clear hc
  induction hg with
  | none => intro c hc; cases hc
  | @more new n hg hne ih =>
    intro c hc
    rcases List.mem_append.1 hc with hc | hc
    · exact ih c hc
    · simp only [List.mem_singleton] at hc
      subst hc
      have := hA.fresh _ n hne b (by simp [hb])
      unfold Apart at this
      simp only
      omega

/-! ## examples and what goes wrong -/

namespace Example
open Verif.Props.Copy Verif.Props.Copy.Example Verif.Props.Save.Example Verif.Props.Save Verif.Props.XdrGraph

/-- `struct two { int * p; int * q; }` -/
def tTwo : Td := { ty := .struct, size := 16, fields := [ptrField 0 .int32 0, ptrField 8 .int32 0] }

/-- `int`, `struct node`, `struct item` and `struct two` -/
def records : List Td := [tInt, tNode, tItem, tTwo]

theorem records_types : Types records := by
  refine ⟨?_, ?_, (fun t d ht => have : ∀ d ∈ records, d.ty = .enum → typeSize d.effective ≤ d.size := by decide +kernel
    this d (List.mem_of_getElem? ht)), ⟨fun t => t, ?_⟩⟩
  · intro t d ht hd f hf
    have hcases : t = 0 ∨ t = 1 ∨ t = 2 ∨ t = 3 := by
      have := (List.getElem?_eq_some_iff.1 ht).1
      simp [records] at this; omega
    have hI : ∀ o, FdOK records (intField o) ∧ (intField o).nonPersistent = false := fun o => ⟨⟨rfl, rfl, (fun _ => rfl), trivial⟩, rfl⟩
    have hP : ∀ o ty t d, records[t]? = some d → d.ty = ty → plain ty = true → FdOK records (ptrField o ty t) ∧ (ptrField o ty t).nonPersistent = false := fun o ty t d h1 h2 h3 =>
      ⟨⟨rfl, rfl, (fun h => by cases h), Or.inr ⟨ty, ⟨t, d, rfl, h1, h2⟩, Or.inl ⟨rfl, h3⟩, fun _ => rfl⟩⟩, rfl⟩
    rcases hcases with rfl | rfl | rfl | rfl
    · cases ht; cases hd
    · cases ht
      simp only [tNode, List.mem_cons, List.not_mem_nil, or_false] at hf
      rcases hf with rfl | rfl
      · exact hP 0 .struct 1 tNode rfl rfl rfl
      · exact hI 8
    · cases ht
      simp only [tItem, List.mem_cons, List.not_mem_nil, or_false] at hf
      rcases hf with rfl | rfl | rfl
      · exact hI 0
      · exact ⟨⟨rfl, rfl, (fun _ => rfl), ⟨1, tNode, rfl, rfl, rfl⟩⟩, rfl⟩
      · exact ⟨⟨rfl, rfl, (fun _ => rfl), trivial⟩, rfl⟩
    · cases ht
      simp only [tTwo, List.mem_cons, List.not_mem_nil, or_false] at hf
      rcases hf with rfl | rfl
      · exact hP 0 .int32 0 tInt rfl rfl rfl
      · exact hP 8 .int32 0 tInt rfl rfl rfl
  · intro t d ht _
    have : ∀ d ∈ records, 0 < d.size := by decide +kernel
    exact this d (List.mem_of_getElem? ht)
  · intro t d f t' ht hd hf hty htd
    have : ∀ t ∈ List.range 4, ∀ d ∈ (records[t]?).toList, ∀ f ∈ d.fields, (f.ty = .struct ∨ f.ty = .array ∧ f.aux = .struct) → f.td.all (· < t) = true := by decide +kernel
    have h4 := (List.getElem?_eq_some_iff.1 ht).1
    have := this t (List.mem_range.2 h4) d (by rw [ht]; simp) f hf hty
    rw [htd] at this
    simpa using this

/-- any document is loaded safely into the `struct item` at 500, and so for the other types -/
example (buf : List Nat) (hb : ∀ b ∈ buf, b < 256) (hlen : buf.length < 2 ^ 32 - 1) :=
  C51_any_document_partial records_types (layout_of_list (by decide +kernel) (by decide +kernel))
    (storable_of_list (by decide +kernel) (by decide +kernel) (by decide +kernel) (by decide +kernel))
    (fun t d f ht hd hf => have : ∀ d ∈ records, ∀ f ∈ d.fields, f.ty ≠ .array ∧ f.ty ≠ .charArray := by decide +kernel
      this d (List.mem_of_getElem? ht) f hf)
    (fd := rootFd 2 32) ⟨rfl, rfl, (fun _ => rfl), ⟨2, tItem, rfl, rfl, rfl⟩⟩ (by decide) (ld := 10) (by decide) buf hb hlen bump (fun _ _ => 0)
    (live0 := [(500, 32)]) (dst := 500) (by decide +kernel)

/-- load a document into the object of 32 bytes at 500 -/
def load (tds : List Td) (t : Nat) (doc : List Nat) : Option (Bool × Blocks × List Nat) := do
  let (ok, m, live) ← xdrLoad ⟨10, tds, doc, bump, fun _ _ => 0⟩ 20 (fun _ => 0) [(500, 32)] 500 (rootFd t 32)
  some (ok, live, [500, 508, 516, 524].map (word m))

/-- A document nobody has saved: the node leads to a list of two nodes, of which the first leads to itself, with a
reference of the string to a number. -/
example : load records 2 (be32 7 ++ be32 0 ++ be32 32 ++ be32 2 ++ be32 5 ++ be32 1 ++ be32 1 ++ be32 2 ++ be32 9 ++ be32 2 ++ be32 2) =
    some (true, [(500, 32), (4096, 32)], [7, 4096, 9, 500]) := by
  decide +kernel

/-- documents that are refused: the end is missing, the list is empty, a reference to a node that is not there -/
example : (load records 2 (be32 7 ++ be32 0 ++ be32 32 ++ be32 2 ++ be32 5)).map (·.1) = some false ∧ (load records 2 (be32 7 ++ be32 0 ++ be32 15)).map (·.1) = some false ∧
    (load records 2 (be32 7 ++ be32 2 ++ be32 100 ++ be32 9 ++ be32 1)).map (·.1) = some false := by decide +kernel

/-- **Deviation.** `struct pair` has an array `int a[2]` of eight bytes.  The length of an array in the document is not
compared with the size of the array (src/xdr.c:909–929): a document that says it has 20 bytes makes the loader write
behind the end of the structure at 500.  The one with eight bytes is loaded. -/
theorem C51_deviation_array :
    load sample 3 (be32 1 ++ be32 1 ++ be32 8 ++ be32 7 ++ be32 8 ++ be32 1) = some (true, [(500, 32)], [0, 0, 7 + 2 ^ 32 * 8, 0]) ∧
    load sample 3 (be32 1 ++ be32 1 ++ be32 20 ++ be32 7 ++ be32 8 ++ be32 9 ++ be32 10 ++ be32 11 ++ be32 1) = none := by
  decide +kernel

/-- **Deviation.** The first pointer leads to an `int` that was allocated, the second is a reference to it.  If it is a
content reference then eight bytes are read from the block of four (src/xdr.c:265–276). -/
theorem C51_deviation_content_reference :
    load records 3 (be32 0 ++ be32 4 ++ be32 7 ++ be32 2 ++ be32 3) = some (true, [(500, 32), (4096, 4)], [4096, 4096, 0, 0]) ∧
    load records 3 (be32 0 ++ be32 4 ++ be32 7 ++ be32 8 ++ be32 3) = none := by
  decide +kernel

end Example
end Verif.Props.XdrSafe
