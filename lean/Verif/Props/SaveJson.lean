import Verif.Lemmas.JsonFits
import Verif.Props.LoadFits
import Verif.Props.XdrGraph
/-!
# C54: object graphs in JSON

`Printable` and `Restored` are in Spec/SaveJson.lean, `Loaded` in Spec/XdrGraph.lean, `Graph` and `Layout` in Spec/Copy.lean, `Fields`,
`BitsApart`, `Destination` and `Released` in Spec/Load.lean.  As for copies and XDR: no unions, no size fields, no arrays of more
than one dimension, no opaque data; the object saved is no pointer, no string and no array, and no pointer leads to a cell
that holds a pointer.
-/
namespace Verif.Props.SaveJson
open Verif.Model Verif.Model.Ptrs Verif.Model.Save Verif.Spec.Ptrs Verif.Spec.Save Verif.Spec.SaveJson Verif.Spec.Json Verif.Model.SaveJson
  Verif.Lemmas.CopyView Verif.Lemmas.CopyTops Verif.Lemmas.CopyPlace Verif.Lemmas.XdrPlan Verif.Lemmas.XdrFit Verif.Lemmas.JsonPruned Verif.Lemmas.JsonGraph
open Verif.Model.Copy (Bytes Blocks covered word)
open Verif.Spec.Copy (Layout Graph Allocator extent Needs)
open Verif.Spec.LoadFits (Plenty)
open Verif.Spec.XdrGraph (Loaded)
open Verif.Spec.Load (Fields BitsApart Destination Released)
open Verif.Model.Json (Loads)

section
variable {m : Bytes} {mem : Mem} {tds : List Td} {live : Blocks} {max : Nat} {known : List Nat → Bool} {K : Codec}

/-- what is read from the document of a saved graph -/
theorem read_doc {P : Plan} (H : P.Core) (hF : Fields P.tds) (hP : Printable known P.tds) (hR : Restored K P.ld P.m P.mem P.tds P.root) (hld : P.ld ≤ 16) (hmax : P.max ≤ P.fuel)
    {ra' : List Pd} {k' : Forest} (R : Pruned P ra' k') (hs : (1 :: k'.nodes).length < 2 ^ 32) :
    ∃ text ptrs data, save K (Lemmas.XdrNode.src P) P.st = some text ∧ Loads known text ptrs data ∧ Read K P ra' k' ptrs data := by
  obtain ⟨text, ptrs, data, e1, e2, e3, e4, e5, e6⟩ := Props.Json.C43_read_back known ra' (infos K P) k' R.rep R.nodup (writable H hF hP hR hld hmax R hs)
  refine ⟨text, ptrs, data, ?_, e2, e3, e4, e5, e6, ?_, ?_⟩
  · unfold save
    rw [R.removed]
    exact e1
  · obtain ⟨_, _, _, h1, _⟩ := Lemmas.LoadJson.loads_tree e2
    rw [h1]; rfl
  · obtain ⟨_, _, _, _, h2⟩ := Lemmas.LoadJson.loads_tree e2
    rw [h2]; rfl

/-- Saving the graph at `data` in JSON gives a text that the parser accepts.  A program with the same types, any allocator
and any memory `m0` that loads the text into the object at `dst` gets a graph of the same shape with the same values,
and allocates only what is part of that graph; if it fails, everything is released.  It does not fail if the floating point
numbers and functions can be converted and there is memory for as many blocks as there are nodes, each as large as the largest object.  There are less than 2^32 nodes: larger numbers are no references. -/
theorem C54_round_trip_partial (hT : Types tds) (hL : Layout tds) (hF : Fields tds) (hB : BitsApart tds) (hP : Printable known tds)
    {data : Nat} {fd : Fd} (hok : FdOK tds fd) (hfin : Finite mem tds (ofFd data fd)) (hG : Graph m mem tds (ofFd data fd) live max)
    {ld : Nat} (hld : ld ≤ 16) (hR : Restored K ld m mem tds (ofFd data fd)) :
    ∃ N, ∀ fuel, N ≤ fuel → ∃ st, mrSave mem tds fuel data fd = some (st, 1) ∧ (st.ptrs.ra.length < 2 ^ 32 →
      ∃ text, save K ⟨ld, tds, live, m, fuel⟩ st = some text ∧ (∃ ptrs doc, Loads known text ptrs doc) ∧
        ∀ (ptrs : Ptrs) (doc : List Json.Loaded), Loads known text ptrs doc →
          ∀ (alloc : Blocks → Nat → Nat) (table : Bool) (m0 : Bytes) (live0 : Blocks) (dst : Nat), Allocator alloc → (∀ b ∈ live0, 0 < b.2) →
            Destination tds m0 live0 dst fd → dst ≠ 0 →
            ∃ ok s, Load.load (LoadJson.env tds ptrs doc (conv K doc) alloc table) m0 live0 dst fd = some (ok, s) ∧
              (ok = false → Released m0 live0 dst fd.size s) ∧
              (ok = true → ∃ new place, s.live = live0 ++ new ∧
                ∀ mem' : Mem, (∀ a, mem'.ptr a = word s.m a) → Loaded ld m m0 s.m mem mem' tds (ofFd data fd) dst live0 new place) ∧
              ∀ size, Accepted K m mem tds (ofFd data fd) → (∀ o n, Outer mem tds (ofFd data fd) o → Needs m tds o n → n ≤ size) →
                Plenty alloc live0 st.ptrs.ra.length size → table = true → ok = true) := by
  obtain ⟨N, hN⟩ := view_ok hT hok hfin hG.single
  refine ⟨N + max, fun fuel hf => ?_⟩
  obtain ⟨st, k, n, obj, e, V, _⟩ := hN fuel (by omega)
  obtain ⟨top, htop⟩ := tops_ok V
  refine ⟨st, e, fun hlen => ?_⟩
  have hroot : ofFd data fd = ofFd (ofFd data fd).addr fd := by
    have : (ofFd data fd).addr = data := Lemmas.SaveFinal.object_addr _ _ _ _ _ _
    rw [this]
  have mk : ∀ dst live0 alloc, Plan.Core ⟨ld, m, mem, tds, ofFd data fd, fd, live, max, st, k, n, obj, top, dst, live0, alloc, fuel, fun _ _ => 0⟩ := fun _ _ _ =>
    ⟨⟨hT, hL, hG, V, htop⟩, hroot, hok⟩
  have hmax : max ≤ fuel := by omega
  have size : ∀ {P : Plan} {ra' k'}, P.Core → Pruned P ra' k' → (1 :: k'.nodes).length + 1 ≤ P.n := by
    intro P ra' k' H R
    have h1 := Lemmas.Dfs.nodup_len (l := 0 :: P.N) (n := P.n) (List.nodup_cons.2 ⟨fun h => by have := H.range h; omega, H.C.V.F.nodup⟩) (fun x hx => by
      rcases List.mem_cons.1 hx with rfl | hx
      · have := H.range (i := 1) (List.mem_cons_self ..); omega
      · exact (H.range hx).2)
    have := R.len
    rw [List.length_cons] at h1
    omega
  have hn : n < 2 ^ 32 := V.len ▸ hlen
  obtain ⟨ra', k', R⟩ := pruned (mk 0 [] (fun _ _ => 0))
  have hs : (1 :: k'.nodes).length + 1 ≤ n := size (mk 0 [] (fun _ _ => 0)) R
  obtain ⟨text, ptrs, doc, e1, e2, D⟩ := read_doc (K := K) (mk 0 [] (fun _ _ => 0)) hF hP hR hld hmax R (by omega)
  refine ⟨text, e1, ⟨ptrs, doc, e2⟩, fun ptrs' doc' e2' alloc table m0 live0 dst hA hb hD hd0 => ?_⟩
  obtain ⟨rfl, rfl⟩ := Props.Json.C43_one_meaning known text _ _ _ _ e2 e2'
  have H := mk dst live0 alloc
  have R : Pruned ⟨ld, m, mem, tds, ofFd data fd, fd, live, max, st, k, n, obj, top, dst, live0, alloc, fuel, fun _ _ => 0⟩ ra' k' := ⟨R.removed, R.without, R.rep, R.nodup, R.sub, R.len, R.ids, R.node, R.gone⟩
  have D : Read K ⟨ld, m, mem, tds, ofFd data fd, fd, live, max, st, k, n, obj, top, dst, live0, alloc, fuel, fun _ _ => 0⟩ ra' k' ptrs doc := ⟨D.lenR, D.lenD, D.rep, D.node, D.zero, D.zeroD⟩
  have hU := D.unrepeated H hF R
  have hI := D.numbers H hF hP hR hld hmax R (by omega)
  obtain ⟨t1, t2, t3, t4, t5⟩ := Props.Load.json_ok e2 (by rw [D.lenR]; omega) hU hI (E := LoadJson.env tds ptrs doc (conv K doc) alloc table) rfl
  have T := D.tells (alloc := alloc) (table := table) H hF hP hR hld hmax R (by omega) t1
  obtain ⟨ok, s, g1, g2, g3⟩ := Props.LoadSays.C53_references_partial (E := LoadJson.env tds ptrs doc (conv K doc) alloc table) hT hL hF hB t1 t2 t3 t4 hA hb hD t5 (Lemmas.LoadGraph.content H hF T hd0)
  refine ⟨ok, s, g1, g2, fun h => ?_, fun size hacc hsz hM htab => ?_⟩
  rotate_left
  · have S : Lemmas.LoadStep.Setup (LoadJson.env tds ptrs doc (conv K doc) alloc table) dst fd.size live0 := ⟨⟨hT, hL, hF⟩, t1, t3, t4, hA, hD.space.1, hb, t5⟩
    have X := D.easy (alloc := alloc) (table := table) H hF hP hR hld hmax R (by omega) hacc hsz
    have hl : ptrs.ra.length ≤ st.ptrs.ra.length := by rw [D.lenR, V.len]; omega
    obtain ⟨s1, e1, _⟩ := Props.LoadFits.fill_goes S hD t2 (fun new n h1 h2 h3 h4 h5 => hM new n h1 (Nat.lt_of_lt_of_le h2 hl) h3 h4 h5)
      (Lemmas.GraphFits.fits H T t1 X) (Lemmas.GraphFits.root T.toListed) hd0
    exact Props.LoadFits.load_true htab e1 g1
  obtain ⟨new, place, type, n1, n2, n3, n4⟩ := g3 h
  have hfs : fd.size = extent tds (ofFd data fd) := by
    have h1 : fd.ty = (ofFd data fd).ty := (Lemmas.SaveFinal.object_ty _ _ _ _ _ _).symm
    rw [hok.2.2.1 (by rw [h1]; exact hG.base.1), Lemmas.LoadGraph.elementSize_of tds data _ (by rw [h1]; exact hG.base.1)]
    unfold extent
    rw [if_pos hG.base.1]
  have hspace := hD.space
  rw [hfs] at hspace
  exact ⟨new, _, n1, fun mem' hmem' => Lemmas.LoadedOf.loaded_of H (Lemmas.LoadGraph.image ⟨H, hF, T, n2, hd0, hld, hA, n3, hspace, n4⟩) hmem'⟩

end

namespace Example
open Verif.Props.Copy Verif.Props.Save Verif.Spec.XdrGraph Verif.Spec
open Verif.Props.Save.Example (tInt intField ptrField rootFd)
open Verif.Props.XdrGraph.Example (tLevel bitField)
open Verif.Props.Load.Example (named tItem object mem elt str int neg ptrs)
open Verif.Lemmas.JsonLoad
open Verif.Model.Copy (setWord)
open Verif.Spec.Copy (Text span)

/-- `struct all { struct item * p; char * t; int * q; unsigned a : 3; int b : 9; enum level e; bool f; char c; char s[8]; double d; void * v; int * z; }` -/
def tAll : Td := { ty := .struct, size := 64, fields := [named "p" (ptrField 0 .struct 1), named "t" { ty := .string, size := 8, offset := 8 }, named "q" (ptrField 16 .int32 0),
  named "a" (bitField .uint32 24 0 3), named "b" (bitField .int32 24 3 9), named "e" { ty := .enum, aux := .int16, base := .enum, td := some 2, size := 2, offset := 28 },
  named "f" { ty := .bool, base := .bool, size := 1, offset := 30 }, named "c" { ty := .char, base := .char, size := 1, offset := 31 },
  named "u" { ty := .charArray, base := .charArray, size := 8, offset := 32 }, named "d" { ty := .double, base := .double, size := 8, offset := 40 },
  named "v" { ty := .pointer, aux := .void, base := .void, size := 8, offset := 48 }, named "z" (ptrField 56 .int32 0)] }

def types : List Td := [tInt, tItem, tLevel, tAll]

/-- `p` leads to the item `{"hi", 5}` at 2000, `t` to its text, `q` to its number; `a = 5`, `b = -2`, `e = -3` (whose name is `LOW`),
`f = true`, `c = 'x'`, `u = "abc"`, `d = 42.5`, `v` leads to `d`, `z` is NULL -/
def bytes : Bytes := setWord (setWord (setWord (setWord (setWord (setWord (setWord (setWord (setWord (setWord (fun _ => 0) 1000 2000) 1008 3000) 1016 2008)
  1024 (5 + 8 * 510 + 2 ^ 32 * 0x7801FFFD)) 1032 0x636261) 1040 0x4045400000000000) 1048 1040) 2000 3000) 2008 5) 3000 0x6968

def heap : Mem := { ptr := word bytes, int := fun _ => 0 }

def objs : List Obj :=
  [{ addr := 1000, ty := .struct, td := some 3 }, { addr := 1000, ty := .pointer, aux := .struct, td := some 1 }, { addr := 1008, ty := .string }, { addr := 1016, ty := .pointer, aux := .int32, td := some 0 },
   { addr := 1024, ty := .bitfield }, { addr := 1028, ty := .enum, td := some 2 }, { addr := 1030, ty := .bool }, { addr := 1031, ty := .char }, { addr := 1032, ty := .charArray },
   { addr := 1040, ty := .double }, { addr := 1048, ty := .pointer, aux := .void }, { addr := 1056, ty := .pointer, aux := .int32, td := some 0 },
   { addr := 2000, ty := .struct, td := some 1 }, { addr := 2000, ty := .string }, { addr := 2008, ty := .int32 }] ++
   (target heap types { addr := 1008, ty := .string }).toList

theorem reach : ∀ o, Reach heap types (ofFd 1000 (rootFd 3 64)) o → o ∈ objs := fun _ h =>
  reach_closed objs (by decide +kernel) (by decide +kernel) (by decide +kernel) h

theorem types_ok : Types types := by
  refine ⟨?_, ?_, (fun t d ht => have : ∀ d ∈ types, d.ty = .enum → typeSize d.effective ≤ d.size := by decide +kernel
    this d (List.mem_of_getElem? ht)), ⟨fun t => t, ?_⟩⟩
  · intro t d ht hd f hf
    have hcases : t = 0 ∨ t = 1 ∨ t = 2 ∨ t = 3 := by
      have := (List.getElem?_eq_some_iff.1 ht).1
      simp [types] at this; omega
    have hP : ∀ n o ty t d, types[t]? = some d → d.ty = ty → plain ty = true → FdOK types (named n (ptrField o ty t)) ∧ (named n (ptrField o ty t)).nonPersistent = false := fun n o ty t d h1 h2 h3 =>
      ⟨⟨rfl, rfl, (fun h => by cases h), Or.inr ⟨ty, ⟨t, d, rfl, h1, h2⟩, Or.inl ⟨rfl, h3⟩, fun _ => rfl⟩⟩, rfl⟩
    rcases hcases with rfl | rfl | rfl | rfl
    · cases ht; cases hd
    · cases ht
      simp only [tItem, List.mem_cons, List.not_mem_nil, or_false] at hf
      rcases hf with rfl | rfl
      · exact ⟨⟨rfl, rfl, (fun _ => rfl), trivial⟩, rfl⟩
      · exact ⟨⟨rfl, rfl, (fun _ => rfl), trivial⟩, rfl⟩
    · cases ht; cases hd
    · cases ht
      simp only [tAll, List.mem_cons, List.not_mem_nil, or_false] at hf
      rcases hf with rfl | rfl | rfl | rfl | rfl | rfl | rfl | rfl | rfl | rfl | rfl | rfl
      · exact hP "p" 0 .struct 1 tItem rfl rfl rfl
      · exact ⟨⟨rfl, rfl, (fun _ => rfl), trivial⟩, rfl⟩
      · exact hP "q" 16 .int32 0 tInt rfl rfl rfl
      · exact ⟨⟨rfl, rfl, (fun h => by cases h), trivial⟩, rfl⟩
      · exact ⟨⟨rfl, rfl, (fun h => by cases h), trivial⟩, rfl⟩
      · exact ⟨⟨rfl, rfl, (fun _ => rfl), ⟨2, tLevel, rfl, rfl, rfl⟩, by decide⟩, rfl⟩
      · exact ⟨⟨rfl, rfl, (fun _ => rfl), trivial⟩, rfl⟩
      · exact ⟨⟨rfl, rfl, (fun _ => rfl), trivial⟩, rfl⟩
      · exact ⟨⟨rfl, rfl, (fun h => by cases h), trivial⟩, rfl⟩
      · exact ⟨⟨rfl, rfl, (fun _ => rfl), trivial⟩, rfl⟩
      · exact ⟨⟨rfl, rfl, (fun h => by cases h), Or.inl rfl⟩, rfl⟩
      · exact hP "z" 56 .int32 0 tInt rfl rfl rfl
  · intro t d ht _
    have : ∀ d ∈ types, 0 < d.size := by decide +kernel
    exact this d (List.mem_of_getElem? ht)
  · intro t d f t' ht hd hf hty htd
    have : ∀ d ∈ types, ∀ f ∈ d.fields, ¬ (f.ty = .struct ∨ f.ty = .array ∧ f.aux = .struct) := by decide +kernel
    exact absurd hty (this d (List.mem_of_getElem? ht) f hf)

theorem fields : Fields types := by
  refine ⟨fun t d f ht hd hf => ?_, fun t d f ht hd hf => ?_, fun t d ht hd => ?_⟩
  · have : ∀ d ∈ types, ∀ f ∈ d.fields, f.ty = .bitfield → f.shift < 8 ∧ 1 ≤ f.width ∧ f.width ≤ 128 := by decide +kernel
    exact this d (List.mem_of_getElem? ht) f hf
  · have : ∀ d ∈ types, ∀ f ∈ d.fields, f.unnamed = false ∧ f.name ≠ [] := by decide +kernel
    exact this d (List.mem_of_getElem? ht) f hf
  · have : ∀ d ∈ types, (d.fields.map Fd.name).Nodup := by decide +kernel
    exact this d (List.mem_of_getElem? ht)

theorem bits_apart : BitsApart types := by
  have : ∀ d ∈ types, ∀ i ∈ List.range d.fields.length, ∀ j ∈ List.range d.fields.length, i ≠ j → ∀ f ∈ (d.fields[i]?).toList, ∀ g ∈ (d.fields[j]?).toList,
      f.ty = .bitfield → g.ty = .bitfield → 8 * f.offset + f.shift + f.width ≤ 8 * g.offset + g.shift ∨ 8 * g.offset + g.shift + g.width ≤ 8 * f.offset + f.shift := by decide +kernel
  intro t d i j f g ht hd hi hj hne
  have hi' := (List.getElem?_eq_some_iff.1 hi).1
  have hj' := (List.getElem?_eq_some_iff.1 hj).1
  exact this d (List.mem_of_getElem? ht) i (List.mem_range.2 hi') j (List.mem_range.2 hj') hne f (by rw [hi]; simp) g (by rw [hj]; simp)

/-- the names of the fields -/
def known (n : List Nat) : Bool := types.any fun d => d.fields.any fun f => f.name == n

theorem printable : Printable known types := by
  refine ⟨fun t d f ht hd hf => ?_, fun t d f ht hd hf => ?_, fun t d ht => ?_, fun t d f ht hd hf hb => ?_⟩
  · have : ∀ d ∈ types, ∀ f ∈ d.fields, f.ty ≠ .none ∧ f.ty ≠ .endAnonUnion ∧ f.ty ≠ .last := by decide +kernel
    exact this d (List.mem_of_getElem? ht) f hf
  · have : ∀ d ∈ types, ∀ f ∈ d.fields, (∀ c ∈ f.name, c ≠ 34 ∧ c ≠ 92) ∧ known f.name = true := by decide +kernel
    exact this d (List.mem_of_getElem? ht) f hf
  · have : ∀ d ∈ types, d.ty = .enum → integer d.effective = true := by decide +kernel
    exact this d (List.mem_of_getElem? ht)
  · have : ∀ d ∈ types, ∀ f ∈ d.fields, f.ty = .bitfield → bitBase f.aux = true ∧ f.width ≤ 8 * typeSize (valueType types f) ∧ f.aux ≠ .bool ∧ f.aux ≠ .enum := by decide +kernel
    obtain ⟨h1, h2, h3, h4⟩ := this d (List.mem_of_getElem? ht) f hf hb
    exact ⟨h1, h2, fun h => absurd h h3, fun h => absurd h h4⟩

theorem text_hi : Text bytes 3000 2 := by
  refine ⟨by decide +kernel, ?_⟩
  have : ∀ k ∈ List.range 2, bytes (3000 + k) ≠ 0 := by decide +kernel
  exact fun k hk => this k (List.mem_range.2 hk)

def blocks : Blocks := [(1000, 64), (2000, 16), (3000, 3)]

theorem graph : Graph bytes heap types (ofFd 1000 (rootFd 3 64)) blocks 10 where
  ptr := fun _ => rfl
  base := by decide +kernel
  single := by
    refine single_of_list objs reach (by decide +kernel) (by decide +kernel) ?_
    intro x hx o ho y hy hc hid hr
    have hfar : ∀ x ∈ objs, ∀ o ∈ (target heap types x).toList, ∀ y ∈ objs, o ∈ components types y → o = { addr := 2008, ty := .int32 } ∧ y ≠ o := by
      decide +kernel
    obtain ⟨h1, h2⟩ := hfar x hx o ho y hy hc
    subst h1
    exact h2 (by simpa using reach_closed [{ addr := 2008, ty := .int32 }] (by decide +kernel) (by decide +kernel) (by decide +kernel) hr)
  parts := by
    have : ∀ x ∈ objs, ∀ y ∈ objs, ∀ c ∈ components types x, c ∈ components types y → x = y := by decide +kernel
    exact fun x y c hx hy h1 h2 => this x (reach x hx) y (reach y hy) c h1 h2
  cells := by
    have : ∀ x ∈ objs, ∀ o ∈ (target heap types x).toList, identified o.ty = true := by decide +kernel
    exact fun x o hx ho => this x (reach x hx) o (by rw [ho]; simp)
  read := by
    have : ∀ o ∈ objs, covered blocks o.addr (extent types o) = true := by decide +kernel
    exact fun o ho => this o (reach o ho)
  ends := by
    have : ∀ x ∈ objs, x.ty = .string → ∀ o ∈ (target heap types x).toList, o.addr = 3000 := by decide +kernel
    intro x o hx ht ho
    rw [this x (reach x hx) ht o (by rw [ho]; simp)]
    exact ⟨2, by decide, text_hi, by decide +kernel⟩

/-- the bytes of 42.5 -/
def doubleByte (k : Nat) : UInt8 := UInt8.ofNat (0x4045400000000000 / 256 ^ k % 256)

/-- What is needed of the C library and of the enum here: `printf` and `strtold` for 42.5, the name of −3. -/
def codec : Codec where
  print := fun _ _ => .real (ascii "42.5")
  enum := fun _ _ => ascii "LOW"
  void := fun _ => .other
  parse := fun t => if t = ascii "LOW" then some (BitVec.ofNat 128 (2 ^ 128 - 3)) else none
  trunc := fun _ => 42
  load := fun _ y => if y.value = .float (ascii "42.5") then .store doubleByte else .fail

theorem not_int (v : Int) : ¬ IsDecimalInt v (ascii "42.5") := by
  intro h
  have hd : ∀ n t, IsDecimal n t → ∀ c ∈ t, 48 ≤ c := by
    rintro n t ⟨ds, rfl, _⟩ c hc
    obtain ⟨d, _, rfl⟩ := List.mem_map.1 hc
    show 48 ≤ d + 48
    omega
  unfold IsDecimalInt at h
  split at h
  · obtain ⟨t, h1, _⟩ := h
    have h2 : (52 : Nat) = 45 := congrArg (List.headD · 0) h1
    omega
  · exact absurd (hd _ _ h 46 (by decide +kernel)) (by decide)

theorem restored : Restored codec 10 bytes heap types (ofFd 1000 (rootFd 3 64)) where
  bools := by
    have : ∀ o ∈ objs, o.ty = .bool → bytes o.addr = 0 ∨ bytes o.addr = 1 := by decide +kernel
    exact fun o ho => this o (reach o ho)
  chars := by
    have : ∀ o ∈ objs, o.ty = .char → o.addr = 3000 ∨ bytes o.addr ≠ 0 := by decide +kernel
    intro o ho h
    rcases this o (reach o ho) h with e | e
    · rw [e]; decide +kernel
    · exact e
  wide := by
    have : ∀ o ∈ objs, ¬ (o.ty = .int128 ∨ o.ty = .uint128) := by decide +kernel
    exact fun o ho h => absurd h (this o (reach o ho))
  enums := by
    have : ∀ o ∈ objs, o.ty = .enum → o = { addr := 1028, ty := .enum, td := some 2 } := by decide +kernel
    intro o ho h
    rw [this o (reach o ho) h]
    refine ⟨by decide +kernel, BitVec.ofNat 128 (2 ^ 128 - 3), by decide +kernel, ?_⟩
    have hb : XdrGraph.bytesAt bytes 1028 (typeSize (enumType types (some 2))) = [0xFD, 0xFF] := by decide +kernel
    show ∀ k, k < (XdrGraph.bytesAt bytes 1028 (typeSize (enumType types (some 2)))).length → _ = (XdrGraph.bytesAt bytes 1028 (typeSize (enumType types (some 2)))).getD k 0
    rw [hb]
    have : ∀ k ∈ List.range 2, (BitVec.ofNat 128 (2 ^ 128 - 3)).toNat / 256 ^ k % 256 = [0xFD, 0xFF].getD k 0 := by decide +kernel
    exact fun k hk => this k (List.mem_range.2 hk)
  others := by
    have : ∀ o ∈ objs, foreign o.ty = true → o = { addr := 1040, ty := .double } := by decide +kernel
    intro o ho h _
    rw [this o (reach o ho) h]
    have digits : ∀ s : String, (ascii s).all (fun c => 48 ≤ c && c ≤ 57) = true → ∀ c ∈ ascii s, Digit c := by
      intro s h c hc
      have := List.all_eq_true.1 h c hc
      simpa [Digit] using this
    have hf : FloatText (ascii "42.5") := ⟨[], ascii "42.5", rfl, .inl rfl, .inr (.inr ⟨ascii "42", ascii ".5", [], by decide +kernel, by decide +kernel,
      digits "42" (by decide +kernel), (fun ⟨h, _⟩ => absurd h (by decide +kernel)), .inr ⟨ascii "5", by decide +kernel, digits "5" (by decide +kernel)⟩, .inl rfl⟩)⟩
    refine ⟨.inl hf, fun null v hr => ?_, fun f y _ hr => .inr ⟨doubleByte, ?_, ?_⟩⟩
    · cases hr with
      | float t _ => exact ⟨rfl, fun h => by cases h⟩
      | whole t v h => exact absurd h (not_int v)
    · generalize y.null = u at hr
      generalize hv : y.value = v at hr
      cases hr with
      | float t _ => simp [codec, hv]
      | whole t v h => exact absurd h (not_int v)
    · have hb : XdrGraph.bytesAt bytes 1040 (typeSize .double) = (List.range 8).map fun k => (doubleByte k).toNat := by decide +kernel
      intro k hk
      show _ = (XdrGraph.bytesAt bytes 1040 (typeSize .double)).getD k 0
      have hk : k < 8 := hk
      rw [hb, List.getD_eq_getElem?_getD, List.getElem?_map, List.getElem?_range hk]
      rfl
  bitEnums := by
    have : ∀ o ∈ objs, o.ty = .struct → ∀ f ∈ members types o, f.ty = .bitfield → f.aux ≠ .enum := by decide +kernel
    exact fun o ho h f hf hb he => absurd he (this o (reach o ho) h f hf hb)
  bitWide := by
    have : ∀ o ∈ objs, o.ty = .struct → ∀ f ∈ members types o, f.ty = .bitfield → ¬ (f.aux = .int128 ∨ f.aux = .uint128) := by decide +kernel
    exact fun o ho h f hf hb he => absurd he (this o (reach o ho) h f hf hb)

example := C54_round_trip_partial types_ok (layout_of_list (by decide +kernel) (by decide +kernel)) fields bits_apart printable (fd := rootFd 3 64)
  ⟨rfl, rfl, (fun _ => rfl), ⟨3, tAll, rfl, rfl, rfl⟩⟩ ⟨objs, reach⟩ graph (by decide) restored

/-- 42.5 is read, no object but the whole has more than 16 bytes: loading does not fail with an allocator that has enough memory. -/
theorem accepted : Accepted codec bytes heap types (ofFd 1000 (rootFd 3 64)) := by
  intro o ho hf _ f y _ hr
  have h : ∀ o ∈ objs, foreign o.ty = true → o = { addr := 1040, ty := .double } := by decide +kernel
  rw [h o (reach o ho) hf] at hr
  generalize y.null = u at hr
  generalize hv : y.value = v at hr
  cases hr with
  | float t _ => simp [codec, hv]
  | whole t v h => exact absurd h (not_int v)

theorem small : ∀ o n, Outer heap types (ofFd 1000 (rootFd 3 64)) o → Needs bytes types o n → n ≤ 16 := by
  intro o n ho hn
  have h : ∀ x ∈ objs, ∀ o ∈ (target heap types x).toList, (o.ty = .charArray → o.addr = 3000) ∧ (o.ty ≠ .charArray → extent types o ≤ 16) := by decide +kernel
  obtain ⟨x, hx, e⟩ := ho.lead
  obtain ⟨h1, h2⟩ := h x (reach x hx) o (by rw [e]; simp)
  unfold Needs at hn
  split at hn
  · next hc =>
    obtain ⟨k, rfl, hk⟩ := hn
    rw [h1 hc] at hk
    have : ¬ 2 < k := fun hlt => hk.2 2 hlt text_hi.1
    omega
  · next hc => rw [hn]; exact h2 hc

example : ∃ N, ∀ fuel, N ≤ fuel → ∃ st, mrSave heap types fuel 1000 (rootFd 3 64) = some (st, 1) ∧ (st.ptrs.ra.length < 2 ^ 32 →
    ∃ text ptrs doc, save codec ⟨10, types, blocks, bytes, fuel⟩ st = some text ∧ Loads known text ptrs doc ∧
      ∃ s, Load.load (LoadJson.env types ptrs doc (conv codec doc) bump true) (fun _ => 0) [(500, 64)] 500 (rootFd 3 64) = some (true, s)) := by
  obtain ⟨N, h⟩ := C54_round_trip_partial types_ok (layout_of_list (by decide +kernel) (by decide +kernel)) fields bits_apart printable (fd := rootFd 3 64)
    ⟨rfl, rfl, (fun _ => rfl), ⟨3, tAll, rfl, rfl, rfl⟩⟩ ⟨objs, reach⟩ graph (by decide : 10 ≤ 16) restored
  refine ⟨N, fun fuel hf => ?_⟩
  obtain ⟨st, e, h⟩ := h fuel hf
  refine ⟨st, e, fun hl => ?_⟩
  obtain ⟨text, e1, ⟨ptrs, doc, e2⟩, h⟩ := h hl
  obtain ⟨ok, s, e3, _, _, h⟩ := h ptrs doc e2 bump true (fun _ => 0) [(500, 64)] 500 bump_ok (by decide) ⟨⟨⟨rfl, rfl, (fun _ => rfl), ⟨3, tAll, rfl, rfl, rfl⟩⟩, by decide, by decide⟩, by decide +kernel, fun _ _ => rfl⟩ (by decide)
  have := h 16 accepted small (LoadFits.Example.bump_plenty (by
    have : top [(500, 64)] = 4096 := by decide +kernel
    omega)) rfl
  subst this
  exact ⟨text, ptrs, doc, e1, e2, s, e3⟩

/-- The text that is written, and the nodes that are read from it. -/
def doc : DF := object (mem "p" .arr (elt .obj (mem "s" (neg 6) .nil (mem "n" (int 5) .nil .nil)) .nil)
  (mem "t" (str "hi") .nil (mem "q" (int 5) .nil (mem "a" (int 5) .nil (mem "b" (neg 2) .nil (mem "e" (str "LOW") .nil (mem "f" (.tok (.int 1) false (.int 1)) .nil
    (mem "c" (str "x") .nil (mem "u" (str "abc") .nil (mem "d" (.tok (.float (ascii "42.5")) false (.float (ascii "42.5"))) .nil (mem "v" (int 14) .nil (mem "z" (.tok .null true (.int 0)) .nil .nil))))))))))))

def text : Option (List Nat) := do
  let (st, _) ← mrSave heap types 60 1000 (rootFd 3 64)
  save codec ⟨10, types, blocks, bytes, 60⟩ st

example : text = some (ascii "{\n  \"p\": [\n    {\n      \"s\": -6,\n      \"n\": 5\n    }\n  ],\n  \"t\": \"hi\",\n  \"q\": 5,\n  \"a\": 5,\n  \"b\": -2,\n  \"e\": \"LOW\",\n  \"f\": true,\n  \"c\": \"x\",\n  \"u\": \"abc\",\n  \"d\": 42.5,\n  \"v\": 14,\n  \"z\": null\n}\n") := by
  decide +kernel

example : text.bind Json.lex = some doc.toks := by decide +kernel

/-- load the document into the structure of 64 bytes at 500: success, blocks, words of the structure and of the new item -/
def run : Option (Bool × Blocks × List Nat) := do
  let (ok, s) ← Load.load (LoadJson.env types (ptrs doc 0) (Load.Example.data doc) (conv codec (Load.Example.data doc)) bump true) (fun _ => 0) [(500, 64)] 500 (rootFd 3 64)
  some (ok, s.live, [500, 508, 516, 524, 532, 540, 548, 556, 4099, 4107, 4096].map (word s.m))

example : run = some (true, [(500, 64), (4096, 3), (4099, 16)],
    [4099, 4096, 4107, 5 + 8 * 510 + 2 ^ 32 * 0x7801FFFD, 0x636261, 0x4045400000000000, 540, 0, 4096, 5, 0x6968 + 2 ^ 24 * 4096]) := by decide +kernel

end Example

end Verif.Props.SaveJson
