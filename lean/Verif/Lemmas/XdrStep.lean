import Verif.Lemmas.XdrMem
import Verif.Lemmas.Xdr
import Verif.Lemmas.Bitfield
import Verif.Lemmas.CopyMem
/-!
Loading of one object, for each kind of objects.
-/
namespace Verif.Lemmas.XdrStep
open Verif.Model Verif.Model.Save Verif.Model.Copy Verif.Model.Xdr Verif.Model.XdrGraph Verif.Spec.XdrGraph Verif.Lemmas.Xdr Verif.Lemmas.XdrMem Verif.Lemmas.CopyMem

/-- the document has `out` from position `p` to `p'` -/
def Doc (buf : List Nat) (p : Nat) (out : List Nat) (p' : Nat) : Prop :=
  ∃ pre rest, buf = pre ++ out ++ rest ∧ pre.length = p ∧ p' = p + out.length ∧ buf.length < 2 ^ 32

theorem Doc.reads {α : Type} {d : List Nat → Nat → Dec α} {buf out : List Nat} {p p' : Nat} {a : α} (h : Doc buf p out p') (hd : Spec.Decodes d out a) :
    d buf p = some (some (a, p')) := by
  obtain ⟨pre, rest, rfl, rfl, rfl, h⟩ := h
  exact hd.reads pre rest (by simp at h; omega)

theorem Doc.split {buf o1 o2 : List Nat} {p p' : Nat} (h : Doc buf p (o1 ++ o2) p') : ∃ p1, Doc buf p o1 p1 ∧ Doc buf p1 o2 p' := by
  obtain ⟨pre, rest, rfl, rfl, rfl, h⟩ := h
  exact ⟨pre.length + o1.length, ⟨pre, o2 ++ rest, by simp, rfl, rfl, h⟩, ⟨pre ++ o1, rest, by simp, by simp, by simp; omega, h⟩⟩

theorem Doc.nil {buf : List Nat} {p p' : Nat} (h : Doc buf p [] p') : p' = p := by
  obtain ⟨pre, rest, rfl, rfl, rfl, h⟩ := h
  rfl

theorem Doc.long {buf : List Nat} {p p' w : Nat} (h : Doc buf p (be32 w) p') (hw : w < 2 ^ 32) : getLong buf p = some (some (w, p')) := h.reads (getLong_dec hw)

theorem Doc.opaque {buf b : List Nat} {p p' : Nat} (h : Doc buf p (putOpaque b) p') : getOpaque buf p b.length = some (some (b, p')) :=
  h.reads (getOpaque_dec b)

/-- nothing but the bits from `lo` to `hi` was changed -/
def Only (m m' : Bytes) (lo hi : Nat) : Prop := ∀ p, ¬ (lo ≤ p ∧ p < hi) → bitAt m' p = bitAt m p

theorem only_put (m : Bytes) (a : Nat) (bs : List Nat) : Only m (put m a bs) (8 * a) (8 * a + 8 * bs.length) := by
  intro p hp
  apply put_other
  omega

theorem setWord_bit {m : Bytes} {a v p : Nat} (h : ¬ (8 * a ≤ p ∧ p < 8 * a + 64)) : bitAt (setWord m a v) p = bitAt m p := by
  unfold bitAt
  rw [setWord_other (by omega)]

theorem mark_last (m : Bytes) (live : Blocks) (pos : Nat) (ns : List LNode) (x : LNode) (flags first : Nat) :
    ({ m := m, live := live, nodes := ns ++ [x], pos := pos } : LSt).mark flags first =
    { m := m, live := live, nodes := ns ++ [{ x with flags := flags, first := first }], pos := pos } := by
  unfold LSt.mark
  simp

variable {E : Env}

theorem step_scalar {s : LSt} {data : Nat} {k : Sc} {bs out : List Nat} {p' : Nat} (hD : Doc E.buf s.pos out p') (hE : Enc k bs out)
    (hc : covered s.live data k.size = true) :
    ∃ m', loadScalar E s data (some k) = some (true, { s with m := m', pos := p' }, []) ∧ Only s.m m' (8 * data) (8 * data + 8 * k.size) ∧
      ∀ i v, Spec.covered k i = true → bs[i]? = some v → m' (data + i) = UInt8.ofNat v := by
  obtain ⟨b, b1, b2, b3, b4⟩ := hE.dec (bytesAt s.m data k.size) (bytesAt_lt _ _ _) (by rw [bytesAt_length]; omega)
  rw [bytesAt_length] at b1
  refine ⟨put s.m data b, ?_, ?_, ?_⟩
  · unfold loadScalar
    simp only [peek_ok hc, Option.bind_eq_bind, Option.bind_some, hD.reads b3, reading]
    unfold LSt.poke
    simp only [b1, hc, if_true, Option.bind_some]
    rfl
  · rw [← b1]; exact only_put _ _ _
  · intro i v h1 h2
    apply put_in
    rw [b4, if_pos h1, h2]

theorem step_bits {s : LSt} {data src idx : Nat} {f : Fd} {k : Sc} {m : Bytes} {v : BitVec 128} {sg : Bool} {out : List Nat} {p' : Nat}
    (hk : scalar E.ld E.tds f.aux f.td = some k) (hsz : k.size ≤ 16) (hcov : ∀ i, i < k.size → Spec.covered k i = true)
    (hs : f.shift < 8) (hw1 : 1 ≤ f.width) (hw : f.width ≤ 8 * k.size)
    (hv : Bitfield.saveBitfield (toBits (bytesAt m src (bitBytes f))) f.shift f.width sg = some v)
    (hD : Doc E.buf s.pos out p') (hE : Enc k (wordBytes v) out) (hc : covered s.live data (bitBytes f) = true) :
    ∃ m', loadBits E s data f idx = some (true, { s with m := m', pos := p' }, []) ∧
      Only s.m m' (8 * data + f.shift) (8 * data + f.shift + f.width) ∧
      ∀ q, f.shift ≤ q → q < f.shift + f.width → bitAt m' (8 * data + q) = bitAt m (8 * src + q) := by
  have hbb : f.shift + f.width ≤ 8 * bitBytes f := by unfold bitBytes; have := Nat.le_max_right 1 ((f.shift + f.width + 7) / 8); show _ ≤ 8 * (Nat.max 1 ((f.shift + f.width + 7) / 8)); have : (f.shift + f.width + 7) / 8 ≤ Nat.max 1 ((f.shift + f.width + 7) / 8) := this; omega
  obtain ⟨v', hv', hvb⟩ := Bitfield.save_ok (toBits (bytesAt m src (bitBytes f))) f.shift f.width sg hs hw1 (by omega) (by simp only [toBits, List.length_map, bytesAt_length]; omega)
  rw [hv] at hv'; cases hv'
  obtain ⟨b, b1, b2, b3, b4⟩ := hE.dec (bytesAt (E.junk idx) 0 16) (bytesAt_lt _ _ _) (by rw [bytesAt_length]; omega)
  rw [bytesAt_length] at b1
  obtain ⟨mem', g1, g2, g3⟩ := Bitfield.load_ok (toBits (bytesAt s.m data (bitBytes f))) f.shift f.width (bytesWord b) hs hw1 (by omega)
    (by simp only [toBits, List.length_map, bytesAt_length]; omega)
  have hlen : mem'.length = bitBytes f := by rw [g2]; simp [toBits, bytesAt_length]
  have hlo : (ofBits mem').length = bitBytes f := by simp [ofBits, hlen]
  have hget : ∀ j, j < 8 * bitBytes f → bitAt (put s.m data (ofBits mem')) (8 * data + j) =
      if f.shift ≤ j ∧ j < f.shift + f.width then (bytesWord b).getLsbD (j - f.shift) else bitAt s.m (8 * data + j) := by
    intro j hj
    rw [put_memBit (by omega), g3]
    split
    · rfl
    · rw [memBit_bytes hj]
  refine ⟨put s.m data (ofBits mem'), ?_, ?_, ?_⟩
  · unfold loadBits
    simp only [hk, hD.reads b3, reading, peek_ok hc, Option.bind_eq_bind, Option.bind_some, g1]
    unfold LSt.poke
    simp only [hlo, hc, if_true, Option.bind_some]
    rfl
  · intro p hp
    by_cases h : 8 * data ≤ p ∧ p < 8 * data + 8 * bitBytes f
    · have := hget (p - 8 * data) (by omega)
      rw [show 8 * data + (p - 8 * data) = p from by omega, if_neg (by omega)] at this
      exact this
    · apply put_other
      omega
  · intro q h1 h2
    rw [hget q (by omega), if_pos ⟨h1, h2⟩]
    have hq : q - f.shift = 8 * ((q - f.shift) / 8) + (q - f.shift) % 8 := by omega
    rw [hq, bytesWord_bit b1 b2 (by omega) (by omega), List.getD_eq_getElem?_getD, b4, if_pos (hcov _ (by omega)), ← List.getD_eq_getElem?_getD,
      wordBytes_bit v (by omega) (by omega), ← hq, hvb _ (by omega), if_pos (by omega), memBit_bytes (by omega)]
    congr 2
    omega

theorem step_chars {s : LSt} {data parent : Nat} {bs out : List Nat} {size p' : Nat} {p : LNode} (hp : s.nodes[parent]? = some p) (hpt : p.ty ≠ .pointer)
    (hl : bs.length = size) (hs : size < 2 ^ 32) (ho : saveCharArray bs size = some out)
    (hD : Doc E.buf s.pos out p') (hc : covered s.live data size = true) :
    ∃ m', loadChars E s data parent = some (true, { s with m := m', pos := p' }, []) ∧ Only s.m m' (8 * data) (8 * data + 8 * size) ∧
      ∀ k v, k < size → (∀ i, i < k → bs[i]? ≠ some 0) → bs[k]? = some v → m' (data + k) = UInt8.ofNat v := by
  obtain ⟨len, out', h1, h2, h3, h4, _, _⟩ := charArray_ok (mem := bs) (mem0 := bs) (size := size) (by omega) (by omega) hs
  have hout : out = be32 len ++ putOpaque (bs.take len) := by
    unfold saveCharArray at ho
    simp only [h1, slice, Option.bind_eq_bind, Option.bind_some] at ho
    rw [if_pos (by omega)] at ho
    simp only [Option.bind_some, List.drop_zero] at ho
    cases ho
    rfl
  rw [hout] at hD
  obtain ⟨p1, d1, d2⟩ := hD.split
  have htl : (bs.take len).length = len := by rw [List.length_take]; omega
  have d2' := d2.opaque
  rw [htl] at d2'
  refine ⟨put s.m data (bs.take len), ?_, ?_, ?_⟩
  · unfold loadChars
    simp only [hp, Option.bind_eq_bind, Option.bind_some]
    rw [if_neg (fun h => hpt h.2)]
    simp only [d1.long (by omega : len < 2 ^ 32), reading, d2']
    unfold LSt.poke
    have : covered s.live data (bs.take len).length = true := by
      rw [htl]; exact covered_part hc (Nat.le_refl _) (by omega)
    simp only [this, if_true, Option.bind_some]
    rfl
  · intro q hq
    apply put_other
    omega
  · intro k v hk hz hv
    apply put_in
    rw [List.getElem?_take]
    have : k < len := by
      apply Classical.byContradiction
      intro hn
      obtain ⟨j, j1, j2⟩ := h4 (by omega)
      exact hz j (by omega) j2
    rw [if_pos this, hv]

/-- flags -/
theorem flags_low {flags : Nat} (h : flags < 256) : sext32 8 flags < 2 ^ 32 ∧ sext32 8 flags % 256 = flags := sext32_lt (.inl rfl) h

theorem step_str_ref {s : LSt} {ns : List LNode} {x : LNode} (hn : s.nodes = ns ++ [x]) {data flags first p' : Nat} {str : List Nat}
    (hf : flags < 256) (hr : isRef flags = true) (hi : first < 2 ^ 32)
    (hD : Doc E.buf s.pos (saveString flags first str) p') :
    loadStr E s data = some (true, { s with nodes := ns ++ [{ x with flags := flags, first := first }], pos := p' }, []) := by
  unfold saveString at hD
  rw [if_pos hr] at hD
  obtain ⟨p1, d1, d2⟩ := hD.split
  have hu : u32 first = first := Nat.mod_eq_of_lt hi
  rw [hu] at d2
  unfold loadStr
  simp only [d1.long (flags_low hf).1, reading, (flags_low hf).2, hr, if_true, d2.long hi, finished]
  rw [hn, mark_last]

theorem step_str_null {s : LSt} {ns : List LNode} {x : LNode} (hn : s.nodes = ns ++ [x]) {data flags first p' : Nat} {str : List Nat}
    (hf : flags < 256) (hr : isRef flags = false) (hnull : isNull flags = true) (hc : covered s.live data 8 = true)
    (hD : Doc E.buf s.pos (saveString flags first str) p') :
    loadStr E s data = some (true, { s with m := setWord s.m data 0, nodes := ns ++ [{ x with flags := flags, first := 0 }], pos := p' }, []) := by
  unfold saveString at hD
  rw [hr, hnull] at hD
  simp only [Bool.false_eq_true, if_false, Bool.not_true, List.append_nil] at hD
  unfold loadStr
  simp only [hD.long (flags_low hf).1, reading, (flags_low hf).2, hr, Bool.false_eq_true, if_false, hnull, if_true, LSt.store, hc, finished, Option.bind_eq_bind, Option.bind_some]
  rw [hn, mark_last]

theorem step_str_own {s : LSt} {ns : List LNode} {x : LNode} (hn : s.nodes = ns ++ [x]) {data flags first p' : Nat} {str : List Nat}
    (hf : flags < 256) (hr : isRef flags = false) (hnull : isNull flags = false) (hc : covered s.live data 8 = true)
    (hl : str.length + 1 < 2 ^ 32) (ha : E.alloc s.live (str.length + 1) ≠ 0) 
    (hD : Doc E.buf s.pos (saveString flags first str) p') :
    loadStr E s data = some (true, { m := put (setWord (put (setWord s.m data 0) (E.alloc s.live (str.length + 1)) (List.replicate (str.length + 1) 0)) data (E.alloc s.live (str.length + 1))) (E.alloc s.live (str.length + 1)) str, live := s.live ++ [(E.alloc s.live (str.length + 1), str.length + 1)], nodes := ns ++ [{ x with flags := flags, first := 0 }], pos := p' }, []) := by
  have hu : u32 str.length = str.length := Nat.mod_eq_of_lt (by omega)
  have hu1 : u32 (str.length + 1) = str.length + 1 := Nat.mod_eq_of_lt (by omega)
  unfold saveString at hD
  rw [hr, hnull] at hD
  simp only [Bool.false_eq_true, if_false, Bool.not_false, if_true, hu, List.take_length] at hD
  obtain ⟨p1, d1, d2⟩ := hD.split
  obtain ⟨p2, d2, d3⟩ := d2.split
  unfold loadStr
  simp only [d1.long (flags_low hf).1, reading, (flags_low hf).2, hr, Bool.false_eq_true, if_false, hnull, Option.bind_eq_bind]
  rw [hn, mark_last]
  have hcov : covered (s.live ++ [(E.alloc s.live (str.length + 1), str.length + 1)]) data 8 = true := covered_mono hc
  have hcov2 : covered (s.live ++ [(E.alloc s.live (str.length + 1), str.length + 1)]) (E.alloc s.live (str.length + 1)) str.length = true :=
    covered_mem.2 ⟨(E.alloc s.live (str.length + 1), str.length + 1), by simp, Nat.le_refl _, by simp⟩
  simp only [LSt.store, hc, if_true, Option.bind_some, d2.long (by omega : str.length < 2 ^ 32), hu1, LSt.calloc, if_neg ha, hcov, d3.opaque, LSt.poke, hcov2, finished]

theorem step_ptr_ref {s : LSt} {ns : List LNode} {x : LNode} (hn : s.nodes = ns ++ [x]) {data flags first p' : Nat} {f : Fd}
    (hf : flags < 256) (hr : isRef flags = true) (hi : first < 2 ^ 32) (hc : covered s.live data 8 = true)
    (hD : Doc E.buf s.pos (be32 (sext32 8 flags) ++ be32 (u32 first)) p') :
    loadPointer E s data f = some (true, { s with m := setWord s.m data 0, nodes := ns ++ [{ x with flags := flags, first := first }], pos := p' }, []) := by
  obtain ⟨p1, d1, d2⟩ := hD.split
  have hu : u32 first = first := Nat.mod_eq_of_lt hi
  rw [hu] at d2
  unfold loadPointer
  simp only [LSt.store, hc, if_true, Option.bind_eq_bind, Option.bind_some, d1.long (flags_low hf).1, reading, (flags_low hf).2, hr, d2.long hi, finished]
  rw [hn, mark_last]

theorem step_ptr_null {s : LSt} {ns : List LNode} {x : LNode} (hn : s.nodes = ns ++ [x]) {data flags p' : Nat} {f : Fd}
    (hf : flags < 256) (hr : isRef flags = false) (hnull : isNull flags = true) (hc : covered s.live data 8 = true)
    (hD : Doc E.buf s.pos (be32 (sext32 8 flags)) p') :
    loadPointer E s data f = some (true, { s with m := setWord s.m data 0, nodes := ns ++ [{ x with flags := flags, first := 0 }], pos := p' }, []) := by
  unfold loadPointer
  simp only [LSt.store, hc, if_true, Option.bind_eq_bind, Option.bind_some, hD.long (flags_low hf).1, reading, (flags_low hf).2, hr, Bool.false_eq_true, if_false, hnull, finished]
  rw [hn, mark_last]

/-- the descriptor of what a pointer leads to -/
def pointee (tds : List Td) (f : Fd) : Fd :=
  { nonPersistent := true, unnamed := true, ty := f.aux, aux := tdType tds f.td, td := f.td, size := elementSize tds f.aux f.td }

theorem step_ptr_own {s : LSt} {ns : List LNode} {x : LNode} (hn : s.nodes = ns ++ [x]) {data flags p' size : Nat} {f : Fd}
    (hf : flags < 256) (hr : isRef flags = false) (hnull : isNull flags = false) (hopq : flags.testBit 4 = false) (hc : covered s.live data 8 = true)
    (hsz : elementSize E.tds f.aux f.td = size) (h0 : 0 < size) (hsl : size < 2 ^ 32) (hsf : f.sizeField = none) (ha : E.alloc s.live size ≠ 0) 
    (hD : Doc E.buf s.pos (be32 (sext32 8 flags) ++ be32 (u32 size)) p') :
    loadPointer E s data f = some (true, { m := setWord (put (setWord s.m data 0) (E.alloc s.live size) (List.replicate size 0)) data (E.alloc s.live size), live := s.live ++ [(E.alloc s.live size, size)], nodes := ns ++ [{ x with flags := flags, first := 0 }], pos := p' }, [(E.alloc s.live size, pointee E.tds f)]) := by
  obtain ⟨p1, d1, d2⟩ := hD.split
  have hu : u32 size = size := Nat.mod_eq_of_lt hsl
  rw [hu] at d2
  unfold loadPointer
  have hcov : covered (s.live ++ [(E.alloc s.live size, size)]) data 8 = true := covered_mono hc
  simp only [LSt.store, hc, if_true, Option.bind_eq_bind, Option.bind_some, d1.long (flags_low hf).1, reading, (flags_low hf).2, hr, Bool.false_eq_true, if_false, hnull]
  rw [hn, mark_last]
  simp only [d2.long hsl, hopq, hsz, h0, if_true, Nat.div_self h0, Nat.one_mul, Bool.false_eq_true, if_false, hsf, ne_eq, not_true_eq_false, LSt.calloc, if_neg ha, hcov,
    Option.bind_some]
  rw [if_neg (by omega)]
  simp [elements, pointee, hsz]

/-- the descriptor of the elements of an array -/
def element (tds : List Td) (f : Fd) : Fd :=
  { f with nonPersistent := true, size := f.size / f.dims.headD 0, ty := f.aux, aux := tdType tds f.td }

theorem step_array {s : LSt} {data p' : Nat} {f : Fd} (hnp : f.nonPersistent = false) (hdims : f.dims.length = 1) (hsf : f.sizeField = none)
    (h0 : f.dims.headD 0 ≠ 0 → 0 < f.size / f.dims.headD 0 ∧ f.size / (f.size / f.dims.headD 0) = f.dims.headD 0) (hsl : f.size < 2 ^ 32)
    (hD : Doc E.buf s.pos (if f.dims.headD 0 ≠ 0 then be32 (u32 f.size) else []) p') :
    loadArray E s data f = some (true, { s with pos := p' }, elements data (element E.tds f) (f.dims.headD 0)) := by
  unfold loadArray
  by_cases hc : f.dims.headD 0 = 0
  · rw [if_neg (fun h => h hc)] at hD
    have := hD.nil
    simp only [hc, if_true, finished, elements, this]
    rfl
  · rw [if_pos hc, show u32 f.size = f.size from Nat.mod_eq_of_lt hsl] at hD
    obtain ⟨g1, g2⟩ := h0 hc
    simp only [hc, if_false, hdims, if_true, hnp, Bool.false_eq_true, hD.long hsl, reading, hsf, ne_eq, not_true_eq_false, g2]
    rw [if_neg (by omega)]
    simp [element, hsf]

end Verif.Lemmas.XdrStep
