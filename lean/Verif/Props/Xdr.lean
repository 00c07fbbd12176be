import Verif.Lemmas.Xdr
/-!
# C24, C25: XDR encoding of scalars and strings

`Decodes d out a` (`Verif/Spec/Xdr.lean`): wherever the bytes `out` stand in a document, `d` gives `a` and
stops right behind them, and `d` refuses every document that ends inside `out`.  `Safe d buf`: at every
position of the document `buf` the reader `d` performs only accesses inside `buf` and its destination.
Documents are shorter than 4 GiB (`x_handy` is an `unsigned int`).  Bits of the flags of a node: 0 NULL,
1 reference, 3 reference to the content of a string (src/mr_protos.h:476–483).
-/
namespace Verif.Props.Xdr
open Verif.Model Verif.Model.Xdr Verif.Spec Verif.Lemmas.Xdr

def Bytes (l : List Nat) : Prop := ∀ b ∈ l, b < 256

/-- **C24.** Every scalar object `mem` is encoded to a multiple of four bytes; decoding to any object
`mem0` succeeds, consumes exactly these bytes, makes the bytes of the number those of `mem` and changes
no other byte of the destination. -/
theorem C24_scalar_round_trip (k : Sc) (hk : scOk k) (mem mem0 : List Nat) (hm : Bytes mem) (hm0 : Bytes mem0)
    (hl : k.size ≤ mem.length) (hl0 : k.size ≤ mem0.length) :
    ∃ out mem', enc k mem = some out ∧ out.length % 4 = 0 ∧ Bytes out ∧
      Decodes (fun buf pos => dec k buf pos mem0) out mem' ∧ mem'.length = mem0.length ∧
      ∀ i, mem'[i]? = if covered k i then mem[i]? else mem0[i]? := by
  obtain ⟨out, h⟩ := enc_ok k hk hm hl
  obtain ⟨mem', h1, _, h3, h4⟩ := h.dec mem0 hm0 hl0
  exact ⟨out, mem', h.enc, h.len, h.bytes, h3, h1, h4⟩

/-- **C24.** The stream of a sequence of scalars, one after the other. -/
def encAll : List (Sc × List Nat) → Option (List Nat)
  | [] => some []
  | (k, mem) :: l => do some ((← enc k mem) ++ (← encAll l))

def decAll : List (Sc × List Nat) → List Nat → Nat → Dec (List (List Nat))
  | [], _, pos => some (some ([], pos))
  | (k, mem) :: l, buf, pos => (dec k buf pos mem).andThen fun m pos =>
      (decAll l buf pos).andThen fun ms pos => some (some (m :: ms, pos))

/-- **C24.** Any sequence of scalars written one after the other is read back by the same sequence of
reads, each object getting its own number. -/
theorem C24_sequence_round_trip : ∀ (objs : List (Sc × List Nat × List Nat)),
    (∀ o ∈ objs, scOk o.1 ∧ Bytes o.2.1 ∧ Bytes o.2.2 ∧ o.1.size ≤ o.2.1.length ∧ o.1.size ≤ o.2.2.length) →
    ∃ out ms, encAll (objs.map fun o => (o.1, o.2.1)) = some out ∧
      Decodes (decAll (objs.map fun o => (o.1, o.2.2))) out ms ∧ ms.length = objs.length ∧
      ∀ (j : Nat) (o : Sc × List Nat × List Nat) (m : List Nat), objs[j]? = some o → ms[j]? = some m → ∀ i, m[i]? = if covered o.1 i then o.2.1[i]? else o.2.2[i]? := by
  intro objs
  induction objs with
  | nil => intro _; exact ⟨[], [], rfl, decodes_pure _, rfl, by simp⟩
  | cons o objs ih =>
    intro h
    obtain ⟨out, ms, h1, h2, h3, h4⟩ := ih fun x hx => h x (by simp [hx])
    obtain ⟨a, b, c, d, e⟩ := h o (by simp)
    obtain ⟨out1, m, g1, _, _, g4, _, g6⟩ := C24_scalar_round_trip o.1 a o.2.1 o.2.2 b c d e
    refine ⟨out1 ++ out, m :: ms, by simp [encAll, g1, h1], ?_, by simp [h3], ?_⟩
    · exact decodes_andThen (f := fun m buf pos => (decAll (objs.map fun o => (o.1, o.2.2)) buf pos).andThen
        fun ms pos => some (some (m :: ms, pos))) g4 (decodes_map h2 (by intro _; rfl))
    · intro j o' m' hj hm'
      cases j with
      | zero =>
        simp only [List.getElem?_cons_zero, Option.some.injEq] at hj hm'
        subst hj hm'; exact g6
      | succ j => exact h4 j o' m' (by simpa using hj) (by simpa using hm')

/-- **C24, wire format** (RFC 4506).  Integers of up to 32 bits are one big-endian word holding the value
(two's complement), 64-bit numbers are eight bytes big-endian.  A 128-bit number is two of these, the less
significant one first. -/
theorem C24_wire_format (bs : List Nat) (hb : Bytes bs) :
    (bs.length = 1 → enc .w8 bs = some (bigEndian 4 (signedLittleEndian bs % 2 ^ 32).toNat)) ∧
    (bs.length = 2 → enc .i16 bs = some (bigEndian 4 (signedLittleEndian bs % 2 ^ 32).toNat)) ∧
    (bs.length = 2 → enc .u16 bs = some (bigEndian 4 (littleEndian bs))) ∧
    (bs.length = 4 → enc .w32 bs = some (bigEndian 4 (littleEndian bs))) ∧
    (bs.length = 8 → enc .w64 bs = some (bigEndian 8 (littleEndian bs))) ∧
    (bs.length = 16 → enc .w128 bs = some (bigEndian 8 (littleEndian bs % 2 ^ 64) ++ bigEndian 8 (littleEndian bs / 2 ^ 64))) := by
  have hle : ∀ (bs : List Nat), readLE bs.length bs = some (littleEndian bs) := by
    intro bs
    induction bs with
    | nil => rfl
    | cons b bs ih => simp [readLE, ih, littleEndian]
  have hlt : ∀ (bs : List Nat), Bytes bs → littleEndian bs < 256 ^ bs.length := by
    intro bs hb
    induction bs with
    | nil => simp [littleEndian]
    | cons b bs ih =>
      have h1 := ih fun x hx => hb x (by simp [hx])
      have h2 := hb b (by simp)
      simp only [littleEndian, List.length_cons, Nat.pow_succ]
      omega
  have happ : ∀ (n : Nat) (bs : List Nat), n ≤ bs.length → readLE n bs = some (littleEndian (bs.take n)) := by
    intro n
    induction n with
    | zero => intro bs _; simp [readLE, littleEndian]
    | succ n ih =>
      intro bs h
      cases bs with
      | nil => simp at h
      | cons b bs => simp [readLE, ih bs (by simpa using h), littleEndian]
  have hbe : ∀ w, be32 w = bigEndian 4 w := by
    intro w
    simp only [be32, bigEndian, List.nil_append, List.cons_append, List.cons.injEq, and_true]
    omega
  have hbe8 : ∀ w, be32 (w / 2 ^ 32) ++ be32 (w % 2 ^ 32) = bigEndian 8 w := by
    intro w
    simp only [be32, bigEndian, List.nil_append, List.cons_append, List.cons.injEq, and_true]
    omega
  have hsx : ∀ n, (n = 8 ∨ n = 16) → 8 * bs.length = n →
      be32 (sext32 n (littleEndian bs)) = bigEndian 4 (signedLittleEndian bs % 2 ^ 32).toNat := by
    intro n hn hl
    rw [hbe]
    congr 1
    have h1 := hlt bs hb
    rw [show (256 : Nat) ^ bs.length = 2 ^ (8 * bs.length) by rw [Nat.pow_mul]] at h1
    unfold sext32 signedLittleEndian
    rw [hl] at h1 ⊢
    rcases hn with rfl | rfl
    · split <;> omega
    · split <;> omega
  have h64 : ∀ bs : List Nat, 8 ≤ bs.length → enc64 bs = some (bigEndian 8 (littleEndian (bs.take 8))) := by
    intro bs h
    rw [enc64, happ 8 bs h]
    exact congrArg some (hbe8 _)
  refine ⟨?_, ?_, ?_, ?_, ?_, ?_⟩
  · intro h; simp only [enc]; rw [happ 1 bs (by omega), List.take_of_length_le (by omega)]
    exact congrArg some (hsx 8 (Or.inl rfl) (by omega))
  · intro h; simp only [enc]; rw [happ 2 bs (by omega), List.take_of_length_le (by omega)]
    exact congrArg some (hsx 16 (Or.inr rfl) (by omega))
  · intro h; simp only [enc]; rw [happ 2 bs (by omega), List.take_of_length_le (by omega)]
    exact congrArg some (hbe _)
  · intro h; simp only [enc]; rw [happ 4 bs (by omega), List.take_of_length_le (by omega)]
    exact congrArg some (hbe _)
  · intro h
    simp only [enc]; rw [h64 bs (by omega), List.take_of_length_le (by omega)]
  · intro h
    simp only [enc]
    rw [h64 bs (by omega), h64 (bs.drop 8) (by simp; omega), List.take_of_length_le (l := bs.drop 8) (by simp; omega)]
    have hsplit : ∀ (n : Nat) (bs : List Nat), littleEndian bs = littleEndian (bs.take n) + 256 ^ n * littleEndian (bs.drop n) := by
      intro n
      induction n with
      | zero => intro bs; simp [littleEndian]
      | succ n ih =>
        intro bs
        cases bs with
        | nil => simp [littleEndian]
        | cons b bs =>
          simp only [List.take_succ_cons, List.drop_succ_cons, littleEndian]
          rw [ih bs, Nat.pow_succ, Nat.mul_add, ← Nat.mul_assoc, Nat.mul_comm 256 (256 ^ n)]
          omega
    have h1 := hsplit 8 bs
    have h2 := hlt (bs.take 8) fun x hx => hb x (List.mem_of_mem_take hx)
    rw [show (bs.take 8).length = 8 by simp; omega] at h2
    have e1 : littleEndian bs % 2 ^ 64 = littleEndian (bs.take 8) := by omega
    have e2 : littleEndian bs / 2 ^ 64 = littleEndian (bs.drop 8) := by omega
    rw [e1, e2]; rfl

/-- **C24.** Decoding a scalar from an arbitrary document never leaves the document nor the destination. -/
theorem C24_decoding_is_safe (k : Sc) (hk : scOk k) (buf mem : List Nat) (h : buf.length < 2 ^ 32)
    (hl : k.size ≤ mem.length) : Safe (fun b p => dec k b p mem) buf := (dec_safe h k mem hl hk).1

/-- **C25.** A string of any content (without NUL, as C strings are) is read back as a new block with
the same content and its terminator. -/
theorem C25_string_round_trip (flags refIdx : Nat) (str : List Nat) (hf : flags < 256)
    (hr : flags.testBit 1 = false ∧ flags.testBit 3 = false) (hn : flags.testBit 0 = false) (hl : str.length < 2 ^ 32 - 1) :
    Decodes loadString (saveString flags refIdx str) (flags, .block (str ++ [0])) :=
  loadString_text hf (by simp [isRef, hr]) hn hl

/-- **C25.** NULL is read back as NULL; it is distinct from the empty string, which is a block of one NUL. -/
theorem C25_null_round_trip (flags refIdx : Nat) (str : List Nat) (hf : flags < 256)
    (hr : flags.testBit 1 = false ∧ flags.testBit 3 = false) (hn : flags.testBit 0 = true) : Decodes loadString (saveString flags refIdx str) (flags, .null) :=
  loadString_null hf (by simp [isRef, hr]) hn

/-- **C25.** A reference is read back as the same reference. -/
theorem C25_reference_round_trip (flags refIdx : Nat) (str : List Nat) (hf : flags < 256)
    (hr : flags.testBit 1 = true ∨ flags.testBit 3 = true) (hi : refIdx < 2 ^ 32) : Decodes loadString (saveString flags refIdx str) (flags, .ref refIdx) :=
  loadString_ref hf (by simpa [isRef] using hr) hi

/-- **C25.** Reading a string from an arbitrary document never leaves the document nor the new block. -/
theorem C25_string_is_safe (buf : List Nat) (hb : Bytes buf) (h : buf.length < 2 ^ 32 - 1) : Safe loadString buf :=
  loadString_safe hb h

/-- **C25.** A character array inside an object is saved up to its terminator (or completely) and read
back: the destination holds the same bytes up to and including the terminator, the rest is unchanged. -/
theorem C25_char_array_round_trip (mem mem0 : List Nat) (size : Nat) (hl : size ≤ mem.length)
    (hl0 : size ≤ mem0.length) (hs : size < 2 ^ 32) :
    ∃ len out, saveCharArray mem size = some out ∧ len ≤ size ∧
      (len < size → ∃ k, len = k + 1 ∧ mem[k]? = some 0) ∧ (∀ i, i + 1 < len → ∃ c, mem[i]? = some c ∧ c ≠ 0) ∧
      Decodes (fun b p => loadCharArray b p mem0) out (mem.take len ++ mem0.drop len) := by
  obtain ⟨len, out, _, h2, h3, h4, h5, h6⟩ := charArray_ok hl hl0 hs
  exact ⟨len, out, h2, h3, h4, h5, h6⟩

/-- **C25.** A dynamically allocated character array (a string behind a pointer) is read back with its
terminator, and reading it from an arbitrary document is safe. -/
theorem C25_dynamic_array_round_trip (str : List Nat) (hl : str.length < 2 ^ 32 - 1) :
    Decodes loadDynArray (saveDynArray str) (str ++ [0]) := dynArray_ok hl

theorem C25_dynamic_array_is_safe (buf : List Nat) (h : buf.length < 2 ^ 32) : Safe loadDynArray buf :=
  dynArray_safe h

/-- **C25, deviation.** Loading a character array that is part of an object is not safe: the length in the
document is not compared with the size of the array.  This 12-byte document makes the loader write 5
bytes to an array of 4. -/
theorem C25_deviation_char_array_overrun :
    loadCharArray (be32 5 ++ [1, 2, 3, 4, 5, 0, 0, 0]) 0 [0, 0, 0, 0] = none := by decide +kernel

/-! non-vacuity -/
example : enc .w8 [200] = some [255, 255, 255, 200] := by decide +kernel
example : enc .w64 [1, 2, 3, 4, 5, 6, 7, 8] = some [8, 7, 6, 5, 4, 3, 2, 1] := by decide +kernel
example : scOk (.complex (.raw 10) 16) := ⟨trivial, by decide⟩
example : dec .i16 [9, 255, 255, 255, 254, 7] 1 [0, 0, 5] = some (some ([254, 255, 5], 5)) := by decide +kernel
example : saveString 0 0 [104, 105] = [0, 0, 0, 0, 0, 0, 0, 2, 104, 105, 0, 0] := by decide +kernel
example : loadString [0, 0, 0, 0, 0, 0, 0, 2, 104, 105, 0, 0] 0 = some (some ((0, .block [104, 105, 0]), 12)) := by decide +kernel
example : loadString (saveString 0 0 []) 0 = some (some ((0, .block [0]), 8)) := by decide +kernel
example : loadString (saveString 1 0 []) 0 = some (some ((1, .null), 4)) := by decide +kernel
example : saveCharArray [104, 0, 7, 7] 4 = some [0, 0, 0, 2, 104, 0, 0, 0] := by decide +kernel

end Verif.Props.Xdr
