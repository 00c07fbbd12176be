import Verif.Model.XdrGraph
import Verif.Spec.XdrGraph
import Verif.Spec.Bits
import Verif.Lemmas.CopyMem
import Verif.Lemmas.Xdr
import Verif.Lemmas.Bitfield
/-!
Memory as bytes and as bits.
-/
namespace Verif.Lemmas.XdrMem
open Verif.Model Verif.Model.Save Verif.Model.Copy Verif.Model.Xdr Verif.Model.XdrGraph Verif.Spec Verif.Spec.XdrGraph

theorem byte_bits {x y : UInt8} (h : ∀ q, q < 8 → x.toNat.testBit q = y.toNat.testBit q) : x = y := by
  apply UInt8.toNat.inj
  apply Nat.eq_of_testBit_eq
  intro q
  by_cases hq : q < 8
  · exact h q hq
  · have hx : x.toNat < 2 ^ q := Nat.lt_of_lt_of_le x.toNat_lt (Nat.pow_le_pow_right (by omega) (by omega))
    have hy : y.toNat < 2 ^ q := Nat.lt_of_lt_of_le y.toNat_lt (Nat.pow_le_pow_right (by omega) (by omega))
    rw [Nat.testBit_lt_two_pow hx, Nat.testBit_lt_two_pow hy]

theorem bitAt_add (m : Bytes) (a q : Nat) (hq : q < 8) : bitAt m (8 * a + q) = (m a).toNat.testBit q := by
  unfold bitAt
  rw [show (8 * a + q) / 8 = a from by omega, show (8 * a + q) % 8 = q from by omega]

theorem byte_of_bits {m m' : Bytes} {a a' : Nat} (h : ∀ q, q < 8 → bitAt m (8 * a + q) = bitAt m' (8 * a' + q)) : m a = m' a' := by
  apply byte_bits
  intro q hq
  have := h q hq
  rwa [bitAt_add _ _ _ hq, bitAt_add _ _ _ hq] at this

theorem bit_of_byte {m m' : Bytes} {a a' q : Nat} (h : m (a + q / 8) = m' (a' + q / 8)) : bitAt m (8 * a + q) = bitAt m' (8 * a' + q) := by
  unfold bitAt
  rw [show (8 * a + q) / 8 = a + q / 8 from by omega, show (8 * a' + q) / 8 = a' + q / 8 from by omega, h,
    show (8 * a + q) % 8 = (8 * a' + q) % 8 from by omega]

theorem bytesAt_length (m : Bytes) (a n : Nat) : (bytesAt m a n).length = n := by simp [bytesAt]

theorem bytesAt_get (m : Bytes) {a n i : Nat} (h : i < n) : (bytesAt m a n)[i]? = some (m (a + i)).toNat := by
  simp [bytesAt, h]

theorem bytesAt_lt (m : Bytes) (a n : Nat) : ∀ b ∈ bytesAt m a n, b < 256 := by
  intro b hb
  obtain ⟨k, _, rfl⟩ := List.mem_map.1 hb
  exact (m (a + k)).toNat_lt

theorem peek_ok {live : Blocks} {m : Bytes} {a n : Nat} (h : Copy.covered live a n = true) : peek live m a n = some (bytesAt m a n) := by
  unfold peek
  rw [if_pos h]

theorem put_in {m : Bytes} {a : Nat} {bs : List Nat} {k v : Nat} (h : bs[k]? = some v) : put m a bs (a + k) = UInt8.ofNat v := by
  obtain ⟨h1, h2⟩ := List.getElem?_eq_some_iff.1 h
  unfold put
  rw [if_pos (by omega), show a + k - a = k from by omega, List.getD_eq_getElem?_getD, h]
  rfl

theorem put_out {m : Bytes} {a b : Nat} {bs : List Nat} (h : ¬ (a ≤ b ∧ b < a + bs.length)) : put m a bs b = m b := by
  unfold put
  rw [if_neg h]

theorem put_other {m : Bytes} {a p : Nat} {bs : List Nat} (h : ¬ (8 * a ≤ p ∧ p < 8 * (a + bs.length))) : bitAt (put m a bs) p = bitAt m p := by
  unfold bitAt
  rw [put_out (by omega)]

theorem ofNat_toNat (x : UInt8) : UInt8.ofNat x.toNat = x := by simp

theorem memBit_bytes {m : Bytes} {a n j : Nat} (h : j < 8 * n) : memBit (toBits (bytesAt m a n)) j = bitAt m (8 * a + j) := by
  unfold memBit toBits bitAt
  rw [List.getD_eq_getElem?_getD, List.getElem?_map, bytesAt_get _ (by omega : j / 8 < n), Option.map_some, Option.getD_some, BitVec.getLsbD_ofNat,
    show (8 * a + j) / 8 = a + j / 8 from by omega, show (8 * a + j) % 8 = j % 8 from by omega]
  simp only [show j % 8 < 8 from by omega, decide_true, Bool.true_and]

theorem put_memBit {m : Bytes} {a j : Nat} {l : List (BitVec 8)} (h : j < 8 * l.length) : bitAt (put m a (ofBits l)) (8 * a + j) = memBit l j := by
  unfold bitAt memBit
  have hl : j / 8 < l.length := by omega
  have hg : (ofBits l)[j / 8]? = some (l[j / 8]).toNat := by
    unfold ofBits
    rw [List.getElem?_map, List.getElem?_eq_getElem hl, Option.map_some]
  rw [show (8 * a + j) / 8 = a + j / 8 from by omega, show (8 * a + j) % 8 = j % 8 from by omega, put_in hg, List.getD_eq_getElem?_getD,
    List.getElem?_eq_getElem hl, Option.getD_some]
  have : (UInt8.ofNat (l[j / 8]).toNat).toNat = (l[j / 8]).toNat := by
    rw [UInt8.toNat_ofNat']
    exact Nat.mod_eq_of_lt (l[j / 8]).isLt
  rw [this]
  rfl

theorem testBit_byte (v k q : Nat) (hq : q < 8) : (v / 256 ^ k % 256).testBit q = v.testBit (8 * k + q) := by
  rw [show (256 : Nat) = 2 ^ 8 from rfl, Nat.testBit_mod_two_pow, ← Nat.pow_mul, Nat.testBit_div_two_pow]
  simp only [hq, decide_true, Bool.true_and]
  rw [Nat.add_comm]

theorem wordBytes_length (v : BitVec 128) : (wordBytes v).length = 16 := by simp [wordBytes]

theorem wordBytes_lt (v : BitVec 128) : ∀ b ∈ wordBytes v, b < 256 := by
  intro b hb
  obtain ⟨k, _, rfl⟩ := List.mem_map.1 hb
  exact Nat.mod_lt _ (by omega)

theorem wordBytes_get (v : BitVec 128) {k : Nat} (h : k < 16) : (wordBytes v)[k]? = some (v.toNat / 256 ^ k % 256) := by
  simp [wordBytes, h]

/-- the bytes of a number -/
theorem readLE_bit (n : Nat) : ∀ (l : List Nat), n ≤ l.length → (∀ b ∈ l, b < 256) → ∃ v, readLE n l = some v ∧
    ∀ k q, k < n → q < 8 → v.testBit (8 * k + q) = (l.getD k 0).testBit q := by
  induction n with
  | zero => intro l _ _; exact ⟨0, rfl, fun k q h => by omega⟩
  | succ n ih =>
    intro l hl hb
    cases l with
    | nil => simp at hl
    | cons x l =>
      obtain ⟨v, e, hv⟩ := ih l (by simpa using hl) (fun b h => hb b (by simp [h]))
      have hx : x < 256 := hb x (by simp)
      refine ⟨x + 256 * v, by simp [readLE, e], fun k q hk hq => ?_⟩
      have h1 : x + 256 * v = 2 ^ 8 * v + x := by omega
      rw [h1, Nat.testBit_two_pow_mul_add v (by omega)]
      cases k with
      | zero => simp [hq]
      | succ k =>
        rw [if_neg (by omega), show 8 * (k + 1) + q - 8 = 8 * k + q from by omega, hv k q (by omega) hq]
        simp

theorem bytesWord_bit {l : List Nat} (hl : l.length = 16) (hb : ∀ b ∈ l, b < 256) {k q : Nat} (hk : k < 16) (hq : q < 8) :
    (bytesWord l).getLsbD (8 * k + q) = (l.getD k 0).testBit q := by
  obtain ⟨v, e, hv⟩ := readLE_bit 16 l (by omega) hb
  unfold bytesWord
  rw [e, Option.getD_some, BitVec.getLsbD_ofNat, hv k q hk hq]
  simp only [show 8 * k + q < 128 from by omega, decide_true, Bool.true_and]

theorem wordBytes_bit (v : BitVec 128) {k q : Nat} (hk : k < 16) (hq : q < 8) : ((wordBytes v).getD k 0).testBit q = v.getLsbD (8 * k + q) := by
  rw [List.getD_eq_getElem?_getD, wordBytes_get v hk, Option.getD_some, testBit_byte _ _ _ hq]
  rfl

end Verif.Lemmas.XdrMem
