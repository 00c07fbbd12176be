import Verif.Spec.XdrGraph
import Verif.Spec.Json
import Verif.Model.SaveJson
/-!
# Object graphs that can be saved in JSON and loaded again

The printers and conversions of the C library (floating point numbers, functions) and those of enums are parameters: what
is needed of them is that the values that occur in the graph are read back.
-/
namespace Verif.Spec.SaveJson
open Verif.Model Verif.Model.Ptrs Verif.Model.Save Verif.Model.Copy Verif.Model.SaveJson Verif.Spec.Ptrs Verif.Spec.Save Verif.Spec.XdrGraph Verif.Spec.Json
open Verif.Model.XdrGraph (bytesAt tdAt)

/-- bit `q` of a list of bytes -/
def bit (l : List Nat) (q : Nat) : Bool := (l.getD (q / 8) 0).testBit (q % 8)

/-- types of bit fields: integers, bool and enums -/
def bitBase : MrType → Bool
  | .bool | .enum | .int128 | .uint128 => true
  | t => integer t

/-- The types that can be written in JSON: no fields without a type, no quotes and backslashes in names (which are known to
the reader), bit fields of integer types that are not wider than their type. -/
structure Printable (known : List Nat → Bool) (tds : List Td) : Prop where
  kinds : ∀ (t : Nat) (d : Td) (f : Fd), tds[t]? = some d → d.ty = .struct → f ∈ d.fields → f.ty ≠ .none ∧ f.ty ≠ .endAnonUnion ∧ f.ty ≠ .last
  names : ∀ (t : Nat) (d : Td) (f : Fd), tds[t]? = some d → d.ty = .struct → f ∈ d.fields → (∀ c ∈ f.name, c ≠ 34 ∧ c ≠ 92) ∧ known f.name = true
  enums : ∀ (t : Nat) (d : Td), tds[t]? = some d → d.ty = .enum → integer d.effective = true
  bits : ∀ (t : Nat) (d : Td) (f : Fd), tds[t]? = some d → d.ty = .struct → f ∈ d.fields → f.ty = .bitfield →
    bitBase f.aux = true ∧ f.width ≤ 8 * typeSize (valueType tds f) ∧ (f.aux = .bool → f.width = 1) ∧ (f.aux = .enum → HasTd tds f.td .enum)

/-- The text that is written for an enum with the bytes `l` has no quotes and backslashes and is read as the same number. -/
def Named (K : Codec) (td : Option Td) (l : List Nat) : Prop :=
  (∀ c ∈ K.enum td l, c ≠ 34 ∧ c ≠ 92) ∧ ∃ w, K.parse (K.enum td l) = some w ∧ ∀ k, k < l.length → w.toNat / 256 ^ k % 256 = l.getD k 0

/-- types whose printers and conversions are parameters -/
def foreign : MrType → Bool
  | .float | .double | .longDouble | .complexFloat | .complexDouble | .complexLongDouble | .func | .funcType => true
  | _ => false

/-- What is written for the floating point number, complex number or function `o` with the bytes `l` is a number or a text and
is read as the same value, if it is read at all.  (The conversion of a document does not see which type asks, so the number −2¹²⁷ is none.) -/
def Returns (K : Codec) (ld : Nat) (tds : List Td) (o : Obj) (l : List Nat) : Prop :=
  LeafOK (K.print o.ty l) ∧ (∀ null v, ReadAs (K.print o.ty l) null v → null = false ∧ v ≠ .int (2 ^ 127)) ∧
  ∀ (f : Fd) (y : Json.Loaded), f.ty = o.ty → ReadAs (K.print o.ty l) y.null y.value → K.load f y = .fail ∨
    ∃ b, K.load f y = .store b ∧ ∀ k, valueByte ld tds o k → (b k).toNat = l.getD k 0

/-- `l` are the bytes of the value of the bit field `f` at `a`: its bits, extended by the sign or by zeros -/
structure FieldValue (m : Bytes) (a : Nat) (f : Fd) (signed : Bool) (l : List Nat) : Prop where
  bytes : ∀ b ∈ l, b < 256
  low : ∀ q, q < f.width → q < 8 * l.length → bit l q = bitAt m (8 * a + (f.shift + q))
  high : ∀ q, f.width ≤ q → q < 8 * l.length → bit l q = (signed && bitAt m (8 * a + (f.shift + f.width - 1)))

/-- integer types with a sign -/
def signedType : MrType → Bool
  | .int8 | .int16 | .int32 | .int64 | .int128 => true
  | _ => false

/-- The values that occur in the graph are read back: bools are 0 or 1, characters are not the zero byte (which is
written as `\u0000`), the numbers −2¹²⁷ and 2¹²⁷ of 128 bits do not occur. -/
structure Restored (K : Codec) (ld : Nat) (m : Bytes) (mem : Mem) (tds : List Td) (root : Obj) : Prop where
  bools : ∀ o, Reach mem tds root o → o.ty = .bool → m o.addr = 0 ∨ m o.addr = 1
  chars : ∀ o, Reach mem tds root o → o.ty = .char → m o.addr ≠ 0
  wide : ∀ o, Reach mem tds root o → o.ty = .int128 ∨ o.ty = .uint128 → ¬ ∀ k, k < 16 → m (o.addr + k) = if k = 15 then 128 else 0
  enums : ∀ o, Reach mem tds root o → o.ty = .enum → Named K (tdAt tds o.td) (bytesAt m o.addr (typeSize (enumType tds o.td)))
  others : ∀ o, Reach mem tds root o → foreign o.ty = true → (o.ty = .func ∨ o.ty = .funcType → mem.ptr o.addr ≠ 0) → Returns K ld tds o (bytesAt m o.addr (typeSize o.ty))
  bitEnums : ∀ o, Reach mem tds root o → o.ty = .struct → ∀ f ∈ members tds o, f.ty = .bitfield → f.aux = .enum →
    ∀ l, l.length = typeSize (enumType tds f.td) → FieldValue m (o.addr + f.offset) f (signedType (enumType tds f.td)) l → Named K (tdAt tds f.td) l
  bitWide : ∀ o, Reach mem tds root o → o.ty = .struct → ∀ f ∈ members tds o, f.ty = .bitfield → f.aux = .int128 ∨ f.aux = .uint128 →
    ¬ FieldValue m (o.addr + f.offset) f (signedType f.aux) [0, 0, 0, 0, 0, 0, 0, 0, 0, 0, 0, 0, 0, 0, 0, 128]

/-- What is written for the floating point numbers, complex numbers and functions of the graph can be converted when it is read. -/
def Accepted (K : Codec) (m : Bytes) (mem : Mem) (tds : List Td) (root : Obj) : Prop :=
  ∀ o, Reach mem tds root o → foreign o.ty = true → (o.ty = .func ∨ o.ty = .funcType → mem.ptr o.addr ≠ 0) →
    ∀ (f : Fd) (y : Json.Loaded), f.ty = o.ty → ReadAs (K.print o.ty (bytesAt m o.addr (typeSize o.ty))) y.null y.value → K.load f y ≠ .fail

end Verif.Spec.SaveJson
