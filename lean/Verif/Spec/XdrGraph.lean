import Verif.Spec.Copy
/-!
# What it means that an object graph was saved and loaded

The program that loads the document has its own memory: nothing is assumed about it but room for the object that is
loaded and an allocator.
-/
namespace Verif.Spec.XdrGraph
open Verif.Model Verif.Model.Ptrs Verif.Model.Save Verif.Model.Copy Verif.Spec.Ptrs Verif.Spec.Save Verif.Spec.Copy

/-- bit `p` of the memory, the lowest bit of a byte first -/
def bitAt (m : Bytes) (p : Nat) : Bool := (m (p / 8)).toNat.testBit (p % 8)

/-- the integer type of an enum -/
def enumType (tds : List Td) (td : Option Nat) : MrType := ((td.bind (tds[·]?)).map Td.effective).getD .none

/-- integers of at most 64 bits -/
def integer : MrType → Bool
  | .int8 | .uint8 | .int16 | .uint16 | .int32 | .uint32 | .int64 | .uint64 => true
  | _ => false

/-- the type of the value of a bit field -/
def valueType (tds : List Td) (f : Fd) : MrType := if f.aux = .enum then enumType tds f.td else f.aux

/-- The types that can be written in XDR: enums hold integers of at most 64 bits, bit fields are as wide as their
integer type at most and have no bit in common, and everything is smaller than four gigabytes. -/
structure Storable (tds : List Td) : Prop where
  sizes : ∀ (t : Nat) (d : Td), tds[t]? = some d → d.size < 2 ^ 32
  enums : ∀ (t : Nat) (d : Td), tds[t]? = some d → d.ty = .enum → integer d.effective = true
  kinds : ∀ (t : Nat) (d : Td) (f : Fd), tds[t]? = some d → d.ty = .struct → f ∈ d.fields → f.ty ≠ .endAnonUnion ∧ f.ty ≠ .last
  bits : ∀ (t : Nat) (d : Td) (f : Fd), tds[t]? = some d → d.ty = .struct → f ∈ d.fields → f.ty = .bitfield →
    f.shift < 8 ∧ 1 ≤ f.width ∧ f.width ≤ 8 * typeSize (valueType tds f) ∧
    (integer (valueType tds f) = true ∨ f.aux = .bool ∨ f.aux = .char ∨ f.aux = .int128 ∨ f.aux = .uint128)
  apart : ∀ (t : Nat) (d : Td) (i j : Nat) (f g : Fd), tds[t]? = some d → d.ty = .struct → d.fields[i]? = some f → d.fields[j]? = some g → i ≠ j →
    f.ty = .bitfield → g.ty = .bitfield → Apart (8 * f.offset + f.shift) f.width (8 * g.offset + g.shift) g.width

/-- Byte `k` of an object that is a number belongs to its value: all but the padding of `long double`, of which `ld`
bytes are used, and of enums. -/
def valueByte (ld : Nat) (tds : List Td) (o : Obj) (k : Nat) : Prop :=
  match o.ty with
  | .longDouble => k < ld
  | .complexLongDouble => k < ld ∨ (16 ≤ k ∧ k < 16 + ld)
  | .enum => k < typeSize (enumType tds o.td)
  | .void | .string | .pointer => False
  | t => k < typeSize t

/-- The memory `m'` holds at `dst` an object graph of the same shape and with the same values as that below `root` in
`m`, where the blocks `new` were allocated; before it was `m0`.  `place` tells where the image of an object is. -/
structure Loaded (ld : Nat) (m m0 m' : Bytes) (mem mem' : Mem) (tds : List Td) (root : Obj) (dst : Nat) (live new : Blocks) (place : Obj → Nat) : Prop where
  top : place root = dst
  nonNull : ∀ o, Reach mem tds root o → place o ≠ 0
  /-- objects at different addresses have images at different addresses -/
  addr : ∀ a b, Reach mem tds root a → Reach mem tds root b → place a = place b → a.addr = b.addr
  /-- different objects have different images -/
  inj : ∀ a b, Reach mem tds root a → Reach mem tds root b → moved a (place a) = moved b (place b) → a = b
  /-- the parts of the image are the images of the parts -/
  parts : ∀ o, Reach mem tds root o → components tds (moved o (place o)) = (components tds o).map fun c => moved c (place c)
  /-- what the image of a pointer or string leads to is the image of what it leads to -/
  lead : ∀ o, Reach mem tds root o → target mem' tds (moved o (place o)) = (target mem tds o).map fun t => moved t (place t)
  /-- numbers have the same value -/
  data : ∀ o, Reach mem tds root o → ∀ k, valueByte ld tds o k → m' (place o + k) = m (o.addr + k)
  /-- bit fields have the same value -/
  bits : ∀ o, Reach mem tds root o → o.ty = .struct → ∀ f ∈ members tds o, f.ty = .bitfield → ∀ q, f.shift ≤ q → q < f.shift + f.width →
    bitAt m' (8 * (place o + f.offset) + q) = bitAt m (8 * (o.addr + f.offset) + q)
  /-- character arrays hold the same characters up to the first zero -/
  chars : ∀ o, Reach mem tds root o → o.ty = .struct → ∀ f ∈ members tds o, f.ty = .charArray → ∀ k, k < f.size →
    (∀ i, i < k → m (o.addr + f.offset + i) ≠ 0) → m' (place o + f.offset + k) = m (o.addr + f.offset + k)
  /-- the characters of strings up to the end are the same -/
  text : ∀ t, Outer mem tds root t → t.ty = .charArray → ∀ n, Text m t.addr n → ∀ k, k ≤ n → m' (place t + k) = m (t.addr + k)
  /-- A pointer without a type leads to the image of an object at its address; if there is none it is NULL. -/
  void : ∀ o, Reach mem tds root o → o.ty = .pointer → untyped o.aux = true →
    (∃ t, Reach mem tds root t ∧ t.addr = mem.ptr o.addr ∧ mem'.ptr (place o) = place t) ∨
    (mem'.ptr (place o) = 0 ∧ (o.aux = .void → mem.ptr o.addr ≠ 0 → ∀ t, Reach mem tds root t → t.addr ≠ mem.ptr o.addr))
  /-- the images are at `dst` or in new blocks -/
  fresh : ∀ o, Reach mem tds root o →
    (dst ≤ place o ∧ place o < dst + extent tds root ∧ place o + extent tds o ≤ dst + extent tds root) ∨
    ∃ b ∈ new, b.1 ≤ place o ∧ place o < b.1 + b.2 ∧ place o + extent tds o ≤ b.1 + b.2
  /-- one new block for every object allocated separately, and no other -/
  blocks : ∀ o, Outer mem tds root o → ∀ n, Needs m tds o n → (place o, n) ∈ new
  used : ∀ b ∈ new, ∃ o, Outer mem tds root o ∧ place o = b.1 ∧ Needs m tds o b.2
  apart : ∀ b ∈ new, ∀ c ∈ live, Apart b.1 b.2 c.1 c.2
  sep : new.Pairwise fun b c => Apart b.1 b.2 c.1 c.2
  /-- nothing else is changed -/
  kept : ∀ a, ¬ (dst ≤ a ∧ a < dst + extent tds root) → (∀ b ∈ new, ¬ (b.1 ≤ a ∧ a < b.1 + b.2)) → m' a = m0 a

end Verif.Spec.XdrGraph
