import Verif.Model.Copy
import Verif.Model.BasicCmp
import Verif.Model.Bitfield
/-!
# Comparing and hashing: `mr_cmp_structs`, `mr_hash_struct`

Model of /repo/src/mr_extra.c:198–513 on the result of `mr_save` and a memory of bytes, for x86-64: little-endian,
`char` is signed, a `long double` consists of 10 bytes.  All addresses are taken to be readable.

`memcmp` and `strcmp` are only defined up to the sign of the result; here the results are -1, 0 and 1.
-/
namespace Verif.Model.Cmp
open Verif.Model Verif.Model.Ptrs Verif.Model.Save Verif.Model.Copy Verif.Model.BasicCmp

/-- `memcmp` of arrays of the same length; `strcmp` of the bytes before the terminating zero: the sign of the
first difference, the end of a string being smaller than all bytes -/
def lexCmp : List Nat → List Nat → Int
  | [], [] => 0
  | [], _ :: _ => -1
  | _ :: _, [] => 1
  | x :: xs, y :: ys => if x = y then lexCmp xs ys else intCmp x y

/-- the bytes of a number, lowest first -/
def toBytes : Nat → Nat → List Nat
  | 0, _ => []
  | n + 1, v => v % 256 :: toBytes n (v / 256)

/-- the `n` bytes at an address -/
def block (m : Bytes) (a n : Nat) : List Nat := (List.range n).map fun k => (m (a + k)).toNat

/-- the bytes of a string before the terminating zero -/
def text (m : Bytes) : Nat → Nat → Option (List Nat)
  | 0, _ => none
  | fuel + 1, a => if m a = 0 then some [] else do some ((m a).toNat :: (← text m fuel (a + 1)))

/-- a signed integer of `n` bytes in two's complement -/
def signed (n v : Nat) : Int := if v < 2 ^ (8 * n - 1) then v else (v : Int) - (2 ^ (8 * n) : Nat)

def withSign (negative : Bool) (v : Nat) : Int := if negative then -(v : Int) else v

/-- The value of a binary floating point number with `e` bits of exponent and `f` bits of fraction, multiplied by
a power of two so that it is an integer; `none` if it is not a number.  Infinity is the next number after the
greatest one. -/
def float (e f v : Nat) : Option Int :=
  let frac := v % 2 ^ f
  let ex := v / 2 ^ f % 2 ^ e
  if ex = 2 ^ e - 1 ∧ frac ≠ 0 then none
  else some (withSign (v / 2 ^ (e + f) % 2 = 1) (if ex = 0 then 2 * frac else (2 ^ f + frac) * 2 ^ ex))

/-- The same for the extended format of x87: 15 bits of exponent, a significand of `f + 1` = 64 bits.  Numbers with
an exponent and without the leading bit of the significand are invalid and treated like NaN. -/
def extended (e f v : Nat) : Option Int :=
  let sig := v % 2 ^ (f + 1)
  let ex := v / 2 ^ (f + 1) % 2 ^ e
  if ex ≠ 0 ∧ sig < 2 ^ f then none
  else if ex = 2 ^ e - 1 ∧ sig ≠ 2 ^ f then none
  else some (withSign (v / 2 ^ (e + f + 1) % 2 = 1) (if ex = 0 then 2 * sig else sig * 2 ^ ex))

/-- what is compared -/
inductive Val
  | none
  /-- `none` is NULL -/
  | str (s : Option (List Nat))
  | int (v : Int)
  | flt (v : Option Int)
  | cpx (re im : Option Int)
  deriving DecidableEq, Repr

/-- the integer types (src/mr_extra.c:401–409, 462, 466–474) -/
def intVal (m : Bytes) (a : Nat) : MrType → Val
  | .int8 => .int (signed 1 (number m a 1))
  | .uint8 => .int (number m a 1)
  | .int16 => .int (signed 2 (number m a 2))
  | .uint16 => .int (number m a 2)
  | .int32 => .int (signed 4 (number m a 4))
  | .uint32 => .int (number m a 4)
  | .int64 => .int (signed 8 (number m a 8))
  | .uint64 => .int (number m a 8)
  | .int128 => .int (signed 16 (number m a 16))
  | .uint128 => .int (number m a 16)
  | _ => .none

/-- MR_SIGNED_INT_TYPES, src/metaresc.c:525 -/
def signedType : MrType → Bool
  | .int8 | .int16 | .int32 | .int64 | .int128 => true
  | _ => false

/-- src/metaresc.c:507–533 `mr_save_bitfield_value` of a node; the field descriptor is dereferenced, a width of 0
is undefined -/
def bitVal (tds : List Td) (m : Bytes) (x : Info) : Option Bitfield.Word := do
  let fd ← x.fd
  let ty := if x.aux = .enum ∧ fd.td ≠ none then effectiveType tds fd.td else x.aux
  if fd.width = 0 then none
  else Bitfield.saveBitfield ((List.range (fd.width + 1)).map fun k => (m (x.addr + k)).toBitVec) fd.shift fd.width (signedType ty)

/-- the value of a node, src/mr_extra.c:382–506 -/
def value (tds : List Td) (m : Bytes) (fuel : Nat) (pd : Pd) (x : Info) : Option Val :=
  match pd.ty with
  | .string =>
    if word m x.addr = 0 then some (.str none)
    else do some (.str (some (← text m fuel (word m x.addr))))
  | .charArray => do some (.str (some (← text m fuel x.addr)))
  | .char => some (.int (signed 1 (number m x.addr 1)))
  | .bool => some (.int (number m x.addr 1))
  | .float => some (.flt (float 8 23 (number m x.addr 4)))
  | .double => some (.flt (float 11 52 (number m x.addr 8)))
  | .longDouble => some (.flt (extended 15 63 (number m x.addr 10)))
  | .complexFloat => some (.cpx (float 8 23 (number m x.addr 4)) (float 8 23 (number m (x.addr + 4) 4)))
  | .complexDouble => some (.cpx (float 11 52 (number m x.addr 8)) (float 11 52 (number m (x.addr + 8) 8)))
  | .complexLongDouble => some (.cpx (extended 15 63 (number m x.addr 10)) (extended 15 63 (number m (x.addr + 16) 10)))
  | .enum => some (intVal m x.addr x.aux)
  | .bitfield => do some (.int (← bitVal tds m x).toNat)
  | .func | .funcType => some (.int (number m x.addr 8))
  | ty => some (intVal m x.addr ty)

/-- `!isnan (x)` as a number -/
def isNum (x : Option Int) : Int := if x.isSome then 1 else 0

/-- CASE_MR_TYPE_CMP_FLOAT, src/mr_extra.c:411–427; also the parts of a complex number, 440–461 -/
def cmpFloat (x y : Option Int) : Int :=
  match x, y with
  | some a, some b => intCmp a b
  | x, y => isNum x - isNum y

/-- CASE_MR_TYPE_CMP_COMPLEX, src/mr_extra.c:429–461 -/
def cmpComplex (xr xi yr yi : Option Int) : Int :=
  if (xr.isNone || xi.isNone) && (yr.isNone || yi.isNone) then 0
  else if cmpFloat xr yr ≠ 0 then cmpFloat xr yr
  else cmpFloat xi yi

/-- src/mr_extra.c:382–508: two values of the same type; the pointers of two strings are different addresses or the
texts are the same -/
def cmpVal : Val → Val → Int
  | .str none, .str none => 0
  | .str none, .str (some _) => -1
  | .str (some _), .str none => 1
  | .str (some a), .str (some b) => lexCmp a b
  | .int a, .int b => intCmp a b
  | .flt a, .flt b => cmpFloat a b
  | .cpx ar ai, .cpx br bi => cmpComplex ar ai br bi
  | _, _ => 0

/-- `flags` of a node, src/mr_protos.h:476–485 (MR_IS_TYPED is not used by `mr_save`) -/
def flags (pd : Pd) (x : Info) : Nat :=
  (if x.null then 1 else 0) + (if pd.ref then 2 else 0) + (if pd.refd then 4 else 0) + (if pd.cref then 8 else 0)
    + (if x.opq then 16 else 0) + (if x.unnamed then 32 else 0)

/-- The bytes of a node before the member `data`, src/mr_protos.h:572–584: there is no padding; `value_type` is
zero.  `fdAt` is the address of a field descriptor, 0 for NULL. -/
def header (fdAt : Option Fd → Nat) (pd : Pd) (x : Info) : List Nat :=
  toBytes 8 (fdAt x.fd) ++ [pd.ty.ctorIdx, x.aux.ctorIdx, flags pd x, 0] ++ toBytes 4 x.size ++ toBytes 4 pd.idx
    ++ toBytes 4 pd.parent ++ toBytes 4 pd.next ++ toBytes 4 pd.firstChild

/-- src/mr_extra.c:372–508: one pass of the loop -/
def cmpNode (fdAt : Option Fd → Nat) (tds : List Td) (m : Bytes) (fuel : Nat) (p : Pd) (x : Info) (q : Pd) (y : Info) : Option Int :=
  if intCmp p.idx q.idx ≠ 0 then some (intCmp p.idx q.idx)
  else if p.idx = 0 then some 0
  else if lexCmp (header fdAt p x) (header fdAt q y) ≠ 0 then some (lexCmp (header fdAt p x) (header fdAt q y))
  else do some (cmpVal (← value tds m fuel p x) (← value tds m fuel q y))

/-- src/mr_extra.c:371: the nodes after the first one, as long as they are equal -/
def cmpNodes (fdAt : Option Fd → Nat) (tds : List Td) (m : Bytes) (fuel : Nat) : List (Pd × Info) → List (Pd × Info) → Option Int
  | [], [] => some 0
  | (p, x) :: xs, (q, y) :: ys => do
    let d ← cmpNode fdAt tds m fuel p x q y
    if d ≠ 0 then some d else cmpNodes fdAt tds m fuel xs ys
  | _, _ => none

/-- the nodes of a saved graph -/
def nodes (st : St) : List (Pd × Info) := st.ptrs.ra.zip st.info

/-- src/mr_extra.c:358–513 `mr_cmp_structs`; an empty array of nodes is a failure of `mr_save` -/
def cmpStructs (fdAt : Option Fd → Nat) (tds : List Td) (m : Bytes) (fuel : Nat) (s t : St) : Option Int :=
  if (nodes s).length = 0 ∨ (nodes t).length = 0 then some 0
  else if intCmp (nodes s).length (nodes t).length ≠ 0 then some (intCmp (nodes s).length (nodes t).length)
  else cmpNodes fdAt tds m fuel (nodes s).tail (nodes t).tail

/-! ## Hash values -/

/-- a `mr_hash_value_t` with the bytes `l`, lowest first -/
def wordOf (l : List Nat) : UInt32 := UInt32.ofNat (l.foldr (fun b v => b + 256 * v) 0)

/-- the loop of `mr_hash_block`, src/mr_extra.c:203–215, on the bytes of the block -/
def hashLoop : Nat → List Nat → UInt32 → Option UInt32
  | 0, _, _ => none
  | fuel + 1, l, h =>
    if l.length > 4 then hashLoop fuel (l.drop 4) (h ^^^ ((h <<< 1) + wordOf (l.take 4)))
    else if l.length > 0 then some (h ^^^ ((h <<< 1) + wordOf l))
    else some h

/-- src/mr_extra.c:198–217 `mr_hash_block` -/
def hashBlock (l : List Nat) : Option UInt32 := hashLoop (l.length + 1) l 0

/-- a floating point number or its hash value if it is not a number, src/mr_extra.c:262–273 -/
def hashFloat (isNan : Bool) (l : List Nat) : Option UInt32 := if isNan then some (-1) else hashBlock l

/-- src/mr_extra.c:307–311: the hash values of the children -/
def hashChildren (ra : List Pd) (res : Nat → UInt32) : Nat → Nat → UInt32 → Option UInt32
  | 0, _, _ => none
  | fuel + 1, c, h =>
    if c = 0 then some h
    else do
      let pd ← ra[c]?
      hashChildren ra res fuel pd.next (h * 3 + res c + 1)

/-- the hash value of a node that depends on its memory only, src/mr_extra.c:238–298, 315–339; the other nodes keep 0 -/
def hashLeaf (tds : List Td) (m : Bytes) (fuel : Nat) (pd : Pd) (x : Info) : Option UInt32 :=
  match pd.ty with
  | .string =>
    if word m x.addr = 0 then some 1 else do hashBlock (← text m fuel (word m x.addr))
  | .charArray => do hashBlock (← text m fuel x.addr)
  | .bool => some (UInt32.ofNat (number m x.addr 1))
  | .char | .uint8 | .int8 => hashBlock (block m x.addr 1)
  | .uint16 | .int16 => hashBlock (block m x.addr 2)
  | .uint32 | .int32 => hashBlock (block m x.addr 4)
  | .uint64 | .int64 | .func | .funcType => hashBlock (block m x.addr 8)
  | .uint128 | .int128 => hashBlock (block m x.addr 16)
  | .float => hashFloat (float 8 23 (number m x.addr 4)).isNone (block m x.addr 4)
  | .double => hashFloat (float 11 52 (number m x.addr 8)).isNone (block m x.addr 8)
  | .complexFloat =>
    hashFloat ((float 8 23 (number m x.addr 4)).isNone || (float 8 23 (number m (x.addr + 4) 4)).isNone) (block m x.addr 8)
  | .complexDouble =>
    hashFloat ((float 11 52 (number m x.addr 8)).isNone || (float 11 52 (number m (x.addr + 8) 8)).isNone) (block m x.addr 16)
  | .longDouble => hashFloat (extended 15 63 (number m x.addr 10)).isNone (block m x.addr 10)
  | .complexLongDouble =>
    if (extended 15 63 (number m x.addr 10)).isNone || (extended 15 63 (number m (x.addr + 16) 10)).isNone then some (-1)
    else do some ((← hashBlock (block m x.addr 10)) + (← hashBlock (block m (x.addr + 16) 10)))
  | .enum =>
    match (tdOf x.fd).bind (tds[·]?) with
    | none => some 0
    | some td => if td.ty = .enum then hashBlock (block m x.addr (typeSize td.effective)) else some 0
  | .bitfield => do hashBlock (toBytes 16 (← bitVal tds m x).toNat)
  | _ => some 0

/-- nodes whose hash value is computed from the children, src/mr_extra.c:299–304 -/
def inner : MrType → Bool
  | .struct | .array | .pointer | .union | .anonUnion | .namedAnonUnion => true
  | _ => false

/-- src/mr_extra.c:230–334 `node_hash`; the context holds the hash values `res.data.uintptr` of the nodes.  They are
`uintptr_t`, but only their lower 32 bits are ever used and all of them are results of type `mr_hash_value_t`, which
is `unsigned` (metaresc.h:1495). -/
def nodeHash (tds : List Td) (m : Bytes) (fuel : Nat) (info : List Info) : Visitor (Nat → UInt32) := fun s i _ order =>
  match order with
  | .pre => some (true, s)
  | .post => do
    let pd ← s.1[i]?
    let x ← info[i]?
    let h ← (if inner pd.ty then hashChildren s.1 s.2 (s.1.length + 1) pd.firstChild 0 else hashLeaf tds m fuel pd x)
    some (true, (s.1, fun j => if j = i then h else s.2 j))

/-- src/mr_extra.c:336–356 `mr_hash_struct` -/
def hashStruct (tds : List Td) (m : Bytes) (fuel : Nat) (s : St) : Option UInt32 :=
  if s.ptrs.ra.length = 0 then some 0
  else do
    let (_, (_, res)) ← dfs (nodeHash tds m fuel s.info) 1 (s.ptrs.ra, fun _ => 0)
    some (res 1)

end Verif.Model.Cmp
