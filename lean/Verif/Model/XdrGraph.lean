import Verif.Model.Copy
import Verif.Model.Xdr
import Verif.Model.Bitfield
/-!
# Object graphs in XDR: `mr_xdr_save`, `mr_xdr_load`

Model of /repo/src/xdr.c:238–345 and 539–1200 on top of the result of `mr_save` (saving) and of the table of types
(loading), for x86-64.  The encodings of scalars, strings and character arrays are those of `Verif.Model.Xdr`.
Memory consists of bytes as in `Verif.Model.Copy`: `live` are the blocks that may be accessed, an access outside of
them is undefined (`none`); the allocator is an arbitrary function that returns 0 if there is no memory.

Not modelled: unions and fields with a size field (`none`), allocation failures for the document and for the array of
nodes, memory written by a step of loading that fails.  `ld` is `MR_SIZEOF_LONG_DOUBLE` (configure.ac).
-/
namespace Verif.Model.XdrGraph
open Verif.Model Verif.Model.Ptrs Verif.Model.Save Verif.Model.Copy Verif.Model.Xdr

/-- the `n` bytes at an address -/
def bytesAt (m : Bytes) (a n : Nat) : List Nat := (List.range n).map fun k => (m (a + k)).toNat

/-- read `n` bytes -/
def peek (live : Blocks) (m : Bytes) (a n : Nat) : Option (List Nat) := if covered live a n then some (bytesAt m a n) else none

/-- the memory after bytes were written at an address -/
def put (m : Bytes) (a : Nat) (bs : List Nat) : Bytes := fun b => if a ≤ b ∧ b < a + bs.length then UInt8.ofNat (bs.getD (b - a) 0) else m b

/-- `stype.tdp` -/
def tdAt (tds : List Td) (td : Option Nat) : Option Td := td.bind (tds[·]?)

/-- the integer types of the table src/xdr.c:776–787 -/
def intSc : MrType → Option Sc
  | .int8 | .uint8 => some .w8
  | .int16 => some .i16
  | .uint16 => some .u16
  | .int32 | .uint32 => some .w32
  | .int64 | .uint64 => some .w64
  | _ => none

/-- The scalars in the tables of handlers src/xdr.c:1050–1150; an enum is saved as its effective type
(src/xdr.c:768–789).  `none`: there is no handler or it fails. -/
def scalar (ld : Nat) (tds : List Td) (ty : MrType) (td : Option Nat) : Option Sc :=
  match ty with
  | .bool | .char => some .w8
  | .int128 | .uint128 => some .w128
  | .float => some .w32
  | .complexFloat => some (.complex .w32 4)
  | .double => some .w64
  | .complexDouble => some (.complex .w64 8)
  | .longDouble => some (.raw ld)
  | .complexLongDouble => some (.complex (.raw ld) 16)
  | .func | .funcType => some .w64
  | .enum => (tdAt tds td).bind fun d => intSc d.effective
  | t => intSc t

/-- the number of bytes in which a bit field is -/
def bitBytes (f : Fd) : Nat := Nat.max 1 ((f.shift + f.width + 7) / 8)

def toBits (l : List Nat) : List (BitVec 8) := l.map (BitVec.ofNat 8)
def ofBits (l : List (BitVec 8)) : List Nat := l.map BitVec.toNat

/-- `mr_uintmax_t` in memory -/
def wordBytes (v : BitVec 128) : List Nat := (List.range 16).map fun k => v.toNat / 256 ^ k % 256
def bytesWord (l : List Nat) : BitVec 128 := BitVec.ofNat 128 ((readLE 16 l).getD 0)

/-- MR_SIGNED_INT_TYPES, src/metaresc.c:525 -/
def signedInt : MrType → Bool
  | .int8 | .int16 | .int32 | .int64 | .int128 => true
  | _ => false

/-- src/metaresc.c:521–523: the type of a bit field whose sign is extended -/
def bitType (tds : List Td) (aux : MrType) (td : Option Nat) : MrType :=
  match aux, tdAt tds td with
  | .enum, some d => d.effective
  | t, _ => t

/-! ### saving -/

/-- the byte `flags`, src/mr_protos.h:476–483; MR_IS_TYPED is never set by `mr_save` -/
def flagsOf (pd : Pd) (x : Info) : Nat :=
  x.null.toNat + 2 * pd.ref.toNat + 4 * pd.refd.toNat + 8 * pd.cref.toNat + 16 * x.opq.toNat + 32 * x.unnamed.toNat

/-- the memory that is saved -/
structure Src where
  ld : Nat
  tds : List Td
  live : Blocks
  m : Bytes
  /-- bound for `strlen` -/
  fuel : Nat

/-- `*(void **)a` -/
def Src.ptr (S : Src) (a : Nat) : Option Nat := if covered S.live a 8 then some (word S.m a) else none

/-- the bytes of the string at `a` before the terminating zero -/
def Src.text (S : Src) (a : Nat) : Option (List Nat) := do peek S.live S.m a (← strlen S.live S.m S.fuel a)

/-- the handlers src/xdr.c:1050–1086 for saving: the bytes of a node.  The inner `none` is a failure. -/
def nodeBytes (S : Src) (ra : List Pd) (pd : Pd) (x : Info) : Option (Option (List Nat)) :=
  match pd.ty with
  | .none | .void | .struct => some (some [])
  /- `xdr_char_array_`, src/xdr.c:539–573 -/
  | .charArray => do
    let p ← ra[pd.parent]?
    if pd.parent ≠ 0 ∧ p.ty = .pointer then do some (some (saveDynArray (← S.text x.addr)))
    else do some (some (← saveCharArray (← peek S.live S.m x.addr x.size) x.size))
  /- `xdr_save_string`, src/xdr.c:586–609 -/
  | .string =>
    let flags := flagsOf pd x
    if isRef flags then do some (some (saveString flags (← ra[pd.firstChild]?).idx []))
    else if isNull flags then some (some (saveString flags 0 []))
    else do some (some (saveString flags 0 (← S.text (← S.ptr x.addr))))
  /- `xdr_save_pointer`, src/xdr.c:946–968 -/
  | .pointer =>
    let flags := flagsOf pd x
    let head := be32 (sext32 8 flags)
    if isRef flags then do some (some (head ++ be32 (u32 (← ra[pd.firstChild]?).idx)))
    else if isNull flags then some (some head)
    else
      let head := head ++ be32 (u32 x.size)
      if flags.testBit 4 ∧ x.size > 0 then do some (some (head ++ putOpaque (← peek S.live S.m (← S.ptr x.addr) x.size)))
      else some (some head)
  /- `xdr_save_array`, src/xdr.c:873–883 -/
  | .array => do
    let f ← x.fd
    if f.nonPersistent = false ∧ f.dims.length = 1 ∧ f.dims.headD 0 ≠ 0 then some (some (be32 (u32 x.size)))
    else some (some [])
  /- `xdr_save_bitfield`, src/xdr.c:847–854, with `xdr_bitfield_value` 826–837 -/
  | .bitfield => do
    let f ← x.fd
    let v ← Bitfield.saveBitfield (toBits (← peek S.live S.m x.addr (bitBytes f))) f.shift f.width (signedInt (bitType S.tds x.aux f.td))
    match scalar S.ld S.tds f.aux f.td with
    | some k => do some (some (← enc k (wordBytes v)))
    | none => some none
  | .union | .anonUnion | .namedAnonUnion => none
  | t =>
    match scalar S.ld S.tds t (tdOf x.fd) with
    | some k => do some (some (← enc k (← peek S.live S.m x.addr k.size)))
    | none => some none

/-- src/xdr.c:1088–1107 `xdr_save_node` -/
def saveNode (S : Src) (info : List Info) : Visitor (List Nat) := fun s i _ order =>
  match order with
  | .post => some (true, s)
  | .pre => do
    match ← nodeBytes S s.1 (← s.1[i]?) (← info[i]?) with
    | some b => some (true, (s.1, s.2 ++ b))
    | none => some (false, s)

/-- src/xdr.c:1115–1119 `mr_xdr_save`: the status and the document -/
def xdrSave (S : Src) (st : St) : Option (Bool × List Nat) := do
  let (ok, _, out) ← dfs (saveNode S st.info) 1 (st.ptrs.ra, [])
  some (ok, out)

/-! ### loading -/

/-- What is kept of the descriptor of a loaded node: `first` is `first_child` of a reference (that of other nodes is
not read by the code), `flags` are those read from the document. -/
structure LNode where
  addr : Nat := 0
  ty : MrType := .none
  parent : Nat := 0
  flags : Nat := 0
  first : Nat := 0
  deriving DecidableEq, Repr, Inhabited

structure LSt where
  m : Bytes
  live : Blocks
  nodes : List LNode
  pos : Nat

/-- the document and everything else that does not change; `junk` is the content of the uninitialised variable of
`xdr_load_bitfield` (one for every node) -/
structure Env where
  ld : Nat
  tds : List Td
  buf : List Nat
  alloc : Blocks → Nat → Nat
  junk : Nat → Bytes

/-- write bytes -/
def LSt.poke (s : LSt) (a : Nat) (bs : List Nat) : Option LSt := if covered s.live a bs.length then some { s with m := put s.m a bs } else none

/-- `*(void **)a = v` -/
def LSt.store (s : LSt) (a v : Nat) : Option LSt := if covered s.live a 8 then some { s with m := setWord s.m a v } else none

/-- `calloc` of `n` bytes: the address, 0 if there is no memory -/
def LSt.calloc (E : Env) (s : LSt) (n : Nat) : Nat × LSt :=
  let a := E.alloc s.live n
  if a = 0 then (0, s) else (a, { s with m := put s.m a (List.replicate n 0), live := s.live ++ [(a, n)] })

/-- a step of loading that reads a value from the document: the status and the state after it -/
def reading {α : Type} (s : LSt) (d : Dec α) (f : α → LSt → Option (Bool × LSt × List (Nat × Fd))) : Option (Bool × LSt × List (Nat × Fd)) :=
  match d with
  | none => none
  | some none => some (false, s, [])
  | some (some (a, pos)) => f a { s with pos := pos }

/-- a step that is complete -/
def finished (s : LSt) : Option (Bool × LSt × List (Nat × Fd)) := some (true, s, [])

/-- a scalar at `data`; `none`: there is no handler -/
def loadScalar (E : Env) (s : LSt) (data : Nat) : Option Sc → Option (Bool × LSt × List (Nat × Fd))
  | none => some (false, s, [])
  | some k => do
    let old ← peek s.live s.m data k.size
    reading s (dec k E.buf s.pos old) fun b s => do finished (← s.poke data b)

/-- flags and, for a reference, the index are stored in the node that was added last -/
def LSt.mark (s : LSt) (flags first : Nat) : LSt :=
  { s with nodes := s.nodes.dropLast ++ [{ (s.nodes.getLast?).getD {} with flags := flags, first := first }] }

/-- src/xdr.c:618–655 `xdr_load_string` -/
def loadStr (E : Env) (s : LSt) (data : Nat) : Option (Bool × LSt × List (Nat × Fd)) :=
  reading s (getLong E.buf s.pos) fun w s =>
    let flags := w % 256
    if isRef flags then
      reading s (getLong E.buf s.pos) fun idx s => finished (s.mark flags idx)
    else if isNull flags then do finished ((← s.store data 0).mark flags 0)
    else do
      let s ← (s.mark flags 0).store data 0
      reading s (getLong E.buf s.pos) fun size s =>
        let (a, s) := s.calloc E (u32 (size + 1))
        do
          let s ← s.store data a
          if a = 0 then some (false, s, [])
          else reading s (getOpaque E.buf s.pos size) fun b s => do finished (← s.poke a b)

/-- src/xdr.c:539–573 `xdr_char_array_` of an array inside of an object; nothing compares the length in the document
with the size of the array.  Behind a pointer (`char (*)[]`) it is not modelled here. -/
def loadChars (E : Env) (s : LSt) (data parent : Nat) : Option (Bool × LSt × List (Nat × Fd)) := do
  let p ← s.nodes[parent]?
  if parent ≠ 0 ∧ p.ty = .pointer then none
  else
    reading s (getLong E.buf s.pos) fun len s =>
      reading s (getOpaque E.buf s.pos len) fun b s => do finished (← s.poke data b)

/-- src/xdr.c:863–870 `xdr_load_bitfield` -/
def loadBits (E : Env) (s : LSt) (data : Nat) (f : Fd) (idx : Nat) : Option (Bool × LSt × List (Nat × Fd)) :=
  match scalar E.ld E.tds f.aux f.td with
  | none => some (false, s, [])
  | some k =>
    reading s (dec k E.buf s.pos (bytesAt (E.junk idx) 0 16)) fun v s => do
      let b ← Bitfield.loadBitfield (toBits (← peek s.live s.m data (bitBytes f))) f.shift f.width (bytesWord v)
      finished (← s.poke data (ofBits b))

/-- src/xdr.c:665–682 `xdr_load_struct`: the fields -/
def loadStruct (E : Env) (s : LSt) (data : Nat) (f : Fd) : Option (Bool × LSt × List (Nat × Fd)) :=
  match tdAt E.tds f.td with
  | none => some (false, s, [])
  | some d => some (true, s, d.fields.map fun g => (data + g.offset, g))

/-- `tdp ? tdp->mr_type : MR_TYPE_VOID` -/
def tdType (tds : List Td) (td : Option Nat) : MrType := ((tdAt tds td).map Td.ty).getD .void

/-- `count` objects of type `f` from `data` on -/
def elements (data : Nat) (f : Fd) (count : Nat) : List (Nat × Fd) := (List.range count).map fun i => (data + i * f.size, f)

/-- src/xdr.c:892–931 `xdr_load_array`: the elements -/
def loadArray (E : Env) (s : LSt) (data : Nat) (f : Fd) : Option (Bool × LSt × List (Nat × Fd)) :=
  let count := f.dims.headD 0
  if count = 0 then finished s
  else
    let g := { f with nonPersistent := true, size := f.size / count }
    if f.dims.length = 1 then
      let g := { g with ty := f.aux, aux := tdType E.tds f.td }
      if f.nonPersistent then some (true, s, elements data g count)
      else
        reading s (getLong E.buf s.pos) fun size s =>
          if g.size = 0 then finished s
          else if f.sizeField ≠ none then none
          else some (true, s, elements data g (size / g.size))
    else some (true, s, elements data { g with dims := f.dims.tail } count)

/-- src/xdr.c:977–1045 `xdr_load_pointer`: what the pointer leads to -/
def loadPointer (E : Env) (s : LSt) (data : Nat) (f : Fd) : Option (Bool × LSt × List (Nat × Fd)) :=
  let g : Fd := { nonPersistent := true, unnamed := true, ty := f.aux, aux := tdType E.tds f.td, td := f.td, size := elementSize E.tds f.aux f.td }
  do
    let s ← s.store data 0
    reading s (getLong E.buf s.pos) fun w s =>
      let flags := w % 256
      if isRef flags then
        reading s (getLong E.buf s.pos) fun idx s => finished (s.mark flags idx)
      else if isNull flags then finished (s.mark flags 0)
      else
        let s := s.mark flags 0
        reading s (getLong E.buf s.pos) fun size s =>
          let opq := flags.testBit 4
          let count := if opq then 0 else if g.size > 0 then size / g.size else 1
          let size := if opq then size else if g.size > 0 then count * g.size else 1
          if size = 0 then some (false, s, [])
          else if f.sizeField ≠ none then none
          else
            let (a, s) := s.calloc E size
            do
              let s ← s.store data a
              if a = 0 then some (false, s, [])
              else if opq then reading s (getOpaque E.buf s.pos size) fun b s => do finished (← s.poke a b)
              else some (true, s, elements a g count)

/-- src/xdr.c:294–319 `xdr_load_inner`: add a node for the object at `data` and load what belongs to itself.  The
result are the status, the state, and the objects to be loaded next as its children. -/
def openNode (E : Env) (parent : Nat) (s : LSt) (data : Nat) (f : Fd) : Option (Bool × LSt × List (Nat × Fd)) :=
  let idx := s.nodes.length
  let s := { s with nodes := s.nodes ++ [{ addr := data, ty := f.ty, parent := parent }] }
  match f.ty with
  | .none | .void => finished s
  | .string => loadStr E s data
  | .charArray => loadChars E s data parent
  | .bitfield => loadBits E s data f idx
  | .struct => loadStruct E s data f
  | .array => loadArray E s data f
  | .pointer => loadPointer E s data f
  | .union | .anonUnion | .namedAnonUnion => none
  | t => loadScalar E s data (scalar E.ld E.tds t f.td)

/-- load objects one after another, stop at the first failure -/
def loadAll (inner : LSt → Nat × Fd → Option (Bool × LSt)) : LSt → List (Nat × Fd) → Option (Bool × LSt)
  | s, [] => some (true, s)
  | s, x :: l => do
    let (ok, s) ← inner s x
    if ok then loadAll inner s l else some (false, s)

/-- src/xdr.c:294–319 `xdr_load_inner` with the loops 676–681, 927–929 and 1038–1041 -/
def loadInner (E : Env) : Nat → Nat → LSt → Nat × Fd → Option (Bool × LSt)
  | 0, _, _, _ => none
  | fuel + 1, parent, s, x => do
    let (ok, s', items) ← openNode E parent s x.1 x.2
    if ok then loadAll (loadInner E fuel s.nodes.length) s' items else some (false, s')

/-- one pass of the loop src/xdr.c:249–289 in `mr_set_crossrefs`: set a pointer that is a reference; undefined if the
memory must not be accessed -/
def crossref (nodes : List LNode) (live : Blocks) (m : Bytes) (x : LNode) : Option (Bool × Bytes) :=
  if isRef x.flags = false then some (true, m)
  else if x.first ≥ nodes.length then some (false, m)
  else if x.ty ≠ .pointer ∧ x.ty ≠ .string then some (false, m)
  else do
    let t ← nodes[x.first]?
    let (ok, v) ← (
      if x.flags.testBit 3 then
        if t.addr = 0 then some (false, 0)
        else if covered live t.addr 8 then some (true, word m t.addr) else none
      else some (true, t.addr))
    if x.addr = 0 then some (false, m)
    else if covered live x.addr 8 then some (ok, setWord m x.addr v) else none

/-- the loop src/xdr.c:249–289 -/
def crossrefs (nodes : List LNode) (live : Blocks) : List LNode → Bytes → Option (Bool × Bytes)
  | [], m => some (true, m)
  | x :: l, m => do
    let (ok, m) ← crossref nodes live m x
    let (ok', m) ← crossrefs nodes live l m
    some (ok && ok', m)

/-- src/xdr.c:321–345 `mr_xdr_load` of a document from its start: status, memory and blocks.  Node 0 is a dummy. -/
def xdrLoad (E : Env) (fuel : Nat) (m : Bytes) (live : Blocks) (data : Nat) (f : Fd) : Option (Bool × Bytes × Blocks) :=
  if data = 0 then some (false, m, live)
  else do
    let (ok, s) ← loadInner E fuel 0 { m := m, live := live, nodes := [{}], pos := 0 } (data, f)
    let (ok', m) ← crossrefs s.nodes s.live s.nodes.tail s.m
    some (ok && ok', m, s.live)

end Verif.Model.XdrGraph
