import Verif.Model.XdrGraph
/-!
# Filling an object from a parsed document: `mr_load`

Model of /repo/src/mr_load.c for x86-64: the common part of all text loaders.  The parser of a format leaves an array of
nodes linked to a tree (`ra`, `Verif.Model.Ptrs`) and for every node its name, its value and some flags (`data`); `mr_load`
stores the values into the object, allocates what pointers and strings lead to, sets the references and, if anything
fails, releases what it has allocated.

Memory consists of bytes as in `Verif.Model.Copy`: `live` are the blocks that may be accessed; an access outside of them and
`free` of something that is not the start of a block are undefined (`none`).  The allocator is an arbitrary function that
returns 0 if there is no memory.

* Conversion of values (`mr_value_cast`, `dlsym`) is a parameter: whatever bytes it gives are stored.
* Not modelled (`none`): unions, size fields, character arrays behind pointers (`mr_get_char_array` with `realloc`).
* The text of MR_VT_STRING is a block allocated by the parser that is handed over to the object; here it is
  allocated at that moment, like the text of MR_VT_SUBSTR.
* The list of children is determined before the children are loaded.
-/
namespace Verif.Model.Load
open Verif.Model Verif.Model.Ptrs Verif.Model.Save Verif.Model.Copy Verif.Model.XdrGraph

/-- `value_type` and `load_params` of a node: MR_VT_INT, MR_VT_SUBSTR or MR_VT_STRING, everything else -/
inductive Val
  | none
  | int (v : BitVec 128)
  | text (s : List Nat)
  | other
  deriving DecidableEq, Repr

/-- what the parser stores in a node besides the links: `name` is the name of `fdp`; `typed` the type given in the
document (MR_IS_TYPED); the flag MR_IS_NULL -/
structure Doc where
  name : Option (List Nat) := .none
  typed : Option (Option Nat) := .none
  null : Bool := false
  val : Val := .none
  deriving DecidableEq, Repr

/-- what the conversion of the value of a node to the type of the object gives -/
inductive Conv
  | fail
  /-- nothing is stored: a string that is not one character, src/mr_load.c:369–380 -/
  | keep
  | store (bytes : Nat → UInt8)

/-- The members of a node that `mr_load` sets: `data.ptr`, `mr_type`, `mr_type_aux`, `fdp->stype.tdp`, the flags
MR_IS_REFERENCE and MR_IS_CONTENT_REFERENCE; `first` is `first_child` of such a node; `sized`: `fdp` has a size field;
`fd` is `fdp`. -/
structure Node where
  addr : Nat := 0
  ty : MrType := .none
  aux : MrType := .none
  td : Option Nat := none
  sized : Bool := false
  ref : Bool := false
  cref : Bool := false
  first : Nat := 0
  fd : Fd := {}
  deriving DecidableEq, Repr, Inhabited

structure LSt where
  m : Bytes
  live : Blocks
  nodes : List Node

/-- everything that does not change; `table`: is there memory for the table of `mr_set_crossrefs` -/
structure Env where
  tds : List Td
  ra : List Pd
  data : List Doc
  conv : Fd → Nat → Conv
  alloc : Blocks → Nat → Nat
  table : Bool

/-- a child that is loaded next: node, address, type; `none`: loading fails here -/
abbrev Item := Option (Nat × Nat × Fd)

/-- status, state, children -/
abbrev Res := Option (Bool × LSt × List Item)

/-- write bytes -/
def LSt.poke (s : LSt) (a : Nat) (bs : List Nat) : Option LSt := if covered s.live a bs.length then some { s with m := put s.m a bs } else none

/-- `*(void **)a = v` -/
def LSt.store (s : LSt) (a v : Nat) : Option LSt := if covered s.live a 8 then some { s with m := setWord s.m a v } else none

/-- `*(void **)a` -/
def LSt.fetch (s : LSt) (a : Nat) : Option Nat := if covered s.live a 8 then some (word s.m a) else none

/-- `calloc` of `n` bytes: the address, 0 if there is no memory -/
def LSt.calloc (E : Env) (s : LSt) (n : Nat) : Nat × LSt :=
  let a := E.alloc s.live n
  if a = 0 then (0, s) else (a, { s with m := put s.m a (List.replicate n 0), live := s.live ++ [(a, n)] })

/-- `free`: the block that starts at `a` is in use no longer -/
def LSt.free (s : LSt) (a : Nat) : Option LSt :=
  if s.live.any fun b => b.1 == a then some { s with live := s.live.eraseP fun b => b.1 == a } else none

/-- change one node -/
def LSt.setNode (s : LSt) (i : Nat) (f : Node → Node) : Option LSt := do
  let x ← s.nodes[i]?
  some { s with nodes := ← wr s.nodes i (f x) }

def finished (s : LSt) : Res := some (true, s, [])
def failed (s : LSt) : Res := some (false, s, [])

/-- the siblings from `i` on; `none`: outside of the array, or the list does not end -/
def chain (ra : List Pd) : Nat → Nat → Option (List Nat)
  | 0, _ => none
  | fuel + 1, i =>
    if i = 0 then some []
    else do
      let pd ← ra[i]?
      some (i :: (← chain ra fuel pd.next))

/-- the children of a node -/
def kids (E : Env) (i : Nat) : Option (List Nat) := do chain E.ra (E.ra.length + 1) (← E.ra[i]?).firstChild

/-- the number of bytes stored for a value, src/mr_load.c:163–189, 315–347, 409 -/
def valueSize (f : Fd) : Nat := if f.ty = .enum then Nat.min f.size 16 else typeSize f.ty

def convBytes (n : Nat) (b : Nat → UInt8) : List Nat := (List.range n).map fun k => (b k).toNat

/-- src/mr_load.c:152–191, 304–415 `mr_load_integer`, `mr_load_float`, `mr_load_complex`, `mr_load_char` -/
def loadScalar (E : Env) (s : LSt) (i data : Nat) (f : Fd) : Res :=
  match E.conv f i with
  | .fail => failed s
  | .keep => finished s
  | .store b => do finished (← s.poke data (convBytes (valueSize f) b))

/-- src/mr_load.c:227–279 `mr_load_func` -/
def loadFunc (E : Env) (s : LSt) (i data : Nat) (f : Fd) (d : Doc) : Res := do
  let s ← s.store data 0
  if d.null then finished s else loadScalar E s i data f

/-- src/mr_load.c:288–302 `mr_load_bitfield` -/
def loadBits (E : Env) (s : LSt) (i data : Nat) (f : Fd) : Res :=
  match E.conv f i with
  | .fail => failed s
  | .keep => finished s
  | .store v => do
    let b ← Bitfield.loadBitfield (toBits (← peek s.live s.m data (bitBytes f))) f.shift f.width (bytesWord (convBytes 16 v))
    finished (← s.poke data (ofBits b))

/-- src/mr_load.c:452–464, 715–726: a number is a reference, a negative one a reference to the text of a string.
The smallest number has no opposite. -/
def reference (s : LSt) (i : Nat) (v : BitVec 128) : Option LSt :=
  if 0 ≤ v.toInt then s.setNode i fun x => { x with first := u32 v.toNat, ref := true }
  else if v = BitVec.ofNat 128 (2 ^ 127) then none
  else s.setNode i fun x => { x with first := u32 (-v).toNat, cref := true }

/-- src/mr_load.c:423–474 `mr_load_string` -/
def loadString (E : Env) (s : LSt) (i data : Nat) (d : Doc) : Res := do
  let x ← s.nodes[i]?
  let s ← s.store data 0
  if d.null || x.ref || x.cref then finished s
  else
    match d.val with
    | .text t =>
      let (a, s) := s.calloc E (t.length + 1)
      let s ← s.store data a
      if a = 0 then failed s else finished (← s.poke a t)
    | .int v => do finished (← reference s i v)
    | _ => failed s

/-- `*(char *)data = 0` unless the array is empty, src/mr_load.c:528–530 -/
def LSt.emptied (s : LSt) (data : Nat) (f : Fd) : Option LSt := if f.size > 0 then s.poke data [0] else some s

/-- src/mr_load.c:476–553 `mr_load_char_array` of an array inside of an object: the text is cut -/
def loadChars (E : Env) (s : LSt) (i data : Nat) (f : Fd) (d : Doc) : Res := do
  let s ← s.emptied data f
  match d.val with
  | .text t =>
    let parent := (← E.ra[i]?).parent
    let p ← s.nodes[parent]?
    if t.length ≥ f.size ∧ parent ≠ 0 ∧ p.ty = .pointer then none
    else
      let t := t.take f.size
      let s ← s.poke data t
      if t.length < f.size then do finished (← s.poke (data + t.length) [0]) else finished s
  | _ => failed s

/-- src/mr_load.c:555–567 `mr_load_struct_next_field` (positions of fields instead of addresses) -/
def nextField : Option Nat → Nat
  | none => 0
  | some k => k + 1

/-- the loop src/mr_load.c:593–608: the fields of the structure for its children; `cur` is the last one.
src/metaresc.c:1656–1667 `mr_get_fd_by_name` -/
def assign (E : Env) (fields : List Fd) (data : Nat) : Option Nat → List Nat → Option (List Item)
  | _, [] => some []
  | cur, c :: l => do
    let d ← E.data[c]?
    let k := match d.name.bind fun n => fields.findIdx? fun g => g.name == n with
      | some k => k
      | none => nextField cur
    match fields[k]? with
    | none => some [none]
    | some g => do some (some (c, data + g.offset, g) :: (← assign E fields data (some k) l))

/-- src/mr_load.c:576–610 `mr_load_struct` -/
def loadStruct (E : Env) (s : LSt) (i data : Nat) (f : Fd) : Res :=
  match tdAt E.tds f.td with
  | none => failed s
  | some d => do some (true, s, ← assign E d.fields data none (← kids E i))

/-- objects of type `f` one after another from `data` on, `count` at most -/
def elements (data : Nat) (f : Fd) (count : Nat) : Nat → List Nat → List Item
  | _, [] => []
  | k, c :: l => if k ≥ count then [none] else some (c, data + k * f.size, f) :: elements data f count (k + 1) l

/-- src/mr_load.c:619–675 `mr_load_array` -/
def loadArray (E : Env) (s : LSt) (i data : Nat) (f : Fd) : Res := do
  let l ← kids E i
  let count := f.dims.headD 0
  if count = 0 then if l = [] then finished s else failed s
  else if f.size = 0 then failed s
  else
    let g := { f with nonPersistent := true, unnamed := true, offset := 0, size := f.size / count }
    let g := if f.dims.length = 1 then { g with ty := f.aux, aux := tdType E.tds f.td } else { g with dims := f.dims.tail }
    some (true, s, elements data g count 0 l)

/-- the table of handlers src/mr_load.c:804–838; a pointer is loaded later -/
def openNode (E : Env) (s : LSt) (i data : Nat) (f : Fd) (d : Doc) : Res :=
  match f.ty with
  | .none | .void | .pointer => finished s
  | .string => loadString E s i data d
  | .charArray => loadChars E s i data f d
  | .bitfield => loadBits E s i data f
  | .struct => loadStruct E s i data f
  | .array => loadArray E s i data f
  | .func | .funcType => loadFunc E s i data f d
  | .union | .anonUnion | .namedAnonUnion => none
  | .endAnonUnion | .last => failed s
  | _ => loadScalar E s i data f

/-- src/mr_load.c:853–880: nothing is loaded if the type or the name does not match -/
def refused (s : LSt) (i data : Nat) (f : Fd) (d : Doc) : Bool :=
  data == 0 || i == 0 || decide (i ≥ s.nodes.length) ||
    (match d.typed with | some td => td != f.td | none => false) ||
    (!f.unnamed && (match d.name with | some n => f.name != [] && n != f.name | none => false))

/-- load objects one after another, stop at the first failure -/
def loadAll (inner : LSt → Nat × Nat × Fd → Option (Bool × LSt)) : LSt → List Item → Option (Bool × LSt)
  | s, [] => some (true, s)
  | s, none :: _ => some (false, s)
  | s, some x :: l => do
    let (ok, s) ← inner s x
    if ok then loadAll inner s l else some (false, s)

/-- src/mr_load.c:848–896 `mr_load` of a node -/
def mrLoad (E : Env) : Nat → LSt → Nat × Nat × Fd → Option (Bool × LSt)
  | 0, _, _ => none
  | fuel + 1, s, (i, data, f) => do
    if data = 0 ∨ i = 0 ∨ i ≥ s.nodes.length then some (false, s)
    else
      let d ← E.data[i]?
      if refused s i data f d then some (false, s)
      else
        let s ← s.setNode i fun x => { x with addr := data, ty := f.ty, aux := f.aux, td := f.td, sized := f.sizeField.isSome, fd := f }
        let (ok, s, items) ← openNode E s i data f d
        if ok then loadAll (mrLoad E fuel) s items else some (false, s)

/-- src/mr_load.c:715–726 -/
def numbered (s : LSt) (i : Nat) : Val → Option LSt
  | .int v => reference s i v
  | _ => some s

/-- what a pointer leads to, src/mr_load.c:738–752 -/
def pointee (E : Env) (x : Node) : Fd :=
  { nonPersistent := true, unnamed := true, ty := x.aux, aux := tdType E.tds x.td, td := x.td, size := elementSize E.tds x.aux x.td }

/-- src/mr_load.c:697–768 `mr_load_pointer_postponed`: the objects that are loaded into the new block -/
def openPointer (E : Env) (s : LSt) (i : Nat) : Res := do
  let x ← s.nodes[i]?
  let d ← E.data[i]?
  if x.addr = 0 then failed s
  else
    let s ← s.store x.addr 0
    if d.null then finished s
    else
      let s ← numbered s i d.val
      let x ← s.nodes[i]?
      if x.ref || x.cref then finished s
      else
        let l ← kids E i
        if l = [] then finished s
        else
          let g := pointee E x
          if g.size = 0 then failed s
          else if x.sized then none
          else
            let (a, s) := s.calloc E (l.length * g.size)
            let s ← s.store x.addr a
            if a = 0 then failed s
            else some (true, s, elements a g l.length 0 l)

/-- the loop src/mr_load.c:903–905 -/
def postponed (E : Env) : List Nat → LSt → Option (Bool × LSt)
  | [], s => some (true, s)
  | i :: l, s => do
    if (← s.nodes[i]?).ty = .pointer then
      let (ok, s, items) ← openPointer E s i
      if ok then
        let (ok, s) ← loadAll (mrLoad E E.ra.length) s items
        if ok then postponed E l s else some (false, s)
      else some (false, s)
    else postponed E l s

/-- src/mr_load.c:33–54: the table of public indices, of which the latest node is kept -/
def fillTable : List Pd → Nat → List Nat → Option (List Nat)
  | [], _, t => some t
  | pd :: l, i, t => do fillTable l (i + 1) (← if pd.idx = 0 then some t else wr t pd.idx i)

def maxIdx (ra : List Pd) : Nat := ra.foldl (fun m pd => Nat.max m pd.idx) 0

/-- what is stored into the node `x` that refers to `t`, src/mr_load.c:73, 82–91 -/
def referred (live : Blocks) (m : Bytes) (x t : Node) : Option Nat :=
  if x.cref then (if covered live t.addr 8 then some (word m t.addr) else none) else some t.addr

/-- one pass of the loop src/mr_load.c:57–100: set a pointer that is a reference; what cannot be set is left alone -/
def crossref (nodes : List Node) (max : Nat) (table : List Nat) (live : Blocks) (m : Bytes) (x : Node) : Option Bytes :=
  if (x.ref || x.cref) = false then some m
  else if x.first > max then some m
  else do
    let k ← table[x.first]?
    if k = 0 then some m
    else
      let t ← nodes[k]?
      if x.ty ≠ .pointer ∧ x.ty ≠ .string then some m
      else if x.cref ∧ t.addr = 0 then some m
      else
        let v ← referred live m x t
        if x.addr = 0 then some m
        else if covered live x.addr 8 then some (setWord m x.addr v) else none

def crossrefLoop (nodes : List Node) (max : Nat) (table : List Nat) (live : Blocks) : List Node → Bytes → Option Bytes
  | [], m => some m
  | x :: l, m => do crossrefLoop nodes max table live l (← crossref nodes max table live m x)

/-- src/mr_load.c:29–105 `mr_set_crossrefs`; `max_idx + 1` is computed with 32 bits -/
def setCrossrefs (E : Env) (s : LSt) : Option (Bool × LSt) :=
  if E.table = false then some (false, s)
  else do
    let table ← fillTable E.ra 0 (List.replicate (u32 (maxIdx E.ra + 1)) 0)
    some (true, { s with m := ← crossrefLoop s.nodes (maxIdx E.ra) table s.live s.nodes s.m })

/-- the loop src/mr_load.c:911–917: release what pointers and strings lead to, the last node first -/
def cleanup : List Nat → LSt → Option LSt
  | [], s => some s
  | i :: l, s => do
    let x ← s.nodes[i]?
    if x.ty = .pointer ∨ x.ty = .string then
      let v ← s.fetch x.addr
      if v = 0 then cleanup l s
      else do cleanup l (← (← s.free v).store x.addr 0)
    else cleanup l s

/-- the nodes as the parser leaves them -/
def initial (ra : List Pd) : List Node := ra.map fun pd => { ty := pd.ty, ref := pd.ref, cref := pd.cref, first := pd.firstChild }

/-- src/mr_load.c:848–905 `mr_load` of node 1: first everything but what pointers lead to, then pointers in the order
of their nodes -/
def fill (E : Env) (m : Bytes) (live : Blocks) (dst : Nat) (f : Fd) : Option (Bool × LSt) := do
  let (ok, s) ← mrLoad E E.ra.length { m := m, live := live, nodes := initial E.ra } (1, dst, f)
  if ok then postponed E (List.range E.ra.length) s else some (false, s)

/-- src/mr_load.c:848–924 `mr_load` of node 1: at the end references are set, or everything is released -/
def load (E : Env) (m : Bytes) (live : Blocks) (dst : Nat) (f : Fd) : Option (Bool × LSt) := do
  let (ok, s) ← fill E m live dst f
  let (ok, s) ← if ok then setCrossrefs E s else some (false, s)
  if ok then some (true, s)
  else do some (false, ← cleanup (List.range E.ra.length).tail.reverse s)

end Verif.Model.Load
