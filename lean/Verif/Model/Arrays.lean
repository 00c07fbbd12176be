/-
Model of the traversal of arrays: `mr_save_array` (/repo/src/mr_save.c:1171-1230) and
`mr_load_array` (/repo/src/mr_load.c:619-672).

`dims` are the entries of `stype.dim.dim`, of which the first `n` are in use
(`dim.size / sizeof dim[0]`); `size` is `stype.size` of the descriptor, the size of the
whole array in bytes; `addr` is the address of the data.  The result is the list of the
elements visited: their addresses and sizes; `none` is the return value 0 / `MR_FAILURE`.
Simplified: an element occupies one node (`nodes_added` is 1), types of the descriptors
are left out.
-/
namespace Verif.Model.Arrays

/-- Run `f` for the numbers from `i` to `i + n - 1` and collect the results, up to the
first failure. -/
def forEach {α : Type} (f : Nat → Option (List α)) : Nat → Nat → Option (List α)
  | _, 0 => some []
  | i, n + 1 => do
    let a ← f i
    let b ← forEach f (i + 1) n
    some (a ++ b)

/-- The number of elements of an array with a size field of value `bytes`,
/repo/src/mr_save.c:1197-1212; `count_` is an `mr_idx_t`, 32 bits. -/
def limited (count elementSize : Nat) : Option Int → Nat
  | none => count
  | some bytes =>
    if bytes ≤ 0 then 0
    else
      let count_ := (bytes.toNat / elementSize) % 4294967296
      if count > count_ then count_ else count

/-- `mr_save_array`.  `limit` is the value of the size field of the outermost array, if it
has one; it is used for arrays of one dimension only.  The `memmove` in line 1219 has the
same source and destination, so the inner array has the entries of the outer one. -/
def saveArray (dims : List Nat) : Nat → Nat → Nat → Option Int → Option (List (Nat × Nat))
  | 0, _, _, _ => none
  | n + 1, size, addr, limit => do
    let count ← dims[0]?
    if count = 0 then some []
    else if size = 0 then none
    else
      let size := size / count
      if n = 0 then
        forEach (fun i => some [(addr + i * size, size)]) 0 (limited count size limit)
      else
        forEach (fun i => saveArray dims n size (addr + i * size) none) 0 count

/-- A loaded tree: a scalar or a node with subnodes. -/
inductive Doc
  | scalar (v : Nat)
  | list (l : List Doc)

/-- The subnodes of a node. -/
def Doc.children : Doc → List Doc
  | .scalar _ => []
  | .list l => l

/-- The loop over the subnodes, /repo/src/mr_load.c:656-670. -/
def loadNodes (f : Nat → Doc → Option (List (Nat × Nat))) (count : Nat) :
    Nat → List Doc → Option (List (Nat × Nat))
  | _, [] => some []
  | i, c :: cs =>
    if i ≥ count then none
    else do
      let a ← f i c
      let b ← loadNodes f count (i + 1) cs
      some (a ++ b)

/-- `mr_load_array`: the stores, value and address.  Here the dimensions are shifted
(/repo/src/mr_load.c:652), the entries of the inner array are the tail.  A scalar is
stored by the handler of its type. -/
def loadArray : List Nat → Nat → Nat → Doc → Option (List (Nat × Nat))
  | [], _, addr, .scalar v => some [(addr, v)]
  | [], _, _, .list _ => none
  | count :: dims, size, addr, doc =>
    if count = 0 then (if doc.children.isEmpty then some [] else none)
    else if size = 0 then none
    else loadNodes (fun i c => loadArray dims (size / count) (addr + i * (size / count)) c) count 0
      doc.children

end Verif.Model.Arrays
