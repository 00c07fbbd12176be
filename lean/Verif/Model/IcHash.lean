import Verif.Model.IcArray
/-!
# `src/mr_ic.c`: hash table collection

The hash function is an arbitrary function of the key to `unsigned`.  A word 0 in the table is a free
slot; the key 0 itself lives in the extra last slot and is guarded by `zero_key`.
-/
namespace Verif.Model.Ic
open Verif.Model

/-- `ic->hash` and `ic->items_count`; `table.length` is `hash.size / sizeof (mr_ptr_t)`. -/
structure Hash where
  table : List Key
  zeroKey : Bool
  itemsCount : Nat

/-- `src/mr_ic.c:695-696`: the fresh collection of `mr_ic_hash_new` -/
def hashNew : Hash := { table := [], zeroKey := false, itemsCount := 0 }

/-- Outcome of linear probing. -/
inductive Probe where
  | empty (i : Nat)
  | found (i : Nat)
  | full
deriving DecidableEq

/-- The probing loop shared by `mr_ic_hash_index_add` (`src/mr_ic.c:465-479`) and
`mr_ic_hash_find` (`src/mr_ic.c:615-625`). -/
def probe (cmp : Cmp) (table : List Key) (count bucket : Nat) (key : Key) : Nat → Nat → Option Probe
  | 0, _ => none
  | fuel + 1, i => do
    let v ← table[i]?
    if v = 0 then some (.empty i)
    else if cmp key v = 0 then some (.found i)
    else
      let i := if i + 1 ≥ count then 0 else i + 1
      if i = bucket then some .full else probe cmp table count bucket key fuel i

/-- `src/mr_ic.c:448-483` `mr_ic_hash_index_add`: new state and the index behind the returned
pointer. -/
def hashIndexAdd (cmp : Cmp) (hash : Key → Nat) (h : Hash) (key : Key) : Option (Hash × Option Nat) :=
  if h.table.length ≥ 2 then
    let count := h.table.length - 1
    if key = 0 then do
      let table ← wr h.table count 0
      some ({ table := table, zeroKey := true, itemsCount := u32 (h.itemsCount + 1) }, some count)
    else do
      let bucket := hash key % count
      match ← probe cmp h.table count bucket key (count + 1) bucket with
      | .empty i => do
        let table ← wr h.table i key
        some ({ h with table := table, itemsCount := u32 (h.itemsCount + 1) }, some i)
      | .found i => some (h, some i)
      | .full => some (h, none)
  else some (h, none)

/-- `src/mr_ic.c:634-651` `mr_ic_hash_foreach` with a visitor that accepts every key: the keys in
the order of the visits. -/
def hashForeach (h : Hash) : List Key :=
  if h.table.length < 2 then []
  else
    let count := h.table.length - 1
    (if h.zeroKey then [h.table.getD count 0] else []) ++ (h.table.take count).filter (· ≠ 0)

/-- `src/mr_ic.c:485-491` `mr_ic_hash_index_visitor` applied by `mr_ic_foreach` until it fails. -/
def hashVisit (cmp : Cmp) (hash : Key → Nat) : Hash → List Key → Option (Hash × Bool)
  | h, [] => some (h, true)
  | h, k :: ks => do
    match ← hashIndexAdd cmp hash h k with
    | (h, none) => some (h, false)
    | (h, some _) => hashVisit cmp hash h ks

/-- `src/mr_ic.c:493-520` `mr_ic_hash_reindex`; the source collection is given by its item count and
the keys its `foreach` visits.  `ok` is the answer of `MR_REALLOC`. -/
def hashReindex (cmp : Cmp) (hash : Key → Nat) (dst : Hash) (srcCount : Nat) (src : List Key)
    (ok : Bool) : Option (Hash × Bool) :=
  let count := u32 (srcCount * 4 + 6)
  if srcCount ≠ 0 ∧ dst.table.length < count then
    if !ok then some (hashNew, false)
    else hashVisit cmp hash { table := List.replicate count 0, zeroKey := false, itemsCount := 0 } src
  else
    hashVisit cmp hash
      { table := List.replicate dst.table.length 0, zeroKey := false, itemsCount := 0 } src

/-- `src/mr_ic.c:522-538` `mr_ic_hash_index` -/
def hashIndex (cmp : Cmp) (hash : Key → Nat) (h : Hash) (rarray : List Key) (ok : Bool) :
    Option (Hash × Bool) :=
  hashReindex cmp hash h rarray.length rarray ok

/-- `src/mr_ic.c:606-632` `mr_ic_hash_find`: index behind the returned pointer. -/
def hashFind (cmp : Cmp) (hash : Key → Nat) (h : Hash) (key : Key) : Option (Option Nat) :=
  if h.table.length < 2 then some none
  else do
    let count := h.table.length - 1
    let bucket := hash key % count
    match ← probe cmp h.table count bucket key (count + 1) bucket with
    | .found i => some (some i)
    | _ =>
      if h.zeroKey then do
        let z ← h.table[count]?
        some (if cmp key z = 0 then some count else none)
      else some none

/-- `src/mr_ic.c:540-560` `mr_ic_hash_add`: new state and the index behind the returned pointer.
`ic->items_count` is incremented before the new table is requested and stays so on failure. -/
def hashAdd (cmp : Cmp) (hash : Key → Nat) (h : Hash) (key : Key) (ok : Bool) :
    Option (Hash × Option Nat) := do
  match ← hashFind cmp hash h key with
  | some i => some (h, some i)
  | none =>
    if h.itemsCount ≥ h.table.length / 2 then do
      let h := { h with itemsCount := u32 (h.itemsCount + 1) }
      match ← hashReindex cmp hash hashNew h.itemsCount (hashForeach h) ok with
      | (_, false) => some (h, none)
      | (dst, true) => hashIndexAdd cmp hash dst key
    else hashIndexAdd cmp hash h key

/-- `src/mr_ic.c:578-600`: the loop of `mr_ic_hash_del` that re-indexes the keys after the deleted
one. -/
def hashDelLoop (cmp : Cmp) (hash : Key → Nat) (bucket : Nat) :
    Nat → Hash → Nat → Option (Hash × Bool)
  | 0, _, _ => none
  | fuel + 1, h, i => do
    let count := h.table.length - 1
    let i := if i + 1 ≥ count then 0 else i + 1
    let key ← h.table[i]?
    if key = 0 then some (h, true)
    else if i = bucket then some (h, false)
    else do
      let table ← wr h.table i 0
      match ← hashIndexAdd cmp hash
          { h with table := table, itemsCount := u32 (h.itemsCount + 4294967295) } key with
      | (h, none) => some (h, false)
      | (h, some _) => hashDelLoop cmp hash bucket fuel h i

/-- `src/mr_ic.c:562-604` `mr_ic_hash_del`: new state and status. -/
def hashDel (cmp : Cmp) (hash : Key → Nat) (h : Hash) (key : Key) : Option (Hash × Bool) := do
  match ← hashFind cmp hash h key with
  | none => some (h, false)
  | some bucket => do
    let h := { h with itemsCount := u32 (h.itemsCount + 4294967295) }
    let count := h.table.length - 1
    if bucket = count then some ({ h with zeroKey := false }, true)
    else do
      let table ← wr h.table bucket 0
      hashDelLoop cmp hash bucket count { h with table := table } bucket

end Verif.Model.Ic
