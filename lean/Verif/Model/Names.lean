/-!
# Comparison of names and of fields

Models the comparators and hash functions src/metaresc.c that the tables of types, fields and enumeration constants are built with,
and the comparator for sorting the fields of a structure.
-/
namespace Verif.Model.Names

/-- a C string without its zero (bytes as numbers), or NULL -/
abbrev Str := Option (List Nat)

/-- src/metaresc.h `mr_hashed_string_t`: a text and its hash value, 0 if it was not computed yet -/
structure Hashed where
  str : Str
  hash : Nat
deriving DecidableEq

/-- src/metaresc.c:668–675 `mr_hashed_string_get_hash`; `H` is `mr_hash_str` (src/mr_extra.c:224–228, see `Model.Cmp` for what it computes).
The second result is the text afterwards: the hash value is stored in it although it is `const`. -/
def getHash (H : Str → Nat) (x : Hashed) : Nat × Hashed :=
  if x.hash = 0 then (H x.str, { x with hash := H x.str }) else (x.hash, x)

/-- `strcmp` of the C library: the sign of the first difference of bytes -/
def strcmp : List Nat → List Nat → Int
  | [], [] => 0
  | [], _ :: _ => -1
  | _ :: _, [] => 1
  | a :: x, b :: y => if a = b then strcmp x y else if a < b then -1 else 1

/-- src/metaresc.c:691–699.  The shortcut for equal addresses matters for two NULL pointers only: texts at the same address are equal. -/
def textCmp : Str → Str → Int
  | none, none => 0
  | none, some _ => -1
  | some _, none => 1
  | some a, some b => strcmp a b

/-- src/metaresc.c:683–700 `mr_hashed_string_cmp`, with both texts afterwards -/
def hashedCmp (H : Str → Nat) (x y : Hashed) : Int × Hashed × Hashed :=
  let (hx, x) := getHash H x
  let (hy, y) := getHash H y
  if hx > hy then (1, x, y) else if hx < hy then (-1, x, y) else (textCmp x.str y.str, x, y)

/-- what matters of `mr_fd_t` here: its name and the name of its type (`stype.tdp->type`).  Fields of the same type share the latter; its
stored hash value is always 0 or the right one (proved), so that it does not matter here that every field has a copy. -/
structure Entry where
  name : Hashed
  type : Hashed
deriving DecidableEq

/-- src/metaresc.c:703–708 `mr_fd_name_and_type_get_hash` (the sum is reduced to 32 bits) -/
def entryHash (H : Str → Nat) (x : Entry) : Nat × Entry :=
  let (a, n) := getHash H x.name
  let (b, t) := getHash H x.type
  ((a + b) % 2 ^ 32, ⟨n, t⟩)

/-- src/metaresc.c:710–719 `mr_fd_name_and_type_cmp` -/
def entryCmp (H : Str → Nat) (x y : Entry) : Int × Entry × Entry :=
  let (c, nx, ny) := hashedCmp H x.name y.name
  if c ≠ 0 then (c, ⟨nx, x.type⟩, ⟨ny, y.type⟩)
  else
    let (c, tx, ty) := hashedCmp H x.type y.type
    (c, ⟨nx, tx⟩, ⟨ny, ty⟩)

/-- what collections do with the entries of a table -/
inductive Op
  | hashName (i : Nat)
  | hashBoth (i : Nat)
  | cmpName (i j : Nat)
  | cmpBoth (i j : Nat)

/-- one call of a hash function or comparator of the table: its result and the entries afterwards.  By name only:
src/metaresc.c:735–747 `mr_fd_name_get_hash`, `mr_fd_name_cmp`, with which `mr_ed_name_…` and `mr_td_name_…`
(src/metaresc.c:721–733, 749–755, 803–822) agree. -/
def step (H : Str → Nat) (es : List Entry) : Op → Option (Int × List Entry)
  | .hashName i => do
    let x ← es[i]?
    let (h, n) := getHash H x.name
    some (h, es.set i { x with name := n })
  | .hashBoth i => do
    let x ← es[i]?
    let (h, x) := entryHash H x
    some (h, es.set i x)
  | .cmpName i j => do
    let x ← es[i]?
    let y ← es[j]?
    let (c, nx, ny) := hashedCmp H x.name y.name
    some (c, (es.set i { x with name := nx }).set j { y with name := ny })
  | .cmpBoth i j => do
    let x ← es[i]?
    let y ← es[j]?
    let (c, x, y) := entryCmp H x y
    some (c, (es.set i x).set j y)

/-- a sequence of calls: all results, and the entries at the end -/
def run (H : Str → Nat) : List Entry → List Op → Option (List Int × List Entry)
  | es, [] => some ([], es)
  | es, op :: ops => do
    let (r, es) ← step H es op
    let (rs, es) ← run H es ops
    some (r :: rs, es)

/-- src/metaresc.c:2006–2015 `mr_var_cmp`: variables are known by file and name (neither is NULL) -/
def varCmp (x y : List Nat × List Nat) : Int :=
  if strcmp x.1 y.1 ≠ 0 then strcmp x.1 y.1 else strcmp x.2 y.2

/-- src/metaresc.c:1999–2004 `mr_var_get_hash` -/
def varHash (H : Str → Nat) (x : List Nat × List Nat) : Nat := (H (some x.1) + H (some x.2)) % 2 ^ 32

/-- what matters of `mr_fd_t` for sorting -/
structure Field where
  offset : Nat
  size : Nat
  bits : Bool
  shift : Nat
  width : Nat
deriving DecidableEq

/-- `(a > b) - (a < b)` -/
def sign (a b : Nat) : Int := (if a > b then 1 else 0) - (if a < b then 1 else 0)

/-- src/mr_save.c:198–209 `mr_uds_cmp`: resolved unions by the addresses of the union's field and of the member selected; `mr_ud_cmp`,
`mr_fn_cmp` (src/mr_stringify.c) and `mr_tr_cmp` (src/mr_udo_init.c) compare one address in the same way, as `sign` does -/
def udsCmp (x y : Nat × Nat) : Int := if sign x.1 y.1 ≠ 0 then sign x.1 y.1 else sign x.2 y.2

/-- src/mr_save.c:211–217 `mr_uds_get_hash` (reduced to 32 bits) -/
def udsHash (x : Nat × Nat) : Nat := (x.1 + x.2) % 2 ^ 32

/-- src/metaresc.c:771–802 `mr_fd_offset_cmp_sorting` -/
def offsetCmp (x y : Field) : Int :=
  if sign x.offset y.offset ≠ 0 then sign x.offset y.offset
  else if x.bits && y.bits && decide (sign x.shift y.shift ≠ 0) then sign x.shift y.shift
  else if x.bits && y.bits && decide (sign x.width y.width ≠ 0) then sign x.width y.width
  else sign x.size y.size

end Verif.Model.Names
