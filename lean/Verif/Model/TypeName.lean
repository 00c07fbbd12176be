import Verif.Model.Mem
import Verif.Model.Ctype

/-
Model of the clean-up of type names: `mr_normalize_type` (/repo/src/metaresc.c:1297-1354),
`mr_type_is_a_pointer` (/repo/src/metaresc.c:1241-1257) and `mr_type_is_an_array`
(/repo/src/metaresc.c:1259-1290).

A buffer with a C string is the list of the bytes before its NUL; the NUL is the byte
at index `length`; every other index is outside (`cAt`).  Bytes are ASCII: `isspace` of a
negative `char` is not modelled.
-/
namespace Verif.Model.TypeName
open Verif.Model

/-- The table `keywords`, /repo/src/metaresc.c:1300-1314. -/
def keywords : List (List Nat) :=
  ["struct", "union", "enum", "const", "__const", "__const__", "volatile", "__volatile",
   "__volatile__", "restrict", "__restrict", "__restrict__"].map (fun s => s.toList.map Char.toNat)

/-- The table `isdelimiter`, /repo/src/metaresc.c:1315-1321. -/
def isDelimiter (c : Nat) : Bool := c == 0 || c == 32 || c == 9 || c == 42

/-- Does `kw` stand at position `i` of the string?  The comparison inside `strstr`: the
bytes are compared one by one, and the NUL differs from every byte of `kw`. -/
def matchAt (s : List Nat) : List Nat → Nat → Option Bool
  | [], _ => some true
  | k :: kw, i => do
    let c ← cAt s i
    if c = k then matchAt s kw (i + 1) else some false

/-- `strstr (&s[i], kw)`: position of the first occurrence at or after `i`. -/
def strstr (s kw : List Nat) : Nat → Nat → Option (Option Nat)
  | 0, _ => none
  | fuel + 1, i => do
    let m ← matchAt s kw i
    if m then some (some i)
    else do
      let c ← cAt s i
      if c = 0 then some none else strstr s kw fuel (i + 1)

/-- `memset (&s[i], ' ', n)` inside the string. -/
def blankOut (s : List Nat) (i : Nat) : Nat → Option (List Nat)
  | 0 => some s
  | n + 1 => do
    let s ← wr s i 32
    blankOut s (i + 1) n

/-- The condition `isdelimiter[found[length]] && ((found == type) || isdelimiter[found[-1]])`,
/repo/src/metaresc.c:1334. -/
def separate (s : List Nat) (found length : Nat) : Option Bool := do
  let after ← cAt s (found + length)
  if isDelimiter after then
    (if found = 0 then some true else do
      let before ← cAt s (found - 1)
      some (isDelimiter before))
  else some false

/-- The inner loop over the occurrences of one keyword,
/repo/src/metaresc.c:1328-1337. -/
def dropKeyword (kw : List Nat) : Nat → List Nat → Nat → Option (List Nat)
  | 0, _, _ => none
  | fuel + 1, s, ptr => do
    match ← strstr s kw (s.length + 1) ptr with
    | none => some s
    | some found =>
      let sep ← separate s found kw.length
      let s ← (if sep then blankOut s found kw.length else some s)
      dropKeyword kw fuel s (found + kw.length)

/-- The loop over the keywords, /repo/src/metaresc.c:1324-1338. -/
def dropAll : List (List Nat) → List Nat → Option (List Nat)
  | [], s => some s
  | kw :: kws, s => do
    let s ← dropKeyword kw (s.length + 1) s 0
    dropAll kws s

/-- `for (i = 0; isspace (type[i]); ++i);`, /repo/src/metaresc.c:1343, on the buffer with
its NUL. -/
def skipSpaces (buf : List Nat) : Nat → Nat → Option Nat
  | 0, _ => none
  | fuel + 1, i => do
    let c ← buf[i]?
    if isspace c then skipSpaces buf fuel (i + 1) else some i

/-- The squeezing loop, /repo/src/metaresc.c:1344-1353: bytes are moved to the left inside
the same buffer, which includes the final NUL. -/
def squeeze : Nat → List Nat → Nat → Nat → Bool → Option (List Nat)
  | 0, _, _, _, _ => none
  | fuel + 1, buf, i, ptr, prevIsSpace => do
    let c ← buf[i]?
    if c = 0 then wr buf ptr 0
    else if isspace c then squeeze fuel buf (i + 1) ptr true
    else do
      let (buf, ptr) ← if prevIsSpace then do
          let b ← wr buf ptr 32
          some (b, ptr + 1)
        else some (buf, ptr)
      let c ← buf[i]?
      let buf ← wr buf ptr c
      squeeze fuel buf (i + 1) (ptr + 1) false

/-- The string held by a buffer. -/
def cString (buf : List Nat) : List Nat := buf.takeWhile (fun c => c != 0)

/-- `mr_normalize_type`, /repo/src/metaresc.c:1297-1354. -/
def normalizeType (s : List Nat) : Option (List Nat) := do
  let s ← dropAll keywords s
  let buf := s ++ [0]
  let i ← skipSpaces buf (buf.length + 1) 0
  let buf ← squeeze (buf.length + 1) buf i 0 false
  some (cString buf)

/-- The loop of `mr_type_is_a_pointer`, /repo/src/metaresc.c:1250-1252: `end` moves back
over white space; reading before the start of the string is `none`. -/
def backSpaces (s : List Nat) : Nat → Option Nat
  | 0 => none
  | e + 1 => do
    let c ← s[e]?
    if isspace c then backSpaces s e else some (e + 1)

/-- `mr_type_is_a_pointer`, /repo/src/metaresc.c:1241-1257, for a string that is not NULL:
the answer and the string left in the buffer. -/
def isPointer (s : List Nat) : Option (Bool × List Nat) :=
  if s.length = 0 then some (false, s)
  else do
    let c ← s[s.length - 1]?
    if c = 42 then do
      let e ← backSpaces s (s.length - 1)
      some (true, s.take e)
    else some (false, s)

/-- `atoi`: white space, then digits.  Simplifications: no sign (array bounds have none);
a value that does not fit `int` is undefined behaviour, `none`. -/
def digits (s : List Nat) : Nat → Nat → Nat → Option Nat
  | 0, _, _ => none
  | fuel + 1, i, v => do
    let c ← cAt s i
    if isdigit c then
      (if v * 10 + (c - 48) ≤ 2147483647 then digits s fuel (i + 1) (v * 10 + (c - 48)) else none)
    else some v

def atoiSpaces (s : List Nat) : Nat → Nat → Option Nat
  | 0, _ => none
  | fuel + 1, i => do
    let c ← cAt s i
    if isspace c then atoiSpaces s fuel (i + 1) else some i

def atoi (s : List Nat) (i : Nat) : Option Nat := do
  let i ← atoiSpaces s (s.length + 1) i
  digits s (s.length + 1) i 0

/-- `strchr (&s[i], '[')`. -/
def strchr (s : List Nat) : Nat → Nat → Option (Option Nat)
  | 0, _ => none
  | fuel + 1, i => do
    let c ← cAt s i
    if c = 91 then some (some i)
    else if c = 0 then some none
    else strchr s fuel (i + 1)

/-- Loop of `mr_type_is_an_array`, /repo/src/metaresc.c:1267-1278: `dims` are the
dimensions stored so far (at most four), and `cut` is where the first bracket was.
The text after the cut stays in the buffer: the later searches still see it. -/
def arrayLoop (s : List Nat) : Nat → Option Nat → List Nat → Option Nat →
    Option (List Nat × Option Nat)
  | 0, _, _, _ => none
  | fuel + 1, bracket, dims, cut =>
    match bracket with
    | none => some (dims, cut)
    | some b => do
      let count ← atoi s (b + 1)
      let dims ← if dims.length < 4 then some (dims ++ [count])
        else do
          let last ← dims[dims.length - 1]?
          some (dims.set (dims.length - 1) (u32 (last * count)))
      let next ← strchr s (s.length + 1) (b + 1)
      arrayLoop s fuel next dims (cut.or (some b))

/-- `mr_type_is_an_array`, /repo/src/metaresc.c:1259-1290, for a string that is not NULL
and a descriptor that is not yet an array: whether the field is an array, its dimensions
and the string left in the buffer.  `charArray` says that `mr_type` is
`MR_TYPE_CHAR_ARRAY`. -/
def isArray (charArray : Bool) (s : List Nat) : Option (Option (List Nat) × List Nat) :=
  if s.length = 0 then some (none, s)
  else do
    let b ← strchr s (s.length + 1) 0
    let (dims, cut) ← arrayLoop s (s.length + 2) b [] none
    let rest := match cut with
      | some b => s.take b
      | none => s
    if 0 < dims.length ∧ ¬ (charArray = true ∧ dims.length = 1) then some (some dims, rest)
    else some (none, rest)

end Verif.Model.TypeName
