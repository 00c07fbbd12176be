import Verif.Model.Mem
import Verif.Model.Ctype
/-!
# Printing and parsing of integers

`src/mr_stringify.c:56-90`, `src/metaresc.c:2030-2082`.
`mr_uintmax_t` is `unsigned __int128` (`src/metaresc.h`), modelled by `Nat` reduced modulo `2^128`.
-/
namespace Verif.Model.Decimal
open Verif.Model

/-- `*--out = c`: decrement the output offset and store.  `none`: write before the buffer. -/
def push (buf : List Nat) (out : Nat) (c : Nat) : Option (List Nat × Nat) :=
  if out = 0 then none
  else do
    let buf ← wr buf (out - 1) c
    some (buf, out - 1)

/-- `src/mr_stringify.c:60-63`: the `do { *--out = '0' + value % 10; value /= 10; } while (value != 0)`
loop.  `none` also if it runs more than `fuel` iterations. -/
def digitLoop : Nat → List Nat → Nat → Nat → Option (List Nat × Nat)
  | 0, _, _, _ => none
  | fuel + 1, buf, out, value => do
    let (buf, out) ← push buf out (ch '0' + value % 10)
    let value := value / 10
    if value ≠ 0 then digitLoop fuel buf out value
    else some (buf, out)

/-- `src/mr_stringify.c:56-65` `mr_uintmaxtostr (out, value)`. -/
def uintmaxtostr (buf : List Nat) (out : Nat) (value : Nat) : Option (List Nat × Nat) := do
  let (buf, out) ← push buf out 0
  digitLoop (value + 1) buf out value

/-- `char buffer[(sizeof (value) * 12 + 4) / 5 + sizeof ("-")]`, `src/mr_stringify.c:70,87`,
with `sizeof (value) = 16` and `sizeof ("-") = 2`. -/
def bufSize : Nat := (16 * 12 + 4) / 5 + 2

/-- The NUL-terminated string starting at offset `out` (what `mr_ra_append_string` copies);
`none` if there is no terminator inside the buffer. -/
def cstrAt (buf : List Nat) (out : Nat) : Option (List Nat) :=
  if 0 ∈ buf.drop out then some ((buf.drop out).takeWhile (· ≠ 0)) else none

/-- `src/mr_stringify.c:84-90` `mr_ra_printf_uint128_t_default`: the text appended to the output.
`buffer` is the uninitialised local array. -/
def printUint128 (buffer : List Nat) (value : BitVec 128) : Option (List Nat) := do
  let (buf, out) ← uintmaxtostr buffer bufSize value.toNat
  cstrAt buf out

/-- `src/mr_stringify.c:67-82` `mr_ra_printf_int128_t_default`: the text appended to the output.
`~value + 1` is computed on two's complement words; for the single value `-2^127` this is signed
overflow in ISO C and is taken to wrap, as the comment in the source expects. -/
def printInt128 (buffer : List Nat) (value : BitVec 128) : Option (List Nat) := do
  let negative := value.slt 0
  let value := if negative then ~~~value + 1#128 else value
  let (buf, out) ← uintmaxtostr buffer bufSize value.toNat
  let (buf, out) ← if negative then push buf out (ch '-') else some (buf, out)
  cstrAt buf out

/-- `src/metaresc.c:2058-2073`: the digit loop of `mr_strtouintmax`; returns the accumulator and
the remaining string. -/
def strtoLoop (base : Nat) : List Nat → Nat → Nat × List Nat
  | [], acc => (acc, [])
  | c :: s, acc =>
    let d := if isdigit c then some (c - ch '0')
      else if isalpha c then some (if isupper c then c - (ch 'A' - 10) else c - (ch 'a' - 10))
      else none
    match d with
    | none => (acc, c :: s)
    | some d => if d ≥ base then (acc, c :: s)
      else strtoLoop base s ((acc * base + d) % 2 ^ 128)

/-- `src/metaresc.c:2030-2082` `mr_strtouintmax (str, &endptr, base)` on the NUL-terminated
string `str`; returns the value and the string at `endptr`. -/
def strtouintmax (str : List Nat) (base : Nat) : Nat × List Nat :=
  let s := str.dropWhile isspace
  let neg := s.head? == some (ch '-')
  let s := if s.head? == some (ch '+') || s.head? == some (ch '-') then s.tail else s
  match s with
  | c :: s' =>
    if isdigit c then
      let hex := (base == 0 || base == 16) && c == ch '0' &&
        (s'.head? == some (ch 'x') || s'.head? == some (ch 'X'))
      let s := if hex then s'.tail else s
      let base := if hex then 16 else base
      let base := if base = 0 then (if s.head? == some (ch '0') then 8 else 10) else base
      let (acc, rest) := strtoLoop base s 0
      (if neg then (2 ^ 128 - acc) % 2 ^ 128 else acc, rest)
    else (0, str)
  | [] => (0, str)

end Verif.Model.Decimal
