import Verif.Model.Ctype
/-!
# `printf`/`sscanf` integer conversions used by the quoting functions

Modelled after the C standard (7.21.6.1, 7.21.6.2), "C" locale.
-/
namespace Verif.Model.Scanf
open Verif.Model

/-- value of a digit character (`0-9a-zA-Z`) -/
def digit (c : Nat) : Option Nat :=
  if isdigit c then some (c - ch '0')
  else if islower c then some (c - ch 'a' + 10)
  else if isupper c then some (c - ch 'A' + 10)
  else none

/-- Longest prefix of base-`base` digits, at most `width` of them: value and number of characters. -/
def digits (base : Nat) : Nat → List Nat → Nat → Nat × Nat
  | 0, _, acc => (acc, 0)
  | _ + 1, [], acc => (acc, 0)
  | width + 1, c :: s, acc =>
    match digit c with
    | some d => if d < base then
        let (v, n) := digits base width s (acc * base + d)
        (v, n + 1)
      else (acc, 0)
    | none => (acc, 0)

/-- `%o` / `%x` conversion with maximum field width `width`: skips white space, accepts a sign and
(base 16) a `0x` prefix, then needs at least one digit.  Returns the value (as `unsigned int`)
and the number of characters consumed (white space included).
Simplification: a value not representable in `unsigned int` (undefined in ISO C) is reduced modulo
`2^32`. -/
def scanInt (base width : Nat) (s : List Nat) : Option (Nat × Nat) :=
  let ws := (s.takeWhile isspace).length
  let s := s.dropWhile isspace
  let neg := s.head? == some (ch '-') && width > 0
  let sign := (neg || s.head? == some (ch '+')) && width > 0
  let s := if sign then s.tail else s
  let width := if sign then width - 1 else width
  let hex := base == 16 && width ≥ 2 && s.head? == some (ch '0') &&
    (s.tail.head? == some (ch 'x') || s.tail.head? == some (ch 'X'))
  let s := if hex then s.tail.tail else s
  let width := if hex then width - 2 else width
  let (v, n) := digits base width s 0
  if n = 0 then none
  else some (if neg then (2 ^ 32 - v % 2 ^ 32) % 2 ^ 32 else v % 2 ^ 32,
    ws + (if sign then 1 else 0) + (if hex then 2 else 0) + n)

/-- A conversion without a width: wider than any string. -/
def noWidth (s : List Nat) : Nat := s.length + 1

/-- digit character, lower or upper case -/
def digitChar (upper : Bool) (d : Nat) : Nat :=
  if d < 10 then ch '0' + d else (if upper then ch 'A' else ch 'a') + (d - 10)

/-- digits of `n` in base `base`, most significant first (`fuel` > number of digits) -/
def radix (base : Nat) : Nat → Nat → List Nat
  | 0, _ => []
  | fuel + 1, n => if n < base then [n] else radix base fuel (n / base) ++ [n % base]

/-- `printf` of an `unsigned int` with conversion `%0<width><o|x|X>`. -/
def printRadix (base width : Nat) (upper : Bool) (n : Nat) : List Nat :=
  let ds := radix base 33 n
  List.replicate (width - ds.length) (ch '0') ++ ds.map (digitChar upper)

end Verif.Model.Scanf
