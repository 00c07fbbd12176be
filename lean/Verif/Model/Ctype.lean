/-!
# Bytes and `<ctype.h>` in the "C" locale

A `char` is modelled by the number of the corresponding `unsigned char`, `0 … 255`.
In the "C" locale no byte above 127 belongs to any of these classes.
-/
namespace Verif.Model

/-- ASCII code of a character literal of the C source. -/
abbrev ch (c : Char) : Nat := c.toNat

def isspace (c : Nat) : Bool := c == 32 || (9 ≤ c && c ≤ 13)
def isdigit (c : Nat) : Bool := 48 ≤ c && c ≤ 57
def isupper (c : Nat) : Bool := 65 ≤ c && c ≤ 90
def islower (c : Nat) : Bool := 97 ≤ c && c ≤ 122
def isalpha (c : Nat) : Bool := isupper c || islower c
def isalnum (c : Nat) : Bool := isalpha c || isdigit c
def isprint (c : Nat) : Bool := 32 ≤ c && c ≤ 126

/-- The byte at offset `i` of a NUL-terminated string whose bytes before the NUL are `s`:
reading the terminator gives `0`; reading behind the terminator is out of bounds (`none`). -/
def cAt (s : List Nat) (i : Nat) : Option Nat :=
  if i < s.length then s[i]? else if i = s.length then some 0 else none

end Verif.Model
