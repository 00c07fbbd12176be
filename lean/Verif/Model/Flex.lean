import Verif.Model.Ctype
/-!
# Scanners generated by flex

The lexers of the text formats (src/json_load.l, src/cinit_load.l, src/scm_load.l, src/xml1_load.l) are lists of
patterns with actions.  Flex documents what the generated scanner does: it takes the longest prefix of the
remaining input that is matched by one of the patterns; if several patterns match that prefix, the one that comes
first in the file.  The generated C code is not modelled; the search for the longest match is done with
derivatives of regular expressions.
-/
namespace Verif.Model.Flex

/-- regular expressions over bytes; `cls p`: one byte with `p` -/
inductive Re
  | empty
  | eps
  | cls (p : Nat → Bool)
  | seq (a b : Re)
  | alt (a b : Re)
  | star (a : Re)

namespace Re

/-- one given byte -/
def one (c : Nat) : Re := cls (· == c)
/-- a literal -/
def str : List Nat → Re
  | [] => eps
  | c :: s => seq (one c) (str s)
/-- `r?` -/
def opt (r : Re) : Re := alt r eps
/-- `r+` -/
def plus (r : Re) : Re := seq r (star r)
/-- `.`: any byte but the newline -/
def dot : Re := cls (· != 10)

/-- does the expression match the empty text? -/
def nullable : Re → Bool
  | empty => false
  | eps => true
  | cls _ => false
  | seq a b => nullable a && nullable b
  | alt a b => nullable a || nullable b
  | star _ => true

/-- what remains to be matched after the byte `c` -/
def deriv (c : Nat) : Re → Re
  | empty => empty
  | eps => empty
  | cls p => if p c then eps else empty
  | seq a b => if nullable a then alt (seq (deriv c a) b) (deriv c b) else seq (deriv c a) b
  | alt a b => alt (deriv c a) (deriv c b)
  | star a => seq (deriv c a) (star a)

end Re

/-- the longest non-empty match: its length and the number of the first rule that matches it.  `rs` are the rules
after `n` bytes of the text. -/
def longest (rs : List Re) : List Nat → Nat → Option (Nat × Nat) → Option (Nat × Nat)
  | inp, n, best =>
    let best := if n = 0 then best else match rs.findIdx? Re.nullable with
      | some k => some (n, k)
      | none => best
    match inp with
    | [] => best
    | c :: t => longest (rs.map (Re.deriv c)) t (n + 1) best

/-- the matches one after the other: number of the rule and text.  `none`: no rule matches (flex would copy a
byte to the standard output), or more than `fuel` matches. -/
def scan (rs : List Re) : Nat → List Nat → Option (List (Nat × List Nat))
  | _, [] => some []
  | 0, _ :: _ => none
  | fuel + 1, inp => do
    let (n, k) ← longest rs inp 0 none
    some ((k, inp.take n) :: (← scan rs fuel (inp.drop n)))

/-- the whole text; every match has at least one byte -/
def scanAll (rs : List Re) (inp : List Nat) : Option (List (Nat × List Nat)) := scan rs inp.length inp

end Verif.Model.Flex
