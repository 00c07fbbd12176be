/-!
# What a numeral denotes
-/
namespace Verif.Spec

/-- Value of a digit character in positional notation (`0-9`, `a-z`, `A-Z`). -/
def digitValue (c : Char) : Option Nat :=
  if '0' ≤ c ∧ c ≤ '9' then some (c.toNat - '0'.toNat)
  else if 'a' ≤ c ∧ c ≤ 'z' then some (c.toNat - 'a'.toNat + 10)
  else if 'A' ≤ c ∧ c ≤ 'Z' then some (c.toNat - 'A'.toNat + 10)
  else none

/-- Positional value of a list of digits, most significant first. -/
def positional (base : Nat) (ds : List Nat) : Nat :=
  ds.foldl (fun acc d => acc * base + d) 0

/-- The bytes of an ASCII text. -/
def ascii (s : String) : List Nat := s.toList.map Char.toNat

/-- `text` is the canonical decimal numeral of `n`: digits only, positional value `n`, no
superfluous leading zero. -/
def IsDecimal (n : Nat) (text : List Nat) : Prop :=
  ∃ ds : List Nat, text = ds.map (· + '0'.toNat) ∧ (∀ d ∈ ds, d < 10) ∧
    positional 10 ds = n ∧ ds ≠ [] ∧ (ds.head? = some 0 → ds = [0])

/-- Canonical decimal numeral of an integer. -/
def IsDecimalInt (z : Int) (text : List Nat) : Prop :=
  if z < 0 then ∃ t, text = '-'.toNat :: t ∧ IsDecimal z.natAbs t
  else IsDecimal z.natAbs text

end Verif.Spec
