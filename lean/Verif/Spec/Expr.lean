import Verif.Model.Value
import Verif.Spec.Enum
/-!
# Integer expressions: spelling and exact value
-/
namespace Verif.Spec.Expr
open Verif.Model Verif.Model.Enum Verif.Model.Value

/-- an expression -/
inductive Expr where
  | num (z : Int)
  | name (n : List Nat)
  | neg (e : Expr)
  | pos (e : Expr)
  | bin (o : Bop) (l r : Expr)

/-- levels of the stratified grammar: `| & ^` are read at level 1, `+ -` at level 2, `* / %` at level 3 -/
def level : Bop → Nat
  | .or => 1 | .and => 1 | .xor => 1
  | .add => 2 | .sub => 2
  | .mul => 3 | .div => 3 | .mod => 3

/-- `Spells k e toks`: the tokens spell the expression at level `k`, by the usual stratified grammar:
level 1 is `e1 | e2`, `e1 & e2`, `e1 ^ e2` (from left to right), level 2 sums, level 3 products, level 4 signs, atoms and parentheses.
A name is a token of the text: its bytes, followed by something that cannot continue it. -/
inductive Spells {K : Floats} : Nat → Expr → List (Tok K) → Prop where
  | num (z : Int) : Spells 4 (.num z) [.num (.int (BitVec.ofInt 128 z))]
  | name (n rest : List Nat) (h : Identifier n) (hr : ∀ c, rest.head? = some c → isalnum c = false ∧ c ≠ '_'.toNat) :
      Spells 4 (.name n) [.id (n ++ rest) n.length]
  | paren {e : Expr} {t : List (Tok K)} (h : Spells 1 e t) : Spells 4 e (.lpar :: t ++ [.rpar])
  | neg {e : Expr} {t : List (Tok K)} (h : Spells 4 e t) : Spells 4 (.neg e) (.op .sub :: t)
  | pos {e : Expr} {t : List (Tok K)} (h : Spells 4 e t) : Spells 4 (.pos e) (.op .add :: t)
  | bin {l r : Expr} {tl tr : List (Tok K)} (o : Bop) (hl : Spells (level o) l tl) (hr : Spells (level o + 1) r tr) :
      Spells (level o) (.bin o l r) (tl ++ .op o :: tr)
  | up {k : Nat} {e : Expr} {t : List (Tok K)} (h : Spells (k + 1) e t) : Spells k e t

/-- representable in 128 bits -/
def fits (z : Int) : Option Int := if -(2 ^ 127) ≤ z ∧ z ≤ 2 ^ 127 - 1 then some z else none

/-- the operators on mathematical integers; `| & ^` on the two's complement notation.  Division rounds towards
zero.  `none`: division by zero. -/
def exactBin (o : Bop) (a b : Int) : Option Int :=
  match o with
  | .add => some (a + b)
  | .sub => some (a - b)
  | .mul => some (a * b)
  | .div => if b = 0 then none else some (a.tdiv b)
  | .mod => if b = 0 then none else some (a - b * a.tdiv b)
  | .or => some (BitVec.ofInt 128 a ||| BitVec.ofInt 128 b).toInt
  | .and => some (BitVec.ofInt 128 a &&& BitVec.ofInt 128 b).toInt
  | .xor => some (BitVec.ofInt 128 a ^^^ BitVec.ofInt 128 b).toInt

/-- The exact value of an expression; `none`: a name is unknown, a divisor is zero or some intermediate result
(for `%`: the quotient) leaves the 128-bit range. -/
def exact (c : List Nat → Option Int) : Expr → Option Int
  | .num z => fits z
  | .name n => c n
  | .neg e => do fits (- (← exact c e))
  | .pos e => exact c e
  | .bin o l r => do
    let a ← exact c l
    let b ← exact c r
    if o = .mod then let _ ← fits (a.tdiv b)
    fits (← exactBin o a b)

/-- some name in the expression is unknown -/
def unknown (c : List Nat → Option Int) : Expr → Bool
  | .num _ => false
  | .name n => (c n).isNone
  | .neg e => unknown c e
  | .pos e => unknown c e
  | .bin _ l r => unknown c l || unknown c r

/-- What a constant of the program denotes: the first registered constant of that name, read as a number of its type. -/
def constant (names : List Ed) (n : List Nat) : Option Int :=
  match names.find? (fun e => e.name = n) with
  | none => none
  | some e => if e.ty.size = 0 ∨ e.ty.size = 16 then none
    else some (if e.ty.signed then e.value.toInt else e.value.toNat)

end Verif.Spec.Expr
