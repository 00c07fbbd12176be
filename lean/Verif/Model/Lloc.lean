/-
Model of the location tracking of the text parsers:
`mr_calc_lloc` (/repo/src/lexer.h:19-32), `YY_USER_ACTION` (/repo/src/lexer.h:55-61),
`mr_lloc_t` (/repo/src/mr_protos.h:637-641) and its initial value
(/repo/src/lexer.h:90).

The scanned text is a list of bytes.  `char *` pointers into it are positions.
The three counters are C `int`s: an increment past `INT_MAX` is undefined
behaviour and is the outcome `none`, as is reading outside the text.
-/
namespace Verif.Model.Lloc

/-- `mr_lloc_t`, /repo/src/mr_protos.h:637-641. -/
structure Lloc where
  lineno : Nat
  column : Nat
  offset : Nat
deriving DecidableEq, Repr

/-- The fields of `mr_load_t` the location code uses (/repo/src/mr_protos.h:643-649):
`buf` (a position in the text, or NULL) and `lloc`. -/
structure Load where
  buf : Option Nat
  lloc : Lloc
deriving DecidableEq, Repr

/-- The initial value of `mr_load`, /repo/src/lexer.h:90. -/
def init : Load := { buf := none, lloc := { lineno := 1, column := 0, offset := 0 } }

/-- `++x` on a non-negative C `int`. -/
def inc (x : Nat) : Option Nat := if x < 2147483647 then some (x + 1) else none

/-- The `for` loop of `mr_calc_lloc`, /repo/src/lexer.h:24-31, with `b` the position
held in `buf`.  `fuel` bounds the number of iterations; running out of it is `none`. -/
def loop (text : List Nat) (b ptr : Nat) : Nat → Lloc → Option Lloc
  | 0, l => if b + l.offset < ptr then none else some l
  | fuel + 1, l =>
    if b + l.offset < ptr then do
      let c ← text[b + l.offset]?
      let l' ← if c = 10 then do
          let n ← inc l.lineno
          some { l with lineno := n, column := 0 }
        else do
          let n ← inc l.column
          some { l with column := n }
      let o ← inc l'.offset
      loop text b ptr fuel { l' with offset := o }
    else some l

/-- `mr_calc_lloc`, /repo/src/lexer.h:19-32. -/
def calcLloc (text : List Nat) (m : Load) (ptr : Nat) : Option Load :=
  match m.buf with
  | none => some { m with buf := some ptr }
  | some b => do
    let l ← loop text b ptr (ptr + 1) m.lloc
    some { m with lloc := l }

/-- `YY_USER_ACTION`, /repo/src/lexer.h:55-61: the token occupies the positions from
`bp` (`yy_bp`) up to `cp` (`yy_cp`); the result carries `yylloc->start` and
`yylloc->end`. -/
def userAction (text : List Nat) (m : Load) (bp cp : Nat) : Option (Load × Lloc × Lloc) := do
  let m ← calcLloc text m bp
  let s := m.lloc
  let m ← calcLloc text m cp
  some (m, s, m.lloc)

/-- A scan: the generated scanner cuts the text into consecutive tokens (its default
rule matches any byte no other rule matches) and runs `YY_USER_ACTION` for each.
`lens` are the token lengths, `pos` is where the next token starts.
Simplification: which tokens are cut is left to the caller. -/
def scan (text : List Nat) : Load → Nat → List Nat → Option (List (Lloc × Lloc))
  | _, _, [] => some []
  | m, pos, n :: lens => do
    let (m, s, e) ← userAction text m pos (pos + n)
    let rest ← scan text m (pos + n) lens
    some ((s, e) :: rest)

end Verif.Model.Lloc
