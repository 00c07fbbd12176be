import Verif.Model.Enum
/-!
# Values of the text loaders and arithmetic on them

`src/mr_value.c:153-501`, expressions of the C-initializer grammar `src/cinit_load.y:96-99`, `src/cinit_load.y:225-243`,
reading of an integer node `src/cinit_load.y:168-175`, `src/mr_value.c:13-55`, `src/mr_load.c:152-189`.
`mr_intmax_t` is `__int128`; results that do not fit into it are undefined in C and are the outcome `none` here.
-/
namespace Verif.Model.Value
open Verif.Model Verif.Model.Enum

/-- `+`, `-`, `*`, `/` of `MR_VALUE_OP` -/
inductive Arith where
  | add | sub | mul | div
deriving DecidableEq, Repr

/-- `%`, `|`, `&`, `^` of `MR_INT_VALUE_OP` -/
inductive IntOp where
  | mod | or | and | xor
deriving DecidableEq, Repr

/-- `long double` and `complex long double` with the operations the code uses.  They are left open: no property
of floating-point arithmetic is assumed.  Conversion to an integer is undefined (`none`) if it does not fit. -/
structure Floats where
  F : Type
  C : Type
  fOp : Arith → F → F → F
  cOp : Arith → C → C → C
  fNeg : F → F
  cNeg : C → C
  fIsZero : F → Bool
  cIsZero : C → Bool
  fOfInt : BitVec 128 → F
  cOfInt : BitVec 128 → C
  cOfF : F → C
  fOfC : C → F
  fToInt : F → Option (BitVec 128)
  cToInt : C → Option (BitVec 128)
  /-- all bytes zero -/
  f0 : F
  c0 : C
  one : F
  /-- `real + I * imag` -/
  cMake : F → F → C
  strtold : List Nat → F × List Nat

/-- `mr_value_t` (`src/mr_protos.h:508-518`).  A string is `none` for NULL or the bytes up to its NUL; a substring is the
text from its start up to the NUL and a length. -/
inductive Value (K : Floats) where
  | void
  | char (c : Nat)
  | string (s : Option (List Nat))
  | substr (s : Option (List Nat)) (length : Nat)
  | id (s : Option (List Nat)) (length : Nat)
  | int (v : BitVec 128)
  | float (x : K.F)
  | complex (x : K.C)

/-- the order of `mr_value_type_t`, `src/mr_protos.h:497-506` -/
def Value.rank {K : Floats} : Value K → Nat
  | .void => 0
  | .char _ => 1
  | .string _ => 2
  | .substr _ _ => 3
  | .id _ _ => 4
  | .int _ => 5
  | .float _ => 6
  | .complex _ => 7

/-- the numeric types `MR_VT_INT`, `MR_VT_FLOAT`, `MR_VT_COMPLEX`; no other type is ever the target of a cast -/
inductive Num where
  | int | float | complex
deriving DecidableEq, Repr

/-- The constants known to the program and the length of the longest name (`src/mr_value.c:77-79`). -/
structure Env where
  names : List Ed
  maxLen : Nat

/-- `src/mr_value.c:187-259` `mr_load_complex_long_double`; `none` is NULL.  `strtold` never sets the end to NULL. -/
def loadComplex (K : Floats) (str : List Nat) : Option (K.C × List Nat) :=
  let str := str.dropWhile isspace
  if str.head? = some (ch 'I') then some (K.cMake K.f0 K.one, str.tail)
  else
    let (real, str) := K.strtold str
    if str.head? = some (ch 'I') then some (K.cMake K.f0 real, str.tail)
    else
      let str := str.dropWhile isspace
      if str.head? ≠ some (ch '+') then some (K.cMake real K.f0, str)
      else
        let str := str.tail.dropWhile isspace
        if str.head? = some (ch 'I') then some (K.cMake real K.one, str.tail)
        else
          let (imag, str) := K.strtold str
          let str := str.dropWhile isspace
          if str.head? = some (ch 'I') then some (K.cMake real imag, str.tail) else none

/-- `src/mr_value.c:261-290` `mr_load_var`: value and the rest of the string; `none` is NULL -/
def loadVar (K : Floats) (env : Env) (to : Num) (str : List Nat) : Option (Value K × List Nat) := do
  let (v, str) ← match to with
    | .int => do
      let (v, str) ← loadBitmask env.names env.maxLen (str.length + 1) str 0#128
      some (.int v, str)
    | .float =>
      let (x, str) := K.strtold str
      some (.float x, str)
    | .complex => do
      let (x, str) ← loadComplex K str
      some (.complex x, str)
  some (v, str.dropWhile isspace)

/-- `src/mr_value.c:292-312` `mr_value_id`: the integer, `none` is failure -/
def valueId (env : Env) (s : Option (List Nat)) (length : Nat) : Option (BitVec 128) :=
  match s with
  | none => none
  | some str =>
    match getEnum env.names env.maxLen str with
    | none => none
    | some (value, tail) => if str.length - tail.length ≠ length then none else some value

/-- `src/mr_value.c:327-335` -/
def castInt (K : Floats) (to : Num) (v : BitVec 128) : Value K :=
  match to with
  | .int => .int v
  | .float => .float (K.fOfInt v)
  | .complex => .complex (K.cOfInt v)

/-- `src/mr_value.c:314-403` `mr_value_cast`; outer `none`: undefined behaviour, inner `none`: failure -/
def cast (K : Floats) (env : Env) (to : Num) (v : Value K) : Option (Option (Value K)) :=
  match v with
  | .id s len =>
    match valueId env s len with
    | none => some none
    | some v => some (some (castInt K to v))
  | .int v => some (some (castInt K to v))
  | .float x =>
    match to with
    | .int => do some (some (.int (← K.fToInt x)))
    | .float => some (some (.float x))
    | .complex => some (some (.complex (K.cOfF x)))
  | .complex x =>
    match to with
    | .int => do some (some (.int (← K.cToInt x)))
    | .float => some (some (.float (K.fOfC x)))
    | .complex => some (some (.complex x))
  | .substr s len =>
    match s with
    | none => some none
    | some str =>
      match loadVar K env to str with
      | none => some none
      | some (v, tail) => some (if str.length - tail.length ≠ len then none else some v)
  | .string s =>
    match s with
    | none => some none
    | some str =>
      match loadVar K env to str with
      | none => some none
      | some (v, tail) => some (if tail ≠ [] then none else some v)
  | .void | .char _ => some none

/-- a result of signed 128-bit arithmetic; `none`: overflow -/
def signed (z : Int) : Option (BitVec 128) :=
  if -(2 ^ 127) ≤ z ∧ z < 2 ^ 127 then some (BitVec.ofInt 128 z) else none

/-- `src/mr_value.c:405-431` `mr_value_neg`: status and value -/
def neg (K : Floats) (env : Env) (v : Value K) : Option (Bool × Value K) :=
  match v with
  | .id s len =>
    match valueId env s len with
    | none => some (false, v)
    | some v => do some (true, .int (← signed (- v.toInt)))
  | .int v => do some (true, .int (← signed (- v.toInt)))
  | .float x => some (true, .float (K.fNeg x))
  | .complex x => some (true, .complex (K.cNeg x))
  | v => some (false, v)

/-- `left->vt_int OP right->vt_int`; dividing by zero is undefined -/
def intArith (op : Arith) (a b : BitVec 128) : Option (BitVec 128) :=
  match op with
  | .add => signed (a.toInt + b.toInt)
  | .sub => signed (a.toInt - b.toInt)
  | .mul => signed (a.toInt * b.toInt)
  | .div => if b.toInt = 0 then none else signed (a.toInt.tdiv b.toInt)

/-- `%` is undefined also if the quotient does not fit (ISO C 6.5.5) -/
def intBits (op : IntOp) (a b : BitVec 128) : Option (BitVec 128) :=
  match op with
  | .mod => if b.toInt = 0 then none else do
    let _ ← signed (a.toInt.tdiv b.toInt)
    signed (a.toInt.tmod b.toInt)
  | .or => some (a ||| b)
  | .and => some (a &&& b)
  | .xor => some (a ^^^ b)

/-- `src/mr_value.c:481-492` `mr_value_is_zero` -/
def isZero {K : Floats} : Value K → Bool
  | .int v => v.toInt == 0
  | .float x => K.fIsZero x
  | .complex x => K.cIsZero x
  | _ => false

/-- the result object after `memset (result, 0, …); result->value_type = …` -/
def zeroOf (K : Floats) : Num → Value K
  | .int => .int 0#128
  | .float => .float K.f0
  | .complex => .complex K.c0

/-- `MR_MAX (left->value_type, right->value_type)`, at least `MR_VT_INT` -/
def resultType {K : Floats} (l r : Value K) : Num :=
  if max l.rank r.rank ≤ 5 then .int else if max l.rank r.rank = 6 then .float else .complex

/-- `src/mr_value.c:433-458`, `494-497`: `mr_value_add`, `_sub`, `_mul`, `_div`: status and result.  The code also
converts the operands in place; they are temporaries of the parser and not looked at again. -/
def arith (K : Floats) (env : Env) (op : Arith) (l r : Value K) : Option (Bool × Value K) := do
  let ty := resultType l r
  match ← cast K env ty l with
  | none => some (false, .void)
  | some l =>
    match ← cast K env ty r with
    | none => some (false, .void)
    | some r =>
      if op = .div ∧ isZero r = true then some (false, zeroOf K ty)
      else
        match l, r with
        | .int a, .int b => do some (true, .int (← intArith op a b))
        | .float a, .float b => some (true, .float (K.fOp op a b))
        | .complex a, .complex b => some (true, .complex (K.cOp op a b))
        | _, _ => some (false, zeroOf K ty)

/-- `src/mr_value.c:464-469`: an identifier is replaced by its value; `none` is failure -/
def resolveId {K : Floats} (env : Env) (v : Value K) : Option (Value K) :=
  match v with
  | .id s len => match valueId env s len with | none => none | some v => some (.int v)
  | v => some v

/-- `src/mr_value.c:460-479`, `498-501`: `mr_value_mod`, `_bit_or`, `_bit_and`, `_bit_xor`: status and result -/
def intOp (K : Floats) (env : Env) (op : IntOp) (l r : Value K) : Option (Bool × Value K) :=
  match resolveId env l with
  | none => some (false, .void)
  | some l =>
    match resolveId env r with
    | none => some (false, .void)
    | some r =>
      match l, r with
      | .int a, .int b =>
        if op = .mod ∧ isZero (K := K) (.int b) = true then some (false, .int 0#128)
        else do some (true, .int (← intBits op a b))
      | _, _ => some (false, .void)

/-! ### expressions of the C-initializer grammar -/

/-- binary operators, `src/cinit_load.y:226-233` -/
inductive Bop where
  | add | sub | mul | div | mod | or | and | xor
deriving DecidableEq, Repr

/-- `%left` declarations, `src/cinit_load.y:96-98`: later lines bind tighter -/
def Bop.prec : Bop → Nat
  | .or | .and | .xor => 1
  | .add | .sub => 2
  | .mul | .div | .mod => 3

/-- tokens that form expressions, `src/cinit_load.y:91-98`.  `minus` and `plus` are `op .sub`, `op .add`. -/
inductive Tok (K : Floats) where
  | num (v : Value K)
  | id (str : List Nat) (length : Nat)
  | op (o : Bop)
  | lpar
  | rpar

/-- semantic action of a binary operator, `src/cinit_load.y:226-233`: the status is ignored -/
def binAction (K : Floats) (env : Env) (o : Bop) (l r : Value K) : Option (Value K) :=
  match o with
  | .add => do some (← arith K env .add l r).2
  | .sub => do some (← arith K env .sub l r).2
  | .mul => do some (← arith K env .mul l r).2
  | .div => do some (← arith K env .div l r).2
  | .mod => do some (← intOp K env .mod l r).2
  | .or => do some (← intOp K env .or l r).2
  | .and => do some (← intOp K env .and l r).2
  | .xor => do some (← intOp K env .xor l r).2

/-- `src/cinit_load.y:234`: `$$ = $2; mr_value_neg (&$$);` -/
def negAction (K : Floats) (env : Env) (v : Value K) : Option (Value K) := do some (← neg K env v).2

/-- symbols on the stack of the shift-reduce parser below the topmost expression -/
inductive Sym (K : Floats) where
  | val (v : Value K)
  | bin (o : Bop)
  | neg | pos | lpar

/-- Reductions with the topmost expression `v` when the next token is a binary operator of precedence `p` (0: any
token that does not continue an expression).  Bison resolves the conflict between reducing `l o v` and shifting the
operator by the declared precedences: reduce if `o` binds tighter, or equally tight (`%left`).  The rules with
`%prec NEG` bind tighter than every operator. -/
def reduce (K : Floats) (env : Env) (p : Nat) : Value K → List (Sym K) → Option (Value K × List (Sym K))
  | v, .neg :: st => do reduce K env p (← negAction K env v) st
  | v, .pos :: st => reduce K env p v st
  | v, .bin o :: .val l :: st =>
    if o.prec ≥ p then do reduce K env p (← binAction K env o l v) st
    else some (v, .bin o :: .val l :: st)
  | v, st => some (v, st)

/-- The parser bison generates for `expr`, on the tokens of one expression.  `top` is the topmost expression if the
parser has just read one.  Inner `none`: syntax error. -/
def parse (K : Floats) (env : Env) : List (Tok K) → Option (Value K) → List (Sym K) → Option (Option (Value K))
  | [], none, _ => some none
  | [], some v, st => do
    match ← reduce K env 0 v st with
    | (v, []) => some (some v)
    | _ => some none
  | .num v :: ts, none, st => parse K env ts (some v) st
  | .id s n :: ts, none, st => parse K env ts (some (.id (some s) n)) st
  | .op .sub :: ts, none, st => parse K env ts none (.neg :: st)
  | .op .add :: ts, none, st => parse K env ts none (.pos :: st)
  | .lpar :: ts, none, st => parse K env ts none (.lpar :: st)
  | _ :: _, none, _ => some none
  | .op o :: ts, some v, st => do
    let (v, st) ← reduce K env o.prec v st
    parse K env ts none (.bin o :: .val v :: st)
  | .rpar :: ts, some v, st => do
    match ← reduce K env 0 v st with
    | (v, .lpar :: st) => parse K env ts (some v) st
    | _ => some none
  | _ :: _, some _, _ => some none

/-- `src/cinit_load.y:168-175` with `src/mr_value.c:13-55`: a value is kept in the node, but for `MR_VT_VOID` the
document is rejected (`none`) -/
def keep {K : Floats} (v : Value K) : Option (Value K) :=
  match v with
  | .void => none
  | v => some v

/-- The integer node for the tokens of an expression: parsed, kept in the node and cast to an integer by
`mr_load_integer` (`src/mr_load.c:158-161`).  Inner `none`: the load fails. -/
def loadInt (K : Floats) (env : Env) (toks : List (Tok K)) : Option (Option (BitVec 128)) := do
  match ← parse K env toks none [] with
  | none => some none
  | some v =>
    match keep v with
    | none => some none
    | some v =>
      match ← cast K env .int v with
      | some (.int z) => some (some z)
      | _ => some none

end Verif.Model.Value
