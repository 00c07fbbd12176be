import Verif.Model.Xml1
import Verif.Model.Value
/-!
# C initializers: `mr_cinit_save` and `mr_cinit_load`

Writer: src/cinit_save.c.  Reader: the scanner src/cinit_load.l and the grammar src/cinit_load.y.  The expressions of
the grammar and the arithmetic on values are those of `Model/Value.lean`.
-/
namespace Verif.Model.Cinit
open Verif.Model Verif.Model.Ptrs Verif.Model.Flex
open Verif.Model.Json (indent digit letter sign floatNan floatInf stringRe)
open Verif.Model.Xml1 (sRef sContent sIdx number idStart idNext spaces)

/-! ## Writer -/

/-- `fdp->stype.mr_type_class` of a void node, as far as `cinit_printf_void` distinguishes (src/cinit_save.c:136–152) -/
inductive VoidClass
  /-- MR_POINTER_TYPE_CLASS -/
  | pointer
  /-- `NULL == ptrdes->fdp`, MR_RECORD_TYPE_CLASS, MR_UNION_TYPE_CLASS, MR_ARRAY_TYPE_CLASS -/
  | aggregate
  | other
  deriving DecidableEq, Repr, Inhabited

/-- The value of a node without children, as the handlers of `cinit_save_tbl` see it. -/
inductive Leaf
  /-- MR_TYPE_BOOL -/
  | bool (b : Bool)
  /-- the integer types up to 64 bits and bit fields of them, printed with `printf` -/
  | int (v : Int)
  /-- MR_TYPE_INT128 -/
  | int128 (v : BitVec 128)
  /-- MR_TYPE_UINT128 -/
  | uint128 (v : BitVec 128)
  /-- floating point numbers; `text` is what `printf` with `%.*g` returns -/
  | real (text : List Nat)
  /-- MR_TYPE_CHAR -/
  | char (c : Nat)
  /-- strings and character arrays -/
  | text (s : List Nat)
  /-- enumerations, complex numbers, functions: text of the printer -/
  | plain (s : List Nat)
  /-- MR_TYPE_VOID -/
  | void (c : VoidClass)
  /-- the value cannot be read: undefined behaviour -/
  | undefined
  deriving DecidableEq, Repr, Inhabited

/-- The members of a descriptor read by the writer besides those in `Pd`: the name of the field (or
MR_DEFAULT_NODE_NAME), the flags MR_IS_UNNAMED and MR_IS_NULL, the value; of pointers the name of the type
(`fdp->stype.tdp->type` or MR_VOIDP_T_STR) and whether it is a pointer again. -/
structure Info where
  name : List Nat := []
  unnamed : Bool := true
  null : Bool := false
  leaf : Leaf := .void .aggregate
  type : List Nat := []
  pointer : Bool := false
  deriving DecidableEq, Repr, Inhabited

/-- src/cinit_save.c:23–44 `cinit_printf_char` -/
def charText (c : Nat) : List Nat :=
  let mapped := if c = 39 then c else Escape.escMap c
  39 :: ((if mapped ≠ 0 then [92, mapped] else if isprint c then [c] else Escape.cinitPattern c) ++ [39])

/-- the handlers of `cinit_save_tbl` for nodes without children: `cinit_printf_char`, `cinit_printf_char_array`,
`cinit_printf_string` (src/cinit_save.c:64–77; the text up to its end), `cinit_printf_bitmask`, `cinit_printf_bitfield`,
`cinit_printf_func`, `cinit_printf_complex_*` (46–62, 79–89, 99–114), `cinit_printf_void` (135–152),
`mr_ra_printf_bool` and the integer and floating point printers (src/mr_stringify.c:32–90). -/
def leafText : Leaf → Option (List Nat)
  | .bool b => some (if b then [116, 114, 117, 101] else [102, 97, 108, 115, 101])
  | .int v => some (Enum.fmtInt v)
  | .int128 v => Decimal.printInt128 (List.replicate Decimal.bufSize 0) v
  | .uint128 v => Decimal.printUint128 (List.replicate Decimal.bufSize 0) v
  | .real t => some t
  | .char c => some (charText c)
  | .text s => some (Escape.quoteString Escape.cinitPattern s)
  | .plain s => some s
  | .void .pointer => some [78, 85, 76, 76]
  | .void .aggregate => some [123, 125]
  | .void .other => some [48]
  | .undefined => none

/-- `cinit_save_tbl` (src/cinit_save.c:154–187): what the handler appends and what it stores in `res` -/
def handler (ty : MrType) (x : Info) : Option (List Nat × Option Nat) :=
  match ty with
  | .struct | .union | .anonUnion | .array => some ([123, 10], some 125)
  | .pointer => some (40 :: (x.type ++ (if x.pointer then [42] else []) ++ [91, 93, 41, 123, 10]), some 125)
  | .namedAnonUnion => some ([34, 34, 44, 32, 123, 10], some 125)
  | .none | .endAnonUnion | .last => some ([], none)
  | _ => do some (← leafText x.leaf, none)

/-- CINIT_ATTR_INT, src/cinit_save.c:17 -/
def attr (name : List Nat) (n : Nat) : List Nat := [47, 42, 32] ++ name ++ [32, 61, 32] ++ number n ++ [32, 42, 47, 32]

/-- the text written so far and the members `res` of the descriptors -/
abbrev Out := List Nat × (Nat → Option Nat)

/-- src/cinit_save.c:189–240 `cinit_pre_print_node` (appending never fails) -/
def prePrint (info : List Info) (ra : List Pd) (o : Out) (i : Nat) (level : Int) : Option Out := do
  let pd ← ra[i]?
  let x ← info[i]?
  let out := o.1 ++ indent level
  let out := if x.unnamed then out else out ++ 46 :: (x.name ++ [32, 61, 32])
  let out ← if pd.ref then do some (out ++ attr sRef (← ra[pd.firstChild]?).idx) else some out
  let out ← if pd.cref then do some (out ++ attr sContent (← ra[pd.firstChild]?).idx) else some out
  let out := if pd.refd then out ++ attr sIdx pd.idx else out
  if x.null || pd.ref || pd.cref then some (out ++ [78, 85, 76, 76], fun j => if j = i then none else o.2 j)
  else
    let (t, res) ← handler pd.ty x
    some (out ++ t, fun j => if j = i then res else o.2 j)

/-- src/cinit_save.c:242–257 `cinit_post_print_node`; `printf ("%*s", n + 1, "}")` writes `n` blanks before the brace -/
def postPrint (ra : List Pd) (o : Out) (i : Nat) (level : Int) : Option Out := do
  let pd ← ra[i]?
  let out := match o.2 i with
    | some c => o.1 ++ indent level ++ [c]
    | none => o.1
  let out := if pd.next ≠ 0 then out ++ [44] else out
  some (out ++ [10], o.2)

/-- src/cinit_save.c:259–273 `cinit_print_node` -/
def printNode (info : List Info) : Visitor Out := fun s i level order =>
  match order with
  | .pre => do some (true, (s.1, ← prePrint info s.1 s.2 i level))
  | .post => do some (true, (s.1, ← postPrint s.1 s.2 i level))

/-- src/cinit_save.c:275–293 `mr_cinit_save` -/
def cinitSave (ra : List Pd) (info : List Info) : Option (List Nat) := do
  let (_, s) ← dfs (printNode info) 1 (ra, ([], fun _ => none))
  some s.2.1

/-! ## Scanner -/

/-- ID, src/cinit_load.l:46 -/
def idRe : Re := .seq idStart (.star idNext)
/-- INT_NUMBER, src/cinit_load.l:47 -/
def intNumber : Re := .plus digit
/-- `[[:xdigit:]]` -/
def xdigit : Re := .cls fun c => isdigit c || (65 ≤ c && c ≤ 70) || (97 ≤ c && c ≤ 102)
/-- HEX_NUMBER, src/cinit_load.l:48 -/
def hexNumber : Re := .seq (.alt (.str [48, 120]) (.str [48, 88])) (.plus xdigit)
/-- OCT_NUMBER, src/cinit_load.l:49: `0[[0-7]]+` is a zero, one of the characters `[` and `0`–`7`, and one or more `]` -/
def octNumber : Re := .seq (.one 48) (.seq (.cls fun c => c == 91 || (48 ≤ c && c ≤ 55)) (.plus (.one 93)))
/-- NUMBER, src/cinit_load.l:50 -/
def numberRe : Re := .alt intNumber (.alt hexNumber octNumber)
/-- digits with an optional fraction and an optional exponent -/
def decimalRe : Re := .seq intNumber (.seq (.opt (.seq (.one 46) (.star digit))) (.opt (.seq (letter 69) (.seq sign intNumber))))
/-- FLOAT_NUMBER, src/cinit_load.l:51–53 -/
def floatNumber : Re := .alt floatNan (.alt floatInf decimalRe)
/-- IMAGENARY_NUMBER, src/cinit_load.l:54 -/
def imagNumber : Re := .seq decimalRe (letter 73)
/-- a quoted character, src/cinit_load.l:88 -/
def charRe : Re :=
  .seq (.one 39) (.seq (.star (.alt (.cls fun c => c != 39 && c != 92) (.seq (.one 92) .dot))) (.one 39))
/-- a cast, src/cinit_load.l:94 -/
def castRe : Re :=
  .seq (.one 40) (.seq spaces (.seq (.star (.seq idRe spaces)) (.seq idRe (.seq spaces (.seq (.opt (.one 42)) (.seq spaces
    (.seq (.opt (.seq (.one 91) (.seq spaces (.one 93)))) (.seq spaces (.one 41)))))))))
/-- a comment with the value of an attribute, src/cinit_load.l:96 -/
def ivalueRe : Re :=
  .seq (.str [47, 42]) (.seq spaces (.seq idRe (.seq spaces (.seq (.one 61) (.seq spaces (.seq (.plus digit) (.seq spaces (.str [42, 47]))))))))

/-- the rules of the start condition INITIAL, src/cinit_load.l:57–102, 108–124 -/
def rules : List Re :=
  [ spaces,
    .str [78, 85, 76, 76],
    .str [102, 97, 108, 115, 101],
    .str [70, 65, 76, 83, 69],
    .str [116, 114, 117, 101],
    .str [84, 82, 85, 69],
    .cls fun c => c == 73 || c == 105,
    numberRe, floatNumber, imagNumber,
    idRe, stringRe, charRe, castRe, ivalueRe,
    .str [47, 42],
    .one 43, .one 45, .one 42, .one 47, .one 37, .one 124, .one 38, .one 94,
    .one 123, .one 125, .one 40, .one 41, .one 44, .one 46, .one 61,
    .dot ]

/-- the rules of the start condition in_comment, src/cinit_load.l:103–106 -/
def commentRules : List Re :=
  [ .star (.cls fun c => c != 42 && c != 10),
    .seq (.plus (.one 42)) (.star (.cls fun c => c != 42 && c != 47 && c != 10)),
    .one 10,
    .seq (.plus (.one 42)) (.one 47) ]

variable (K : Value.Floats)

/-- the tokens with their values; `e`: tokens that form expressions.  An identifier in a field name is the token of an
identifier in an expression. -/
inductive Tok
  | e (t : Value.Tok K)
  | null
  | string (body : List Nat)
  | char (body : List Nat)
  | cast (type : List Nat)
  | ivalue (id : List Nat) (v : Nat)
  | lbrace | rbrace | comma | dot | assign | error

/-- src/cinit_load.l:22–39 `get_type` on the text after the parenthesis -/
def getType (t : List Nat) : List Nat :=
  let body := (t.dropWhile isspace).takeWhile (· ≠ 41)
  body.take 1 ++ ((body.drop 1).reverse.dropWhile fun c => isspace c || c == 91 || c == 93 || c == 42).reverse

/-- src/lexer.h:42–52 `mr_get_id` -/
def getId (t : List Nat) : List Nat := (t.dropWhile isspace).takeWhile fun c => isalnum c || c == 95

/-- `strtoull (strchr (yytext, '=') + 1, NULL, 0)`, stored in `mr_idx_t`, src/cinit_load.l:98 -/
def getIvalue (t : List Nat) : Nat := (Xml1.strtoull ((t.dropWhile (· ≠ 61)).tail)).1 % 2 ^ 32

/-- the actions, src/cinit_load.l:57–124, for a match of `n` bytes at the beginning of `inp`; `none`: no token.
The value of an identifier points into the document.  `I * strtold (…)` is the complex number with real part zero. -/
def action (k : Nat) (inp : List Nat) (n : Nat) : Option (Tok K) :=
  let t := inp.take n
  match k with
  | 0 => none
  | 1 => some .null
  | 2 => some (.e (.num (.int 0#128)))
  | 3 => some (.e (.num (.int 0#128)))
  | 4 => some (.e (.num (.int 1#128)))
  | 5 => some (.e (.num (.int 1#128)))
  | 6 => some (.e (.num (.complex (K.cMake K.f0 K.one))))
  | 7 => some (.e (.num (.int (BitVec.ofNat 128 (Decimal.strtouintmax t 0).1))))
  | 8 => some (.e (.num (.float (K.strtold t).1)))
  | 9 => some (.e (.num (.complex (K.cMake K.f0 (K.strtold t).1))))
  | 10 => some (.e (.id inp n))
  | 11 => some (.string ((t.drop 1).take (n - 2)))
  | 12 => some (.char ((t.drop 1).take (n - 2)))
  | 13 => some (.cast (getType (t.drop 1)))
  | 14 => some (.ivalue (getId (t.drop 2)) (getIvalue t))
  | 15 => none
  | 16 => some (.e (.op .add))
  | 17 => some (.e (.op .sub))
  | 18 => some (.e (.op .mul))
  | 19 => some (.e (.op .div))
  | 20 => some (.e (.op .mod))
  | 21 => some (.e (.op .or))
  | 22 => some (.e (.op .and))
  | 23 => some (.e (.op .xor))
  | 24 => some .lbrace
  | 25 => some .rbrace
  | 26 => some (.e .lpar)
  | 27 => some (.e .rpar)
  | 28 => some .comma
  | 29 => some .dot
  | 30 => some .assign
  | _ => some .error

/-- the tokens of a text; `comment`: the start condition is in_comment.  `none`: no rule matches (as in `Flex.scan`),
or more than `fuel` matches. -/
def lexFrom : Nat → Bool → List Nat → Option (List (Tok K))
  | _, _, [] => some []
  | 0, _, _ :: _ => none
  | fuel + 1, false, inp => do
    let (n, k) ← longest rules inp 0 none
    some ((action K k inp n).toList ++ (← lexFrom fuel (k == 15) (inp.drop n)))
  | fuel + 1, true, inp => do
    let (n, k) ← longest commentRules inp 0 none
    lexFrom fuel (k != 3) (inp.drop n)

/-- the tokens of a document; every match has at least one byte -/
def lex (text : List Nat) : Option (List (Tok K)) := lexFrom K text.length false text

/-! ## Parser -/

/-- the members of a descriptor that are written by the parser besides those in `Pd`: the name of the field and the
type given by a cast (flag MR_IS_TYPED), which are found in `fdp`; the flag MR_IS_NULL; the value.  MR_VT_STRING and
MR_VT_SUBSTR are not distinguished. -/
structure Loaded where
  name : Option (List Nat) := .none
  type : Option (List Nat) := .none
  null : Bool := false
  value : Option (Value.Value K) := .none

/-- mr_load_t -/
structure St where
  ptrs : Ptrs
  data : List (Loaded K)
  parent : Nat

variable {K}

/-- `start_node`, src/cinit_load.y:112–119 -/
def push (s : St K) : Option (St K) := do
  let (p, idx) := addPtr s.ptrs
  some { ptrs := ← addChild p s.parent idx, data := s.data ++ [{}], parent := idx }

/-- the end of a node, src/cinit_load.y:106–110 -/
def pop (s : St K) : Option (St K) := do
  let pd ← s.ptrs.ra[s.parent]?
  some { s with parent := pd.parent }

/-- store into the descriptor of the current node -/
def store (s : St K) (f : Loaded K → Loaded K) : Option (St K) := do
  let x ← s.data[s.parent]?
  some { s with data := ← wr s.data s.parent (f x) }

/-- store into the descriptor of the current node -/
def setPd (s : St K) (f : Pd → Pd) : Option (St K) := do
  some { s with ptrs := { s.ptrs with ra := ← upd s.ptrs.ra s.parent f } }

/-- the action of an attribute, src/cinit_load.y:123–143; an identifier is never empty -/
def setAttr (s : St K) (id : List Nat) (v : Nat) : Option (St K) :=
  if id = sRef then setPd s fun pd => { pd with firstChild := v, ref := true }
  else if id = sContent then setPd s fun pd => { pd with firstChild := v, cref := true }
  else if id = sIdx then setPd s fun pd => { pd with idx := v, refd := true }
  else some s

/-- the action of a cast, src/cinit_load.y:147–166; `types`: `mr_get_td_by_name_internal` finds the type -/
def castAction (types : List Nat → Bool) (s : St K) (type : List Nat) : Option (St K) :=
  if type = [118, 111, 105, 100] then some s
  else if types type then store s fun x => { x with type := some type }
  else none

/-- the text of a string token, src/cinit_load.y:176–195; `cinit_unquote_str` is applied to the token in the buffer of
the scanner, where it is followed by the quote -/
def stringValue (body : List Nat) : Option (List Nat) :=
  if 92 ∈ body then Escape.unquote Escape.cinitFmt (body ++ [34]) body.length else some body

/-- the value of a character, src/cinit_load.y:203–223; the quote is replaced by a NUL, and the text ends at its
first NUL -/
def charValue (body : List Nat) : Option Nat :=
  if body.length > 5 then none
  else do
    let u ← Escape.unquote Escape.cinitFmt (body ++ [0]) body.length
    let u := u.takeWhile (· ≠ 0)
    if u.length > 1 then none else some (u.head?.getD 0)

/-- the actions of the values that are not expressions, src/cinit_load.y:176–223 -/
def scalar (s : St K) : Tok K → Option (St K)
  | .string b => do
    let v ← stringValue b
    store s fun x => { x with value := some (.string (some v)) }
  | .null => store s fun x => { x with null := true, value := some (.int 0#128) }
  | .char b => do
    let c ← charValue b
    store s fun x => { x with value := some (.char c) }
  | _ => none

/-- the action of a named element, src/cinit_load.y:250–267; `known`: `mr_get_any_fd_by_name` finds a field of this
name (and of the type given by a cast) -/
def member (known : List Nat → Option (List Nat) → Bool) (s : St K) (name : List Nat) : Option (St K) := do
  let (p, idx) ← lastChildForParent s.ptrs s.parent
  if idx = 0 then none
  else
    let x ← s.data[idx]?
    if known name x.type then do
      some { s with ptrs := p, data := ← wr s.data idx { x with name := some name } }
    else none

/-- does the text continue with a token of expressions? -/
def exprHead : List (Tok K) → Bool
  | .e _ :: _ => true
  | _ => false

/-- what the reader knows: the constants, the fields and the types -/
structure World where
  env : Value.Env
  known : List Nat → Option (List Nat) → Bool
  types : List Nat → Bool

/-- the nonterminals of src/cinit_load.y; expressions are those of `Value.parse` -/
inductive NT | cinit | stmt | value | list | item
  deriving DecidableEq, Repr

/-- Derivations of the grammar src/cinit_load.y:106–267 with the actions performed from left to right, as in
`Json.Derives`.  An expression is followed by a token that does not belong to expressions; its value is that of
`Value.parse`, where undefined behaviour (`none`) has no derivation. -/
inductive Derives (w : World) : NT → St K → List (Tok K) → St K → List (Tok K) → Prop
  | cinit {s s1 s2 s3 : St K} {inp rest : List (Tok K)} :
      push s = some s1 → Derives w .stmt s1 inp s2 rest → pop s2 = some s3 → Derives w .cinit s inp s3 rest
  | attr {s s1 s2 : St K} {id : List Nat} {v : Nat} {inp rest : List (Tok K)} :
      Derives w .stmt s inp s1 rest → setAttr s1 id v = some s2 → Derives w .stmt s (.ivalue id v :: inp) s2 rest
  | plain {s s1 : St K} {inp rest : List (Tok K)} : Derives w .value s inp s1 rest → Derives w .stmt s inp s1 rest
  | cast {s s1 s2 : St K} {type : List Nat} {inp rest : List (Tok K)} :
      Derives w .value s inp s1 rest → castAction w.types s1 type = some s2 → Derives w .stmt s (.cast type :: inp) s2 rest
  | compound {s s1 : St K} {inp rest : List (Tok K)} :
      Derives w .list s inp s1 (.rbrace :: rest) → Derives w .value s (.lbrace :: inp) s1 rest
  | expr {s s1 : St K} {u : List (Value.Tok K)} {v v' : Value.Value K} {rest : List (Tok K)} :
      exprHead rest = false → Value.parse K w.env u none [] = some (some v) → Value.keep v = some v' →
      store s (fun x => { x with value := some v' }) = some s1 → Derives w .value s (u.map .e ++ rest) s1 rest
  | scalar {s s1 : St K} {t : Tok K} {rest : List (Tok K)} : Cinit.scalar s t = some s1 → Derives w .value s (t :: rest) s1 rest
  | noItem {s : St K} {inp : List (Tok K)} : Derives w .list s inp s inp
  | lastItem {s s1 : St K} {inp rest : List (Tok K)} : Derives w .item s inp s1 rest → Derives w .list s inp s1 rest
  | items {s s1 s2 : St K} {inp inp1 rest : List (Tok K)} : Derives w .item s inp s1 (.comma :: inp1) →
      Derives w .list s1 inp1 s2 rest → Derives w .list s inp s2 rest
  | element {s s1 : St K} {inp rest : List (Tok K)} : Derives w .cinit s inp s1 rest → Derives w .item s inp s1 rest
  | member {s s1 s2 : St K} {str : List Nat} {n : Nat} {inp rest : List (Tok K)} : Derives w .cinit s inp s1 rest →
      Cinit.member w.known s1 (str.take n) = some s2 →
      Derives w .item s (.dot :: .e (.id str n) :: .assign :: inp) s2 rest

/-- the state before the first token: only the dummy descriptor (src/lexer.h:90–104 MR_LOAD_FUNC) -/
def start : St K := { ptrs := { ra := [{}] }, data := [{}], parent := 0 }

/-- `mr_cinit_load` succeeds on the text and leaves these descriptors -/
def Loads (w : World) (text : List Nat) (ptrs : Ptrs) (data : List (Loaded K)) : Prop :=
  ∃ toks s, lex K text = some toks ∧ Derives w .cinit start toks s [] ∧ s.ptrs = ptrs ∧ s.data = data

end Verif.Model.Cinit
