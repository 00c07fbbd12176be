import Verif.Model.Xml1
import Verif.Model.Cinit
/-!
# Scheme documents: `mr_scm_save` and `mr_scm_load`

Writer: src/scm_save.c.  Reader: the scanner src/scm_load.l and the grammar src/scm_load.y.
-/
namespace Verif.Model.Scm
open Verif.Model Verif.Model.Ptrs Verif.Model.Flex
open Verif.Model.Json (indent digit letter sign floatNan floatInf stringRe intNumber)
open Verif.Model.Xml1 (sRef sContent sIdx number spaces)
open Verif.Model.Cinit (idRe xdigit)

/-! ## Writer -/

/-- The value of a node without children, as the handlers of `scm_save_handler` see it. -/
inductive Leaf
  /-- MR_TYPE_BOOL -/
  | bool (b : Bool)
  /-- the integer types up to 64 bits and bit fields of them, printed with `printf` -/
  | int (v : Int)
  /-- MR_TYPE_INT128 -/
  | int128 (v : BitVec 128)
  /-- MR_TYPE_UINT128 -/
  | uint128 (v : BitVec 128)
  /-- floating point numbers; `text` is what `printf` with `%.*g` returns -/
  | real (text : List Nat)
  /-- MR_TYPE_CHAR -/
  | char (c : Nat)
  /-- strings and character arrays -/
  | text (s : List Nat)
  /-- enumerations and bit masks, complex numbers, functions with a name: text of the printer between the quotes -/
  | quoted (s : List Nat)
  /-- functions without a name -/
  | address (v : Nat)
  /-- the value cannot be read: undefined behaviour -/
  | undefined
  deriving DecidableEq, Repr, Inhabited

/-- The members of a descriptor read by the writer besides those in `Pd`: the name of the field (or
MR_DEFAULT_NODE_NAME), the flags MR_IS_UNNAMED and MR_IS_NULL, the value.  `unnamed` is the flag as
src/scm_save.c:251–256 leaves it: it is cleared for the members of a union `mr_ptr_t`. -/
structure Info where
  name : List Nat := []
  unnamed : Bool := true
  null : Bool := false
  leaf : Leaf := .bool false
  deriving DecidableEq, Repr, Inhabited

/-- `"nil"`, src/scm_save.c:13 -/
def sNil : List Nat := [110, 105, 108]

/-- digits of `printf` with `%llx` -/
def hexDigits (v : Nat) : List Nat := Scanf.printRadix 16 0 false v

/-- src/scm_save.c:115–123 `scm_save_char` -/
def charText (c : Nat) : List Nat := [35, 92] ++ (if isprint c then [c] else 120 :: Scanf.printRadix 16 2 false c)

/-- the handlers of `scm_save_handler` for nodes without children: `scm_printf_bool`, `scm_printf_bitmask`,
`scm_printf_bitfield`, `scm_save_func` (the part after MR_IS_NULL), `scm_save_char`, `scm_save_char_array`,
`scm_save_string` (its last line; the text up to its end), `scm_save_complex_*` (src/scm_save.c:24–153) and the integer
and floating point printers (src/mr_stringify.c:32–90). -/
def leafText : Leaf → Option (List Nat)
  | .bool b => some (if b then [116] else sNil)
  | .int v => some (Enum.fmtInt v)
  | .int128 v => Decimal.printInt128 (List.replicate Decimal.bufSize 0) v
  | .uint128 v => Decimal.printUint128 (List.replicate Decimal.bufSize 0) v
  | .real t => some t
  | .char c => some (charText c)
  | .text s => some (Escape.quoteString Escape.scmPattern s)
  | .quoted s => some (34 :: s ++ [34])
  | .address v => some (35 :: 120 :: hexDigits v)
  | .undefined => none

/-- `scm_save_handler` (src/scm_save.c:186–220): what the handler appends.  The outer `none`: undefined behaviour;
the inner `none`: there is no handler. -/
def handler (pd : Pd) (x : Info) : Option (Option (List Nat)) :=
  match pd.ty with
  | .none | .void => some (some [])
  | .struct | .array | .union | .anonUnion | .namedAnonUnion => some (some (if pd.firstChild = 0 then [40, 41] else []))
  | .pointer => some (some (if x.null || pd.ref || pd.cref then sNil else []))
  | .string => if x.null || pd.ref || pd.cref then some (some sNil) else (leafText x.leaf).map some
  | .func | .funcType => if x.null then some (some sNil) else (leafText x.leaf).map some
  | .endAnonUnion | .last => some none
  | _ => (leafText x.leaf).map some

/-- does the text end with a newline? (`mr_ra_str->data.string[mr_ra_str->mr_size - 2] == '\n'`; the text is never
empty) -/
def endsLine (out : List Nat) : Bool := out.getLast? == some 10

/-- a new line with MR_SCM_INDENT_TEMPLATE; a newline at the end of the text is removed before -/
def fresh (out : List Nat) (level : Int) : List Nat :=
  (if endsLine out then out.dropLast else out) ++ 10 :: indent level

/-- a new line if the text ends with a newline -/
def fresh? (out : List Nat) (level : Int) : List Nat := if endsLine out then fresh out level else out

/-- MR_SCM_ATTR_INT, src/scm_save.c:20 -/
def attr (name : List Nat) (n : Nat) : List Nat := [59, 40] ++ name ++ [32, 46, 32] ++ number n ++ [41, 10]

/-- `MR_IS_REFERENCE | MR_IS_CONTENT_REFERENCE` -/
def isRef (pd : Pd) : Bool := pd.ref || pd.cref

/-- src/scm_save.c:228–238, the attribute of a reference -/
def refAttr (ra : List Pd) (out : List Nat) (pd : Pd) (level : Int) : Option (List Nat) :=
  if isRef pd then
    match ra[pd.firstChild]? with
    | none => none
    | some t => some (fresh out level ++ attr (if pd.cref then sContent else sRef) t.idx)
  else some out

/-- src/scm_save.c:240–249, the attribute of a node that is referred to -/
def idxAttr (out : List Nat) (pd : Pd) (level : Int) : List Nat := if pd.refd then fresh out level ++ attr sIdx pd.idx else out

/-- src/scm_save.c:258–275, the name or a separator (members of `mr_ptr_t`, src/scm_save.c:251–256, are named: see
`Info`) -/
def nameOrGap (ra : List Pd) (out : List Nat) (i : Nat) (pd : Pd) (x : Info) (level : Int) : Option (List Nat) :=
  if x.unnamed then
    if endsLine out then some (fresh out level)
    else if pd.parent = 0 then some out
    else
      match ra[pd.parent]? with
      | none => none
      | some p => some (if p.firstChild ≠ i then out ++ [32] else out)
  else some (fresh out level ++ 40 :: (x.name ++ [32, 46, 32]))

/-- src/scm_save.c:222–318 `scm_pre_print_node` (appending never fails); the result and the text.  `none`: undefined
behaviour. -/
def prePrint (info : List Info) (ra : List Pd) (out : List Nat) (i : Nat) (level : Int) : Option (Bool × List Nat) := do
  let pd ← ra[i]?
  let x ← info[i]?
  let out ← refAttr ra out pd level
  let out ← nameOrGap ra (idxAttr out pd level) i pd x level
  let out := if pd.firstChild ≠ 0 ∧ isRef pd = false then fresh? out level ++ [40] else out
  let out := if x.unnamed ∧ pd.firstChild = 0 then fresh? out level else out
  match ← handler pd x with
  | some t => some (true, out ++ t)
  | none => some (false, out)

/-- src/scm_save.c:320–344 `scm_post_print_node` -/
def postPrint (info : List Info) (ra : List Pd) (out : List Nat) (i : Nat) (level : Int) : Option (List Nat) := do
  let pd ← ra[i]?
  let x ← info[i]?
  if x.unnamed = false ∨ (pd.firstChild ≠ 0 ∧ isRef pd = false) then
    some (fresh? out level ++ 41 :: ((if x.unnamed = false ∧ isRef pd = false ∧ pd.firstChild ≠ 0 then [41] else []) ++ [10]))
  else some out

/-- src/scm_save.c:346–360 `scm_print_node` -/
def printNode (info : List Info) : Visitor (List Nat) := fun s i level order =>
  match order with
  | .pre => do
    let (ok, out) ← prePrint info s.1 s.2 i level
    some (ok, (s.1, out))
  | .post => do some (true, (s.1, ← postPrint info s.1 s.2 i level))

/-- src/scm_save.c:362–383 `mr_scm_save`; the status of `mr_ptrs_dfs` is ignored -/
def scmSave (ra : List Pd) (info : List Info) : Option (List Nat) := do
  let (_, s) ← dfs (printNode info) 1 (ra, [10])
  some (s.2.drop 1)

/-! ## Scanner -/

/-- WS, src/scm_load.l:23 -/
def ws : Re := .plus (.cls isspace)
/-- HEX_NUMBER, src/scm_load.l:26 -/
def hexNumber : Re := .seq sign (.seq (.one 35) (.seq (letter 88) (.plus xdigit)))
/-- OCT_NUMBER, src/scm_load.l:27: `[[0-7]]+` is one of the characters `[` and `0`–`7`, and one or more `]` -/
def octNumber : Re :=
  .seq sign (.seq (.one 35) (.seq (letter 79) (.seq (.cls fun c => c == 91 || (48 ≤ c && c ≤ 55)) (.plus (.one 93)))))
/-- FLOAT_NUMBER, src/scm_load.l:30 -/
def floatNumber : Re :=
  .alt floatNan (.alt floatInf
    (.seq intNumber (.seq (.opt (.seq (.one 46) (.star digit))) (.opt (.seq (letter 69) (.seq sign intNumber))))))
/-- `{WS}*` -/
def wss : Re := .star ws
/-- a comment with the value of an attribute, src/scm_load.l:91 -/
def ivalueRe : Re :=
  .seq (.plus (.one 59)) (.seq wss (.seq (.one 40) (.seq wss (.seq idRe (.seq wss (.seq (.one 46) (.seq wss
    (.seq (.plus digit) (.seq wss (.seq (.one 41) wss))))))))))
/-- a comment, src/scm_load.l:97 -/
def commentRe : Re := .seq (.one 59) (.seq (.star (.cls (· != 10))) wss)

/-- the rules, src/scm_load.l:33–110 -/
def rules : List Re :=
  [ ws, intNumber, hexNumber, octNumber, floatNumber, .str sNil, .str [116], stringRe,
    .seq (.str [35, 92]) .dot,
    .seq (.str [35, 92, 120]) (.seq xdigit xdigit),
    ivalueRe, commentRe,
    .seq (.one 40) wss,
    .seq wss (.one 41),
    idRe,
    .seq (.plus ws) (.seq (.one 46) (.plus ws)),
    .dot ]

/-- the tokens with their values.  `float t`: `strtold` of the text `t`, which is not modelled. -/
inductive Tok
  | ws
  | int (v : Nat)
  | float (t : List Nat)
  | false
  | string (body : List Nat)
  | char (c : Nat)
  | ivalue (id : List Nat) (v : Nat)
  | lpar | rpar
  | id (n : List Nat)
  | dot | error
  deriving DecidableEq, Repr

/-- the hash of a number replaced by a zero, src/scm_load.l:42–43 -/
def dropHash (t : List Nat) : List Nat := if t.head? = some 35 then 48 :: t.drop 1 else t.take 1 ++ 48 :: t.drop 2
/-- the hash and the letter of a number replaced by zeros, src/scm_load.l:50–52 -/
def dropHash2 (t : List Nat) : List Nat :=
  if t.head? = some 35 then 48 :: 48 :: t.drop 2 else t.take 1 ++ 48 :: 48 :: t.drop 3

/-- `strtoull (strchr (yytext, '.') + 1, NULL, 0)`, stored in `mr_idx_t`, src/scm_load.l:93 -/
def getIvalue (t : List Nat) : Nat := (Xml1.strtoull ((t.dropWhile (· ≠ 46)).tail)).1 % 2 ^ 32

/-- `sscanf (yytext, "#\\x%x", &code)` and the conversion to `char`, src/scm_load.l:83–88 -/
def hexChar (t : List Nat) : Option Nat := (Scanf.scanInt 16 (Scanf.noWidth (t.drop 3)) (t.drop 3)).map fun p => p.1 % 256

/-- the actions, src/scm_load.l:33–110; `none`: no token.  `sscanf` always succeeds, the text has two digits. -/
def action (k : Nat) (t : List Nat) : Option Tok :=
  match k with
  | 0 => some .ws
  | 1 => some (.int (Decimal.strtouintmax t 10).1)
  | 2 => some (.int (Decimal.strtouintmax (dropHash t) 16).1)
  | 3 => some (.int (Decimal.strtouintmax (dropHash2 t) 8).1)
  | 4 => some (.float t)
  | 5 => some .false
  | 6 => some (.int 1)
  | 7 => some (.string ((t.drop 1).take (t.length - 2)))
  | 8 => some (.char (t.getD 2 0))
  | 9 => some (.char ((hexChar t).getD 0))
  | 10 => some (.ivalue (Cinit.getId ((t.dropWhile (· ≠ 40)).tail)) (getIvalue t))
  | 11 => none
  | 12 => some .lpar
  | 13 => some .rpar
  | 14 => some (.id t)
  | 15 => some .dot
  | _ => some .error

/-- the tokens of a text -/
def lex (text : List Nat) : Option (List Tok) := do
  some ((← scanAll rules text).filterMap fun m => action m.1 m.2)

/-! ## Parser -/

/-- `value_type` and `load_params` of a descriptor.  `string`: MR_VT_STRING and MR_VT_SUBSTR are not distinguished,
the text is kept. -/
inductive Value
  | none
  | int (v : Nat)
  | float (t : List Nat)
  | char (c : Nat)
  | string (s : List Nat)
  deriving DecidableEq, Repr

/-- the members of a descriptor that are written by the parser besides those in `Pd`; `name` is the name of `fdp` -/
structure Loaded where
  name : Option (List Nat) := .none
  null : Bool := false
  value : Value := .none
  deriving DecidableEq, Repr

/-- mr_load_t -/
structure St where
  ptrs : Ptrs
  data : List Loaded
  parent : Nat
  deriving DecidableEq, Repr

/-- `start_node`, src/scm_load.y:110–117 -/
def push (s : St) : Option St := do
  let (p, idx) := addPtr s.ptrs
  some { ptrs := ← addChild p s.parent idx, data := s.data ++ [{}], parent := idx }

/-- the end of a node, src/scm_load.y:104–108 -/
def pop (s : St) : Option St := do
  let pd ← s.ptrs.ra[s.parent]?
  some { s with parent := pd.parent }

/-- store into the descriptor of the current node -/
def store (s : St) (f : Loaded → Loaded) : Option St := do
  let x ← s.data[s.parent]?
  some { s with data := ← wr s.data s.parent (f x) }

/-- store into the descriptor of the current node -/
def setPd (s : St) (f : Pd → Pd) : Option St := do
  some { s with ptrs := { s.ptrs with ra := ← upd s.ptrs.ra s.parent f } }

/-- the action of an attribute, src/scm_load.y:121–141; an identifier is never empty -/
def setAttr (s : St) (id : List Nat) (v : Nat) : Option St :=
  if id = sRef then setPd s fun pd => { pd with firstChild := v, ref := true }
  else if id = sContent then setPd s fun pd => { pd with firstChild := v, cref := true }
  else if id = sIdx then setPd s fun pd => { pd with idx := v, refd := true }
  else some s

/-- the text of a string token, src/scm_load.y:158–178; `scm_unquote_str` is applied to the token in the buffer of the
scanner, where it is followed by the quote -/
def stringValue (body : List Nat) : Option (List Nat) :=
  if 92 ∈ body then Escape.unquote Escape.scmFmt (body ++ [34]) body.length else some body

/-- the actions of the values, src/scm_load.y:146–184; `mr_value_to_mr_ptrdes` keeps characters and numbers
(src/mr_value.c:13–55) -/
def scalar (s : St) : Tok → Option St
  | .char c => store s fun x => { x with value := .char c }
  | .int v => store s fun x => { x with value := .int v }
  | .float t => store s fun x => { x with value := .float t }
  | .string b => do
    let v ← stringValue b
    store s fun x => { x with value := .string v }
  | .false => store s fun x => { x with null := true, value := .int 0 }
  | _ => none

/-- the action of a name, src/scm_load.y:190–199; `known`: `mr_get_any_fd_by_name` finds a field of this name -/
def setName (known : List Nat → Bool) (s : St) (name : List Nat) : Option St :=
  if known name then store s fun x => { x with name := some name } else none

/-- `ws`, src/scm_load.y:201 -/
def Ws (inp rest : List Tok) : Prop := inp = rest ∨ inp = .ws :: rest

/-- the nonterminals of src/scm_load.y -/
inductive NT | scm | stmt | value | list
  deriving DecidableEq, Repr

/-- Derivations of the grammar src/scm_load.y:104–201 with the actions performed from left to right, as in
`Json.Derives`. -/
inductive Derives (known : List Nat → Bool) : NT → St → List Tok → St → List Tok → Prop
  | scm {s s1 s2 s3 : St} {inp rest : List Tok} :
      push s = some s1 → Derives known .stmt s1 inp s2 rest → pop s2 = some s3 → Derives known .scm s inp s3 rest
  | plain {s s1 : St} {inp rest : List Tok} : Derives known .value s inp s1 rest → Derives known .stmt s inp s1 rest
  | attr {s s1 s2 : St} {id : List Nat} {v : Nat} {inp rest : List Tok} :
      Derives known .stmt s inp s1 rest → setAttr s1 id v = some s2 → Derives known .stmt s (.ivalue id v :: inp) s2 rest
  | compound {s s1 : St} {inp rest : List Tok} :
      Derives known .list s inp s1 (.rpar :: rest) → Derives known .value s (.lpar :: inp) s1 rest
  | named {s s1 s2 : St} {n : List Nat} {inp rest : List Tok} :
      Derives known .value s inp s1 (.rpar :: rest) → setName known s1 n = some s2 →
      Derives known .value s (.lpar :: .id n :: .dot :: inp) s2 rest
  | scalar {s s1 : St} {t : Tok} {rest : List Tok} : Scm.scalar s t = some s1 → Derives known .value s (t :: rest) s1 rest
  | noItem {s : St} {inp : List Tok} : Derives known .list s inp s inp
  | items {s s1 s2 : St} {inp inp1 inp2 rest : List Tok} : Derives known .scm s inp s1 inp1 → Ws inp1 inp2 →
      Derives known .list s1 inp2 s2 rest → Derives known .list s inp s2 rest

/-- the state before the first token: only the dummy descriptor (src/lexer.h:90–104 MR_LOAD_FUNC) -/
def start : St := { ptrs := { ra := [{}] }, data := [{}], parent := 0 }

/-- `mr_scm_load` succeeds on the text and leaves these descriptors (`ws_scm_ws`, src/scm_load.y:102) -/
def Loads (known : List Nat → Bool) (text : List Nat) (ptrs : Ptrs) (data : List Loaded) : Prop :=
  ∃ toks inp s rest, lex text = some toks ∧ Ws toks inp ∧ Derives known .scm start inp s rest ∧ Ws rest [] ∧
    s.ptrs = ptrs ∧ s.data = data

end Verif.Model.Scm
