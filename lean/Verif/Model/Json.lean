import Verif.Model.Ptrs
import Verif.Model.Enum
import Verif.Model.Escape
import Verif.Model.Decimal
import Verif.Model.Flex
/-!
# JSON documents: `mr_json_save` and `mr_json_load`

Writer: src/json_save.c.  Reader: the scanner src/json_load.l and the grammar src/json_load.y.
-/
namespace Verif.Model.Json
open Verif.Model Verif.Model.Ptrs Verif.Model.Flex

/-! ## Writer -/

/-- `fdp->stype.mr_type_class` of a void node, as far as `json_printf_void` distinguishes (src/json_save.c:149–166) -/
inductive VoidClass
  /-- `NULL == ptrdes->fdp` or MR_POINTER_TYPE_CLASS -/
  | pointer
  /-- MR_RECORD_TYPE_CLASS, MR_UNION_TYPE_CLASS, MR_ARRAY_TYPE_CLASS -/
  | aggregate
  | other
  deriving DecidableEq, Repr, Inhabited

/-- The value of a node without children, as the handlers of `json_save_tbl` see it. -/
inductive Leaf
  /-- MR_TYPE_BOOL -/
  | bool (b : Bool)
  /-- the integer types up to 64 bits and bit fields of them, printed with `printf` -/
  | int (v : Int)
  /-- MR_TYPE_INT128 -/
  | int128 (v : BitVec 128)
  /-- MR_TYPE_UINT128 -/
  | uint128 (v : BitVec 128)
  /-- floating point numbers; `text` is what `printf` with `%.*g` returns -/
  | real (text : List Nat)
  /-- strings, character arrays, characters -/
  | text (s : List Nat)
  /-- enumerations, complex numbers, functions: text of the printer between the quotes -/
  | quoted (s : List Nat)
  /-- MR_TYPE_VOID -/
  | void (c : VoidClass)
  /-- the value cannot be read: undefined behaviour -/
  | undefined
  deriving DecidableEq, Repr, Inhabited

/-- The members of a descriptor read by the writer besides those in `Pd`: the name of the field (or
MR_DEFAULT_NODE_NAME), the flags MR_IS_UNNAMED and MR_IS_NULL, the value. -/
structure Info where
  name : List Nat := []
  unnamed : Bool := true
  null : Bool := false
  leaf : Leaf := .void .pointer
  deriving DecidableEq, Repr, Inhabited

/-- the handlers of `json_save_tbl` for nodes without children: `json_printf_char` (src/json_save.c:20–40),
`json_printf_char_array`, `json_printf_string` (78–91; the text up to its end), `json_printf_bitmask`,
`json_printf_func`, `json_printf_complex_*` (42–76, 93–119, 129–138), `json_printf_void` (148–166),
`mr_ra_printf_bool` and the integer and floating point printers (src/mr_stringify.c:32–90). -/
def leafText : Leaf → Option (List Nat)
  | .bool b => some (if b then [116, 114, 117, 101] else [102, 97, 108, 115, 101])
  | .int v => some (Enum.fmtInt v)
  | .int128 v => Decimal.printInt128 (List.replicate Decimal.bufSize 0) v
  | .uint128 v => Decimal.printUint128 (List.replicate Decimal.bufSize 0) v
  | .real t => some t
  | .text s => some (Escape.quoteString Escape.jsonPattern s)
  | .quoted s => some (34 :: s ++ [34])
  | .void .pointer => some [110, 117, 108, 108]
  | .void .aggregate => some [123, 125]
  | .void .other => some [48]
  | .undefined => none

/-- `json_save_tbl` (src/json_save.c:168–201): what the handler appends and what it stores in `res` -/
def handler (ty : MrType) (l : Leaf) : Option (List Nat × Option Nat) :=
  match ty with
  | .struct | .union | .anonUnion | .namedAnonUnion => some ([123, 10], some 125)
  | .array | .pointer => some ([91, 10], some 93)
  | .none | .endAnonUnion | .last => some ([], none)
  | _ => do some (← leafText l, none)

/-- `printf ("%*s", MR_LIMIT_LEVEL (level) * JSON_INDENT_SPACES, "")` (src/metaresc.h:40–43) -/
def indent (level : Int) : List Nat := List.replicate ((min level 30).toNat * 2) 32

/-- the text written so far and the members `res` of the descriptors -/
abbrev Out := List Nat × (Nat → Option Nat)

/-- src/json_save.c:203–257 `json_pre_print_node` (appending never fails) -/
def prePrint (info : List Info) (ra : List Pd) (o : Out) (i : Nat) (level : Int) : Option Out := do
  let pd ← ra[i]?
  let x ← info[i]?
  let out := o.1 ++ indent level
  let unnamed ← (if x.unnamed && pd.parent ≠ 0 then do
      let pp ← ra[pd.parent]?
      some (!structTypes pp.ty)
    else some x.unnamed)
  let out := if unnamed then out else out ++ [34] ++ x.name ++ [34, 58, 32]
  if pd.ref || pd.cref then
    let t ← ra[pd.firstChild]?
    some ((if pd.cref then out ++ [45] else out) ++ Enum.fmtInt (t.idx % 4294967296), fun j => if j = i then none else o.2 j)
  else if x.null then some (out ++ [110, 117, 108, 108], fun j => if j = i then none else o.2 j)
  else
    let (t, res) ← handler pd.ty x.leaf
    some (out ++ t, fun j => if j = i then res else o.2 j)

/-- src/json_save.c:259–275 `json_post_print_node` -/
def postPrint (ra : List Pd) (o : Out) (i : Nat) (level : Int) : Option Out := do
  let pd ← ra[i]?
  let out := match o.2 i with
    | some c => o.1 ++ indent level ++ [c]
    | none => o.1
  let out := if pd.next ≠ 0 then out ++ [44] else out
  some (out ++ [10], o.2)

/-- src/json_save.c:277–291 `json_print_node` -/
def printNode (info : List Info) : Visitor Out := fun s i level order =>
  match order with
  | .pre => do some (true, (s.1, ← prePrint info s.1 s.2 i level))
  | .post => do some (true, (s.1, ← postPrint s.1 s.2 i level))

/-- src/json_save.c:293–309 `mr_json_save` -/
def jsonSave (ra : List Pd) (info : List Info) : Option (List Nat) := do
  let (_, s) ← dfs (printNode info) 1 (ra, ([], fun _ => none))
  some s.2.1

/-! ## Scanner -/

/-- `[+-]?` -/
def sign : Re := .opt (.cls fun c => c == 43 || c == 45)
/-- `[[:digit:]]` -/
def digit : Re := .cls isdigit
/-- a letter of either case -/
def letter (c : Nat) : Re := .cls fun d => d == c || d == c + 32
/-- INT_NUMBER, src/json_load.l:27 -/
def intNumber : Re := .seq sign (.plus digit)
/-- FLOAT_NAN, src/json_load.l:28 -/
def floatNan : Re := .seq sign (.seq (letter 78) (.seq (letter 65) (letter 78)))
/-- FLOAT_INF, src/json_load.l:29 -/
def floatInf : Re := .seq sign (.seq (letter 73) (.seq (letter 78) (letter 70)))
/-- FLOAT_NUMBER, src/json_load.l:30 -/
def floatNumber : Re :=
  .alt floatNan (.alt floatInf (.seq intNumber (.seq (.opt (.seq (.one 46) (.star digit))) (.opt (.seq (letter 69) intNumber)))))
/-- a quoted string, src/json_load.l:39 -/
def stringRe : Re :=
  .seq (.one 34) (.seq (.star (.alt (.cls fun c => c != 34 && c != 92) (.seq (.one 92) .dot))) (.one 34))

/-- the rules, src/json_load.l:32–53 -/
def rules : List Re :=
  [ .str [110, 117, 108, 108],
    .str [102, 97, 108, 115, 101],
    .str [116, 114, 117, 101],
    intNumber,
    floatNumber,
    stringRe,
    .plus (.cls isspace),
    .one 58, .one 123, .one 125, .one 91, .one 93, .one 44,
    .dot ]

/-- the tokens with their values.  `float t`: `strtold` of the text `t`, which is not modelled. -/
inductive Tok
  | null
  | int (v : Nat)
  | float (t : List Nat)
  | string (body : List Nat)
  | colon | lbrace | rbrace | lbracket | rbracket | comma | error
  deriving DecidableEq, Repr

/-- the actions, src/json_load.l:32–53; `none`: no token -/
def action (k : Nat) (t : List Nat) : Option Tok :=
  match k with
  | 0 => some .null
  | 1 => some (.int 0)
  | 2 => some (.int 1)
  | 3 => some (.int (Decimal.strtouintmax t 0).1)
  | 4 => some (.float t)
  | 5 => some (.string ((t.drop 1).take (t.length - 2)))
  | 6 => none
  | 7 => some .colon
  | 8 => some .lbrace
  | 9 => some .rbrace
  | 10 => some .lbracket
  | 11 => some .rbracket
  | 12 => some .comma
  | _ => some .error

/-- the tokens of a text -/
def lex (text : List Nat) : Option (List Tok) := do
  some ((← scanAll rules text).filterMap fun m => action m.1 m.2)

/-! ## Parser -/

/-- `value_type` and `load_params` of a descriptor.  `string`: MR_VT_STRING and MR_VT_SUBSTR are not distinguished,
the text is kept. -/
inductive Value
  | none
  | int (v : Nat)
  | float (t : List Nat)
  | string (s : List Nat)
  deriving DecidableEq, Repr

/-- the members of a descriptor that are written by the parser besides those in `Pd`; `name` is the name of `fdp` -/
structure Loaded where
  name : Option (List Nat) := .none
  null : Bool := false
  value : Value := .none
  deriving DecidableEq, Repr

/-- mr_load_t -/
structure St where
  ptrs : Ptrs
  data : List Loaded
  parent : Nat
  deriving DecidableEq, Repr

/-- `push_node`, src/json_load.y:104–113 -/
def push (s : St) : Option St := do
  let (p, idx) := addPtr s.ptrs
  let p ← addChild p s.parent idx
  let ra ← upd p.ra idx fun pd => { pd with idx := idx }
  some { ptrs := { p with ra := ra }, data := s.data ++ [{}], parent := idx }

/-- `pop_node`, src/json_load.y:98–102 -/
def pop (s : St) : Option St := do
  let pd ← s.ptrs.ra[s.parent]?
  some { s with parent := pd.parent }

/-- store into the descriptor of the current node -/
def store (s : St) (f : Loaded → Loaded) : Option St := do
  let x ← s.data[s.parent]?
  some { s with data := ← wr s.data s.parent (f x) }

/-- the text of a string token, src/json_load.y:116–135; `json_unquote_str` is applied to the token in the
buffer of the scanner, where it is followed by the quote -/
def stringValue (body : List Nat) : Option (List Nat) :=
  if 92 ∈ body then Escape.unquote Escape.jsonFmt (body ++ [34]) body.length else some body

/-- the actions of the scalar values, src/json_load.y:115–147 -/
def scalar (s : St) : Tok → Option St
  | .string b => do
    let v ← stringValue b
    store s fun x => { x with value := .string v }
  | .int v => store s fun x => { x with value := .int v }
  | .float t => store s fun x => { x with value := .float t }
  | .null => store s fun x => { x with null := true, value := .int 0 }
  | _ => none

/-- the action of a member, src/json_load.y:154–172; `known`: `mr_get_any_fd_by_name` finds a field -/
def member (known : List Nat → Bool) (s : St) (name : List Nat) : Option St := do
  let (p, idx) ← lastChildForParent s.ptrs s.parent
  if idx = 0 then none
  else if known name then do
    let x ← s.data[idx]?
    some { s with ptrs := p, data := ← wr s.data idx { x with name := some name } }
  else none

/-- the nonterminals of src/json_load.y -/
inductive NT | element | value | object | members | member | array | elements
  deriving DecidableEq, Repr

/-- Derivations of the grammar src/json_load.y:94–177 with the actions performed from left to right:
`Derives known nt s inp s' rest`: a first part of the tokens `inp` is derived from `nt`, `rest` remains, and the
actions change the state `s` to `s'`.  Bison guarantees that the generated parser accepts exactly the token
sequences derivable from the start symbol and performs the actions in this order (the mid-rule actions `push_node`
and `pop_node` are reductions of empty rules).  An action that fails (YYERROR) has no derivation. -/
inductive Derives (known : List Nat → Bool) : NT → St → List Tok → St → List Tok → Prop
  | element {s s1 s2 s3 : St} {inp rest : List Tok} :
      push s = some s1 → Derives known .value s1 inp s2 rest → pop s2 = some s3 →
      Derives known .element s inp s3 rest
  | object {s s' : St} {inp rest : List Tok} : Derives known .object s inp s' rest → Derives known .value s inp s' rest
  | array {s s' : St} {inp rest : List Tok} : Derives known .array s inp s' rest → Derives known .value s inp s' rest
  | scalar {s s' : St} {t : Tok} {rest : List Tok} : Json.scalar s t = some s' → Derives known .value s (t :: rest) s' rest
  | emptyObject {s : St} {rest : List Tok} : Derives known .object s (.lbrace :: .rbrace :: rest) s rest
  | fullObject {s s' : St} {inp rest : List Tok} : Derives known .members s inp s' (.rbrace :: rest) →
      Derives known .object s (.lbrace :: inp) s' rest
  | lastMember {s s' : St} {inp rest : List Tok} : Derives known .member s inp s' rest → Derives known .members s inp s' rest
  | moreMembers {s s1 s2 : St} {inp inp1 rest : List Tok} : Derives known .member s inp s1 (.comma :: inp1) →
      Derives known .members s1 inp1 s2 rest → Derives known .members s inp s2 rest
  | member {s s1 s2 : St} {name : List Nat} {inp rest : List Tok} : Derives known .element s inp s1 rest →
      Json.member known s1 name = some s2 → Derives known .member s (.string name :: .colon :: inp) s2 rest
  | emptyArray {s : St} {rest : List Tok} : Derives known .array s (.lbracket :: .rbracket :: rest) s rest
  | fullArray {s s' : St} {inp rest : List Tok} : Derives known .elements s inp s' (.rbracket :: rest) →
      Derives known .array s (.lbracket :: inp) s' rest
  | lastElement {s s' : St} {inp rest : List Tok} : Derives known .element s inp s' rest → Derives known .elements s inp s' rest
  | moreElements {s s1 s2 : St} {inp inp1 rest : List Tok} : Derives known .element s inp s1 (.comma :: inp1) →
      Derives known .elements s1 inp1 s2 rest → Derives known .elements s inp s2 rest

/-- the state before the first token: only the dummy descriptor (src/lexer.h:90–104 MR_LOAD_FUNC) -/
def start : St := { ptrs := { ra := [{}] }, data := [{}], parent := 0 }

/-- `mr_json_load` succeeds on the text and leaves these descriptors -/
def Loads (known : List Nat → Bool) (text : List Nat) (ptrs : Ptrs) (data : List Loaded) : Prop :=
  ∃ toks s, lex text = some toks ∧ Derives known .element start toks s [] ∧ s.ptrs = ptrs ∧ s.data = data

end Verif.Model.Json
