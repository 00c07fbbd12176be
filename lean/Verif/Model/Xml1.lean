import Verif.Model.Json
/-!
# XML documents: `mr_xml1_save` and `mr_xml1_load`

Writer: src/xml_save.c:119–372.  Reader: the scanner src/xml1_load.l and the grammar src/xml1_load.y.
The values of nodes are those of `Model/Json.lean`: `Json.Leaf`, `Json.Info`.
-/
namespace Verif.Model.Xml1
open Verif.Model Verif.Model.Ptrs Verif.Model.Flex
open Verif.Model.Json (Leaf Info indent)

/-! ## Writer -/

/-- the functions of `xml_ra_printf_tbl` for nodes with a value: `xml_ra_printf_char`, `xml_ra_printf_char_array`,
`xml_ra_printf_string` (src/xml_save.c:136–149, 184–197; the text up to its end), `xml_ra_printf_bitmask`,
`xml_ra_printf_bitfield`, `xml_ra_printf_func`, `xml_ra_printf_complex_*` (151–182, 199–207; the text is not quoted),
`mr_ra_printf_bool` and the integer and floating point printers (src/mr_stringify.c:32–90). -/
def leafText : Leaf → Option (List Nat)
  | .bool b => some (if b then [116, 114, 117, 101] else [102, 97, 108, 115, 101])
  | .int v => some (Enum.fmtInt v)
  | .int128 v => Decimal.printInt128 (List.replicate Decimal.bufSize 0) v
  | .uint128 v => Decimal.printUint128 (List.replicate Decimal.bufSize 0) v
  | .real t => some t
  | .text s => some (Escape.xmlQuoteString s)
  | .quoted s => some s
  | .void _ => some []
  | .undefined => none

/-- `xml_ra_printf_tbl` (src/xml_save.c:212–246) and the default of src/xml_save.c:253–262: the text appended -/
def handler (ty : MrType) (l : Leaf) : Option (List Nat) :=
  match ty with
  | .none | .void | .struct | .array | .pointer | .union | .anonUnion | .namedAnonUnion | .endAnonUnion | .last => some []
  | _ => leafText l

/-- MR_XML1_INDENT_TEMPLATE, src/xml_save.c:18–19 -/
def newline (level : Int) : List Nat := 10 :: indent level

/-- an attribute: MR_XML1_ATTR_CHARP, MR_XML1_ATTR_INT, src/xml_save.c:21–22 -/
def attr (name value : List Nat) : List Nat := 32 :: (name ++ [61, 34] ++ value ++ [34])

/-- `"ref"`, src/metaresc.h:95 -/
def sRef : List Nat := [114, 101, 102]
/-- `"ref_content"`, src/metaresc.h:96 -/
def sContent : List Nat := [114, 101, 102, 95, 99, 111, 110, 116, 101, 110, 116]
/-- `"ref_idx"`, src/metaresc.h:93 -/
def sIdx : List Nat := [114, 101, 102, 95, 105, 100, 120]
/-- `"isnull"`, src/metaresc.h:108 -/
def sNull : List Nat := [105, 115, 110, 117, 108, 108]
/-- `"true"`, src/metaresc.h:109 -/
def sTrue : List Nat := [116, 114, 117, 101]

/-- an index printed as `uint32_t` -/
def number (n : Nat) : List Nat := Enum.fmtInt (n % 4294967296 : Nat)

/-- the text written so far and the members `res` of the descriptors: is the tag closed? -/
abbrev Out := List Nat × (Nat → Bool)

/-- src/xml_save.c:248–309 `xml1_pre_print_node` (appending never fails).  The `>` that is taken back if nothing
follows is not written here. -/
def prePrint (info : List Info) (ra : List Pd) (o : Out) (i : Nat) (level : Int) : Option Out := do
  let pd ← ra[i]?
  let x ← info[i]?
  let out := o.1 ++ newline level ++ 60 :: x.name
  let out ← if pd.ref then do some (out ++ attr sRef (number (← ra[pd.firstChild]?).idx)) else some out
  let out ← if pd.cref then do some (out ++ attr sContent (number (← ra[pd.firstChild]?).idx)) else some out
  let out := if pd.refd then out ++ attr sIdx (number pd.idx) else out
  let out := if x.null then out ++ attr sNull sTrue else out
  if x.null || pd.ref || pd.cref then some (out ++ [47, 62], fun j => if j = i then true else o.2 j)
  else
    let t ← handler pd.ty x.leaf
    if pd.firstChild = 0 ∧ t = [] then some (out ++ [47, 62], fun j => if j = i then true else o.2 j)
    else some (out ++ 62 :: t, fun j => if j = i then false else o.2 j)

/-- src/xml_save.c:311–330 `xml1_post_print_node` -/
def postPrint (info : List Info) (ra : List Pd) (o : Out) (i : Nat) (level : Int) : Option Out := do
  let pd ← ra[i]?
  let x ← info[i]?
  let out := if pd.firstChild ≠ 0 ∧ (pd.ref || pd.cref) = false then o.1 ++ newline level else o.1
  some (if o.2 i then out else out ++ [60, 47] ++ x.name ++ [62], o.2)

/-- src/xml_save.c:332–346 `xml1_print_node` -/
def printNode (info : List Info) : Visitor Out := fun s i level order =>
  match order with
  | .pre => do some (true, (s.1, ← prePrint info s.1 s.2 i level))
  | .post => do some (true, (s.1, ← postPrint info s.1 s.2 i level))

/-- MR_XML1_DOCUMENT_HEADER, src/xml_save.c:16: `<?xml version="1.0"?>` -/
def header : List Nat :=
  [60, 63, 120, 109, 108, 32, 118, 101, 114, 115, 105, 111, 110, 61, 34, 49, 46, 48, 34, 63, 62]

/-- src/xml_save.c:353–372 `mr_xml1_save` -/
def xmlSave (ra : List Pd) (info : List Info) : Option (List Nat) := do
  let (_, s) ← dfs (printNode info) 1 (ra, (header, fun _ => false))
  some (s.2.1 ++ [10])

/-! ## Scanner -/

/-- `[_[:alpha:]]` -/
def idStart : Re := .cls fun c => c == 95 || isalpha c
/-- `[_[:alnum:]]` -/
def idNext : Re := .cls fun c => c == 95 || isalnum c
/-- ID, src/xml1_load.l:23 -/
def idRe : Re := .seq idStart (.seq (.star idNext) (.opt (.seq (.one 58) (.seq idStart (.star idNext)))))
/-- `[[:space:]]*` -/
def spaces : Re := .star (.cls isspace)
/-- `[^<]*` -/
def chars : Re := .star (.cls (· != 60))

/-- the rules, src/xml1_load.l:26–72 -/
def rules : List Re :=
  [ .plus (.cls isspace),
    idRe,
    .seq spaces (.seq (.one 61) spaces),
    .seq (.one 34) (.seq (.star (.cls (· != 34))) (.one 34)),
    .str [60, 63, 120, 109, 108],
    .seq spaces (.seq (.one 63) (.seq (.one 62) chars)),
    .seq (.one 60) idRe,
    .seq (.one 60) (.seq (.one 47) idRe),
    .seq spaces (.seq (.one 47) (.seq (.one 62) chars)),
    .seq spaces (.seq (.one 62) chars),
    .dot ]

/-- the tokens with their values -/
inductive Tok
  | ws
  | id (s : List Nat)
  | assign
  | prop (s : List Nat)
  | docOpen | docClose
  | openTag (s : List Nat)
  | closeTag (s : List Nat)
  | closeEmpty (s : List Nat)
  | content (s : List Nat)
  | error
  deriving DecidableEq, Repr

/-- `strchr (yytext, '>') + 1` -/
def afterGt (t : List Nat) : List Nat := (t.dropWhile (· ≠ 62)).tail

/-- the actions, src/xml1_load.l:26–72 -/
def action (k : Nat) (t : List Nat) : Tok :=
  match k with
  | 0 => .ws
  | 1 => .id t
  | 2 => .assign
  | 3 => .prop ((t.drop 1).take (t.length - 2))
  | 4 => .docOpen
  | 5 => .docClose
  | 6 => .openTag (t.drop 1)
  | 7 => .closeTag (t.drop 2)
  | 8 => .closeEmpty (afterGt t)
  | 9 => .content (afterGt t)
  | _ => .error

/-- the tokens of a text -/
def lex (text : List Nat) : Option (List Tok) := do
  some ((← scanAll rules text).map fun m => action m.1 m.2)

/-! ## Parser -/

/-- the value of a digit or letter -/
def digitOf (c : Nat) : Option Nat :=
  if isdigit c then some (c - 48)
  else if isupper c then some (c - 55)
  else if islower c then some (c - 87)
  else none

/-- the digits at the beginning of a text: number of them, value, and what follows -/
def digits (base : Nat) : List Nat → Nat → Nat → Nat × Nat × List Nat
  | [], n, acc => (n, acc, [])
  | c :: s, n, acc =>
    match digitOf c with
    | some d => if d < base then digits base s (n + 1) (acc * base + d) else (n, acc, c :: s)
    | none => (n, acc, c :: s)

/-- `strtoull (str, &tail, 0)` of the C library: the value and the text at `tail` -/
def strtoull (str : List Nat) : Nat × List Nat :=
  let s := str.dropWhile isspace
  let neg := s.head? == some 45
  let s := if s.head? == some 43 || s.head? == some 45 then s.tail else s
  let hex := s.head? == some 48 && (s.tail.head? == some 120 || s.tail.head? == some 88) &&
    (match s.tail.tail.head?.bind digitOf with | some d => decide (d < 16) | none => false)
  let base := if hex then 16 else if s.head? == some 48 then 8 else 10
  let (n, v, rest) := digits base (if hex then s.tail.tail else s) 0 0
  if n = 0 then (0, str)
  else if v ≥ 2 ^ 64 then (2 ^ 64 - 1, rest)
  else (if neg then (2 ^ 64 - v) % 2 ^ 64 else v, rest)

/-- `load_idx`, src/xml1_load.y:23–36: the index; `none`: MR_FAILURE.  The text is followed by a quote, where
`strtoull` stops. -/
def loadIdx (t : List Nat) : Option Nat :=
  let (v, tail) := strtoull t
  if tail.all isspace then some (v % 2 ^ 32) else none

/-- the members of a descriptor that are written by the parser besides those in `Pd`; `name` is the name of `fdp`;
`text`: MR_VT_STRING and MR_VT_SUBSTR are not distinguished -/
structure Loaded where
  name : Option (List Nat) := .none
  null : Bool := false
  text : Option (List Nat) := .none
  deriving DecidableEq, Repr

/-- mr_load_t -/
structure St where
  ptrs : Ptrs
  data : List Loaded
  parent : Nat
  deriving DecidableEq, Repr

/-- `start_tag`, src/xml1_load.y:158–166 -/
def push (s : St) : Option St := do
  let (p, idx) := addPtr s.ptrs
  some { ptrs := ← addChild p s.parent idx, data := s.data ++ [{}], parent := idx }

/-- store into the descriptor of the current node -/
def store (s : St) (f : Loaded → Loaded) : Option St := do
  let x ← s.data[s.parent]?
  some { s with data := ← wr s.data s.parent (f x) }

/-- store into the descriptor of the current node -/
def setPd (s : St) (f : Pd → Pd) : Option St := do
  some { s with ptrs := { s.ptrs with ra := ← upd s.ptrs.ra s.parent f } }

/-- the action of an attribute, src/xml1_load.y:170–193; `mr_substrcmp` (src/lexer.h:34–40) compares the whole name -/
def property (s : St) (name value : List Nat) : Option St :=
  if name = sIdx then do
    let v ← loadIdx value
    setPd s fun pd => { pd with idx := v, refd := true }
  else if name = sRef then do
    let v ← loadIdx value
    setPd s fun pd => { pd with firstChild := v, ref := true }
  else if name = sContent then do
    let v ← loadIdx value
    setPd s fun pd => { pd with firstChild := v, cref := true }
  else if name = sNull then store s fun x => { x with null := true }
  else some s

/-- a name without the part up to the first colon, src/xml1_load.y:77–84, 119–126 -/
def local_ (name : List Nat) : List Nat := if 58 ∈ name then (name.dropWhile (· ≠ 58)).tail else name

/-- the text of an element, src/xml1_load.y:136–153; in the buffer of the scanner it is followed by `<` -/
def unquoted (c : List Nat) : Option (List Nat) :=
  if 38 ∈ c then Escape.xmlUnquote (c.length + 1) (c ++ [60]) c.length else some c

/-- the end of an element, src/xml1_load.y:86–98, 128–155; `known`: `mr_get_any_fd_by_name` finds a field -/
def finish (known : List Nat → Bool) (s : St) (name content : List Nat) : Option St :=
  if known (local_ name) then do
    let t ← unquoted content
    let s ← store s fun x => { x with name := some (local_ name), text := some t }
    let pd ← s.ptrs.ra[s.parent]?
    some { s with parent := pd.parent }
  else none

/-- the nonterminals of src/xml1_load.y -/
inductive NT | tag | properties | nested
  deriving DecidableEq, Repr

/-- Derivations of the grammar src/xml1_load.y:64–195 with the actions performed from left to right, as in
`Json.Derives`.  The lists `properties` and `nested_tags` are written with the recursion at the right end; the
sequences derived and the order of the actions are the same. -/
inductive Derives (known : List Nat → Bool) : NT → St → List Tok → St → List Tok → Prop
  | empty {s s1 s2 s3 : St} {name after : List Nat} {inp rest : List Tok} :
      push s = some s1 → Derives known .properties s1 inp s2 (.closeEmpty after :: rest) → after.all isspace = true →
      finish known s2 name [] = some s3 → Derives known .tag s (.openTag name :: inp) s3 rest
  | full {s s1 s2 s3 s4 : St} {name content after : List Nat} {inp inp1 rest : List Tok} :
      push s = some s1 → Derives known .properties s1 inp s2 (.content content :: inp1) →
      Derives known .nested s2 inp1 s3 (.closeTag name :: .content after :: rest) → after.all isspace = true →
      finish known s3 name content = some s4 → Derives known .tag s (.openTag name :: inp) s4 rest
  | noProperty {s : St} {inp : List Tok} : Derives known .properties s inp s inp
  | property {s s1 s2 : St} {name value : List Nat} {inp rest : List Tok} :
      Xml1.property s name value = some s1 → Derives known .properties s1 inp s2 rest →
      Derives known .properties s (.ws :: .id name :: .assign :: .prop value :: inp) s2 rest
  | noTag {s : St} {inp : List Tok} : Derives known .nested s inp s inp
  | tags {s s1 s2 : St} {inp inp1 rest : List Tok} :
      Derives known .tag s inp s1 inp1 → Derives known .nested s1 inp1 s2 rest → Derives known .nested s inp s2 rest

/-- `doc_properties`, src/xml1_load.y:62: what follows them -/
def dropProperties : List Tok → List Tok
  | .ws :: .id _ :: .assign :: .prop _ :: inp => dropProperties inp
  | inp => inp

/-- the state before the first token: only the dummy descriptor (src/lexer.h:90–104 MR_LOAD_FUNC) -/
def start : St := { ptrs := { ra := [{}] }, data := [{}], parent := 0 }

/-- `mr_xml1_load` succeeds on the text and leaves these descriptors; src/xml1_load.y:60 -/
def Loads (known : List Nat → Bool) (text : List Nat) (ptrs : Ptrs) (data : List Loaded) : Prop :=
  ∃ toks inp s, lex text = some (.docOpen :: toks) ∧ dropProperties toks = .docClose :: inp ∧
    Derives known .tag start inp s [] ∧ s.ptrs = ptrs ∧ s.data = data

end Verif.Model.Xml1
