import Verif.Model.Scm
/-!
# YAML documents: `mr_yaml_save` and `mr_yaml_load`

Writer: src/yaml_save.c.  Reader: src/yaml_load.c.  Both use libyaml: the writer gives a list of events to its emitter,
the reader takes a list of events from its parser.  libyaml itself is not modelled: a document is the list of its
events.  The tags and styles of the events are not kept, the reader does not look at them.
The values of nodes are those of `Model/Scm.lean`.
-/
namespace Verif.Model.Yaml
open Verif.Model Verif.Model.Ptrs
open Verif.Model.Scm (Leaf Info hexDigits isRef)
open Verif.Model.Xml1 (sContent sIdx sNull number)

/-- yaml_event_t: the types of events with the members that are used -/
inductive Event
  | streamStart | streamEnd | docStart | docEnd
  | scalar (anchor : Option (List Nat)) (value : List Nat)
  | alias (name : List Nat)
  | mapStart (anchor : Option (List Nat))
  | mapEnd
  | seqStart (anchor : Option (List Nat))
  | seqEnd
  deriving DecidableEq, Repr

/-! ## Writer -/

/-- src/yaml_save.c:118–131 `yaml_save_char` -/
def charText (c : Nat) : List Nat := if 32 ≤ c ∧ c < 128 then [c] else 48 :: 120 :: Scanf.printRadix 16 2 false c

/-- the texts given to `yaml_emit_string` (src/yaml_save.c:111–168): strings and character arrays up to their end,
`true` and `false`, functions by name or address; numbers, enumerations, bit masks and complex numbers with the
printers of src/mr_stringify.c (YAML_SAVE_HANDLER, src/yaml_save.c:281–308).  The outer `none`: undefined behaviour;
the inner `none`: the printer wrote nothing, the handler fails. -/
def leafText : Leaf → Option (Option (List Nat))
  | .bool b => some (some (if b then [116, 114, 117, 101] else [102, 97, 108, 115, 101]))
  | .int v => some (some (Enum.fmtInt v))
  | .int128 v => (Decimal.printInt128 (List.replicate Decimal.bufSize 0) v).map some
  | .uint128 v => (Decimal.printUint128 (List.replicate Decimal.bufSize 0) v).map some
  | .real t => some (if t = [] then none else some t)
  | .char c => some (some (charText c))
  | .text s => some (some s)
  | .quoted s => some (if s = [] then none else some s)
  | .address v => some (some (48 :: 120 :: hexDigits v))
  | .undefined => none

/-- `"ref_idx_%u"`: MR_YAML_ANCHOR_TMPLT, MR_YAML_REF_ANCHOR_TMPLT, src/metaresc.h:98–99 -/
def idxText (n : Nat) : List Nat := sIdx ++ 95 :: number n
/-- `"ref_content_%u"`: MR_YAML_REF_ANCHOR_CONTENT_TMPLT, src/metaresc.h:100 -/
def contentText (n : Nat) : List Nat := sContent ++ 95 :: number n

/-- src/yaml_save.c:33–41 `yaml_get_anchor` -/
def getAnchor (pd : Pd) : Option (List Nat) := if pd.refd then some (idxText pd.idx) else none

/-- MR_IS_UNNAMED as `yaml_emit_field` sees it: the flag is cleared for anonymous unions (src/yaml_save.c:259–264) and
for the pointers of `mr_ptr_t` (src/yaml_save.c:238–241, see `Scm.Info`) -/
def unnamed (pd : Pd) (x : Info) : Bool := x.unnamed && pd.ty ≠ .anonUnion

/-- src/yaml_save.c:65–84: the event of the value replaced by an alias -/
def replaced (ra : List Pd) (pd : Pd) (x : Info) (e : Event) : Option Event :=
  if isRef pd ∧ pd.firstChild < ra.length then
    match ra[pd.firstChild]? with
    | none => none
    | some t => some (.alias (if pd.cref then contentText t.idx else idxText t.idx))
  else if x.null then some (.alias sNull)
  else some e

/-- a result of the writer: is it a success, and the events -/
abbrev Res := Option (Bool × List Event)

/-- src/yaml_save.c:43–91 `yaml_emit_field`.  `utf8`: libyaml makes scalars only of valid UTF-8, the initialization of
the event fails otherwise.  The emitter never fails. -/
def emitField (utf8 : List Nat → Bool) (ra : List Pd) (out : List Event) (pd : Pd) (x : Info) (e : Event) : Res := do
  let e ← replaced ra pd x e
  if unnamed pd x then some (true, out ++ [e])
  else if utf8 x.name then some (true, out ++ [.scalar none x.name, e])
  else some (false, out)

/-- src/yaml_save.c:93–109 `yaml_emit_string` -/
def emitString (utf8 : List Nat → Bool) (ra : List Pd) (out : List Event) (pd : Pd) (x : Info) (value : List Nat) : Res :=
  if utf8 value then emitField utf8 ra out pd x (.scalar (getAnchor pd) value) else some (false, out)

/-- the text of a node without children; a NULL string has no text (src/yaml_save.c:97–98) -/
def emitLeaf (utf8 : List Nat → Bool) (ra : List Pd) (out : List Event) (pd : Pd) (x : Info) : Res := do
  match ← leafText x.leaf with
  | none => some (false, out)
  | some t => emitString utf8 ra out pd x t

/-- `MR_IS_NULL | MR_IS_REFERENCE | MR_IS_CONTENT_REFERENCE` -/
def isAlias (pd : Pd) (x : Info) : Bool := x.null || isRef pd

/-- `yaml_pre_save_tbl` (src/yaml_save.c:310–344) with its handlers; strings that are NULL have the text `""` -/
def preSave (utf8 : List Nat → Bool) (ra : List Pd) (out : List Event) (pd : Pd) (x : Info) : Res :=
  match pd.ty with
  | .none | .void => some (true, out)
  | .struct | .union | .anonUnion | .namedAnonUnion => emitField utf8 ra out pd x (.mapStart (getAnchor pd))
  | .array => emitField utf8 ra out pd x (.seqStart (getAnchor pd))
  | .pointer => if isAlias pd x then emitString utf8 ra out pd x [] else emitField utf8 ra out pd x (.seqStart (getAnchor pd))
  | .string => if x.null then emitString utf8 ra out pd x [] else emitLeaf utf8 ra out pd x
  | .endAnonUnion | .last => some (false, out)
  | _ => emitLeaf utf8 ra out pd x

/-- `yaml_post_save_tbl` (src/yaml_save.c:346–380) with its handlers -/
def postSave (out : List Event) (pd : Pd) (x : Info) : Bool × List Event :=
  match pd.ty with
  | .struct | .union | .anonUnion | .namedAnonUnion => (true, out ++ [.mapEnd])
  | .array => (true, out ++ [.seqEnd])
  | .pointer => if isAlias pd x then (true, out) else (true, out ++ [.seqEnd])
  | .endAnonUnion | .last => (false, out)
  | _ => (true, out)

/-- src/yaml_save.c:382–409 `yaml_print_node` -/
def printNode (utf8 : List Nat → Bool) (info : List Info) : Visitor (List Event) := fun s i _ order => do
  let pd ← s.1[i]?
  let x ← info[i]?
  let r ← match order with
    | .pre => preSave utf8 s.1 s.2 pd x
    | .post => some (postSave s.2 pd x)
  some (r.1, (s.1, r.2))

/-- src/yaml_save.c:411–497 `mr_yaml_save`; the inner `none`: NULL is returned -/
def yamlSave (utf8 : List Nat → Bool) (ra : List Pd) (info : List Info) : Option (Option (List Event)) := do
  let (ok, s) ← dfs (printNode utf8 info) 1 (ra, [.streamStart, .docStart])
  if ok then some (some (s.2 ++ [.docEnd, .streamEnd])) else some none

/-! ## Reader -/

/-- the members of a descriptor that are written by the reader besides those in `Pd`: the name of `fdp`, the flags
MR_IS_UNNAMED and MR_IS_NULL, the text of the value (MR_VT_STRING) if there is one -/
structure Loaded where
  name : Option (List Nat) := none
  unnamed : Bool := false
  null : Bool := false
  value : Option (List Nat) := none
  deriving DecidableEq, Repr

/-- the variables of `mr_yaml_load`; `pending`: the name that was read, its value is the next event -/
structure St where
  ptrs : Ptrs
  data : List Loaded
  parent : Nat
  pending : Option (List Nat)
  deriving DecidableEq, Repr

/-- `sscanf` with a template that ends with `%u` -/
def scanTemplate (pre s : List Nat) : Option Nat :=
  if pre.isPrefixOf s then (Scanf.scanInt 10 (Scanf.noWidth (s.drop pre.length)) (s.drop pre.length)).map (·.1) else none

/-- src/yaml_load.c:60–80, the descriptor -/
def aliasPd (a : List Nat) (pd : Pd) : Pd :=
  match scanTemplate (sContent ++ [95]) a with
  | some n => { pd with firstChild := n, cref := true }
  | none =>
    match scanTemplate (sIdx ++ [95]) a with
    | some n => { pd with firstChild := n, ref := true }
    | none => pd

/-- src/yaml_load.c:60–80, MR_IS_NULL -/
def aliasNull (a : List Nat) : Bool :=
  scanTemplate (sContent ++ [95]) a = none ∧ scanTemplate (sIdx ++ [95]) a = none ∧ a = sNull

/-- src/yaml_load.c:82–91 -/
def anchorPd (a : List Nat) (pd : Pd) : Pd :=
  match scanTemplate (sIdx ++ [95]) a with
  | some n => { pd with idx := n, refd := true }
  | none => pd

/-- the members of the new descriptor that depend on alias and anchor -/
def attrs (anchor alias : Option (List Nat)) (pd : Pd) : Pd :=
  let pd := match alias with | some a => aliasPd a pd | none => pd
  match anchor with | some a => anchorPd a pd | none => pd

/-- src/yaml_load.c:40–95 `yaml_add_node`; allocation never fails -/
def addNode (s : St) (name value anchor alias : Option (List Nat)) (unnamed : Bool) : Option St := do
  let (p, idx) := addPtr s.ptrs
  let p ← addChild p s.parent idx
  let ra ← upd p.ra idx (attrs anchor alias)
  let null := match alias with | some a => aliasNull a | none => false
  some { ptrs := { p with ra := ra }, data := s.data ++ [{ name := name, unnamed := unnamed, null := null, value := value }],
         parent := if value = none ∧ alias = none then idx else s.parent, pending := none }

/-- what a step of the reader does: undefined behaviour (`none`), it fails (`some none`), it goes on -/
abbrev Step := Option (Option St)

/-- src/yaml_load.c:134–158, the event after a name -/
def named (s : St) (n : List Nat) : Event → Step
  | .scalar a v => (addNode s (some n) (some v) a none false).map some
  | .mapStart a => (addNode s (some n) none a none false).map some
  | .seqStart a => (addNode s (some n) none a none true).map some
  | .alias a => (addNode s (some n) none none (some a) false).map some
  | _ => some none

/-- the end of a mapping or of a sequence (`seq`), src/yaml_load.c:171–179, 185–193; the parent changes also if it fails -/
def close (s : St) (seq : Bool) : Step :=
  if s.parent = 0 then some none
  else do
    let y ← s.data[s.parent]?
    let pd ← s.ptrs.ra[s.parent]?
    if y.unnamed = seq then some (some { s with parent := pd.parent }) else some none

/-- does a scalar have to be a name? (src/yaml_load.c:123–124) -/
def wantsName (s : St) : Option Bool := if s.parent = 0 then some false else do some (!(← s.data[s.parent]?).unnamed)

/-- src/yaml_load.c:120–206, the event when no name is pending.  `known`: `mr_get_any_fd_by_name` finds a field of this
name. -/
def unnamedEvent (known : List Nat → Bool) (s : St) : Event → Step
  | .scalar a v => do
    if ← wantsName s then
      if known v then some (some { s with pending := some v }) else some none
    else (addNode s none (some v) a none true).map some
  | .alias a => (addNode s none none none (some a) true).map some
  | .mapStart a => (addNode s none none a none false).map some
  | .mapEnd => close s false
  | .seqStart a => (addNode s none none a none true).map some
  | .seqEnd => close s true
  | .streamStart | .streamEnd | .docStart | .docEnd => some (if s.parent = 0 then some s else none)

/-- one event, src/yaml_load.c:120–206 -/
def step (known : List Nat → Bool) (s : St) (e : Event) : Step :=
  match s.pending with
  | some n => named s n e
  | none => unnamedEvent known s e

/-- the loop of src/yaml_load.c:113–209; it ends with the end of the stream.  Without it the parser reports an error. -/
def run (known : List Nat → Bool) : List Event → St → Step
  | [], _ => some none
  | e :: es, s => do
    match ← step known s e with
    | none => some none
    | some s' => if e = .streamEnd then some (some s') else run known es s'

/-- src/yaml_load.c:11–13 -/
def maxIdx (ra : List Pd) : Nat := (ra.drop 1).foldl (fun m pd => if pd.idx > m then pd.idx else m) 0

/-- src/yaml_load.c:20–21 -/
def fillOne (t : List Nat) (pd : Pd) (i : Nat) : Option (List Nat) := if pd.idx ≠ 0 then wr t pd.idx i else some t

/-- src/yaml_load.c:19–21; `i` is the index of the first descriptor of the list -/
def fillTable : Nat → List Pd → List Nat → Option (List Nat)
  | _, [], t => some t
  | i, pd :: l, t => do
    let t ← fillOne t pd i
    fillTable (i + 1) l t

/-- `(ref_idx > max_idx) || (table[ref_idx] == 0)`; `ref_idx` is an `int` -/
def missing (mx : Nat) (table : List Nat) (r : Nat) : Option Bool :=
  if r > mx then some true
  else if 2 ^ 31 ≤ r then none
  else do some ((← table[r]?) == 0)

/-- src/yaml_load.c:32–33 -/
def note (mx : Nat) (table : List Nat) (r : Nat) : Option (List Nat) := if r ≤ mx then wr table r r else some table

/-- src/yaml_load.c:25–34 for one descriptor -/
def missedStep (mx : Nat) (s : List Pd × List Nat) (i : Nat) : Option (List Pd × List Nat) := do
  let pd ← s.1[i]?
  let r := pd.firstChild
  if isRef pd then
    if ← missing mx s.2 r then
      if r < s.1.length then
        if 2 ^ 31 ≤ r then none
        else do
          let t ← s.1[r]?
          if t.idx = 0 then do
            let ra ← upd s.1 r fun p => { p with idx := r, refd := true }
            let table ← note mx s.2 r
            some (ra, table)
          else some s
      else some s
    else some s
  else some s

/-- src/yaml_load.c:23–35, the loop; `n` descriptors to go -/
def missedLoop (mx : Nat) : Nat → Nat → List Pd × List Nat → Option (List Pd × List Nat)
  | 0, _, s => some s
  | n + 1, i, s => do missedLoop mx n (i + 1) (← missedStep mx s i)

/-- src/yaml_load.c:4–38 `add_missed_crossrefs`; `max_idx + 1` is computed as `uint32_t`.  Allocation never fails. -/
def addMissed (ra : List Pd) : Option (List Pd) := do
  let table ← fillTable 1 (ra.drop 1) (List.replicate ((maxIdx ra + 1) % 2 ^ 32) 0)
  let s ← missedLoop (maxIdx ra) (ra.length - 1) 1 (ra, table)
  some s.1

/-- the state before the first event: only the dummy descriptor (src/metaresc.h:1316–1322 MR_LOAD_METHOD_ARGS4_) -/
def start : St := { ptrs := { ra := [{}] }, data := [{}], parent := 0, pending := none }

/-- src/yaml_load.c:97–226 `mr_yaml_load`: undefined behaviour (`none`), failure (`some none`) or the descriptors -/
def yamlLoad (known : List Nat → Bool) (events : List Event) : Option (Option (List Pd × List Loaded)) := do
  match ← run known events start with
  | none => some none
  | some s => some (some (← addMissed s.ptrs.ra, s.data))

end Verif.Model.Yaml
