import Verif.Model.Xml1
/-!
# XML trees of libxml2: `mr_xml2_save` and `mr_xml2_load`

Writer: src/xml_save.c:374–486.  Reader: src/xml2_load.c.  libxml2 itself is not modelled: the writer leaves a tree of
`xmlNode`s in memory, the reader is given such a tree.  The one thing libxml2 computes, the text that is found in a node
after `xmlNodeSetContent`, is the parameter `decode`.  `xmlNewNode`, `xmlSetProp` and `xmlAddChild` do not fail.
-/
namespace Verif.Model.Xml2
open Verif.Model Verif.Model.Ptrs
open Verif.Model.Json (Leaf Info)
open Verif.Model.Xml1 (handler Loaded sRef sContent sIdx sNull sTrue)

/-- the members of an element node (`xmlNode`) that are used: its name, its properties in the order in which they were
set, the content of the first child that is not an element, and the children that are elements -/
structure XNode where
  name : List Nat := []
  props : List (List Nat × List Nat) := []
  text : Option (List Nat) := none
  kids : List Nat := []
  deriving DecidableEq, Repr, Inhabited

/-- the nodes in memory; the writer keeps the address of a node in the descriptor it was made for
(`res.data.ptr`, src/xml_save.c:413), so a node is named by the index of the descriptor -/
abbrev Heap := Nat → Option XNode

/-! ## Writer -/

/-- `sprintf (number, "%" SCNd32, (uint32_t)n)`: the format is that of a signed number -/
def number (n : Nat) : List Nat := Enum.fmtInt (BitVec.ofNat 32 n).toInt

/-- `xmlAddChild` of libxml2: `i` becomes the last child of `p` -/
def addKid (h : Heap) (p i : Nat) : Option Heap := do
  let x ← h p
  some fun j => if j = p then some { x with kids := x.kids ++ [i] } else h j

/-- the text of the value, src/xml_save.c:386–402; `handler` covers the default for types without a printer -/
def content (pd : Pd) (x : Info) : Option (List Nat) :=
  if x.null || pd.ref || pd.cref then some [] else handler pd.ty x.leaf

/-- the property of a reference: the public index of the target, src/xml_save.c:420–431 -/
def refProp (ra : List Pd) (pd : Pd) (flag : Bool) (name : List Nat) : Option (List (List Nat × List Nat)) :=
  if flag then (ra[pd.firstChild]?).map fun t => [(name, number t.idx)] else some []

/-- the node made for a descriptor, src/xml_save.c:376–445 without `xmlAddChild` -/
def newNode (decode : List Nat → List Nat) (ra : List Pd) (info : List Info) (i : Nat) : Option XNode := do
  let pd ← ra[i]?
  let x ← info[i]?
  let t ← content pd x
  let ref ← refProp ra pd pd.ref sRef
  let cref ← refProp ra pd pd.cref sContent
  let refd := if pd.refd then [(sIdx, number pd.idx)] else []
  let null := if x.null then [(sNull, sTrue)] else []
  some { name := x.name, props := ref ++ cref ++ refd ++ null, text := if t = [] then none else some (decode t) }

/-- src/xml_save.c:376–445 `xml2_save_node` -/
def saveNode (decode : List Nat → List Nat) (info : List Info) : Visitor Heap := fun s i _ order =>
  match order with
  | .post => some (true, s)
  | .pre => do
    let pd ← s.1[i]?
    let x ← newNode decode s.1 info i
    let h : Heap := fun j => if j = i then some x else s.2 j
    let h ← if pd.parent = 0 then some h else addKid h pd.parent i
    some (true, (s.1, h))

/-- src/xml_save.c:452–486 `mr_xml2_save`: the nodes in memory; the root element of the document is node 1 -/
def xml2Save (decode : List Nat → List Nat) (ra : List Pd) (info : List Info) : Option Heap := do
  let (_, s) ← dfs (saveNode decode info) 1 (ra, fun _ => none)
  some s.2

/-! ## Reader -/

/-- `xmlGetProp` of libxml2 -/
def getProp (x : XNode) (name : List Nat) : Option (List Nat) := (x.props.find? fun p => p.1 == name).map (·.2)

/-- src/xml2_load.c:7–27 `mr_load_xml_property`: `none`: MR_FAILURE; `set` stores the index and the flag -/
def property (x : XNode) (name : List Nat) (set : Nat → Pd → Pd) (pd : Pd) : Option Pd :=
  match getProp x name with
  | none => some pd
  | some t =>
    let (v, tail) := Decimal.strtouintmax t 0
    if tail.all isspace then some (set (v % 2 ^ 32) pd) else none

/-- the properties of references, src/xml2_load.c:39–47, stored in the new descriptor -/
def attrs (x : XNode) : Option Pd := do
  let pd ← property x sIdx (fun v pd => { pd with idx := v, refd := true }) {}
  let pd ← property x sRef (fun v pd => { pd with firstChild := v, ref := true }) pd
  property x sContent (fun v pd => { pd with firstChild := v, cref := true }) pd

/-- the other members of the new descriptor, src/xml2_load.c:49–71 -/
def loaded (x : XNode) : Loaded :=
  { name := some x.name, null := (getProp x sNull).isSome, text := some (x.text.getD []) }

/-- the descriptors made so far -/
structure St where
  ptrs : Ptrs
  data : List Loaded
  deriving DecidableEq, Repr

/-- src/xml2_load.c:73–86: the loop on subnodes; `load` is the recursive call.  The result is undefined behaviour
(`none`), failure (`some none`) or the new state. -/
def loadKids (load : St → Nat → Option (Option (St × Nat))) (idx : Nat) (isRef : Bool) : List Nat → St → Option (Option St)
  | [], s => some (some s)
  | c :: cs, s =>
    if isRef then some none
    else do
      match ← load s c with
      | none => some none
      | some (s, child) =>
        let ptrs ← addChild s.ptrs idx child
        loadKids load idx isRef cs { s with ptrs := ptrs }

/-- src/xml2_load.c:29–96 `mr_xml2_load`; `known`: `mr_get_any_fd_by_name` finds a field of the name.  The first
argument bounds the depth of the recursion. -/
def load (known : List Nat → Bool) (h : Heap) : Nat → St → Nat → Option (Option (St × Nat))
  | 0, _, _ => none
  | fuel + 1, s, n => do
    let x ← h n
    let (p, idx) := addPtr s.ptrs
    match attrs x with
    | none => some none
    | some pd =>
      if known x.name then do
        let s1 : St := { ptrs := { p with ra := ← upd p.ra idx fun _ => pd }, data := s.data ++ [loaded x] }
        match ← loadKids (load known h fuel) idx (pd.ref || pd.cref) x.kids s1 with
        | none => some none
        | some s2 => some (some (s2, idx))
      else some none

/-- the array the reader is called with, src/metaresc.h:1227–1251: one unused descriptor -/
def start : St := { ptrs := { ra := [{}] }, data := [{}] }

end Verif.Model.Xml2
