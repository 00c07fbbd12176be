/-
The documents `mr_read_xml_doc` is meant for: a prolog and one element.
Bytes: 32 and 9..13 are white space, 60 `<`, 62 `>`, 47 `/`, 63 `?`.
-/
namespace Verif.Spec.XmlDoc

def blank (c : Nat) : Bool := c == 32 || (9 ≤ c && c ≤ 13)

/-- The inside of an element: nothing more; text and the rest; an empty element
`<a/>` and the rest; an element `<a>body</z>` and the rest. -/
inductive Content
  | nil
  | text (t : List Nat) (rest : Content)
  | leaf (a : List Nat) (rest : Content)
  | node (a : List Nat) (body : Content) (z : List Nat) (rest : Content)

/-- The text of a content. -/
def render : Content → List Nat
  | .nil => []
  | .text t r => t ++ render r
  | .leaf a r => [60] ++ a ++ [47, 62] ++ render r
  | .node a b z r => [60] ++ a ++ [62] ++ render b ++ [60, 47] ++ z ++ [62] ++ render r

/-- Bytes of text: no NUL, no angle bracket. -/
def TextBytes (t : List Nat) : Prop := ∀ c ∈ t, c ≠ 0 ∧ c ≠ 60 ∧ c ≠ 62

/-- The first, last byte that is not white space. -/
def firstByte (t : List Nat) : Option Nat := t.find? (fun c => !blank c)
def lastByte (t : List Nat) : Option Nat := t.reverse.find? (fun c => !blank c)

/-- The inside of a tag: some text whose first and last bytes are not the marks of a
closing or an empty tag. -/
def TagText (a : List Nat) : Prop :=
  TextBytes a ∧ (∃ c, firstByte a = some c ∧ c ≠ 47) ∧ (∃ c, lastByte a = some c ∧ c ≠ 47 ∧ c ≠ 63)

/-- The inside of an empty tag. -/
def LeafText (a : List Nat) : Prop := TextBytes a ∧ ∃ c, firstByte a = some c ∧ c ≠ 47

/-- The name in a closing tag. -/
def CloseText (z : List Nat) : Prop := TextBytes z ∧ ∃ c, lastByte z = some c ∧ c ≠ 47 ∧ c ≠ 63

def WellFormed : Content → Prop
  | .nil => True
  | .text t r => TextBytes t ∧ WellFormed r
  | .leaf a r => LeafText a ∧ WellFormed r
  | .node a b z r => TagText a ∧ WellFormed b ∧ CloseText z ∧ WellFormed r

def White (w : List Nat) : Prop := ∀ c ∈ w, blank c = true

/-- A document: white space, the prolog `<?p?>`, white space, one element. -/
inductive Document : List Nat → Prop
  | empty (w p v a : List Nat) : White w → TextBytes p → White v → LeafText a →
      Document (w ++ [60, 63] ++ p ++ [63, 62] ++ v ++ render (.leaf a .nil))
  | full (w p v a : List Nat) (b : Content) (z : List Nat) : White w → TextBytes p → White v →
      TagText a → WellFormed b → CloseText z →
      Document (w ++ [60, 63] ++ p ++ [63, 62] ++ v ++ render (.node a b z .nil))

end Verif.Spec.XmlDoc
