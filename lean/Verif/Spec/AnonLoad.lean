import Verif.Model.AnonLoad
/-!
# Which field a part of a C initializer is for

`.name = value` is for the field with this name, a value without a name for the field after the previous one (the first field if it is
the first value).  An anonymous union is written as `.name = "", { … }`: an empty text, followed by a value without a name that is for the
union.  Nothing but the types of fields, nodes and results is taken from the model.
-/
namespace Verif.Spec.AnonLoad
open Verif.Model.AnonLoad

/-- field number `k` is the one for a value after field `cur`: by its name, or by its place -/
def For (fs : List Field) (cur : Option Nat) (n : Node) (k : Nat) : Prop :=
  (∃ f, fs[k]? = some f ∧ n.name = some f.name) ∨
  (n.name = none ∧ k < fs.length ∧ ((cur = none ∧ k = 0) ∨ ∃ j, cur = some j ∧ k = j + 1))

/-- the empty text of `"", { … }`: it is for an anonymous union and a value without a name follows -/
def Announces (fs : List Field) (k : Nat) (n : Node) (rest : List Node) : Prop :=
  (∃ f, fs[k]? = some f ∧ f.anon = true) ∧ n.kids = false ∧ n.emptyText = true ∧ ∃ m r, rest = m :: r ∧ m.name = none

/-- Values `{ … }` (with or without anything between the braces) are no texts.  In the form `"", "", { … }` it is not clear what the
second text is for; the writer never produces it. -/
def Braces (n : Node) : Prop := n.emptyText = false

/-- the rules of initializers: after field `cur` the values go where `ds` says -/
inductive Init (fs : List Field) : Option Nat → List Node → List Dest → Prop
  | done (cur) : Init fs cur [] []
  | value (cur n rest k ds) : For fs cur n k → ¬ Announces fs k n rest → Init fs (some k) rest ds →
      Init fs cur (n :: rest) (.into k :: ds)
  | union (cur n m rest k f ds) : For fs cur n k → fs[k]? = some f → f.anon = true → n.kids = false → n.emptyText = true →
      m.name = none → Braces m → Init fs (some k) rest ds →
      Init fs cur (n :: m :: rest) (.announces k :: .into k :: ds)

/-- if the structure has anonymous unions: an empty text is not followed by another one without a name.  (For structures without them
this says nothing.) -/
def Clear (fs : List Field) (nodes : List Node) : Prop :=
  (∃ f ∈ fs, f.anon = true) → ∀ i n m, nodes[i]? = some n → nodes[i + 1]? = some m → n.emptyText = true → m.name = none → Braces m

/-- the names of the fields differ -/
def Distinct (fs : List Field) : Prop := ∀ (i j : Nat) (f g : Field), fs[i]? = some f → fs[j]? = some g → f.name = g.name → i = j

/-- how a field is written as part of a C initializer (src/cinit_save.c:128–134 for unions): `v` tells whether its value has parts and whether it is an empty text -/
def written (f : Field) (v : Bool × Bool) : List Node :=
  if f.anon then [⟨some f.name, false, true⟩, ⟨none, v.1, false⟩] else [⟨some f.name, v.1, v.2⟩]

/-- where these nodes should go -/
def home (k : Nat) (f : Field) : List Dest := if f.anon then [.announces k, .into k] else [.into k]

end Verif.Spec.AnonLoad
