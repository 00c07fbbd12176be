import Verif.Spec.Order
/-!
# What an indexed collection is

Keys are machine words (`mr_ptr_t`).  The reference collection is a list of pairwise different keys;
"different" is decided by the user's comparator.
-/
namespace Verif.Spec

/-- A C comparator that orders the keys: swapping the arguments swaps the sign, and `≤ 0` is
transitive. -/
structure Comparator {α : Type} (cmp : α → α → Int) : Prop where
  anti : ∀ x y, cmp x y > 0 ↔ cmp y x < 0
  trans : ∀ x y z, cmp x y ≤ 0 → cmp y z ≤ 0 → cmp x z ≤ 0

/-- The stored key equal to `k`, if any. -/
def lookup {α : Type} (cmp : α → α → Int) (s : List α) (k : α) : Option α :=
  s.find? fun r => decide (cmp k r = 0)

/-- Operations of the collection API and what they return. -/
inductive Op (α : Type) where
  | add (k : α)
  | del (k : α)
  | find (k : α)

inductive Res (α : Type) where
  /-- result of add/find: the key behind the returned pointer, `none` for NULL -/
  | key (k : Option α)
  /-- result of del: success or failure -/
  | status (ok : Bool)
deriving DecidableEq

/-- The reference collection. -/
def refStep {α : Type} (cmp : α → α → Int) (s : List α) : Op α → List α × Res α
  | .find k => (s, .key (lookup cmp s k))
  | .add k =>
    match lookup cmp s k with
    | some r => (s, .key (some r))
    | none => (s ++ [k], .key (some k))
  | .del k =>
    match lookup cmp s k with
    | some _ => (s.filter fun r => decide (cmp k r ≠ 0), .status true)
    | none => (s, .status false)

/-- Results of a history on the reference collection, and its final contents. -/
def refRun {α : Type} (cmp : α → α → Int) : List α → List (Op α) → List α × List (Res α)
  | s, [] => (s, [])
  | s, op :: ops =>
    let (s, r) := refStep cmp s op
    let (s, rs) := refRun cmp s ops
    (s, r :: rs)

/-- No two stored keys are equal for the comparator. -/
def Distinct {α : Type} (cmp : α → α → Int) (s : List α) : Prop :=
  s.Pairwise fun x y => cmp x y ≠ 0

/-- The reference collection loaded with the keys of an array: of equal keys the first is kept. -/
def refIndex {α : Type} (cmp : α → α → Int) (keys : List α) : List α :=
  (refRun cmp [] (keys.map Op.add)).1

/-- What a history with memory failures may return: each call does what the reference does, or is an
add/del that reports failure and changes nothing. -/
inductive Allowed {α : Type} (cmp : α → α → Int) :
    List α → List (Op α) → List (Res α) → List α → Prop
  | nil (s) : Allowed cmp s [] [] s
  | ok {s op ops rs s'} : Allowed cmp (refStep cmp s op).1 ops rs s' →
      Allowed cmp s (op :: ops) ((refStep cmp s op).2 :: rs) s'
  | addFail {s k ops rs s'} : lookup cmp s k = none → Allowed cmp s ops rs s' →
      Allowed cmp s (.add k :: ops) (.key none :: rs) s'
  | delFail {s k ops rs s'} : Allowed cmp s ops rs s' →
      Allowed cmp s (.del k :: ops) (.status false :: rs) s'

end Verif.Spec
