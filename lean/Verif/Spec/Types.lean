import Verif.Model.Types

/-
What the registry of types should be, in terms of lists of descriptors.
-/
namespace Verif.Spec.Types
open Verif.Model.Types

/-- The descriptors found by following `next` from `p` are `xs`, in this order, and the
list ends. -/
def Linked (h : Heap) : Option Nat → List Nat → Prop
  | p, [] => p = none
  | p, x :: xs => p = some x ∧ ∃ d, h[x]? = some d ∧ Linked h d.next xs

/-- Producer of a descriptor (unknown descriptors have none below `MR_TDP_LAST`). -/
def producer (h : Heap) (t : Nat) : Nat :=
  match h[t]? with
  | some d => d.producer
  | none => 4

def structKw : List Nat := "struct ".toList.map Char.toNat
def unionKw : List Nat := "union ".toList.map Char.toNat
def enumKw : List Nat := "enum ".toList.map Char.toNat

/-- `n` is a type name without a leading keyword. -/
def Plain (n : List Nat) : Prop := ¬ structKw <+: n ∧ ¬ unionKw <+: n ∧ ¬ enumKw <+: n

/-- The text `s` names the type `n`: it is `n`, or `n` after one of the keywords. -/
def Names (s n : List Nat) : Prop :=
  Plain n ∧ (s = n ∨ s = structKw ++ n ∨ s = unionKw ++ n ∨ s = enumKw ++ n)

/-- Descriptor `t` of the heap was declared for the type `n`. -/
def DeclaredFor (h : Heap) (t : Nat) (n : List Nat) : Prop :=
  ∃ d, h[t]? = some d ∧ Names d.name n

/-- Descriptor ready for registration: its `next` is NULL and its type was detected. -/
def Fresh (h : Heap) (t : Nat) : Prop :=
  ∃ d, h[t]? = some d ∧ d.next = none ∧ d.typeNone = false

end Verif.Spec.Types
