import Verif.Model.Message
/-!
# Messages
-/
namespace Verif.Spec.Message
open Verif.Model.Message

/-- the identifiers and formats of all messages: identifiers are distinct and at most `last` -/
structure Table (last : Nat) (enums : List (Nat × Option Text)) : Prop where
  distinct : (enums.map Prod.fst).Nodup
  small : ∀ e ∈ enums, e.1 ≤ last

/-- one call: is there a handler, the threshold, are types registered already, the result of formatting, the allocator, level
and identifier -/
structure Call where
  handler : Bool
  threshold : Nat
  types : Bool
  render : Text → Option Text
  alloc : Bool
  level : Nat
  id : Nat

/-- the calls one after the other: what they lead to -/
def run (enums : List (Nat × Option Text)) : List Call → St → Option (St × List Out)
  | [], s => some (s, [])
  | c :: cs, s => do
    let (s, o) ← message c.handler c.threshold (if c.types then some enums else none) c.render c.alloc s c.level c.id
    let (s, os) ← run enums cs s
    some (s, o :: os)

/-- the name of a level -/
def nameOf (level : Nat) : Text :=
  txt (match level with
    | 0 => "ALL" | 1 => "TRACE" | 2 => "DEBUG" | 3 => "INFO" | 4 => "WARN" | 5 => "ERROR" | 6 => "FATAL" | 7 => "OFF"
    | _ => "Unknown")

/-- the format for an identifier: the one in the enumeration -/
def Format (enums : List (Nat × Option Text)) (id : Nat) (f : Text) : Prop :=
  (id, some f) ∈ enums ∨ ((∀ g, (id, some g) ∉ enums) ∧ f = txt "Unknown MR_MESSAGE_ID.")

/-- what a call must lead to; `known`: a message was written before, with types registered, or they are registered now -/
def Expected (enums : List (Nat × Option Text)) (known : Bool) (c : Call) (o : Out) : Prop :=
  if c.handler then o = .handler c.level c.id
  else if c.level < c.threshold then o = .silent
  else ∃ f, (if known then Format enums c.id f else f = txt "Unknown MR_MESSAGE_ID.") ∧
    (match c.render f with
     | some (b :: t) => o = if c.alloc then .line (nameOf c.level) (b :: t) else .noMemory (nameOf c.level) c.id
     | _ => o = .noMemory (nameOf c.level) c.id)

/-- every call of the sequence leads to what it must; a call that writes a message while types are registered makes them known -/
def AllExpected (enums : List (Nat × Option Text)) : Bool → List Call → List Out → Prop
  | _, [], os => os = []
  | _, _ :: _, [] => False
  | known, c :: cs, o :: os =>
    Expected enums (known || c.types) c o ∧
    AllExpected enums (known || (c.types && !c.handler && decide (c.threshold ≤ c.level))) cs os

end Verif.Spec.Message
