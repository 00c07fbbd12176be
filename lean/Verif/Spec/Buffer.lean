/-! # Append histories -/
namespace Verif.Spec

/-- Bytes a buffer must hold after a history of appends, each of which succeeded (`true`) or not. -/
def appended : List (List Nat × Bool) → List Nat
  | [] => []
  | (bytes, ok) :: h => (if ok then bytes else []) ++ appended h

end Verif.Spec
