import Verif.Spec.Ptrs
/-!
# Nodes numbered in document order
-/
namespace Verif.Spec.Ptrs

/-- the same forest with its nodes numbered `n`, `n + 1`, ... in document order -/
def number : Nat → Forest → Forest
  | _, .nil => .nil
  | n, .cons _ k s => .cons n (number (n + 1) k) (number (n + 1 + k.nodes.length) s)

end Verif.Spec.Ptrs
