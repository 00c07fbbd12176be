/-
What a line and a column of a position in a text are.
-/
namespace Verif.Spec.Position

/-- Line number of the position after the first `k` bytes: one plus the number of
newlines before it. -/
def line (text : List Nat) (k : Nat) : Nat := 1 + (text.take k).count 10

/-- Column: the number of bytes between the last newline before the position (or the
start of the text) and the position. -/
def column (text : List Nat) (k : Nat) : Nat :=
  ((text.take k).reverse.takeWhile (fun c => c != 10)).length

/-- Where token number `i` starts, for the given token lengths. -/
def start (lens : List Nat) (i : Nat) : Nat := (lens.take i).sum

end Verif.Spec.Position
