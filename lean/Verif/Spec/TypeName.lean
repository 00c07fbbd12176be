/-
What a cleaned-up type name is.
-/
namespace Verif.Spec.TypeName

/-- Words of a declaration that say nothing about which type it is. -/
def qualifiers : List (List Nat) :=
  ["enum", "union", "struct", "restrict", "__restrict", "__restrict__", "const", "__const",
   "__const__", "volatile", "__volatile", "__volatile__"].map (fun s => s.toList.map Char.toNat)

/-- White space. -/
def space (c : Nat) : Bool := c == 32 || c == 9 || c == 10 || c == 11 || c == 12 || c == 13

/-- Bytes that separate the words of a declaration: blank, tab and `*`. -/
def separator (c : Nat) : Bool := c == 32 || c == 9 || c == 42

/-- The word `w` stands at position `a` of `s` as a whole word: its bytes are there, and
on both sides there is a separator or the end of the text. -/
def standsAt (s w : List Nat) (a : Nat) : Bool :=
  ((s.drop a).take w.length == w) &&
  (a == 0 || (match s[a - 1]? with | some c => separator c | none => false)) &&
  (match s[a + w.length]? with | some c => separator c | none => true)

/-- Position `i` belongs to a whole word that is a qualifier. -/
def inQualifier (s : List Nat) (i : Nat) : Bool :=
  qualifiers.any (fun w => (List.range s.length).any (fun a =>
    decide (a ≤ i) && decide (i < a + w.length) && standsAt s w a))

/-- The text with every qualifier overwritten by blanks. -/
def blanked (s : List Nat) : List Nat :=
  s.mapIdx (fun i c => if inQualifier s i then 32 else c)

/-- The words of a text: its maximal runs without white space. -/
def words (s : List Nat) : List (List Nat) :=
  match s with
  | [] => []
  | c :: s =>
    if space c then words s
    else (c :: s.takeWhile (fun c => !space c)) :: words (s.dropWhile (fun c => !space c))
termination_by s.length
decreasing_by
  · simp
  · have := (List.dropWhile_sublist (l := s) (fun c => !space c)).length_le
    simp only [List.length_cons]; omega

/-- Words separated by single blanks. -/
def joinWords (ws : List (List Nat)) : List Nat := [32].intercalate ws

end Verif.Spec.TypeName
