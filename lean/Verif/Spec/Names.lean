import Verif.Model.Names
/-!
# The order of names and of fields
-/
namespace Verif.Spec.Names
open Verif.Model.Names (Str Hashed Entry Op Field)

/-- texts in the order of a dictionary, NULL first -/
def TextBefore : Str → Str → Prop
  | none, some _ => True
  | some a, some b => a < b
  | _, none => False

/-- names are ordered by their hash values first -/
def Before (H : Str → Nat) (a b : Str) : Prop := H a < H b ∨ (H a = H b ∧ TextBefore a b)

/-- the hash value stored with a text is the right one, or none is stored -/
def Cached (H : Str → Nat) (x : Hashed) : Prop := x.hash = 0 ∨ x.hash = H x.str

def Good (H : Str → Nat) (es : List Entry) : Prop := ∀ e ∈ es, Cached H e.name ∧ Cached H e.type

/-- `r` is a result of a comparison that says: less, equal, greater -/
def Says (r : Int) (less equal greater : Prop) : Prop := (r < 0 ↔ less) ∧ (r = 0 ↔ equal) ∧ (r > 0 ↔ greater)

/-- the texts of an entry: its name, the name of its type -/
def texts (e : Entry) : Str × Str := (e.name.str, e.type.str)

/-- what the call `op` should give if the entries have the texts `ts` -/
def Right (H : Str → Nat) (ts : List (Str × Str)) (r : Int) : Op → Prop
  | .hashName i => ∃ t, ts[i]? = some t ∧ r = H t.1
  | .hashBoth i => ∃ t, ts[i]? = some t ∧ r = ((H t.1 + H t.2) % 2 ^ 32 : Nat)
  | .cmpName i j => ∃ s t, ts[i]? = some s ∧ ts[j]? = some t ∧ Says r (Before H s.1 t.1) (s.1 = t.1) (Before H t.1 s.1)
  | .cmpBoth i j => ∃ s t, ts[i]? = some s ∧ ts[j]? = some t ∧
      Says r (Before H s.1 t.1 ∨ (s.1 = t.1 ∧ Before H s.2 t.2)) (s = t) (Before H t.1 s.1 ∨ (t.1 = s.1 ∧ Before H t.2 s.2))

/-- the numbers of the entries the call is about -/
def used : Op → List Nat
  | .hashName i | .hashBoth i => [i]
  | .cmpName i j | .cmpBoth i j => [i, j]

/-- pairs in the order of their first parts, then of their second parts -/
def PairBefore {α : Type} [LT α] (x y : α × α) : Prop := x.1 < y.1 ∨ (x.1 = y.1 ∧ x.2 < y.2)

/-- A field of a structure whose bytes are divided as `bitBytes` says: bit-fields are at the offsets where it is true and have a size,
other fields of a size are where it is false, fields of size 0 can be anywhere. -/
def Fits (bitBytes : Nat → Bool) (f : Field) : Prop :=
  if f.bits then bitBytes f.offset = true ∧ f.size > 0 else f.size > 0 → bitBytes f.offset = false

end Verif.Spec.Names
