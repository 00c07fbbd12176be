import Verif.Model.Xdr
/-!
# What it means to read back an encoding
-/
namespace Verif.Spec
open Verif.Model.Xdr

/-- `d` reads `out` anywhere in a document, gives `a` and stops right behind; any document that ends
inside `out` is refused. -/
structure Decodes {α : Type} (d : List Nat → Nat → Dec α) (out : List Nat) (a : α) : Prop where
  reads : ∀ pre rest, pre.length + out.length + rest.length < 2 ^ 32 →
    d (pre ++ out ++ rest) pre.length = some (some (a, pre.length + out.length))
  refuses : ∀ pre t, t < out.length → pre.length + t < 2 ^ 32 → d (pre ++ out.take t) pre.length = some none

/-- `d` never accesses memory outside and never moves behind the end -/
def Safe {α : Type} (d : List Nat → Nat → Dec α) (buf : List Nat) : Prop :=
  ∀ pos, pos ≤ buf.length → ∃ r, d buf pos = some r ∧ ∀ a pos', r = some (a, pos') → pos' ≤ buf.length ∧ pos ≤ pos'

/-- the shape of a sensible scalar: the parts of a complex number do not overlap -/
def scOk : Sc → Prop
  | .complex p n => scOk p ∧ p.size ≤ n
  | _ => True

/-- the bytes of memory that hold the number -/
def covered : Sc → Nat → Bool
  | .complex p n, i => covered p i || (decide (n ≤ i) && covered p (i - n))
  | k, i => decide (i < k.size)

/-- big-endian representation of `v` in `n` bytes -/
def bigEndian : Nat → Nat → List Nat
  | 0, _ => []
  | n + 1, v => bigEndian n (v / 256) ++ [v % 256]

/-- the unsigned number stored in memory, low byte first -/
def littleEndian : List Nat → Nat
  | [] => 0
  | b :: bs => b + 256 * littleEndian bs

/-- the same bytes as a two's complement number -/
def signedLittleEndian (bs : List Nat) : Int :=
  if littleEndian bs ≥ 2 ^ (8 * bs.length - 1) then (littleEndian bs : Int) - 2 ^ (8 * bs.length) else littleEndian bs

end Verif.Spec
