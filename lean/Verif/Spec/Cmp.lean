import Verif.Model.Cmp
/-!
# The order of saved graphs
-/
namespace Verif.Spec.Cmp
open Verif.Model Verif.Model.Ptrs Verif.Model.Save Verif.Model.Copy Verif.Model.Cmp

/-- a part that is not a number -/
def hasNan (re im : Option Int) : Prop := re = none ∨ im = none

/-- one value is before another: numbers by size, what is not a number first; NULL before all texts, texts as in a
dictionary; complex numbers by the real part, then by the imaginary part, and not at all if both have a part that
is not a number -/
inductive Less : Val → Val → Prop
  | null (t : List Nat) : Less (.str none) (.str (some t))
  | text {t u : List Nat} : t < u → Less (.str (some t)) (.str (some u))
  | int {a b : Int} : a < b → Less (.int a) (.int b)
  | nan (b : Int) : Less (.flt none) (.flt (some b))
  | flt {a b : Int} : a < b → Less (.flt (some a)) (.flt (some b))
  | re {a b c d : Option Int} : ¬ (hasNan a b ∧ hasNan c d) → Less (.flt a) (.flt c) → Less (.cpx a b) (.cpx c d)
  | im {a b d : Option Int} : ¬ (hasNan a b ∧ hasNan a d) → Less (.flt b) (.flt d) → Less (.cpx a b) (.cpx a d)

/-- the same value; complex numbers that are not numbers are all alike -/
def Alike (v w : Val) : Prop := v = w ∨ ∃ a b c d, v = .cpx a b ∧ w = .cpx c d ∧ hasNan a b ∧ hasNan c d

/-- Two nodes agree: both are not part of the tree, or they have the same number, the same descriptor, type, flags,
size and links, and the same value. -/
def Agree (fdAt : Option Fd → Nat) (tds : List Td) (m : Bytes) (fuel : Nat) (a b : Pd × Info) : Prop :=
  a.1.idx = b.1.idx ∧ (a.1.idx ≠ 0 → header fdAt a.1 a.2 = header fdAt b.1 b.2 ∧
    ∃ v w, value tds m fuel a.1 a.2 = some v ∧ value tds m fuel b.1 b.2 = some w ∧ Alike v w)

/-- the descriptive members of two nodes are the same -/
def SameMembers (a b : Pd × Info) : Prop :=
  a.2.fd = b.2.fd ∧ a.1.ty = b.1.ty ∧ a.2.aux = b.2.aux ∧
  a.2.null = b.2.null ∧ a.1.ref = b.1.ref ∧ a.1.refd = b.1.refd ∧ a.1.cref = b.1.cref ∧ a.2.opq = b.2.opq ∧ a.2.unnamed = b.2.unnamed ∧
  a.2.size = b.2.size ∧ a.1.parent = b.1.parent ∧ a.1.next = b.1.next ∧ a.1.firstChild = b.1.firstChild

/-- One node is before another: by number, then by the descriptive members, then by value. -/
def Before (fdAt : Option Fd → Nat) (tds : List Td) (m : Bytes) (fuel : Nat) (a b : Pd × Info) : Prop :=
  a.1.idx < b.1.idx ∨
  (a.1.idx = b.1.idx ∧ a.1.idx ≠ 0 ∧
    (header fdAt a.1 a.2 < header fdAt b.1 b.2 ∨
     (header fdAt a.1 a.2 = header fdAt b.1 b.2 ∧ ∃ v w, value tds m fuel a.1 a.2 = some v ∧ value tds m fuel b.1 b.2 = some w ∧ Less v w)))

/-- no complex number with a part that is not a number -/
def NoComplexNan (tds : List Td) (m : Bytes) (fuel : Nat) (s : St) : Prop :=
  ∀ (p : Pd) (x : Info) (a b : Option Int), (p, x) ∈ nodes s → value tds m fuel p x = some (.cpx a b) → ¬ hasNan a b

/-- a floating point number with `e` bits of exponent and `f` bits of fraction that is not a negative zero -/
def plainFloat (e f v : Nat) : Prop := v / 2 ^ (e + f) % 2 = 1 → v % 2 ^ (e + f) ≠ 0

/-- the same for the extended format; the leading bit of the significand is only set if there is an exponent -/
def plainExtended (e f v : Nat) : Prop :=
  (v / 2 ^ (e + f + 1) % 2 = 1 → v % 2 ^ (e + f + 1) ≠ 0) ∧ (v / 2 ^ (f + 1) % 2 ^ e = 0 → v % 2 ^ (f + 1) < 2 ^ f)

/-- the floating point numbers in a node have only one encoding -/
def Plain (m : Bytes) (p : Pd) (x : Info) : Prop :=
  match p.ty with
  | .float => plainFloat 8 23 (number m x.addr 4)
  | .double => plainFloat 11 52 (number m x.addr 8)
  | .longDouble => plainExtended 15 63 (number m x.addr 10)
  | .complexFloat => plainFloat 8 23 (number m x.addr 4) ∧ plainFloat 8 23 (number m (x.addr + 4) 4)
  | .complexDouble => plainFloat 11 52 (number m x.addr 8) ∧ plainFloat 11 52 (number m (x.addr + 8) 8)
  | .complexLongDouble => plainExtended 15 63 (number m x.addr 10) ∧ plainExtended 15 63 (number m (x.addr + 16) 10)
  | _ => True

/-- the type noted in the node of an enum has the size of the integers of this enum -/
def EnumSize (tds : List Td) (p : Pd) (x : Info) : Prop :=
  p.ty = .enum → intType x.aux = true ∧ typeSize x.aux = typeSize (effectiveType tds (tdOf x.fd))

end Verif.Spec.Cmp
