import Verif.Model.SizeField
/-!
# What a size field means
-/
namespace Verif.Spec.SizeField
open Verif.Model.SizeField

/-- the fields of a structure are ordered by their offsets -/
def Sorted (fields : List Fd) : Prop :=
  ∀ (i j : Nat) (f g : Fd), i < j → fields[i]? = some f → fields[j]? = some g → f.offset ≤ g.offset

/-- `f` is the last field at the offset -/
def LastAt (fields : List Fd) (offset : Nat) (f : Fd) : Prop :=
  ∃ i : Nat, fields[i]? = some f ∧ f.offset = offset ∧
    ∀ (j : Nat) (g : Fd), i < j → fields[j]? = some g → g.offset ≠ offset

/-- `p` is the nearest structure that encloses the node `i` -/
inductive Encloses (ra : List Node) : Nat → Nat → Prop
  | here {i p : Nat} {n m : Node} : ra[i]? = some n → n.parent = some p → ra[p]? = some m → m.ty = .struct → Encloses ra i p
  | up {i q p : Nat} {n m : Node} : ra[i]? = some n → n.parent = some q → ra[q]? = some m → m.ty ≠ .struct →
      Encloses ra q p → Encloses ra i p

/-- `f` is the field that the node names as its size -/
def Names (n : Node) (fields : List Fd) (f : Fd) : Prop :=
  (n.resType = some "offset" ∧ LastAt fields n.resOffset f) ∨
  (n.resType = some "string" ∧ f ∈ fields ∧ f.name = n.resString)

/-- a graph: parents come before children, fields are ordered and have distinct names, and a field that
exists is known -/
structure Graph (known : String → Bool) (ra : List Node) : Prop where
  small : ∀ (i : Nat) (n : Node) (fs : List Fd), ra[i]? = some n → n.fields = some fs → fs.length < 2 ^ 31
  parent : ∀ (i p : Nat) (n : Node), ra[i]? = some n → n.parent = some p → p < i
  sorted : ∀ (i : Nat) (n : Node) (fs : List Fd), ra[i]? = some n → n.fields = some fs → Sorted fs
  distinct : ∀ (i : Nat) (n : Node) (fs : List Fd), ra[i]? = some n → n.fields = some fs →
    ∀ f ∈ fs, ∀ g ∈ fs, f.name = g.name → f = g
  exists_known : ∀ (i : Nat) (n : Node) (fs : List Fd), ra[i]? = some n → n.fields = some fs →
    ∀ f ∈ fs, known f.name = true
  named : known "" = false

/-- the size field of the node `idx` is `f`, and it lies at the address `a` -/
def SizeField (ra : List Node) (idx : Nat) (f : Fd) (a : Nat) : Prop :=
  ∃ n p m fields, ra[idx]? = some n ∧ Encloses ra idx p ∧ ra[p]? = some m ∧ m.fields = some fields ∧
    Names n fields f ∧ a = m.data + f.offset

/-- an integer type has the value `v` in its range -/
def InRange (signed : Bool) (w : Nat) (v : Int) : Prop :=
  if signed then -(2 ^ (8 * w - 1) : Nat) ≤ v ∧ v < (2 ^ (8 * w - 1) : Nat)
  else 0 ≤ v ∧ v < (2 ^ (8 * w) : Nat)

/-- the integer at the address `a` has the value `v`: two's complement, little endian -/
def Holds (M : Mem) (signed : Bool) (w a : Nat) (v : Int) : Prop :=
  InRange signed w v ∧ ∀ i < w, (M (a + i) : Int) = v / (256 ^ i : Nat) % 256

/-- the field is an integer of this type, an enumeration based on it, or a pointer to one of them -/
def IntField (f : Fd) (signed : Bool) (w : Nat) : Prop :=
  0 < w ∧ w ≤ 16 ∧
  (f.ty = .int signed w ∨
   ((f.ty = .void ∨ f.ty = .pointer) ∧ f.aux = .int signed w) ∨
   (f.eff = some (.int signed w) ∧
     (f.ty = .enum ∨ ((f.ty = .void ∨ f.ty = .pointer) ∧ (f.aux = .enum ∨ f.aux = .void)))))

/-- the integer of the size field at `a` lies at `b`: at `a` itself, or where the pointer at `a` points -/
def Located (M : Mem) (f : Fd) (a b : Nat) : Prop :=
  b ≠ 0 ∧ if f.ty = .pointer then Holds M false 8 a b else b = a

/-- two ranges of addresses have nothing in common -/
def Apart (a n b m : Nat) : Prop := a + n ≤ b ∨ b + m ≤ a

/-- the `n` bytes at `c` belong to Metaresc: they overlap neither the integer of `w` bytes at `b` nor, when
the size field is a pointer, the field itself at `a` -/
def Own (f : Fd) (a b w c n : Nat) : Prop :=
  c ≠ 0 ∧ Apart c n b w ∧ (f.ty = .pointer → Apart c n a 8)

end Verif.Spec.SizeField
