import Verif.Spec.Load
import Verif.Spec.XdrGraph
/-!
# What a document says about the object that is filled from it
-/
namespace Verif.Spec.LoadSays
open Verif.Model Verif.Model.Ptrs Verif.Model.Save Verif.Model.Copy Verif.Model.Load Verif.Spec.Save Verif.Spec.Load
open Verif.Spec.XdrGraph (bitAt)
open Verif.Model.XdrGraph (tdType tdAt)

/-- the number of bytes of a number -/
def numberSize (f : Fd) : Nat := if f.ty = .enum then Nat.min f.size 16 else typeSize f.ty

/-- The bytes that the conversion of a value gives; nothing is stored for a string that is no character, and the bytes of an
enum beyond its value stay zero. -/
def converted (E : Env) (f : Fd) (i : Nat) : Option (Nat → UInt8) :=
  match E.conv f i with
  | .fail => none
  | .keep => some fun _ => 0
  | .store b => some fun k => if k < numberSize f then b k else 0

/-- The bytes of an object of type `f` that consists of a value only: a number, a character, a function, or an array of
characters, in which the text is followed by zeros. -/
def valueBytes (E : Env) (f : Fd) (i : Nat) (d : Doc) : Option (Nat → UInt8) :=
  match f.ty with
  | .charArray => match d.val with
    | .text t => some fun k => UInt8.ofNat (t.getD k 0)
    | _ => none
  | .func | .funcType => if d.null then some fun _ => 0 else converted E f i
  | _ => converted E f i

/-- types that consist of a value only -/
def valueType : MrType → Bool
  | .none | .void | .pointer | .string | .struct | .array | .bitfield | .union | .anonUnion | .namedAnonUnion | .endAnonUnion | .last => false
  | _ => true

/-- the value of a bit field: bit `q` -/
def valueBit (b : Nat → UInt8) (q : Nat) : Bool := (b (q / 8)).toNat.testBit (q % 8)

/-- the type of the elements of an array with one dimension -/
def element (tds : List Td) (f : Fd) : Fd :=
  { f with nonPersistent := true, unnamed := true, offset := 0, size := f.size / f.dims.headD 0, ty := f.aux, aux := tdType tds f.td }

/-- the type of what a pointer leads to -/
def target (tds : List Td) (f : Fd) : Fd :=
  { nonPersistent := true, unnamed := true, ty := f.aux, aux := tdType tds f.td, td := f.td, size := elementSize tds f.aux f.td }

/-- The node that has the number `q`: the last one, if there are several. -/
def Named (ra : List Pd) (q k : Nat) : Prop := q ≠ 0 ∧ k ≠ 0 ∧ (∃ pk : Pd, ra[k]? = some pk ∧ pk.idx = q) ∧ ∀ (j : Nat) (pj : Pd), ra[j]? = some pj → pj.idx = q → j ≤ k

/-- the document gives a number instead of an object or a text -/
def Numbered (E : Env) (i : Nat) (v : BitVec 128) : Prop := ∃ d, E.data[i]? = some d ∧ d.null = false ∧ d.val = .int v

/-- the bits of an object: from the first to before the last, counted from its first byte -/
def bitsOf (f : Fd) : Nat × Nat :=
  match f.ty with
  | .none | .void => (0, 0)
  | .bitfield => (f.shift, f.shift + f.width)
  | .pointer => (0, 64)
  | _ => (0, 8 * f.size)

/-- The node `i` of the document describes an object of type `type i` at `place i`, which is 0 for nodes that describe nothing:
the first one the object of type `f` at `dst`, the others the parts of the objects of their parents, or what these lead to. -/
structure Shape (E : Env) (dst : Nat) (f : Fd) (place : Nat → Nat) (type : Nat → Fd) : Prop where
  /-- the first node describes the object itself -/
  top : place 1 = dst ∧ type 1 = f
  /-- there is nothing but the nodes of the document -/
  within : ∀ i, place i ≠ 0 → i ≠ 0 ∧ i < E.ra.length
  /-- a type that is mentioned in the document is the type of the object -/
  typed : ∀ (i : Nat) (d : Doc) (t : Option Nat), place i ≠ 0 → E.data[i]? = some d → d.typed = some t → (type i).td = t
  /-- The children of a structure describe the fields with their names, or one field after another if they have no names. -/
  members : ∀ (i : Nat) (pd : Pd) (l : List Nat), place i ≠ 0 → (type i).ty = .struct → E.ra[i]? = some pd → Siblings E.ra pd.firstChild l →
    ∃ t, tdAt E.tds (type i).td = some t ∧ ∀ (q c : Nat), l[q]? = some c → place c ≠ 0 ∧ place c = place i + (type c).offset ∧
      ∃ k d, t.fields[k]? = some (type c) ∧ E.data[c]? = some d ∧ (∀ n, d.name = some n → (type c).name = n) ∧ (d.name = none → k = q)
  /-- The children of an array describe its first elements. -/
  elements : ∀ (i : Nat) (pd : Pd) (l : List Nat), place i ≠ 0 → (type i).ty = .array → E.ra[i]? = some pd → Siblings E.ra pd.firstChild l →
    l.length ≤ (type i).dims.headD 0 ∧ ∀ (q c : Nat), l[q]? = some c → place c ≠ 0 ∧ place c = place i + q * (element E.tds (type i)).size ∧ type c = element E.tds (type i)
  /-- The children of a pointer that is no reference describe what it leads to. -/
  targets : ∀ (i : Nat) (d : Doc) (pd : Pd) (l : List Nat), place i ≠ 0 → (type i).ty = .pointer → E.data[i]? = some d → E.ra[i]? = some pd → Siblings E.ra pd.firstChild l →
    d.null = false → (∀ v, d.val ≠ .int v) → ∀ (q c : Nat), l[q]? = some c → place c ≠ 0 ∧ type c = target E.tds (type i)

/-- The object of type `f` at `dst` is what the document says, where `m` is the memory and `new` are the blocks that were allocated. -/
structure Says (E : Env) (dst : Nat) (f : Fd) (m : Bytes) (new : Blocks) (place : Nat → Nat) (type : Nat → Fd) : Prop extends Shape E dst f place type where
  /-- values -/
  value : ∀ (i : Nat) (d : Doc), place i ≠ 0 → valueType (type i).ty = true → E.data[i]? = some d →
    ∃ b, valueBytes E (type i) i d = some b ∧ ∀ k, k < (type i).size → m (place i + k) = b k
  /-- bit fields hold the lowest bits of their values -/
  bits : ∀ (i : Nat), place i ≠ 0 → (type i).ty = .bitfield → E.conv (type i) i ≠ .fail ∧
    ∀ b, E.conv (type i) i = .store b → ∀ q, q < (type i).width → bitAt m (8 * place i + ((type i).shift + q)) = valueBit b q
  /-- strings that are no references: NULL, or the text in a block of its own -/
  text : ∀ (i : Nat) (d : Doc), place i ≠ 0 → (type i).ty = .string → E.data[i]? = some d → (d.null = true → word m (place i) = 0) ∧
    (d.null = false → (∃ v, d.val = .int v) ∨ ∃ t, d.val = .text t ∧ (word m (place i), t.length + 1) ∈ new ∧
      ∀ k, k ≤ t.length → m (word m (place i) + k) = UInt8.ofNat (t.getD k 0))
  /-- Pointers that are no references: NULL if the document says so or there are no children, which otherwise describe the
  objects, one after another, in a block of its own. -/
  pointer : ∀ (i : Nat) (d : Doc) (pd : Pd) (l : List Nat), place i ≠ 0 → (type i).ty = .pointer → E.data[i]? = some d → E.ra[i]? = some pd → Siblings E.ra pd.firstChild l →
    (d.null = true → word m (place i) = 0) ∧
    (d.null = false → (∀ v, d.val ≠ .int v) → (l = [] → word m (place i) = 0) ∧
      (l ≠ [] → (word m (place i), l.length * (target E.tds (type i)).size) ∈ new ∧ ∀ (q c : Nat), l[q]? = some c → place c ≠ 0 ∧
        place c = word m (place i) + q * (target E.tds (type i)).size ∧ type c = target E.tds (type i)))
  /-- A number that is not negative leads to the object of the node with this number; NULL, if there is no such object. -/
  refers : ∀ (i : Nat) (v : BitVec 128), place i ≠ 0 → (type i).ty = .pointer ∨ (type i).ty = .string → Numbered E i v → 0 ≤ v.toInt →
    ((∀ k, ¬ Named E.ra (v.toNat % 2 ^ 32) k) → word m (place i) = 0) ∧ ∀ k, Named E.ra (v.toNat % 2 ^ 32) k → word m (place i) = place k % 2 ^ 64
  /-- A negative number leads where the pointer or the string of the node with the opposite number leads. -/
  shares : ∀ (i : Nat) (v : BitVec 128), place i ≠ 0 → (type i).ty = .pointer ∨ (type i).ty = .string → Numbered E i v → v.toInt < 0 →
    ((∀ k, ¬ Named E.ra ((-v).toNat % 2 ^ 32) k) → word m (place i) = 0) ∧ ∀ k, Named E.ra ((-v).toNat % 2 ^ 32) k → (place k = 0 → word m (place i) = 0) ∧
      (place k ≠ 0 → (type k).ty = .pointer ∨ (type k).ty = .string → (∀ w, ¬ Numbered E k w) → word m (place i) = word m (place k))
  /-- Every new block is not empty and belongs to a pointer or a string that is no reference, and only to one. -/
  held : ∀ b ∈ new, 0 < b.2 ∧ ∃ i, place i ≠ 0 ∧ ((type i).ty = .pointer ∨ (type i).ty = .string) ∧ (∀ v, ¬ Numbered E i v) ∧ word m (place i) = b.1
  single : ∀ (i j : Nat), i ≠ j → place i ≠ 0 → place j ≠ 0 → (type i).ty = .pointer ∨ (type i).ty = .string → (type j).ty = .pointer ∨ (type j).ty = .string →
    (∀ v, ¬ Numbered E i v) → (∀ v, ¬ Numbered E j v) → word m (place i) ≠ 0 → word m (place i) ≠ word m (place j)
  /-- Everything else is zero, in the object and in what pointers lead to. -/
  rest : ∀ p, (dst ≤ p / 8 ∧ p / 8 < dst + f.size) ∨ (∃ (i n : Nat), place i ≠ 0 ∧ (type i).ty = .pointer ∧ (∀ v, ¬ Numbered E i v) ∧ (word m (place i), n) ∈ new ∧
      word m (place i) ≤ p / 8 ∧ p / 8 < word m (place i) + n) →
    bitAt m p = false ∨ ∃ i, place i ≠ 0 ∧ (type i).ty ≠ .struct ∧ (type i).ty ≠ .array ∧ 8 * place i + (bitsOf (type i)).1 ≤ p ∧ p < 8 * place i + (bitsOf (type i)).2

end Verif.Spec.LoadSays
