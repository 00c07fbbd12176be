import Verif.Model.Load
import Verif.Spec.Copy
/-!
# What is known of a parsed document and of the types that are loaded
-/
namespace Verif.Spec.Load
open Verif.Model Verif.Model.Ptrs Verif.Model.Save Verif.Model.Copy Verif.Model.Load Verif.Spec.Save Verif.Spec.Copy

/-- `l` are the nodes from `i` on that are linked by `next` -/
inductive Siblings (ra : List Pd) : Nat → List Nat → Prop
  | nil : Siblings ra 0 []
  | cons {i : Nat} {pd : Pd} {l : List Nat} : i ≠ 0 → ra[i]? = some pd → Siblings ra pd.next l → Siblings ra i (i :: l)

/-- The links of the nodes are those of a tree in which a node has a smaller index than its children, as the parsers create
them.  There are no references yet, and public indices are less than the largest number of 32 bits. -/
structure Tree (ra : List Pd) : Prop where
  kids : ∀ (i : Nat) (pd : Pd), ra[i]? = some pd → ∃ l, Siblings ra pd.firstChild l ∧
    ∀ c ∈ l, i < c ∧ ∃ pc : Pd, ra[c]? = some pc ∧ pc.parent = i
  up : ∀ (c : Nat) (pc : Pd), ra[c]? = some pc → pc.parent < c ∨ c = 0 ∧ pc.parent = 0
  top : ∀ pd : Pd, ra[1]? = some pd → pd.parent = 0
  bare : ∀ pd ∈ ra, pd.ref = false ∧ pd.cref = false ∧ pd.ty = .none ∧ pd.idx + 1 < 2 ^ 32

/-- the names of the children of a node -/
def Names (data : List Doc) (l : List Nat) : List (Option (List Nat)) := l.map fun c => (data[c]?).bind Doc.name

/-- The children of a node either have no names, like the elements of an array, or they all have names, and these are
different, like the members of an object. -/
def Distinct (ra : List Pd) (data : List Doc) : Prop :=
  ∀ (i : Nat) (pd : Pd) (l : List Nat), ra[i]? = some pd → Siblings ra pd.firstChild l →
    (∀ n ∈ Names data l, n = none) ∨ ((∀ n ∈ Names data l, n ≠ none) ∧ (Names data l).Nodup)

/-- Different children of a node have different names, if they have names: no object of the document has two members
with the same name. -/
def Unrepeated (ra : List Pd) (data : List Doc) : Prop :=
  ∀ (j k : Nat) (pj pk : Pd) (x y : Doc) (n : List Nat), j ≠ k → ra[j]? = some pj → ra[k]? = some pk → pj.parent = pk.parent →
    data[j]? = some x → data[k]? = some y → x.name = some n → y.name ≠ some n

/-- bit fields have up to 128 bits; the fields of a structure have names, which are different -/
structure Fields (tds : List Td) : Prop where
  bits : ∀ (t : Nat) (d : Td) (f : Fd), tds[t]? = some d → d.ty = .struct → f ∈ d.fields → f.ty = .bitfield → f.shift < 8 ∧ 1 ≤ f.width ∧ f.width ≤ 128
  named : ∀ (t : Nat) (d : Td) (f : Fd), tds[t]? = some d → d.ty = .struct → f ∈ d.fields → f.unnamed = false ∧ f.name ≠ []
  names : ∀ (t : Nat) (d : Td), tds[t]? = some d → d.ty = .struct → (d.fields.map Fd.name).Nodup

/-- bit fields of a structure have no bit in common -/
def BitsApart (tds : List Td) : Prop := ∀ (t : Nat) (d : Td) (i j : Nat) (f g : Fd), tds[t]? = some d → d.ty = .struct → d.fields[i]? = some f → d.fields[j]? = some g → i ≠ j →
  f.ty = .bitfield → g.ty = .bitfield → Apart (8 * f.offset + f.shift) f.width (8 * g.offset + g.shift) g.width

/-- The object that is loaded: the descriptor of its type, `f.size` bytes at `dst` that are in use and zero. -/
structure Destination (tds : List Td) (m : Bytes) (live : Blocks) (dst : Nat) (f : Fd) : Prop where
  type : FdOK tds f ∧ f.ty ≠ .bitfield ∧ (f.ty = .pointer → f.size = 8)
  space : covered live dst f.size = true ∧ dst + f.size ≤ 2 ^ 64
  zero : ∀ k, k < f.size → m (dst + k) = 0

/-- a node that was loaded as a pointer or a string -/
def Holds (x : Node) : Prop := x.ty = .pointer ∨ x.ty = .string

/-- What a content reference leads to was loaded as a pointer or a string, or was not loaded. -/
def Content (E : Env) (s : LSt) : Prop := ∀ (x t : Node) (k : Nat) (pk : Pd), x ∈ s.nodes → Holds x → x.cref = true → E.ra[k]? = some pk → pk.idx = x.first → s.nodes[k]? = some t →
  t.addr = 0 ∨ Holds t

/-- After a failure: the blocks in use are those from before, nothing but the object has changed in them, and no pointer and
no string of the object leads anywhere. -/
structure Released (m : Bytes) (live : Blocks) (dst n : Nat) (s : LSt) : Prop where
  blocks : s.live = live
  kept : ∀ p, covered live p 1 = true → ¬ (dst ≤ p ∧ p < dst + n) → s.m p = m p
  null : ∀ x ∈ s.nodes, Holds x → dst ≤ x.addr ∧ x.addr + 8 ≤ dst + n → word s.m x.addr = 0

/-- After success: `new` are the blocks that were allocated.  Nothing has changed but the object and these blocks; pointers
and strings are in them, and lead into them or are NULL; every block is the target of a pointer or a string that is no
reference, and of one only. -/
structure Filled (alloc : Blocks → Nat → Nat) (m : Bytes) (live : Blocks) (dst n : Nat) (s : LSt) (new : Blocks) : Prop where
  blocks : s.live = live ++ new
  grown : Grown alloc live new
  kept : ∀ p, ¬ (dst ≤ p ∧ p < dst + n) → covered new p 1 = false → s.m p = m p
  place : ∀ x ∈ s.nodes, Holds x → covered ((dst, n) :: new) x.addr 8 = true
  value : ∀ x ∈ s.nodes, Holds x → word s.m x.addr = 0 ∨ covered ((dst, n) :: new) (word s.m x.addr) 0 = true
  held : ∀ b ∈ new, ∃ x ∈ s.nodes, Holds x ∧ x.ref = false ∧ x.cref = false ∧ word s.m x.addr = b.1
  single : ∀ (j k : Nat) (x y : Node), j ≠ k → s.nodes[j]? = some x → s.nodes[k]? = some y → Holds x → Holds y →
    x.ref = false → x.cref = false → y.ref = false → y.cref = false → word s.m x.addr ≠ 0 → word s.m x.addr ≠ word s.m y.addr

end Verif.Spec.Load
