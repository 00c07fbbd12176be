import Verif.Model.Copy
import Verif.Spec.Free
/-!
# What a deep copy is, independently of the way it is made
-/
namespace Verif.Spec.Copy
open Verif.Model Verif.Model.Ptrs Verif.Model.Save Verif.Model.Copy Verif.Spec.Ptrs Verif.Spec.Save

/-- the object at another address -/
def moved (o : Obj) (a : Nat) : Obj := { o with addr := a }

/-- pointers and strings: objects that consist of an address -/
def isCell (o : Obj) : Bool := o.ty == .pointer || o.ty == .string

/-- the number of bytes of an object; 0 for character arrays and bit fields, which are counted with their structure -/
def extent (tds : List Td) (o : Obj) : Nat :=
  if plain o.ty = true then elementSize tds o.ty o.td
  else
    match o.ty with
    | .pointer => 8
    | .array => o.count * o.step
    | _ => 0

/-- `b` is `a`, a part of it, a part of a part and so on -/
inductive Inside (tds : List Td) (a : Obj) : Obj → Prop
  | self : Inside tds a a
  | part {b c : Obj} : Inside tds a b → c ∈ components tds b → Inside tds a c

/-- the ranges of `n` bytes at `a` and `k` bytes at `b` have nothing in common -/
def Apart (a n b k : Nat) : Prop := a + n ≤ b ∨ b + k ≤ a

/-- the number of bytes of a structure that a field uses; the size of a bit field is that of its integer type -/
def span (f : Fd) : Nat := if f.ty = .bitfield then (f.shift + f.width + 7) / 8 else f.size

/-- The fields of a structure are inside of it and do not overlap, except for bit fields; a pointer takes eight
bytes. -/
structure Layout (tds : List Td) : Prop where
  inside : ∀ (t : Nat) (d : Td) (f : Fd), tds[t]? = some d → d.ty = .struct → f ∈ d.fields → f.offset < d.size ∧ f.offset + span f ≤ d.size
  apart : ∀ (t : Nat) (d : Td) (i j : Nat) (f g : Fd), tds[t]? = some d → d.ty = .struct → d.fields[i]? = some f → d.fields[j]? = some g → i ≠ j →
    (f.ty = .bitfield ∧ g.ty = .bitfield) ∨ Apart f.offset (span f) g.offset (span g)
  pointer : ∀ (t : Nat) (d : Td) (f : Fd), tds[t]? = some d → d.ty = .struct → f ∈ d.fields → f.ty = .pointer → f.size = 8

/-- The string at `a` ends with a zero after `n` bytes. -/
def Text (m : Bytes) (a n : Nat) : Prop := m (a + n) = 0 ∧ ∀ k, k < n → m (a + k) ≠ 0

/-- the size of the block that an object allocated separately needs: the text of a string with the zero at its end -/
def Needs (m : Bytes) (tds : List Td) (o : Obj) (n : Nat) : Prop :=
  if o.ty = .charArray then ∃ k, n = k + 1 ∧ Text m o.addr k else n = extent tds o

/-- The graph below `root` in the memory `m` can be read; `live` are the blocks that may be accessed, strings are
shorter than `max`:
the root is no pointer and no string, every object is at one place, nothing leads to a cell that holds a pointer,
and all of it may be read. -/
structure Graph (m : Bytes) (mem : Mem) (tds : List Td) (root : Obj) (live : Blocks) (max : Nat) : Prop where
  ptr : ∀ a, mem.ptr a = word m a
  base : plain root.ty = true ∧ isCell root = false
  single : Single mem tds root
  parts : ∀ x y c, Reach mem tds root x → Reach mem tds root y → c ∈ components tds x → c ∈ components tds y → x = y
  cells : ∀ x o, Reach mem tds root x → target mem tds x = some o → identified o.ty = true
  read : ∀ o, Reach mem tds root o → covered live o.addr (extent tds o) = true
  ends : ∀ x o, Reach mem tds root x → x.ty = .string → target mem tds x = some o → ∃ n, n < max ∧ Text m o.addr n ∧
    covered live o.addr (n + 1) = true

/-- The graph below `root` can be copied to `dst`: it can be read, and there is room at `dst` apart from it. -/
structure Source (m : Bytes) (mem : Mem) (tds : List Td) (root : Obj) (live : Blocks) (dst max : Nat) : Prop extends Graph m mem tds root live max where
  room : covered live dst (extent tds root) = true ∧ dst ≠ 0 ∧ dst + extent tds root ≤ 2 ^ 64
  away : ∀ o, Reach mem tds root o → Apart dst (extent tds root) o.addr (extent tds o)
  texts : ∀ x o n, Reach mem tds root x → x.ty = .string → target mem tds x = some o → Text m o.addr n →
    Apart dst (extent tds root) o.addr (n + 1)

/-- An allocator: the memory it gives is apart from all blocks in use. -/
structure Allocator (alloc : Blocks → Nat → Nat) : Prop where
  fresh : ∀ live n, alloc live n ≠ 0 → ∀ b ∈ live, Apart (alloc live n) n b.1 b.2
  space : ∀ live n, alloc live n ≠ 0 → alloc live n + n ≤ 2 ^ 64

/-- blocks that the allocator may give one after another when `live` is in use -/
inductive Grown (alloc : Blocks → Nat → Nat) (live : Blocks) : Blocks → Prop
  | none : Grown alloc live []
  | more {new : Blocks} {n : Nat} : Grown alloc live new → alloc (live ++ new) n ≠ 0 → Grown alloc live (new ++ [(alloc (live ++ new) n, n)])

/-- If `live` is in use the allocator has memory for all that is reachable from `root` and was allocated separately. -/
def Enough (alloc : Blocks → Nat → Nat) (m : Bytes) (mem : Mem) (tds : List Td) (root : Obj) (live : Blocks) : Prop :=
  ∃ total, (∀ new n, Grown alloc live new → (new.map Prod.snd).sum + n ≤ total → alloc (live ++ new) n ≠ 0) ∧
    ∀ l : List (Obj × Nat), (l.map Prod.fst).Nodup → (∀ p ∈ l, Outer mem tds root p.1 ∧ Needs m tds p.1 p.2) → (l.map Prod.snd).sum ≤ total

/-- The memory `m'` holds a copy at `dst` of the graph below `root` in `m`, where the blocks `new` were
allocated; `place` tells where the copy of an object is. -/
structure Copied (m m' : Bytes) (mem mem' : Mem) (tds : List Td) (root : Obj) (dst : Nat) (live new : Blocks) (place : Obj → Nat) : Prop where
  top : place root = dst
  nonNull : ∀ o, Reach mem tds root o → place o ≠ 0
  /-- objects at different addresses have copies at different addresses -/
  addr : ∀ a b, Reach mem tds root a → Reach mem tds root b → place a = place b → a.addr = b.addr
  /-- different objects have different copies -/
  inj : ∀ a b, Reach mem tds root a → Reach mem tds root b → moved a (place a) = moved b (place b) → a = b
  /-- the parts of the copy are the copies of the parts -/
  parts : ∀ o, Reach mem tds root o → components tds (moved o (place o)) = (components tds o).map fun c => moved c (place c)
  /-- what the copy of a pointer or string leads to is the copy of what it leads to -/
  lead : ∀ o, Reach mem tds root o → target mem' tds (moved o (place o)) = (target mem tds o).map fun t => moved t (place t)
  /-- all bytes of an object but those of pointers and strings in it are the same -/
  data : ∀ o, Reach mem tds root o → ∀ k, k < extent tds o →
    (∀ p, Inside tds o p → isCell p = true → ¬ (p.addr ≤ o.addr + k ∧ o.addr + k < p.addr + 8)) → m' (place o + k) = m (o.addr + k)
  /-- the characters of strings up to the end are the same -/
  text : ∀ t, Outer mem tds root t → t.ty = .charArray → ∀ n, Text m t.addr n → ∀ k, k ≤ n → m' (place t + k) = m (t.addr + k)
  /-- A pointer without a type leads to the copy of an object at its address; if there is none it is kept.  It
  must not lead to the text of a string. -/
  void : ∀ o, Reach mem tds root o → o.ty = .pointer → untyped o.aux = true →
    (∀ t, Outer mem tds root t → t.ty = .charArray → t.addr ≠ mem.ptr o.addr) →
    (∃ t, Reach mem tds root t ∧ t.addr = mem.ptr o.addr ∧ mem'.ptr (place o) = place t) ∨
    (mem'.ptr (place o) = mem.ptr o.addr ∧ (o.aux = .void → mem.ptr o.addr ≠ 0 → ∀ t, Reach mem tds root t → t.addr ≠ mem.ptr o.addr))
  /-- the copies are at `dst` or in new blocks -/
  fresh : ∀ o, Reach mem tds root o →
    (dst ≤ place o ∧ place o < dst + extent tds root ∧ place o + extent tds o ≤ dst + extent tds root) ∨
    ∃ b ∈ new, b.1 ≤ place o ∧ place o < b.1 + b.2 ∧ place o + extent tds o ≤ b.1 + b.2
  /-- one new block for every object allocated separately, and no other -/
  blocks : ∀ o, Outer mem tds root o → ∀ n, Needs m tds o n → (place o, n) ∈ new
  used : ∀ b ∈ new, ∃ o, Outer mem tds root o ∧ place o = b.1 ∧ Needs m tds o b.2
  apart : ∀ b ∈ new, ∀ c ∈ live, Apart b.1 b.2 c.1 c.2
  sep : new.Pairwise fun b c => Apart b.1 b.2 c.1 c.2
  /-- nothing else is changed -/
  kept : ∀ a, ¬ (dst ≤ a ∧ a < dst + extent tds root) → (∀ b ∈ new, ¬ (b.1 ≤ a ∧ a < b.1 + b.2)) → m' a = m a

end Verif.Spec.Copy
