import Verif.Spec.Save
/-!
# Which blocks an object graph owns
-/
namespace Verif.Spec.Save
open Verif.Model Verif.Model.Ptrs Verif.Model.Save

/-- An object that a pointer or a string reachable from `root` leads to, and that is neither `root` nor a part of
anything: it was allocated separately. -/
structure Outer (mem : Mem) (tds : List Td) (root o : Obj) : Prop where
  lead : ∃ x, Reach mem tds root x ∧ target mem tds x = some o
  notRoot : o ≠ root
  notPart : ∀ y, Reach mem tds root y → o ∉ components tds y

/-- The memory is organised as MR_FREE_RECURSIVELY expects it; `live` are the addresses of the allocated blocks:
nothing is at address 0, every object is at one place, what is allocated separately starts an allocated block,
which is not that of `root`, two such objects are not in the same block, and nothing leads to a cell that holds a
pointer. -/
structure Owned (mem : Mem) (tds : List Td) (root : Obj) (live : List Nat) : Prop where
  addr : ∀ o, Reach mem tds root o → o.addr ≠ 0
  single : Single mem tds root
  block : ∀ o, Outer mem tds root o → o.addr ∈ live
  top : ∀ o, Outer mem tds root o → o.addr ≠ root.addr
  apart : ∀ a b, Outer mem tds root a → Outer mem tds root b → a.addr = b.addr → a = b
  cells : ∀ x o, Reach mem tds root x → target mem tds x = some o → identified o.ty = true

end Verif.Spec.Save
