import Verif.Model.Func
/-!
# Pointers to functions
-/
namespace Verif.Spec.Func
open Verif.Model.Func

/-- the function has the name: the dynamic linker knows the function by this name and the name by this function -/
def Named (W : World) (func : Nat) (name : Name) : Prop := W.dladdr func = some (some name, func) ∧ W.dlsym name = func

/-- one call of `mr_serialize_func`: is the cache used, do the allocations succeed, and the function -/
structure Call where
  caching : Bool
  alloc : Bool
  add : Bool
  func : Nat

/-- calls one after the other -/
def run (W : World) : List Call → Cache → Option (Cache × List (Option Name))
  | [], c => some (c, [])
  | x :: xs, c => do
    let (c, n) ← serialize W x.caching x.alloc x.add c x.func
    let (c, ns) ← run W xs c
    some (c, n :: ns)

/-- the name of a function if it has one -/
def Right (W : World) (func : Nat) (r : Option Name) : Prop :=
  match r with
  | some n => Named W func n
  | none => ∀ n, ¬ Named W func n

end Verif.Spec.Func
