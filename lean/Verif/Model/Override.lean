import Verif.Model.Ic
/-!
# The overrides of union members: `mr_fd_init_ud_overrides`, `mr_ud_override_value`

The description of a union field may list values of its discriminator together with the names of members
(`mr_ud_override_t`).  They are put into a hash collection (C15) when the type is registered and looked up when a union
is saved.

* A key is the address of a `mr_ud_override_t`; `value`, `name` and `field` are what it holds there: the value, the
  name of the member and the address of the member found by this name (`none`: no such member).
* `hash` is the hash of the eight bytes of the value.
* `m` are the answers of the allocator.
-/
namespace Verif.Model.Override
open Verif.Model Verif.Model.Ic Verif.Spec

/-- the overrides in memory -/
structure Mem where
  value : Key → Nat
  name : Key → List Nat
  field : Key → Option Nat

/-- src/metaresc.c:1508–1514 `mr_ud_override_cmp` -/
def cmp (M : Mem) (x y : Key) : Int :=
  (if M.value x > M.value y then 1 else 0) - (if M.value x < M.value y then 1 else 0)

/-- src/metaresc.c:1501–1506 `mr_ud_override_hash` -/
def hashOf (M : Mem) (hash : Nat → Nat) (x : Key) : Nat := hash (M.value x)

/-- what is reported: the member is unknown, or another override of the value exists -/
inductive Warn
  | invalid (k : Key)
  | conflict (old new : Key)
deriving DecidableEq, Repr

/-- src/metaresc.c:1533–1555: the loop over the overrides; the result is the collection, the warnings and the status -/
def register (M : Mem) (hash : Nat → Nat) (m : Key → Bool × Bool) : List Key → Ic → List Warn → Option (Ic × List Warn × Bool)
  | [], ic, w => some (ic, w, true)
  | k :: ks, ic, w =>
    match M.field k with
    | none => register M hash m ks ic (w ++ [.invalid k])
    | some _ => do
      let (ic, add) ← icAdd (cmp M) (hashOf M hash) ic k (m k)
      match add with
      | none => some (ic, w, false)
      | some old => register M hash m ks ic (if M.name old ≠ M.name k then w ++ [.conflict old k] else w)

/-- src/metaresc.c:1516–1558 `mr_fd_init_ud_overrides` for a union field with overrides -/
def init (M : Mem) (hash : Nat → Nat) (m : Key → Bool × Bool) (keys : List Key) : Option (Ic × List Warn × Bool) :=
  register M hash m keys (icNew .hash) []

/-- src/mr_save.c:43–54 `mr_ud_override_value`; `key` is the address of an override with the value that is looked up -/
def overrideValue (M : Mem) (hash : Nat → Nat) (ic : Ic) (key : Key) : Option (Option Nat) := do
  let r ← icFind (cmp M) (hashOf M hash) ic key
  some (r.bind M.field)

end Verif.Model.Override
