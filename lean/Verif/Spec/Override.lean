import Verif.Model.Override
/-!
# What overrides say
-/
namespace Verif.Spec.Override
open Verif.Model Verif.Model.Ic Verif.Model.Override

/-- the first override of the value `v` that names a member -/
def first (M : Mem) (keys : List Key) (v : Nat) : Option Key :=
  keys.find? fun k => M.value k == v && (M.field k).isSome

/-- what is to be reported: overrides without a member, and overrides that name another member than the first override of
the value -/
def warnings (M : Mem) (keys : List Key) : List Warn :=
  keys.filterMap fun k =>
    match M.field k, first M keys (M.value k) with
    | none, _ => some (.invalid k)
    | some _, none => none
    | some _, some old => if M.name old ≠ M.name k then some (.conflict old k) else none

end Verif.Spec.Override
