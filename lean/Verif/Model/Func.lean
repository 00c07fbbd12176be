import Verif.Model.Decimal
import Verif.Model.Print
/-!
# Pointers to functions: `mr_serialize_func`, `mr_get_func`, `mr_load_func`

* `World` are the answers of the dynamic linker; NULL is 0.  The code is the one for HAVE_LIBDL.
* The hash collection `cache` is simplified to the list of the indices in it, in the order in which they were added; it is
  searched for the function of the element (C15–C17 prove this of the collection).  `alloc` and `add` tell whether
  `mr_rarray_allocate_element` and `mr_ic_add` succeed.
-/
namespace Verif.Model.Func
open Verif.Model

abbrev Name := List Nat

structure World where
  /-- `dladdr`: `dli_sname` (may be NULL) and `dli_saddr`, or failure -/
  dladdr : Nat → Option (Option Name × Nat)
  /-- `dlsym (RTLD_DEFAULT, name)` -/
  dlsym : Name → Nat

/-- src/mr_stringify.c:271–272: `ra_fn` (function and name) and `cache` -/
structure Cache where
  ra : List (Nat × Option Name) := []
  indexed : List Nat := []
deriving DecidableEq, Repr

/-- src/mr_stringify.c:318–334: the name of the function; NULL if it cannot be found by this name -/
def resolve (W : World) (func : Nat) : Option Name :=
  match W.dladdr func with
  | some (some name, addr) => if func = addr ∧ W.dlsym name = func then some name else none
  | _ => none

/-- `mr_ic_add (&cache, idx)`: an element with the same function -/
def lookup (ra : List (Nat × Option Name)) (indexed : List Nat) (func : Nat) : Option Nat :=
  indexed.find? fun i => (ra[i]?.map Prod.fst) == some func

/-- src/mr_stringify.c:284–335 `mr_serialize_func`; `caching` is `mr_conf.cache_func_resolve`.  `none`: an element outside of the array. -/
def serialize (W : World) (caching alloc add : Bool) (c : Cache) (func : Nat) : Option (Cache × Option Name) :=
  if caching ∧ alloc then
    let idx := c.ra.length
    let ra := c.ra ++ [(func, none)]
    if add then
      match lookup ra c.indexed func with
      | some i => do some (c, (← ra[i]?).2)
      | none =>
        let name := resolve W func
        some ({ ra := ra.set idx (func, name), indexed := c.indexed ++ [idx] }, name)
    else
      let name := resolve W func
      some ({ c with ra := ra.set idx (func, name) }, name)
  else some (c, resolve W func)

/-- what the writers put into the document between their quotes (src/json_save.c:130–139, src/cinit_save.c:98–112 without the cast,
src/xml_save.c:198–206, src/yaml_save.c:157–167): the name, or `0x%llx` -/
def written (name : Option Name) (func : Nat) : List Nat :=
  match name with
  | some n => n
  | none => Print.address func

/-- src/mr_load.c:193–219 `mr_get_func`; `none`: failure -/
def getFunc (W : World) (name : List Nat) : Option Nat :=
  if W.dlsym name ≠ 0 then some (W.dlsym name)
  else
    let (ptr, rest) := Decimal.strtouintmax name 0
    if rest.dropWhile isspace ≠ [] then none else some (ptr % 2 ^ 64)

/-- the value in a document: `MR_VT_INT`, `MR_VT_ID` or `MR_VT_SUBSTR`, `MR_VT_STRING` -/
inductive Val where
  | int (v : Nat)
  | substr (s : List Nat)
  | string (s : List Nat)
deriving DecidableEq, Repr

/-- `sizeof (buf)`, src/mr_load.c:247 -/
def bufSize : Nat := 1 <<< 6

/-- src/mr_load.c:227–281 `mr_load_func` for a pointer that is not NULL; texts have no zeros inside; `none`: failure -/
def loadFunc (W : World) : Val → Option Nat
  | .int v => some (v % 2 ^ 64)
  | .substr s => if s.length ≤ bufSize - 1 then getFunc W (s.take (min s.length (bufSize - 1))) else none
  | .string s => getFunc W s

end Verif.Model.Func
