/-!
# Comparators of basic types, `src/mr_ic.c:51-79`
-/
namespace Verif.Model.BasicCmp

/-- `src/mr_ic.c:52-59` `MR_TYPE_CMP_FUNC`: `(*_x > *_y) - (*_x < *_y)` for an integer type
(also used for `void *`, addresses being integers). -/
def intCmp (x y : Int) : Int :=
  (if x > y then 1 else 0) - (if x < y then 1 else 0)

/-- `strcmp` on NUL-free byte strings: sign of the first difference as unsigned char,
the terminating NUL being smaller than any other byte. -/
def strcmp : List Nat → List Nat → Int
  | [], [] => 0
  | [], y :: _ => 0 - (y : Int)
  | x :: _, [] => (x : Int)
  | x :: xs, y :: ys => if x = y then strcmp xs ys else (x : Int) - (y : Int)

/-- `src/mr_ic.c:67-74` comparator of `string_t` (`char *`): `strcmp` if both are non-NULL,
otherwise the addresses are compared.  A string is modelled by its address and, if the
address is not NULL, the bytes found there. -/
structure CStr where
  /-- address; `0` is NULL -/
  addr : Nat
  /-- bytes before the terminating NUL (irrelevant for NULL) -/
  bytes : List Nat

def stringCmp (x y : CStr) : Int :=
  if x.addr ≠ 0 ∧ y.addr ≠ 0 then strcmp x.bytes y.bytes
  else intCmp x.addr y.addr

end Verif.Model.BasicCmp
