import Verif.Model.Scanf
/-!
# Printing of values: src/mr_print.c

Modelled: `mr_print_pointer`, which prints structures, arrays and what pointers lead to.  The document is the
argument `doc`, without zeros inside (`strlen`); `none` is a failure of the writer.  The result is the text given to `fprintf`; `none` is
undefined behaviour.  Not modelled: `mr_print_value` for numbers (it calls `printf`).
-/
namespace Verif.Model.Print

/-- the conversion `%p` of glibc for an address that is not NULL -/
def address (p : Nat) : List Nat := 48 :: 120 :: Scanf.printRadix 16 0 false p

/-- `snprintf (buf, size, ...)`: what the buffer holds afterwards, without the final zero -/
def snprintf (size : Nat) (text : List Nat) : List Nat := text.take (size - 1)

/-- `sizeof (typed_ptr_str)`, src/mr_print.c:49: the template `%p (%s%s)` with its final zero has 10 bytes, a pointer 8 -/
def bufSize (type : List Nat) : Nat := 10 + 8 * 2 + type.length

/-- src/mr_print.c:5–87 `mr_print_pointer`.  `type` is the name of the type as src/mr_print.c:19–21 leaves it, `pointer`
says `MR_POINTER_TYPE_CLASS == mr_type_class`, `array` says `size >= 0`, `cinit` says that the method is CINIT. -/
def printPointer (value : Nat) (type : Option (List Nat)) (pointer array cinit : Bool) (doc : Option (List Nat)) : Option (List Nat) :=
  if value = 0 then some [40, 110, 117, 108, 108, 41]
  else
    match type with
    | none => some (address value)
    | some type =>
      let pre := if pointer then snprintf (bufSize type) (address value ++ [32]) else []
      let pre := if cinit && pointer then
          snprintf (bufSize type) (address value ++ [32, 40] ++ type ++ (if array then [91, 93] else []) ++ [41])
        else pre
      match doc with
      | none => some (address value)
      | some doc =>
        -- `serialized[strlen (serialized) - 1] = 0`
        if doc = [] then none else some (pre ++ doc.dropLast)

end Verif.Model.Print
