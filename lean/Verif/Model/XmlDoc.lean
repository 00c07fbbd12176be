import Verif.Model.Mem
import Verif.Model.Ctype

/-
Model of `mr_read_xml_doc`, /repo/src/metaresc.c:2089-2168.

The stream is the list of the bytes `fgetc` has not returned yet; after the last one it
returns EOF.  `alloc n` says whether an allocation of `n` bytes succeeds.  The buffer is
a list of `max_size` bytes; the bytes `realloc` adds are modelled as 0, they are written
before they are read.  A write outside the buffer or the overflow of an `int` is the
outcome `none`.
-/
namespace Verif.Model.XmlDoc
open Verif.Model

/-- The local variables.  `size` is one more than in the C code, where it starts at -1;
`max_size` is the length of `str`. -/
structure St where
  str : List Nat
  size : Nat
  c_ : Nat
  opened : Int
  toClose : Int
  count : Nat
deriving DecidableEq, Repr

/-- What one turn of the loop decides. -/
inductive Step
  | fail
  | done (text : List Nat)
  | next (st : St)
deriving DecidableEq, Repr

/-- Doubling of the buffer, /repo/src/metaresc.c:2115-2127: `some none` is the failure of
`realloc`. -/
def grow (alloc : Nat → Bool) (str : List Nat) (size : Nat) : Option (Option (List Nat)) :=
  if size = str.length - 1 then
    (if str.length * 2 ≤ 2147483647 then
      some (if alloc (str.length * 2) then some (str ++ List.replicate str.length 0) else none)
    else none)
  else some (some str)

/-- The tests on the pair of the previous byte that is not white space and the current
one, /repo/src/metaresc.c:2138-2143. -/
def closing (c_ c : Nat) (toClose : Int) : Int :=
  let toClose := if c_ = ch '/' ∧ c = ch '>' then -2 else toClose
  let toClose := if c_ = ch '?' ∧ c = ch '>' then -2 else toClose
  if c_ = ch '<' ∧ c = ch '/' then -3 else toClose

/-- The string in the buffer after `str[++size] = 0`. -/
def finish (str : List Nat) (size : Nat) : Option Step := do
  let str ← wr str size 0
  some (.done (str.takeWhile (fun c => c != 0)))

/-- The part of the turn behind the tests on the byte, /repo/src/metaresc.c:2144-2165. -/
def endTag (st : St) (c : Nat) : Option Step :=
  let c_ := if isspace c then st.c_ else c
  if c = ch '>' then
    let opened := st.opened + st.toClose
    if opened < 0 then some .fail
    else if opened = 0 then
      (if st.count - 1 = 0 then finish st.str st.size
       else some (.next { st with opened := opened, toClose := -1, count := st.count - 1, c_ := c_ }))
    else some (.next { st with opened := opened, toClose := -1, c_ := c_ })
  else some (.next { st with c_ := c_ })

/-- One turn of the loop, for a byte that is neither EOF nor 0,
/repo/src/metaresc.c:2114-2165. -/
def turn (alloc : Nat → Bool) (st : St) (c : Nat) : Option Step := do
  let str ← wr st.str st.size c
  match ← grow alloc str st.size with
  | none => some .fail
  | some str =>
    if st.opened = 0 ∧ ¬ (c = ch '<' ∨ isspace c = true) then some .fail
    else if c = ch '<' ∧ 2147483647 < st.opened + 2 then none
    else
      endTag { st with str := str, size := st.size + 1,
                       opened := if c = ch '<' then st.opened + 2 else st.opened,
                       toClose := closing st.c_ c st.toClose } c

/-- The loop: the result and the rest of the stream. -/
def loop (alloc : Nat → Bool) : St → List Nat → Option (Option (List Nat) × List Nat)
  | _, [] => some (none, [])
  | st, c :: cs =>
    if c = 0 then some (none, cs)
    else do
      match ← turn alloc st c with
      | .fail => some (none, cs)
      | .done text => some (some text, cs)
      | .next st => loop alloc st cs

/-- `mr_read_xml_doc`: `none` inside is NULL. -/
def readXmlDoc (alloc : Nat → Bool) (stream : List Nat) : Option (Option (List Nat) × List Nat) :=
  if alloc 2048 then
    loop alloc { str := List.replicate 2048 0, size := 0, c_ := 0, opened := 0, toClose := -1, count := 2 }
      stream
  else some (none, stream)

end Verif.Model.XmlDoc
