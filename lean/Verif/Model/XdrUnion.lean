import Verif.Model.Xdr
/-!
# Structures and unions in XDR documents (`src/xdr.c`)

Types are built from scalars by structures and unions of any depth.  Pointers, strings, arrays and bit fields inside are not
modelled here (see `Model/XdrGraph.lean`, which has no unions).
-/
namespace Verif.Model.XdrUnion
open Verif.Model.Xdr

mutual
/-- the type of an object: `mr_td_t` reduced to what `src/xdr.c` looks at (`src/mr_protos.h`, `struct_param.fields`) -/
inductive Ty where
  | sc (k : Sc)
  | st (fields : Mems)
  | un (members : Mems)
/-- fields or members: `mr_fd_t` reduced to name, offset and type -/
inductive Mems where
  | nil
  | cons (name : List Nat) (offset : Nat) (ty : Ty) (rest : Mems)
end

/-- which member of every union is the saved one: the nodes that `mr_save_struct` and `mr_save_union` add
(`src/mr_save.c:1124–1166`).  The choice itself is modelled in `Model/Discr.lean`. -/
inductive Sel where
  /-- a scalar, or a union without a saved member -/
  | leaf
  /-- a union with its member number `i` -/
  | pick (i : Nat) (s : Sel)
  /-- the fields of a structure, in order -/
  | nil
  | cons (s rest : Sel)
deriving DecidableEq, Repr

mutual
/-- `src/xdr.c:1088–1107` `xdr_save_node` on the nodes of one object at `mem`, in order: a structure has no bytes of its own
(`xdr_none`, 354–357), a union writes the name of its first child or `""` (694–711 `xdr_save_union`), then the children follow.
`none`: `mem` is too short or the nodes are not those of the type. -/
def save : Ty → Sel → List Nat → Option (List Nat)
  | .sc k, .leaf, mem => enc k mem
  | .st ms, s, mem => saveFields ms s mem
  | .un _, .leaf, _ => some (saveString 0 0 [])
  | .un ms, .pick i s, mem => saveMember ms i s mem
  | _, _, _ => none
/-- the children of a structure -/
def saveFields : Mems → Sel → List Nat → Option (List Nat)
  | .nil, .nil, _ => some []
  | .cons _ off t rest, .cons s ss, mem => do
    let out ← save t s (mem.drop off)
    let more ← saveFields rest ss mem
    some (out ++ more)
  | _, _, _ => none
/-- a union with its child, member number `i` -/
def saveMember : Mems → Nat → Sel → List Nat → Option (List Nat)
  | .nil, _, _, _ => none
  | .cons name off t _, 0, s, mem => do
    let out ← save t s (mem.drop off)
    some (saveString 0 0 name ++ out)
  | .cons _ _ _ rest, i + 1, s, mem => saveMember rest i s mem
end

/-- `0 == tdp->param.struct_param.fields_size` -/
def Mems.isNil : Mems → Bool
  | .nil => true
  | .cons .. => false

/-- the C string at the beginning of a block -/
def cstr (block : List Nat) : List Nat := block.takeWhile (· ≠ 0)

/-- `src/xdr.c:721–737`: the name in front of a union.  A reference and NULL leave `discriminator` NULL: failure. -/
def loadName (buf : List Nat) (pos : Nat) : Dec (List Nat) :=
  (loadString buf pos).andThen fun r pos =>
    match r.2 with
    | .block b => some (some (cstr b, pos))
    | _ => some none

mutual
/-- `src/xdr.c:294–319` `xdr_load_inner` with the handlers for scalars, `xdr_load_struct` (664–682) and `xdr_load_union` (721–753).
The result is the memory from the object's address on. -/
def load : Ty → List Nat → List Nat → Nat → Dec (List Nat)
  | .sc k, mem, buf, pos => dec k buf pos mem
  | .st ms, mem, buf, pos => loadFields ms mem buf pos
  | .un ms, mem, buf, pos =>
    (loadName buf pos).andThen fun name pos =>
      if ms.isNil then some (some (mem, pos)) else loadMember ms name mem buf pos
/-- the loop of `xdr_load_struct` -/
def loadFields : Mems → List Nat → List Nat → Nat → Dec (List Nat)
  | .nil, mem, _, pos => some (some (mem, pos))
  | .cons _ off t rest, mem, buf, pos =>
    (load t (mem.drop off) buf pos).andThen fun m pos => loadFields rest (mem.take off ++ m) buf pos
/-- `mr_get_fd_by_name` (`src/metaresc.c:1657–1667`), simplified to a search in the order of declaration (names of members
are distinct in C), and loading of the member found -/
def loadMember : Mems → List Nat → List Nat → List Nat → Nat → Dec (List Nat)
  | .nil, _, _, _, _ => some none
  | .cons n off t rest, name, mem, buf, pos =>
    if n = name then (load t (mem.drop off) buf pos).andThen fun m pos => some (some (mem.take off ++ m, pos))
    else loadMember rest name mem buf pos
end

/-- `src/xdr.c:618–655`: `xdr_load_string` comes to its `MR_CALLOC` -/
def allocates (buf : List Nat) (pos : Nat) : Bool :=
  match getLong buf pos with
  | some (some (w, pos)) =>
    !isRef (w % 256) && !isNull (w % 256) && (match getLong buf pos with | some (some _) => true | _ => false)
  | _ => false

/-- `src/xdr.c:721–753`: the block allocated for the name of a union is not freed.  `MR_FREE` is reached only if
`xdr_load_string` succeeds and has stored a block. -/
def nameLeaks (buf : List Nat) (pos : Nat) : Bool :=
  allocates buf pos &&
  match loadString buf pos with
  | some (some ((_, .block _), _)) => false
  | _ => true

end Verif.Model.XdrUnion
