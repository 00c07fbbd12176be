import Verif.Model.Load
import Verif.Model.Json
/-!
# Filling an object from a JSON text

src/metaresc.h:1316–1342 MR_LOAD_METHOD_ARGS4_ with `mr_json_load`: parse the text, then fill the object from node 1.  The
object has been set to zero before.  (`known`, the set of the names of all fields of all types, is a parameter of the parser.)
-/
namespace Verif.Model.LoadJson
open Verif.Model Verif.Model.Ptrs Verif.Model.Save Verif.Model.Copy

/-- what the parser stores in a node (src/json_load.y:104–172), as `mr_load` finds it; a floating point number is no
reference, everything else about it is in the conversion -/
def doc (x : Json.Loaded) : Load.Doc :=
  { name := x.name
    null := x.null
    val := match x.value with
      | .none => .none
      | .int v => .int (BitVec.ofNat 128 v)
      | .float _ => .other
      | .string s => .text s }

/-- what `mr_load` is called with -/
def env (tds : List Td) (ptrs : Ptrs) (data : List Json.Loaded) (conv : Fd → Nat → Load.Conv) (alloc : Blocks → Nat → Nat) (table : Bool) : Load.Env :=
  { tds := tds, ra := ptrs.ra, data := data.map doc, conv := conv, alloc := alloc, table := table }

end Verif.Model.LoadJson
