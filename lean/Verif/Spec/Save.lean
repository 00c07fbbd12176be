import Verif.Model.Save
import Verif.Spec.Ptrs
/-!
# Object graphs, independently of the way they are saved

Objects have an address and a type.  A structure and an array consist of components, a pointer and a string
lead to a target.
-/
namespace Verif.Spec.Save
open Verif.Model Verif.Model.Ptrs Verif.Model.Save Verif.Spec.Ptrs

/-- An object: address and type.  Structures and enums are identified by their type descriptor; a pointer has
a type to which it points (`aux`, and `td` for what comes after it); an array has a type, number and distance
of the elements. -/
structure Obj where
  addr : Nat
  ty : MrType
  td : Option Nat := none
  aux : MrType := .none
  count : Nat := 0
  step : Nat := 0
  deriving DecidableEq, Repr

/-- `void *` and pointers of unknown type -/
def untyped (aux : MrType) : Bool := aux = .void || aux = .none

/-- the object with a type given by its descriptor -/
def object (addr : Nat) (ty aux : MrType) (td : Option Nat) (count step : Nat) : Obj :=
  match ty with
  | .struct | .enum => { addr := addr, ty := ty, td := td }
  | .pointer => if untyped aux then { addr := addr, ty := ty, aux := aux } else { addr := addr, ty := ty, td := td, aux := aux }
  | .array => { addr := addr, ty := ty, td := td, aux := aux, count := count, step := step }
  | _ => { addr := addr, ty := ty }

/-- the object at `addr` with the type of the descriptor -/
def ofFd (addr : Nat) (f : Fd) : Obj := object addr f.ty f.aux f.td (f.dims.headD 0) (f.size / f.dims.headD 0)

/-- the type with number `td` -/
def tyOf (tds : List Td) (td : Option Nat) : MrType := ((td.bind (tds[·]?)).map Td.ty).getD .void

/-- what a structure or an array consists of, in order -/
def components (tds : List Td) (o : Obj) : List Obj :=
  match o.ty with
  | .struct =>
    match o.td.bind (tds[·]?) with
    | some d => d.fields.map fun f => ofFd (o.addr + f.offset) f
    | none => []
  | .array => (List.range o.count).map fun j => object (o.addr + j * o.step) o.aux (tyOf tds o.td) o.td 0 0
  | _ => []

/-- the field descriptors of a structure, in order -/
def members (tds : List Td) (o : Obj) : List Fd := ((o.td.bind (tds[·]?)).map Td.fields).getD []

/-- where a typed pointer or a string leads to, if it is not NULL -/
def target (mem : Mem) (tds : List Td) (o : Obj) : Option Obj :=
  match o.ty with
  | .pointer =>
    if untyped o.aux || mem.ptr o.addr == 0 then none
    else some (object (mem.ptr o.addr) o.aux (tyOf tds o.td) o.td 0 0)
  | .string => if mem.ptr o.addr = 0 then none else some { addr := mem.ptr o.addr, ty := .charArray }
  | _ => none

/-- `b` can be reached from `a` -/
inductive Reach (mem : Mem) (tds : List Td) (a : Obj) : Obj → Prop
  | self : Reach mem tds a a
  | part {b c : Obj} : Reach mem tds a b → c ∈ components tds b → Reach mem tds a c
  | lead {b c : Obj} : Reach mem tds a b → target mem tds b = some c → Reach mem tds a c

/-! ### the types that are covered -/

/-- the number `td` belongs to a type of kind `ty` -/
def HasTd (tds : List Td) (td : Option Nat) (ty : MrType) : Prop := ∃ (t : Nat) (d : Td), td = some t ∧ tds[t]? = some d ∧ d.ty = ty

/-- types of single objects a pointer may point to -/
def plain : MrType → Bool
  | .none | .void | .charArray | .bitfield | .array | .pointer | .union | .anonUnion | .namedAnonUnion | .endAnonUnion | .last => false
  | _ => true

/-- a pointer or array with the immediate type `aux` and the final type `b`: one or two levels -/
def Leads (aux b : MrType) : Prop := (aux = b ∧ plain b = true) ∨ (aux = .pointer ∧ (plain b = true ∨ untyped b = true))

/-- Descriptors covered: all types but unions; pointers to one object (no size field), also two levels deep;
arrays of one dimension without size field -/
def FdOK (tds : List Td) (f : Fd) : Prop :=
  f.sizeField = none ∧ f.opaqueName = false ∧ (plain f.ty = true → f.size = elementSize tds f.ty f.td) ∧
  match f.ty with
  | .struct => HasTd tds f.td .struct
  | .enum => HasTd tds f.td .enum ∧ typeSize f.aux ≤ f.size
  | .pointer => untyped f.aux = true ∨ ∃ b, HasTd tds f.td b ∧ Leads f.aux b ∧ (f.nonPersistent = false → f.base = b)
  | .array => ∃ b c, HasTd tds f.td b ∧ Leads f.aux b ∧ f.base = b ∧ f.dims = [c] ∧ f.size = c * elementSize tds f.aux f.td
  | .union | .anonUnion | .namedAnonUnion => False
  | _ => True

/-- A table of types: the fields of structures are covered, structures and enums are not empty, an enum
holds its integers, and a structure is not nested into itself. -/
structure Types (tds : List Td) : Prop where
  fields : ∀ (t : Nat) (d : Td), tds[t]? = some d → d.ty = .struct → ∀ f ∈ d.fields, FdOK tds f ∧ f.nonPersistent = false
  sized : ∀ (t : Nat) (d : Td), tds[t]? = some d → d.ty = .struct ∨ d.ty = .enum → 0 < d.size
  enums : ∀ (t : Nat) (d : Td), tds[t]? = some d → d.ty = .enum → typeSize d.effective ≤ d.size
  nested : ∃ rank : Nat → Nat, ∀ (t : Nat) (d : Td) (f : Fd) (t' : Nat), tds[t]? = some d → d.ty = .struct → f ∈ d.fields →
    (f.ty = .struct ∨ f.ty = .array ∧ f.aux = .struct) → f.td = some t' → rank t' < rank t

/-! ### objects that occur once -/

/-- objects that are identified by address and type; a pointer and a bit field never match another one -/
def identified (ty : MrType) : Bool := ty != .pointer && ty != .bitfield

/-- Everything reachable from `root` is at one place only: `root` is part of nothing else, an object is a part
of one structure or array at most, and no object `o` that a pointer leads to is embedded into an object that
can be reached from `o` again. -/
structure Single (mem : Mem) (tds : List Td) (root : Obj) : Prop where
  top : identified root.ty = true → ∀ x, Reach mem tds root x → root ∉ components tds x
  parts : ∀ (x y c : Obj) (i j : Nat), Reach mem tds root x → Reach mem tds root y → identified c.ty = true →
    (components tds x)[i]? = some c → (components tds y)[j]? = some c → x = y ∧ i = j
  inner : ∀ (x y o : Obj), Reach mem tds root x → Reach mem tds root y → target mem tds x = some o → identified o.ty = true →
    o ∈ components tds y → ¬ Reach mem tds o y

/-! ### what a saved graph is -/

/-- The state after `mr_save` describes the graph below `root`: `k` is the forest below node 1, `obj` tells
which object a node stands for. -/
structure Saved (mem : Mem) (tds : List Td) (root : Obj) (st : St) (k : Forest) (obj : Nat → Obj) : Prop where
  /-- the links are those of an ordered tree with root 1 … -/
  tree : Rep st.ptrs.ra 0 1 (.cons 1 k .nil)
  /-- … that has every node once -/
  nodup : (1 :: k.nodes).Nodup
  every : ∀ i, i ∈ 1 :: k.nodes ↔ 1 ≤ i ∧ i < st.ptrs.ra.length
  top : obj 1 = root
  /-- address, type and type descriptor of a node are those of its object -/
  node : ∀ (i : Nat) (pd : Pd), 1 ≤ i → st.ptrs.ra[i]? = some pd → ∃ x : Info, st.info[i]? = some x ∧
    x.addr = (obj i).addr ∧ pd.ty = (obj i).ty ∧ ((obj i).ty = .struct ∨ (obj i).ty = .enum → tdOf x.fd = (obj i).td) ∧
    ((obj i).ty = .pointer → x.aux = (obj i).aux)
  /-- the children of a structure or an array are its components in order, those of a structure with the
  descriptors (names) of the fields; other nodes have none -/
  parts : ∀ (i : Nat) (pd : Pd), 1 ≤ i → st.ptrs.ra[i]? = some pd → pd.ty ≠ .pointer → pd.ty ≠ .string →
    pd.ref = false ∧ ∃ l, Chain st.ptrs.ra pd.firstChild l ∧ l.map obj = components tds (obj i) ∧
      (pd.ty = .struct → l.map (fun c => (st.info[c]?).bind Info.fd) = (members tds (obj i)).map some)
  /-- a pointer or string has its target as only child or refers to the node of the target, which is marked -/
  lead : ∀ (i : Nat) (pd : Pd), 1 ≤ i → st.ptrs.ra[i]? = some pd → pd.ty = .pointer ∨ pd.ty = .string →
    match target mem tds (obj i) with
    | none => pd.firstChild = 0 ∧ pd.ref = false
    | some o => ∃ t : Pd, pd.firstChild ≠ 0 ∧ st.ptrs.ra[pd.firstChild]? = some t ∧ obj pd.firstChild = o ∧
        (pd.ref = false → t.parent = i ∧ t.next = 0) ∧ (pd.ref = true → t.parent ≠ i ∧ t.refd = true)
  /-- nodes of NULL are marked -/
  null : ∀ (i : Nat) (pd : Pd) (x : Info), 1 ≤ i → st.ptrs.ra[i]? = some pd → st.info[i]? = some x →
    pd.ty = .string ∨ (pd.ty = .pointer ∧ x.aux ≠ .none) → (x.null = true ↔ mem.ptr (obj i).addr = 0)

/-- only finitely many objects can be reached -/
def Finite (mem : Mem) (tds : List Td) (root : Obj) : Prop := ∃ K : List Obj, ∀ o, Reach mem tds root o → o ∈ K

end Verif.Spec.Save
