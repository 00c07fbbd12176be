import Verif.Spec.Save
/-!
# The result of `mr_save`
-/
namespace Verif.Spec.Save
open Verif.Model Verif.Model.Ptrs Verif.Model.Save Verif.Spec.Ptrs

/-- What `mr_save` returns: `k` is the forest below node 1, `obj` tells which object a node stands for.
Compared with `Saved` the nodes of the texts of strings are no longer part of the tree, and who referred to a
text refers to the string. -/
structure Final (mem : Mem) (tds : List Td) (root : Obj) (st : St) (k : Forest) (obj : Nat → Obj) : Prop where
  len : st.info.length = st.ptrs.ra.length
  dummy : ∀ pd : Pd, st.ptrs.ra[0]? = some pd → pd.cref = false
  /-- the links are those of an ordered tree with root 1, which has every node once -/
  tree : Rep st.ptrs.ra 0 1 (.cons 1 k .nil)
  nodup : (1 :: k.nodes).Nodup
  /-- the nodes of the tree are numbered in document order; the other nodes are the texts of strings -/
  ids : ∀ j x : Nat, (1 :: k.nodes)[j]? = some x → (st.ptrs.ra[x]?).map Pd.idx = some (j + 1)
  off : ∀ (i : Nat) (pd : Pd), 1 ≤ i → st.ptrs.ra[i]? = some pd → i ∉ 1 :: k.nodes →
    pd.idx = 0 ∧ pd.parent ∈ 1 :: k.nodes ∧ (obj i).ty = .charArray ∧ ∃ s : Pd, st.ptrs.ra[pd.parent]? = some s ∧ s.ty = .string ∧
      s.ref = false ∧ s.cref = false ∧ target mem tds (obj pd.parent) = some (obj i)
  top : obj 1 = root
  /-- address, type and type descriptor of a node are those of its object -/
  node : ∀ (i : Nat) (pd : Pd), 1 ≤ i → st.ptrs.ra[i]? = some pd → ∃ x : Info, st.info[i]? = some x ∧
    x.addr = (obj i).addr ∧ pd.ty = (obj i).ty ∧ ((obj i).ty = .struct ∨ (obj i).ty = .enum → tdOf x.fd = (obj i).td) ∧
    ((obj i).ty = .pointer → x.aux = (obj i).aux)
  /-- the children of a structure or an array are its components in order, those of a structure with the
  descriptors (names) of the fields; other nodes have none -/
  parts : ∀ (i : Nat) (pd : Pd), i ∈ 1 :: k.nodes → st.ptrs.ra[i]? = some pd → pd.ty ≠ .pointer → pd.ty ≠ .string →
    pd.ref = false ∧ pd.cref = false ∧ ∃ l, Chain st.ptrs.ra pd.firstChild l ∧ l.map obj = components tds (obj i) ∧
      (pd.ty = .struct → l.map (fun c => (st.info[c]?).bind Info.fd) = (members tds (obj i)).map some)
  /-- a typed pointer has its target as only child, or refers to the node of the target, which is marked -/
  pointer : ∀ (i : Nat) (pd : Pd), i ∈ 1 :: k.nodes → st.ptrs.ra[i]? = some pd → pd.ty = .pointer → untyped (obj i).aux = false →
    pd.cref = false ∧
    match target mem tds (obj i) with
    | none => pd.firstChild = 0 ∧ pd.ref = false
    | some o => pd.firstChild ∈ 1 :: k.nodes ∧ obj pd.firstChild = o ∧ ∃ t : Pd, st.ptrs.ra[pd.firstChild]? = some t ∧
        (pd.ref = false → t.parent = i ∧ t.next = 0) ∧ (pd.ref = true → t.parent ≠ i ∧ t.refd = true)
  /-- a string has its own text, or refers to an object that is not the text of a string, or refers to the
  string with its text -/
  string : ∀ (i : Nat) (pd : Pd), i ∈ 1 :: k.nodes → st.ptrs.ra[i]? = some pd → pd.ty = .string →
    match target mem tds (obj i) with
    | none => pd.firstChild = 0 ∧ pd.ref = false ∧ pd.cref = false
    | some o =>
      (pd.ref = false ∧ pd.cref = false ∧ pd.firstChild = 0 ∧
        ∃ (t : Nat) (tp : Pd), 1 ≤ t ∧ st.ptrs.ra[t]? = some tp ∧ t ∉ 1 :: k.nodes ∧ tp.parent = i ∧ obj t = o) ∨
      (pd.ref = true ∧ pd.cref = false ∧ pd.firstChild ∈ 1 :: k.nodes ∧ obj pd.firstChild = o ∧
        ∃ t : Pd, st.ptrs.ra[pd.firstChild]? = some t ∧ t.refd = true) ∨
      (pd.ref = false ∧ pd.cref = true ∧ pd.firstChild ∈ 1 :: k.nodes ∧ target mem tds (obj pd.firstChild) = some o ∧
        ∃ s : Pd, st.ptrs.ra[pd.firstChild]? = some s ∧ s.ty = .string ∧ s.ref = false ∧ s.cref = false ∧ s.refd = true)
  /-- a pointer without a type has no content; it refers to a node at its address, or to a string whose text is
  there, if there is one -/
  void : ∀ (i : Nat) (pd : Pd), i ∈ 1 :: k.nodes → st.ptrs.ra[i]? = some pd → pd.ty = .pointer → untyped (obj i).aux = true →
    (pd.ref = false ∧ pd.cref = false ∧ pd.firstChild = 0 ∧
      ((obj i).aux = .void → mem.ptr (obj i).addr ≠ 0 → ∀ j, 1 ≤ j → j < st.ptrs.ra.length → (obj j).addr ≠ mem.ptr (obj i).addr)) ∨
    (pd.ref = true ∧ pd.cref = false ∧ pd.firstChild ∈ 1 :: k.nodes ∧ (obj pd.firstChild).addr = mem.ptr (obj i).addr ∧
      ∃ t : Pd, st.ptrs.ra[pd.firstChild]? = some t ∧ t.refd = true) ∨
    (pd.ref = false ∧ pd.cref = true ∧ pd.firstChild ∈ 1 :: k.nodes ∧ (obj pd.firstChild).ty = .string ∧
      (∃ o, target mem tds (obj pd.firstChild) = some o ∧ o.addr = mem.ptr (obj i).addr) ∧
      ∃ s : Pd, st.ptrs.ra[pd.firstChild]? = some s ∧ s.ref = false ∧ s.cref = false ∧ s.refd = true)
  /-- NULL and pointers without a type are marked -/
  null : ∀ (i : Nat) (pd : Pd) (x : Info), 1 ≤ i → st.ptrs.ra[i]? = some pd → st.info[i]? = some x →
    pd.ty = .string ∨ pd.ty = .pointer → (x.null = true ↔ (pd.ty = .pointer ∧ untyped (obj i).aux = true) ∨ mem.ptr (obj i).addr = 0)

end Verif.Spec.Save
