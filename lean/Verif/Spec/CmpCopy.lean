import Verif.Spec.Cmp
import Verif.Spec.Copy
/-!
# Graphs whose copy can be compared with them
-/
namespace Verif.Spec.CmpCopy
open Verif.Model Verif.Model.Ptrs Verif.Model.Save Verif.Model.Copy Verif.Spec.Ptrs Verif.Spec.Save Verif.Spec.Copy

/-- What a comparison of the graph below `root` with a copy at `dst` needs, besides that it can be copied. -/
structure Comparable (m : Bytes) (mem : Mem) (tds : List Td) (root : Obj) (live : Blocks) (dst max : Nat) : Prop where
  notNull : root.addr ≠ 0
  /-- A pointer without a type is NULL or leads to an object of the graph or to other memory in use, which is not the
  destination … -/
  void : ∀ o, Reach mem tds root o → o.ty = .pointer → untyped o.aux = true →
    mem.ptr o.addr = 0 ∨ (∃ t, Reach mem tds root t ∧ t.addr = mem.ptr o.addr) ∨
    ((∃ b ∈ live, b.1 ≤ mem.ptr o.addr ∧ mem.ptr o.addr < b.1 + b.2) ∧ ¬ (dst ≤ mem.ptr o.addr ∧ mem.ptr o.addr < dst + extent tds root))
  /-- … and not to the text of a string. -/
  noText : ∀ o x t, Reach mem tds root o → o.ty = .pointer → untyped o.aux = true → Reach mem tds root x → x.ty = .string → target mem tds x = some t →
    t.addr ≠ mem.ptr o.addr
  /-- the texts in arrays of characters end -/
  chars : ∀ (o : Obj) (t : Nat) (d : Td) (f : Fd), Reach mem tds root o → o.ty = .struct → o.td = some t → tds[t]? = some d → f ∈ d.fields → f.ty = .charArray →
    ∃ n, n < f.size ∧ n < max ∧ Text m (o.addr + f.offset) n
  /-- the widths of bit fields are those that the language permits -/
  bits : ∀ (t : Nat) (d : Td) (f : Fd), tds[t]? = some d → d.ty = .struct → f ∈ d.fields → f.ty = .bitfield → f.shift < 8 ∧ 1 ≤ f.width ∧ f.width ≤ 128

end Verif.Spec.CmpCopy
