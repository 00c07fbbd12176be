import Verif.Lemmas.SimTwin
/-!
Two runs of `mr_save` with the same tree: the objects of the nodes correspond.
-/
namespace Verif.Lemmas.SimObj
open Verif.Model Verif.Model.Ptrs Verif.Model.Save Verif.Spec.Ptrs Verif.Spec.Save Verif.Spec.Copy Verif.Lemmas.SaveTree Verif.Lemmas.SaveInv Verif.Lemmas.SaveStep
  Verif.Lemmas.SaveRun Verif.Lemmas.SaveResolve Verif.Lemmas.SimTwin

/-- The graph below `root` in `mem` and the one in `mem'` have the same shape: `pl` tells where the object is. -/
structure Iso (mem mem' : Mem) (tds : List Td) (root : Obj) (pl : Obj → Nat) : Prop where
  inj : ∀ a b, Reach mem tds root a → Reach mem tds root b → moved a (pl a) = moved b (pl b) → a = b
  parts : ∀ o, Reach mem tds root o → components tds (moved o (pl o)) = (components tds o).map fun c => moved c (pl c)
  lead : ∀ o, Reach mem tds root o → target mem' tds (moved o (pl o)) = (target mem tds o).map fun t => moved t (pl t)
  null : ∀ o, Reach mem tds root o → o.ty = .func ∨ o.ty = .funcType ∨ o.ty = .pointer ∧ untyped o.aux = true → (mem'.ptr (pl o) = 0 ↔ mem.ptr o.addr = 0)

variable {mem mem' : Mem} {tds : List Td} {U U' : Prop} {root : Obj} {pl : Obj → Nat}

theorem chainF_unique {P : Nat → Pd} : ∀ {l l' : List Nat} {h : Nat}, ChainF P h l → ChainF P h l' → l = l'
  | [], [], _, _, _ => rfl
  | [], c :: l, h, h1, h2 => absurd h1 (by obtain ⟨e, n, _⟩ := h2; rw [e]; exact n)
  | c :: l, [], h, h1, h2 => absurd h2 (by obtain ⟨e, n, _⟩ := h1; rw [e]; exact n)
  | c :: l, c' :: l', h, h1, h2 => by
    obtain ⟨e, n, h3⟩ := h1
    obtain ⟨e', n', h4⟩ := h2
    subst e
    subst e'
    rw [chainF_unique h3 h4]

/-- the objects of the nodes of two runs with the same tree -/
structure Same (P : Nat → Pd) (n : Nat) (pl : Obj → Nat) (ks ks' : Nat → List Nat) (obj obj' : Nat → Obj) : Prop where
  kids : ∀ i, 1 ≤ i → i < n → ks' i = ks i
  objs : ∀ i, 1 ≤ i → i < n → obj' i = moved (obj i) (pl (obj i))

section
variable {P : Nat → Pd} {I I' : Nat → Info} {index index' : Nat → Nat} {n : Nat}
  {ks ks' : Nat → List Nat} {obj obj' : Nat → Obj} {O O' : Nat → Option Nat} {S S' : Nat → Prop}

theorem same_inv (hiso : Iso mem mem' tds root pl) (h : InvF mem tds U root P I index n ks obj O S)
    (h' : InvF mem' tds U' (moved root (pl root)) P I' index' n ks' obj' O' S') : Same P n pl ks ks' obj obj' := by
  have hk : ∀ i, 1 ≤ i → i < n → ks' i = ks i := fun i h1 h2 => chainF_unique (h'.tree.chain i h1 h2) (h.tree.chain i h1 h2)
  refine ⟨hk, ?_⟩
  intro c h1 h2
  obtain ⟨d, hd⟩ := h.tree.dep c h1 h2
  induction hd with
  | root => rw [h'.rootObj h2, h.rootObj h2]
  | @up c d hc hd ih =>
    have hm := h.tree.mem c hc h2
    obtain ⟨q1, q2, _⟩ := h.tree.own _ _ hm
    have iq := ih q1 q2
    have hr := reach_root h q1 q2
    rcases edge h hc h2 with ⟨e1, e2, _⟩ | ⟨e1, j, e2, e3⟩
    · rcases edge h' hc h2 with ⟨f1, f2, _⟩ | ⟨f1, _⟩
      · rw [iq, hiso.lead _ hr, e2] at f2
        exact (Option.some.inj f2).symm
      · rw [iq] at f1
        rw [show (moved (obj (P c).parent) (pl (obj (P c).parent))).ty = (obj (P c).parent).ty from rfl, e1] at f1
        cases f1
    · rcases edge h' hc h2 with ⟨f1, f2, _⟩ | ⟨f1, j', f2, f3⟩
      · rw [iq] at f1
        rw [show (moved (obj (P c).parent) (pl (obj (P c).parent))).ty = (obj (P c).parent).ty from rfl, e1] at f1
        cases f1
      · rw [hk _ q1 q2] at f2
        have hj : j' = j := by
          have n1 := (List.getElem?_eq_some_iff.1 e2)
          have n2 := (List.getElem?_eq_some_iff.1 f2)
          obtain ⟨b1, b2⟩ := n1
          obtain ⟨c1, c2⟩ := n2
          exact ((List.getElem_inj (h.tree.nodup _)).1 (c2.trans b2.symm))
        subst hj
        rw [iq, hiso.parts _ hr, List.getElem?_map, e3] at f3
        exact (Option.some.inj f3).symm

end

section
variable {st st' : St} {ks ks' : Nat → List Nat} {obj obj' : Nat → Obj} {O O' : Nat → Option Nat} {S S' : Nat → Prop}

theorem same_st (hiso : Iso mem mem' tds root pl) (hT : Twin st st') (h : Inv mem tds U root st ks obj O S)
    (h' : Inv mem' tds U' (moved root (pl root)) st' ks' obj' O' S') : Same (nd st.ptrs.ra) st.ptrs.ra.length pl ks ks' obj obj' := by
  have := h'.inv
  rw [hT.ptrs] at this
  exact same_inv hiso h.inv this

theorem slot_moved (hiso : Iso mem mem' tds root pl) {o : Obj} (hr : Reach mem tds root o) (k : Nat) :
    slot mem' tds (moved o (pl o)) k = (slot mem tds o k).map fun c => moved c (pl c) := by
  unfold slot
  rw [hiso.lead o hr, hiso.parts o hr, List.getElem?_map]
  show (if ptrLike o.ty = true then _ else _) = _
  by_cases h : ptrLike o.ty = true
  · rw [if_pos h, if_pos h]
    by_cases hk : k = 0
    · rw [if_pos hk, if_pos hk]
    · rw [if_neg hk, if_neg hk]; rfl
  · rw [if_neg h, if_neg h]

/-- the objects saved next correspond -/
theorem same_call (hiso : Iso mem mem' tds root pl) (hT : Twin st st') {data data' : Nat} {fd : Fd} {count p k k' : Nat} {o o' : Obj}
    (C : Call mem tds U root st ks obj O S data fd count p k o) (C' : Call mem' tds U' (moved root (pl root)) st' ks' obj' O' S' data' fd count p k' o') :
    k' = k ∧ Reach mem tds root o ∧ o' = moved o (pl o) := by
  have hs := same_st hiso hT C.inv C'.inv
  have hr := reach_root C.inv.inv C.p1 C.p2
  have ho := hs.objs p C.p1 C.p2
  have hI' := C'.inv.inv
  rw [hT.ptrs] at hI'
  have hk : k' = k := by
    by_cases hpl : ptrLike (obj p).ty = true
    · have a := (open_ptr C.inv.inv C.p1 C.p2 C.status hpl).1
      have b := (open_ptr hI' C'.p1 (by have := C'.p2; rw [hT.ptrs] at this; exact this) C'.status (by rw [ho]; exact hpl)).1
      rw [a, b]
    · have a := C.inv.inv.filled p C.p1 C.p2
      have b := hI'.filled p C.p1 C.p2
      rw [C.status] at a
      rw [C'.status] at b
      rw [← filled_length a (by simpa using hpl), ← filled_length b (by rw [ho]; show ptrLike (obj p).ty = false; simpa using hpl), hs.kids p C.p1 C.p2]
  have hro : Reach mem tds root o := by
    have hsl := C.slot
    unfold slot at hsl
    split at hsl
    · split at hsl
      · exact Reach.lead hr hsl
      · cases hsl
    · exact Reach.part hr (List.mem_of_getElem? hsl)
  refine ⟨hk, hro, ?_⟩
  have hsl := C'.slot
  rw [ho, hk, slot_moved hiso hr, C.slot] at hsl
  exact (Option.some.inj hsl).symm

end

end Verif.Lemmas.SimObj
