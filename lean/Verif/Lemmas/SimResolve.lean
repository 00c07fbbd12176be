import Verif.Lemmas.SimObj
/-!
`resolve_matched` decides the same in two runs.
-/
namespace Verif.Lemmas.SimResolve
open Verif.Model Verif.Model.Ptrs Verif.Model.Save Verif.Spec.Ptrs Verif.Spec.Save Verif.Spec.Copy Verif.Lemmas.SaveTree Verif.Lemmas.SaveInv Verif.Lemmas.SaveStep
  Verif.Lemmas.SaveRun Verif.Lemmas.SaveResolve Verif.Lemmas.SimTwin Verif.Lemmas.SimObj

variable {mem mem' : Mem} {tds : List Td} {U U' : Prop} {root : Obj} {pl : Obj → Nat}
variable {st st' : St} {ks ks' : Nat → List Nat} {obj obj' : Nat → Obj} {O O' : Nat → Option Nat} {S S' : Nat → Prop}

/-- node `r` is taken for the object `o` below `p` -/
def Hit (st : St) (obj : Nat → Obj) (cur : Cur) (o : Obj) (r : Nat) : Prop :=
  1 ≤ r ∧ r < st.ptrs.ra.length ∧ obj r = o ∧ neverEqual o.ty = false ∧
    (ptrLike (obj cur.parent).ty = true ∨ movable st cur r (nd st.ptrs.ra r) (ni st.info r) = some true)

/-- what is done with it -/
def Act (tds : List Td) (st : St) (obj : Nat → Obj) (cur : Cur) (r : Nat) (res : Option (St × Bool × Nat)) : Prop :=
  if ptrLike (obj cur.parent).ty = true then ∃ s, setReference st cur.parent r = some s ∧ res = some (s, true, 1)
  else ∃ s n, moveNodes tds st cur (nd st.ptrs.ra r).parent = some (s, n) ∧ res = some (s, true, n)

theorem resolve_char (hT : Types tds) {data : Nat} {fd : Fd} {count p k : Nat} {o : Obj} (C : Call mem tds U root st ks obj O S data fd count p k o)
    (hsz : (obj p).ty = .pointer → fd.size ≠ 0 ∧ plain o.ty = true ∨ neverEqual o.ty = true)
    (content : St → Nat → Option (St × Nat)) (fuel ref : Nat) (hf : ref < fuel) (hrn : ref < st.ptrs.ra.length)
    (hb : ref ≠ 0 → (obj ref).addr / 4 = data / 4) (hpass : ∀ i, ref < i → ¬ Hit st obj ⟨data, fd, fd.size * count, p⟩ o i) :
    (resolveMatched tds content st ⟨data, fd, fd.size * count, p⟩ fuel ref = some (st, false, 0) ∧
      ∀ i, ¬ Hit st obj ⟨data, fd, fd.size * count, p⟩ o i) ∨
    ∃ r, Hit st obj ⟨data, fd, fd.size * count, p⟩ o r ∧ (∀ i, r < i → ¬ Hit st obj ⟨data, fd, fd.size * count, p⟩ o i) ∧
      Act tds st obj ⟨data, fd, fd.size * count, p⟩ r (resolveMatched tds content st ⟨data, fd, fd.size * count, p⟩ fuel ref) := by
  have hI := C.inv.inv
  have hsp := hI.seen p C.p1 C.p2
  have haddr : o.addr = data := by rw [← C.ofd]; exact object_addr _ _ _ _ _ _
  have hok := (slot_ok hT hsp.ok C.slot).1
  induction fuel using Nat.strongRecOn generalizing ref with
  | _ fuel ih =>
    cases fuel with
    | zero => omega
    | succ fuel =>
      rw [resolveMatched]
      by_cases h0 : ref = 0
      · subst h0
        left
        rw [if_pos rfl]
        refine ⟨rfl, fun i hi => ?_⟩
        exact hpass i (by have := hi.1; omega) hi
      · rw [if_neg h0, nd_get hrn, ni_get (by rw [C.inv.len]; exact hrn)]
        simp only [Option.bind_eq_bind, Option.bind_some]
        have hsr := hI.seen ref (by omega) hrn
        have hkey := sameKey_iff hsr C.ofd hok
        obtain ⟨hp1, hp2, hp3⟩ := hI.bnext ref (by omega) hrn
        have hnext : ¬ Hit st obj ⟨data, fd, fd.size * count, p⟩ o ref → _ := fun hps =>
          ih fuel (by omega) (ni st.info ref).nextUntyped (by omega) (by omega) (by
            intro h; rw [hp2 h]; exact hb h0) (by
            intro i h1 hi
            by_cases h3 : ref < i
            · exact hpass i h3 hi
            · by_cases h4 : i = ref
              · rw [h4] at hi; exact hps hi
              · have := hp3 i h1 (by omega)
                rw [hi.2.2.1, haddr, hb h0] at this
                exact absurd rfl this)
        by_cases hm : sameKey (ni st.info ref).addr (nd st.ptrs.ra ref).ty (ni st.info ref).fd data fd.ty (some fd) = true
        · rw [if_pos hm, nd_get C.p2]
          obtain ⟨hro, hne⟩ := hkey.1 hm
          simp only [Option.bind_some, hsp.ty]
          split
          · rename_i hty
            right
            have hpl : ptrLike (obj p).ty = true := by simp [ptrLike, hty]
            obtain ⟨s, e1, _⟩ := reference_ok C hpl (by omega) hrn hro
            refine ⟨ref, ⟨by omega, hrn, hro, hne, Or.inl hpl⟩, hpass, ?_⟩
            unfold Act
            rw [if_pos hpl]
            exact ⟨s, e1, by simp [e1]⟩
          · rename_i hty
            right
            have hpl : ptrLike (obj p).ty = true := by simp [ptrLike, hty]
            obtain ⟨s, e1, _⟩ := reference_ok C hpl (by omega) hrn hro
            refine ⟨ref, ⟨by omega, hrn, hro, hne, Or.inl hpl⟩, hpass, ?_⟩
            unfold Act
            rw [if_pos hpl]
            refine ⟨s, e1, ?_⟩
            have hfc := (open_ptr hI C.p1 C.p2 C.status hpl).2.1
            rcases hsz hty with ⟨h1, h2⟩ | h1
            · have hle : fd.size * count ≤ (ni st.info ref).size := by
                have := hsr.size (by rw [hro]; exact h2)
                rw [hro] at this
                have hty : o.ty = fd.ty := by rw [← C.ofd]; exact object_ty _ _ _ _ _ _
                rw [hty] at h2
                rw [← C.ofd, ofFd, elementSize_object h2, ← C.ok.2.2.1 h2] at this
                rw [C.count2 (by assumption)]; omega
              have hrp : (nd st.ptrs.ra ref).parent < st.ptrs.ra.length := by
                by_cases hr1 : ref = 1
                · rw [hr1, hI.tree.root]; omega
                · exact tree_closed hI.tree ref (by omega) hrn
              unfold resolvePointer
              rw [nd_get C.p2, nd_get hrn, ni_get (by rw [C.inv.len]; exact hrn)]
              simp only [Option.bind_eq_bind, Option.bind_some]
              rw [nd_get hrp]
              simp only [Option.bind_some]
              rw [if_neg h1, if_pos hfc, if_pos hle, e1]
              simp only [Option.bind_some]
              rw [C.count2 hty, Nat.mul_one, Nat.div_self (by omega)]
            · rw [h1] at hne; cases hne
          · rename_i hs1 hs2
            have hpl : ptrLike (obj p).ty = false := by
              unfold ptrLike
              simp only [Bool.or_eq_false_iff, beq_eq_false_iff_ne]
              exact ⟨fun h => hs2 h, fun h => hs1 h⟩
            obtain ⟨b, hb1, hb2⟩ := movable_ok hT C (by omega) hrn hro hne
            rw [hb1]
            simp only [Option.bind_some]
            by_cases hbt : b = true
            · have hnot := hb2.1 hbt
              simp only [not_or] at hnot
              obtain ⟨hn1, hn2, hn3⟩ := hnot
              obtain ⟨s, e1, _⟩ := moveNodes_ok hT C hpl (r := ref) (by omega) hrn hro hne rfl (by simpa using hn2) hn3
              right
              refine ⟨ref, ⟨by omega, hrn, hro, hne, Or.inr (by rw [hb1, hbt])⟩, hpass, ?_⟩
              unfold Act
              rw [if_neg (by rw [hpl]; simp)]
              exact ⟨s, _, e1, by simp [hbt, e1]⟩
            · rw [if_neg hbt]
              apply hnext
              rintro ⟨_, _, _, _, h | h⟩
              · rw [hpl] at h; cases h
              · rw [hb1] at h
                exact hbt (Option.some.inj h)
        · rw [if_neg hm]
          apply hnext
          rintro ⟨_, _, h1, h2, _⟩
          exact absurd (hkey.2 ⟨h1, h2⟩) hm

theorem hit_iff (hiso : Iso mem mem' tds root pl) (hT : Twin st st') {data data' : Nat} {fd : Fd} {count p k k' : Nat} {o o' : Obj}
    (C : Call mem tds U root st ks obj O S data fd count p k o) (C' : Call mem' tds U' (moved root (pl root)) st' ks' obj' O' S' data' fd count p k' o') (r : Nat) :
    Hit st' obj' ⟨data', fd, fd.size * count, p⟩ o' r ↔ Hit st obj ⟨data, fd, fd.size * count, p⟩ o r := by
  have hs := same_st hiso hT C.inv C'.inv
  obtain ⟨_, hro, ho⟩ := same_call hiso hT C C'
  have hp := hs.objs p C.p1 C.p2
  unfold Hit
  simp only [hT.ptrs]
  rw [show movable st' (⟨data', fd, fd.size * count, p⟩ : Cur) r (nd st.ptrs.ra r) (ni st'.info r) = movable st ⟨data, fd, fd.size * count, p⟩ r (nd st.ptrs.ra r) (ni st.info r) by
    have := movable_twin (cur := ⟨data, fd, fd.size * count, p⟩) (cur' := ⟨data', fd, fd.size * count, p⟩) hT ⟨rfl, rfl⟩ r
    rw [hT.ptrs] at this
    exact this]
  constructor
  · rintro ⟨h1, h2, h3, h4, h5⟩
    refine ⟨h1, h2, ?_, by rw [ho] at h4; exact h4, by rw [hp] at h5; exact h5⟩
    rw [hs.objs r h1 h2, ho] at h3
    exact hiso.inj _ _ (reach_root C.inv.inv h1 h2) hro h3
  · rintro ⟨h1, h2, h3, h4, h5⟩
    refine ⟨h1, h2, ?_, by rw [ho]; exact h4, by rw [hp]; exact h5⟩
    rw [hs.objs r h1 h2, ho, h3]

/-- the same decision, and states that correspond -/
theorem resolve_sim (hTy : Types tds) (hiso : Iso mem mem' tds root pl) (hT : Twin st st') {data data' : Nat} {fd : Fd} {count p k k' : Nat} {o o' : Obj}
    (C : Call mem tds U root st ks obj O S data fd count p k o) (C' : Call mem' tds U' (moved root (pl root)) st' ks' obj' O' S' data' fd count p k' o')
    (hsz : (obj p).ty = .pointer → fd.size ≠ 0 ∧ plain o.ty = true ∨ neverEqual o.ty = true) (content content' : St → Nat → Option (St × Nat)) {s s' : St} {b b' : Bool} {n n' : Nat}
    (h : resolveMatched tds content st ⟨data, fd, fd.size * count, p⟩ (st.ptrs.ra.length + 1) (st.index (data / 4)) = some (s, b, n))
    (h' : resolveMatched tds content' st' ⟨data', fd, fd.size * count, p⟩ (st'.ptrs.ra.length + 1) (st'.index (data' / 4)) = some (s', b', n')) :
    b' = b ∧ Twin s s' := by
  have hs := same_st hiso hT C.inv C'.inv
  obtain ⟨_, hro, ho⟩ := same_call hiso hT C C'
  have hp := hs.objs p C.p1 C.p2
  have haddr : o.addr = data := by rw [← C.ofd]; exact object_addr _ _ _ _ _ _
  have haddr' : o'.addr = data' := by rw [← C'.ofd]; exact object_addr _ _ _ _ _ _
  obtain ⟨b1, b2, b3⟩ := C.inv.inv.bhead (data / 4)
  obtain ⟨c1, c2, c3⟩ := C'.inv.inv.bhead (data' / 4)
  have key := resolve_char hTy C hsz content (st.ptrs.ra.length + 1) (st.index (data / 4)) (by omega) b1 b2 (by
    intro i h1 hi
    have := b3 i h1 hi.2.1
    rw [hi.2.2.1, haddr] at this
    exact absurd rfl this)
  have key' := resolve_char hTy C' (by rw [hp, ho]; exact hsz) content' (st'.ptrs.ra.length + 1) (st'.index (data' / 4)) (by omega) c1 c2 (by
    intro i h1 hi
    have := c3 i h1 hi.2.1
    rw [hi.2.2.1, haddr'] at this
    exact absurd rfl this)
  rw [h] at key
  rw [h'] at key'
  rcases key with ⟨e1, e2⟩ | ⟨r, e1, e2, e3⟩
  · rcases key' with ⟨f1, f2⟩ | ⟨r', f1, _⟩
    · cases e1; cases f1
      exact ⟨rfl, hT⟩
    · exact absurd ((hit_iff hiso hT C C' r').1 f1) (e2 r')
  · rcases key' with ⟨f1, f2⟩ | ⟨r', f1, f2, f3⟩
    · exact absurd ((hit_iff hiso hT C C' r).2 e1) (f2 r)
    · have hr : r' = r := by
        apply Classical.byContradiction
        intro hne
        rcases Nat.lt_or_gt_of_ne hne with hl | hl
        · exact f2 r hl ((hit_iff hiso hT C C' r).2 e1)
        · exact e2 r' hl ((hit_iff hiso hT C C' r').1 f1)
      subst hr
      unfold Act at e3 f3
      simp only [hp] at f3
      rw [show (moved (obj p) (pl (obj p))).ty = (obj p).ty from rfl] at f3
      by_cases hpl : ptrLike (obj p).ty = true
      · rw [if_pos hpl] at e3 f3
        obtain ⟨t, g1, g2⟩ := e3
        obtain ⟨t', g1', g2'⟩ := f3
        cases g2; cases g2'
        exact ⟨rfl, setReference_twin hT g1 g1'⟩
      · rw [if_neg hpl] at e3 f3
        obtain ⟨t, m, g1, g2⟩ := e3
        obtain ⟨t', m', g1', g2'⟩ := f3
        cases g2; cases g2'
        rw [hT.ptrs] at g1'
        exact ⟨rfl, moveNodes_twin (cur := ⟨data, fd, fd.size * count, p⟩) (cur' := ⟨data', fd, fd.size * count, p⟩) ⟨rfl, rfl, rfl⟩ hT g1 g1'⟩

end Verif.Lemmas.SimResolve
