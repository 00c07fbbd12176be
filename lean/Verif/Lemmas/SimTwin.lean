import Verif.Lemmas.SaveGraph
import Verif.Spec.Copy
/-!
Two states of `mr_save` that differ in the addresses only.
-/
namespace Verif.Lemmas.SimTwin
open Verif.Model Verif.Model.Ptrs Verif.Model.Save Verif.Spec.Ptrs Verif.Spec.Save Verif.Lemmas.SaveTree Verif.Lemmas.SaveInv

/-- a node without its address and its place in the index -/
def core (x : Info) : Info := { x with addr := 0, nextUntyped := 0 }

structure Twin (s t : St) : Prop where
  ptrs : t.ptrs = s.ptrs
  info : t.info.map core = s.info.map core

variable {s t : St}

theorem core_some {l l' : List Info} (h : l'.map core = l.map core) {i : Nat} {x : Info} (hx : l[i]? = some x) : ∃ y, l'[i]? = some y ∧ core y = core x := by
  have : (l'.map core)[i]? = some (core x) := by rw [h, List.getElem?_map, hx]; rfl
  rw [List.getElem?_map] at this
  cases hy : l'[i]? with
  | none => rw [hy] at this; cases this
  | some y =>
    rw [hy] at this
    exact ⟨y, rfl, Option.some.inj this⟩

theorem Twin.get (h : Twin s t) {i : Nat} {x : Info} (hx : s.info[i]? = some x) : ∃ y, t.info[i]? = some y ∧ core y = core x := core_some h.info hx

theorem Twin.len (h : Twin s t) : t.info.length = s.info.length := by
  have := congrArg List.length h.info
  simpa using this

theorem Twin.ni (h : Twin s t) (i : Nat) : core (ni t.info i) = core (ni s.info i) := by
  unfold SaveInv.ni
  cases hx : s.info[i]? with
  | none =>
    have : t.info[i]? = none := by
      rw [List.getElem?_eq_none_iff] at hx ⊢
      rw [h.len]; exact hx
    rw [this]
  | some x =>
    obtain ⟨y, hy, he⟩ := h.get hx
    rw [hy]; exact he

theorem core_eq {x y : Info} (h : core y = core x) : y.fd = x.fd ∧ y.aux = x.aux ∧ y.size = x.size ∧ y.unnamed = x.unnamed ∧ y.null = x.null ∧ y.opq = x.opq := by
  unfold core at h
  injection h with h1 h2 h3 h4 h5 h6 h7 h8
  exact ⟨h2, h3, h4, h5, h6, h7⟩

/-- functions that do not look at the address -/
def Blind (f : Info → Info) : Prop := ∀ x y, core y = core x → core (f y) = core (f x)

theorem updInfo_twin (h : Twin s t) {i : Nat} {f : Info → Info} (hf : Blind f) {s' t' : St} (h1 : updInfo s i f = some s') (h2 : updInfo t i f = some t') : Twin s' t' := by
  unfold updInfo at h1 h2
  cases hx : s.info[i]? with
  | none => simp [hx] at h1
  | some x =>
    obtain ⟨y, hy, he⟩ := h.get hx
    have hi := (List.getElem?_eq_some_iff.1 hx).1
    have hi' := (List.getElem?_eq_some_iff.1 hy).1
    simp [hx, wr, hi] at h1
    simp [hy, wr, hi'] at h2
    subst h1 h2
    refine ⟨h.ptrs, ?_⟩
    simp only [List.map_set, h.info]
    rw [hf s.info[i] t.info[i] (by
      rw [(List.getElem?_eq_some_iff.1 hx).2, (List.getElem?_eq_some_iff.1 hy).2]; exact he)]

theorem updPd_twin (h : Twin s t) {i : Nat} {f : Pd → Pd} {s' t' : St} (h1 : updPd s i f = some s') (h2 : updPd t i f = some t') : Twin s' t' := by
  unfold updPd at h1 h2
  rw [h.ptrs] at h2
  cases hu : upd s.ptrs.ra i f with
  | none => simp [hu] at h1
  | some ra =>
    simp [hu] at h1 h2
    subst h1 h2
    exact ⟨rfl, h.info⟩

theorem link_twin (h : Twin s t) {p c : Nat} {s' t' : St} (h1 : link s p c = some s') (h2 : link t p c = some t') : Twin s' t' := by
  unfold link at h1 h2
  rw [h.ptrs] at h2
  cases hu : addChild s.ptrs p c with
  | none => simp [hu] at h1
  | some q =>
    simp [hu] at h1 h2
    subst h1 h2
    exact ⟨rfl, h.info⟩

theorem setReference_twin (h : Twin s t) {p r : Nat} {s' t' : St} (h1 : setReference s p r = some s') (h2 : setReference t p r = some t') : Twin s' t' := by
  unfold setReference at h1 h2
  simp only [Option.bind_eq_bind, Option.bind_eq_some_iff] at h1 h2
  obtain ⟨a, ha, h1⟩ := h1
  obtain ⟨b, hb, h2⟩ := h2
  exact updPd_twin (updPd_twin h ha hb) h1 h2

theorem persistentAncestor_twin (h : Twin s t) (fuel : Nat) : ∀ i, persistentAncestor fuel t i = persistentAncestor fuel s i := by
  induction fuel with
  | zero => intro i; rfl
  | succ fuel ih =>
    intro i
    rw [persistentAncestor, persistentAncestor]
    by_cases h0 : i = 0
    · rw [if_pos h0, if_pos h0]
    · rw [if_neg h0, if_neg h0, h.ptrs]
      cases hx : s.info[i]? with
      | none =>
        have : t.info[i]? = none := by
          rw [List.getElem?_eq_none_iff] at hx ⊢
          rw [h.len]; exact hx
        rw [this]; rfl
      | some x =>
        obtain ⟨y, hy, he⟩ := h.get hx
        rw [hy]
        simp only [Option.bind_eq_bind, Option.bind_some, (core_eq he).1, ih]

theorem persistentFd_twin (h : Twin s t) (tds : List Td) (fd : Fd) (p : Nat) : persistentFd tds t fd p = persistentFd tds s fd p := by
  unfold persistentFd
  rw [h.ptrs, persistentAncestor_twin h]

theorem moveLoop_twin {tds : List Td} {cur cur' : Cur} (hc : cur'.fd = cur.fd ∧ cur'.size = cur.size ∧ cur'.parent = cur.parent) (fuel : Nat) :
    ∀ {s t : St} {r c : Nat} {a b : St × Nat}, Twin s t → moveLoop tds cur fuel s r c = some a → moveLoop tds cur' fuel t r c = some b → Twin a.1 b.1 := by
  obtain ⟨c1, c2, c3⟩ := hc
  induction fuel with
  | zero => intro s t r c a b _ h1; cases h1
  | succ fuel ih =>
    intro s t r c a b h h1 h2
    rw [moveLoop] at h1 h2
    by_cases h0 : r = 0
    · rw [if_pos h0] at h1 h2
      cases h1; cases h2
      exact h
    · rw [if_neg h0] at h1 h2
      rw [h.ptrs, persistentFd_twin h, c1, c2, c3] at h2
      simp only [Option.bind_eq_bind, Option.bind_eq_some_iff] at h1 h2
      obtain ⟨pd, e1, fd, e2, s1, e3, s2, e4, s3, e5, e6⟩ := h1
      obtain ⟨pd', f1, fd', f2, t1, f3, t2, f4, t3, f5, f6⟩ := h2
      rw [e1] at f1
      cases f1
      rw [e2] at f2
      cases f2
      exact ih (link_twin (updPd_twin (updInfo_twin h (fun x y hxy => by
        simp only [core]
        obtain ⟨g1, g2, g3, g4, g5, g6⟩ := core_eq hxy
        simp [g5, g6]) e3 f3) e4 f4) e5 f5) e6 f6

theorem moveNodes_twin {tds : List Td} {cur cur' : Cur} (hc : cur'.fd = cur.fd ∧ cur'.size = cur.size ∧ cur'.parent = cur.parent) (h : Twin s t) {q : Nat} {a b : St × Nat}
    (h1 : moveNodes tds s cur q = some a) (h2 : moveNodes tds t cur' q = some b) : Twin a.1 b.1 := by
  unfold moveNodes at h1 h2
  rw [h.ptrs] at h2
  simp only [Option.bind_eq_bind, Option.bind_eq_some_iff] at h1 h2
  obtain ⟨pd, e1, s1, e2, e3⟩ := h1
  obtain ⟨pd', f1, t1, f2, f3⟩ := h2
  rw [e1] at f1
  cases f1
  have h' := setReference_twin h e2 f2
  rw [h'.ptrs] at f3
  exact moveLoop_twin hc _ h' e3 f3

theorem newNode_twin (h : Twin s t) {cur cur' : Cur} (hc : cur'.fd = cur.fd ∧ cur'.size = cur.size ∧ cur'.parent = cur.parent) : Twin (newNode s cur) (newNode t cur') := by
  obtain ⟨c1, c2, c3⟩ := hc
  unfold newNode
  constructor
  · simp only [h.ptrs, c1, c3]
  · simp only [List.map_append, h.info, List.map_cons, List.map_nil, c1, c2]
    rfl

theorem movable_twin (h : Twin s t) {cur cur' : Cur} (hc : cur'.size = cur.size ∧ cur'.parent = cur.parent) (r : Nat) :
    movable t cur' r (nd t.ptrs.ra r) (ni t.info r) = movable s cur r (nd s.ptrs.ra r) (ni s.info r) := by
  unfold movable
  rw [h.ptrs, hc.1, hc.2, (core_eq (h.ni r)).2.2.1]

end Verif.Lemmas.SimTwin
