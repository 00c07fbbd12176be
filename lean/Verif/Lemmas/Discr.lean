import Verif.Lemmas.DiscrFlags
/-!
# Lemmas about what a discriminator selects
-/
namespace Verif.Lemmas.Discr
open Verif.Model.Discr Verif.Spec.Discr Verif.Lemmas.DiscrFlags

variable {tds : List Td} {fl : List Flags} {M : Mem} {U : Un}

/-- the member selected by the program, with its conversions -/
def chosen (U : Un) : Scalar → Option Nat
  | .nothing => dflt U
  | .number v => byValue U v
  | .enum v s => match override U v with
    | some m => some m
    | none => byName U s
  | .text s => byName U s

/-- the loop ends with `m` -/
def Runs (tds : List Td) (fl : List Flags) (M : Mem) (U : Un) (c : Cur) (m : Option Nat) : Prop := ∃ n, ∀ fuel, n ≤ fuel → loop tds fl M U fuel c = some m

theorem runs_done {c : Cur} {m : Option Nat} (h : step tds fl M U c = some (.done m)) : Runs tds fl M U c m := by
  refine ⟨1, fun fuel hf => ?_⟩
  obtain ⟨fuel, rfl⟩ : ∃ k, fuel = k + 1 := ⟨fuel - 1, by omega⟩
  simp [loop, h]

theorem runs_none {c c' : Cur} (h : step tds fl M U c = some (.go c')) (h' : c'.ty = .none) : Runs tds fl M U c (dflt U) := by
  refine ⟨1, fun fuel hf => ?_⟩
  obtain ⟨fuel, rfl⟩ : ∃ k, fuel = k + 1 := ⟨fuel - 1, by omega⟩
  simp [loop, h, h']

theorem runs_go {c c' : Cur} {m : Option Nat} (h : step tds fl M U c = some (.go c')) (h' : Runs tds fl M U c' m) : Runs tds fl M U c m := by
  obtain ⟨n, hn⟩ := h'
  refine ⟨n + 1, fun fuel hf => ?_⟩
  obtain ⟨fuel, rfl⟩ : ∃ k, fuel = k + 1 := ⟨fuel - 1, by omega⟩
  have := hn fuel (by omega)
  by_cases hc : c'.ty = .none
  · simp only [loop, h, hc, bind, Option.bind, if_true]
    cases fuel with
    | zero => simp [loop] at this
    | succ fuel =>
      have hs : step tds fl M U c' = some (.go { c' with ty := .none }) := by
        unfold step; rw [hc]
      simp [loop, hs] at this
      rw [this]
  · simp [loop, h, hc, this]

theorem runs_same {c c' : Cur} {m : Option Nat} (h : step tds fl M U c = step tds fl M U c') (h' : Runs tds fl M U c' m) : Runs tds fl M U c m := by
  obtain ⟨n, hn⟩ := h'
  refine ⟨n + 1, fun fuel hf => ?_⟩
  have := hn fuel (by omega)
  cases fuel with
  | zero => omega
  | succ fuel =>
    rw [loop, h]
    rw [loop] at this
    exact this

/-- the variables `ty` and `fd` stand for the object -/
def Rep (tds : List Td) (ty : Ty) (fd : Fd) (o : Obj) : Prop :=
  (FdOk tds fd ∧ ty = fd.type ∧ o = shape fd) ∨
  ((∀ t, fd.tdp = some t → t < tds.length) ∧ o = .base ty fd.tdp ∧ ty ≠ .array ∧ ty ≠ .pointer ∧ ty ≠ .bitfield ∧ (ty = .void → fd.aux = .void))

/-- the variables stand for an object of a type: directly, or the field is not to be saved -/
theorem rep_base {ty : Ty} {fd : Fd} {t : Ty} {tdp : Option Nat} (h : Rep tds ty fd (.base t tdp)) (a : Nat) {m : Option Nat}
    (h1 : t ≠ .array → t ≠ .pointer → t ≠ .bitfield → (t = .void → fd.aux = .void) → fd.tdp = tdp → (∀ u, tdp = some u → u < tds.length) → Runs tds fl M U { ty := t, fd := fd, a := a } m) :
    Runs tds fl M U { ty := ty, fd := fd, a := a } m := by
  rcases h with ⟨hok, rfl, ho⟩ | ⟨h2, ho, h3, h4, h5, h6⟩
  · unfold shape at ho
    split at ho
    · split at ho <;> cases ho
    · split at ho <;> cases ho
    · cases ho
    · rename_i hty
      split at ho
      · cases ho
      · rename_i hn
        split at ho
        · cases ho
        · rename_i hb
          cases ho
          have hn' : fd.aux ≠ .void ∧ fd.aux ≠ .array ∧ fd.aux ≠ .pointer := ⟨fun h => hn (.inl h), fun h => hn (.inr (.inl h)), fun h => hn (.inr (.inr h))⟩
          refine runs_go (c' := { ty := fd.aux, fd := fd, a := a }) ?_ (h1 hn'.2.1 hn'.2.2 hb (fun h => absurd h hn'.1) rfl hok.tdp)
          unfold step
          rw [hty]
          simp only [if_neg hn]
    · rename_i n1 n2 n3 n4
      cases ho
      exact h1 (fun h => n2 h) (fun h => n1 h) (fun h => n3 h) (fun h => absurd h n4) rfl hok.tdp
  · cases ho
    exact h1 h3 h4 h5 h6 rfl h2

theorem chosen_bits {f : Fd} {a : Nat} (htdp : ∀ t, f.tdp = some t → t < tds.length) : bitsStep tds M U f a = some (.done (chosen U (bitsValue tds M f a))) := by
  unfold bitsStep bitsValue
  cases h : f.tdp with
  | none => simp [chosen]
  | some t =>
    obtain ⟨d, ht⟩ : ∃ d, tds[t]? = some d := ⟨_, List.getElem?_eq_getElem (htdp t h)⟩
    simp only [ht, bind, Option.bind]
    by_cases he : d.type = .enum
    · simp only [he, if_true, chosen, byEnum]
      cases override U (M.bits f a) <;> rfl
    · simp [he, chosen]

theorem runs_bits {f : Fd} {a : Nat} (htdp : ∀ t, f.tdp = some t → t < tds.length) : Runs tds fl M U { ty := .bitfield, fd := f, a := a } (chosen U (bitsValue tds M f a)) :=
  runs_done (by simpa [step] using chosen_bits htdp)

theorem shape_elem {f : Fd} (hok : FdOk tds f) (hty : f.type = .pointer ∨ f.type = .array) (h : f.aux ≠ .pointer) : Rep tds f.aux f (.base f.aux f.tdp) :=
  .inr ⟨hok.tdp, rfl, (hok.aux hty).1, h, (hok.aux hty).2, fun h => h⟩

theorem ptrFd_rep {f : Fd} (hok : FdOk tds f) (hty : f.type = .pointer ∨ f.type = .array) (h : f.aux = .pointer) : FdOk tds (ptrFd f) ∧ Rep tds .pointer (ptrFd f) (.ptr (.base f.base f.tdp)) := by
  obtain ⟨h1, h2, h3⟩ := hok.base hty h
  have : FdOk tds (ptrFd f) := ⟨hok.tdp, fun _ => ⟨h1, h2⟩, fun _ h => absurd h h3⟩
  refine ⟨this, .inl ⟨this, by simp [ptrFd, h], ?_⟩⟩
  simp [shape, ptrFd, h, h3]

/-- the program computes the value of the discriminator -/
theorem denotes_runs (hV : Valid tds) (hfl : ∀ (t : Nat), t < tds.length → ∃ f, fl[t]? = some f ∧ (f.ud = true ↔ Ends tds t)) {o : Obj} {a : Nat} {r : Scalar} (h : Denotes tds M o a r) :
    ∀ ty fd, Rep tds ty fd o → Runs tds fl M U { ty := ty, fd := fd, a := a } (chosen U r) := by
  induction h with
  | @«opaque» a =>
    intro ty fd hr
    rcases hr with ⟨hok, rfl, ho⟩ | ⟨_, ho, _⟩
    · unfold shape at ho
      split at ho
      · split at ho <;> cases ho
      · split at ho <;> cases ho
      · cases ho
      · rename_i hty
        split at ho
        · rename_i hn
          refine runs_none (c' := { ty := .none, fd := fd, a := a }) ?_ rfl
          unfold step
          rw [hty]
          simp only [if_pos hn]
        · split at ho <;> cases ho
      · cases ho
    · cases ho
  | bits =>
    intro ty fd hr
    rcases hr with ⟨hok, rfl, ho⟩ | ⟨_, ho, _⟩
    · unfold shape at ho
      split at ho
      · split at ho <;> cases ho
      · split at ho <;> cases ho
      · rename_i hty
        cases ho
        rw [hty]
        exact runs_bits hok.tdp
      · rename_i hty
        split at ho
        · cases ho
        · rename_i hn
          split at ho
          · rename_i hb
            cases ho
            refine runs_go (c' := { ty := .bitfield, fd := _, a := _ }) ?_ (runs_bits hok.tdp)
            unfold step
            rw [hty]
            simp only [if_neg hn]
            rw [hb]
          · cases ho
      · cases ho
    · cases ho
  | @plain t tdp a hne =>
    intro ty fd hr
    refine rep_base hr _ ?_
    intro h1 h2 h3 h4 h5 h6
    subst h5
    cases t with
    | array => exact absurd rfl h1
    | pointer => exact absurd rfl h2
    | bitfield => exact absurd rfl h3
    | struct => exact absurd rfl hne
    | void =>
      refine runs_none (c' := { ty := .none, fd := fd, a := a }) ?_ rfl
      simp [step, h4 rfl]
    | none => exact runs_none (c' := { ty := .none, fd := fd, a := a }) (by simp [step]) rfl
    | char => exact runs_none (c' := { ty := .none, fd := fd, a := a }) (by simp [step]) rfl
    | other => exact runs_none (c' := { ty := .none, fd := fd, a := a }) (by simp [step]) rfl
    | bool => exact runs_done (by simp [step, plain, chosen])
    | int s b => exact runs_done (by simp [step, plain, chosen])
    | charArray => exact runs_done (by simp [step, plain, chosen])
    | string => exact runs_done (by simp [step, plain, chosen])
    | enum =>
      refine runs_done ?_
      cases ht : fd.tdp with
      | none => simp [step, enumStep, plain, chosen, ht]
      | some t =>
        obtain ⟨d, hg⟩ : ∃ d, tds[t]? = some d := ⟨_, List.getElem?_eq_getElem (h6 t ht)⟩
        simp only [step, enumStep, plain, chosen, ht, hg, byEnum, bind, Option.bind]
        cases override U (M.enum t a) <;> rfl
  | @null o a h0 =>
    intro ty fd hr
    rcases hr with ⟨hok, rfl, ho⟩ | ⟨_, ho, _⟩
    · unfold shape at ho
      split at ho
      · rename_i hty
        rw [hty]
        exact runs_done (by simp [step, pointerStep, h0, chosen])
      · split at ho <;> cases ho
      · cases ho
      · split at ho
        · cases ho
        · split at ho <;> cases ho
      · cases ho
    · cases ho
  | @target o a r h0 _ ih =>
    intro ty fd hr
    rcases hr with ⟨hok, rfl, ho⟩ | ⟨_, ho, _⟩
    · unfold shape at ho
      split at ho
      · rename_i hty
        rw [hty]
        by_cases hp : fd.aux = .pointer
        · rw [if_pos hp] at ho
          cases ho
          exact runs_go (c' := { ty := .pointer, fd := ptrFd fd, a := M.ptr a }) (by simp [step, pointerStep, h0, hp]) (ih _ _ (ptrFd_rep hok (.inl hty) hp).2)
        · rw [if_neg hp] at ho
          cases ho
          exact runs_go (c' := { ty := fd.aux, fd := fd, a := M.ptr a }) (by simp [step, pointerStep, h0, hp]) (ih _ _ (shape_elem hok (.inl hty) hp))
      · split at ho <;> cases ho
      · cases ho
      · split at ho
        · cases ho
        · split at ho <;> cases ho
      · cases ho
    · cases ho
  | @element o a r _ ih =>
    intro ty fd hr
    rcases hr with ⟨hok, rfl, ho⟩ | ⟨_, ho, _⟩
    · unfold shape at ho
      split at ho
      · split at ho <;> cases ho
      · rename_i hty
        rw [hty]
        by_cases hp : fd.aux = .pointer
        · rw [if_pos hp] at ho
          cases ho
          exact runs_same (c' := { ty := .pointer, fd := ptrFd fd, a := a }) (by simp [step, hp]) (ih _ _ (ptrFd_rep hok (.inr hty) hp).2)
        · rw [if_neg hp] at ho
          cases ho
          exact runs_go (c' := { ty := fd.aux, fd := fd, a := a }) (by simp [step, hp]) (ih _ _ (shape_elem hok (.inr hty) hp))
      · cases ho
      · split at ho
        · cases ho
        · split at ho <;> cases ho
      · cases ho
    · cases ho
  | @first t a d f r he hd hf _ ih =>
    intro ty fd hr
    refine rep_base hr _ ?_
    intro _ _ _ _ h5 h6
    obtain ⟨g, hg, hgu⟩ := hfl t (h6 t rfl)
    have hgu := hgu.2 he
    refine runs_go (c' := { ty := f.type, fd := f, a := a + f.offset }) (by simp [step, structStep, h5, hd, hg, hf, hgu]) (ih _ _ (.inl ⟨?_, rfl, rfl⟩))
    exact hV d (List.mem_of_getElem? hd) f (first_mem hf)
  | @empty t a d hd hf =>
    intro ty fd hr
    refine rep_base hr _ ?_
    intro _ _ _ _ h5 h6
    obtain ⟨g, hg, _⟩ := hfl t (h6 t rfl)
    exact runs_none (c' := { ty := .none, fd := fd, a := a }) (by simp [step, structStep, h5, hd, hg, hf]) rfl
  | @endless t a hn =>
    intro ty fd hr
    refine rep_base hr _ ?_
    intro _ _ _ _ h5 h6
    obtain ⟨g, hg, hgu⟩ := hfl t (h6 t rfl)
    obtain ⟨d, hd⟩ : ∃ d, tds[t]? = some d := ⟨_, List.getElem?_eq_getElem (h6 t rfl)⟩
    have hgu : g.ud = false := by
      cases h : g.ud with
      | false => rfl
      | true => exact absurd (hgu.1 h) hn
    exact runs_none (c' := { ty := .none, fd := fd, a := a }) (by simp [step, structStep, h5, hd, hg, hgu]) rfl
  | @untyped a =>
    intro ty fd hr
    refine rep_base hr _ ?_
    intro _ _ _ _ h5 _
    exact runs_none (c' := { ty := .none, fd := fd, a := a }) (by simp [step, structStep, h5]) rfl

theorem total_shape {f : Fd} (hb : ∀ t a, ∃ r, Denotes tds M (.base t f.tdp) a r) (a : Nat) : ∃ r, Denotes tds M (shape f) a r := by
  have hp : ∀ t a, ∃ r, Denotes tds M (.ptr (.base t f.tdp)) a r := by
    intro t a
    by_cases h : M.ptr a = 0
    · exact ⟨_, .null h⟩
    · obtain ⟨r, hr⟩ := hb t (M.ptr a)
      exact ⟨r, .target h hr⟩
  unfold shape
  split
  · split
    · by_cases h : M.ptr a = 0
      · exact ⟨_, .null h⟩
      · obtain ⟨r, hr⟩ := hp f.base (M.ptr a)
        exact ⟨r, .target h hr⟩
    · exact hp _ a
  · split
    · obtain ⟨r, hr⟩ := hp f.base a
      exact ⟨r, .element hr⟩
    · obtain ⟨r, hr⟩ := hb f.aux a
      exact ⟨r, .element hr⟩
  · exact ⟨_, .bits⟩
  · split
    · exact ⟨_, .opaque⟩
    · split
      · exact ⟨_, .bits⟩
      · exact hb _ a
  · exact hb _ a

theorem total_struct {t : Nat} (h : Ends tds t) : ∀ a, ∃ r, Denotes tds M (.base .struct (some t)) a r := by
  induction h with
  | here hd hf _ => exact fun a => ⟨_, .empty hd hf⟩
  | @next t u d f hd hf hu he ih =>
    intro a
    obtain ⟨r, hr⟩ := total_shape (f := f) (M := M) (by
      intro ty b
      rw [hu]
      by_cases h : ty = .struct
      · rw [h]; exact ih b
      · exact ⟨_, .plain h⟩) (a + f.offset)
    exact ⟨r, .first (.next hd hf hu he) hd hf hr⟩

/-- every discriminator has a value -/
theorem total (f : Fd) (a : Nat) : ∃ r, Denotes tds M (shape f) a r := by
  refine total_shape (fun t b => ?_) a
  by_cases h : t = .struct
  · subst h
    cases hu : f.tdp with
    | none => exact ⟨_, .untyped⟩
    | some u =>
      by_cases he : Ends tds u
      · exact total_struct he b
      · exact ⟨_, .endless he⟩
  · exact ⟨_, .plain h⟩

theorem dflt_eq (U : Un) : dflt U = if U.members = [] then none else some 0 := by
  unfold dflt
  cases U.members <;> simp

theorem byName_eq (U : Un) (s : Option String) : byName U s = orFirst U (s.bind fun s => if s = "" then none else U.members.findIdx? fun m => m == s) := by
  cases s with
  | none => simp [byName, orFirst, dflt_eq]
  | some s =>
    by_cases h : s = ""
    · simp [byName, orFirst, dflt_eq, h]
    · simp [byName, orFirst, dflt_eq, h]

theorem wrap_eq {n : Nat} {v : Int} (hn : 0 < n) (h1 : -2 ^ (n - 1) ≤ v) (h2 : v < 2 ^ (n - 1)) : wrap n v = v := by
  unfold wrap
  have : (2 : Int) ^ n = 2 * 2 ^ (n - 1) := by
    obtain ⟨k, rfl⟩ : ∃ k, n = k + 1 := ⟨n - 1, by omega⟩
    simp [Int.pow_succ, Int.mul_comm]
  rw [Int.emod_eq_of_lt (by omega) (by omega)]
  omega

theorem given_eq {U : Un} {v : Int} (h1 : -2 ^ 63 ≤ v) (h2 : v < 2 ^ 63) : override U v = Given U v := by
  unfold override Given
  rw [wrap_eq (by omega) h1 h2]

theorem byIdx_eq {U : Un} {v : Int} (hn : U.members.length < 2 ^ 31) (h1 : -2 ^ 31 ≤ v) (h2 : v < 2 ^ 32) : byIdx U (wrap 32 v) = orFirst U (if 0 ≤ v ∧ v < U.members.length then some v.toNat else none) := by
  by_cases hv : v < 2 ^ 31
  · rw [wrap_eq (n := 32) (by omega) h1 hv]
    unfold byIdx
    by_cases h : 0 ≤ v ∧ v < U.members.length
    · rw [if_neg (by omega), if_pos h, if_pos (by omega)]
      rfl
    · rw [if_pos (by omega), if_neg h]
      simp [orFirst, dflt_eq]
  · have hw : wrap 32 v < 0 := by
      unfold wrap
      omega
    unfold byIdx
    rw [if_pos (.inl hw), if_neg (by omega)]
    simp [orFirst, dflt_eq]

theorem chosen_member {U : Un} (hn : U.members.length < 2 ^ 31) {r : Scalar} (h : Fits r) : chosen U r = member U r := by
  cases r with
  | nothing => simp [chosen, member, orFirst, dflt_eq]
  | number v =>
    obtain ⟨h1, h2⟩ := h
    simp only [chosen, member, byValue]
    rw [given_eq (by omega) (by omega), byIdx_eq hn h1 h2]
    cases Given U v <;> rfl
  | enum v s =>
    obtain ⟨h1, h2⟩ := h
    simp only [chosen, member]
    rw [given_eq h1 h2, byName_eq]
    cases Given U v <;> rfl
  | text s => simp [chosen, member, byName_eq]

theorem denotes_det {o : Obj} {a : Nat} {r r' : Scalar} (h : Denotes tds M o a r) (h' : Denotes tds M o a r') : r = r' := by
  induction h generalizing r' with
  | «opaque» => cases h'; rfl
  | bits => cases h'; rfl
  | plain hne =>
    cases h' with
    | plain => rfl
    | first => exact absurd rfl hne
    | empty => exact absurd rfl hne
    | endless => exact absurd rfl hne
    | untyped => exact absurd rfl hne
  | null h =>
    cases h' with
    | null => rfl
    | target h2 => exact absurd h h2
  | target h _ ih =>
    cases h' with
    | null h2 => exact absurd h2 h
    | target _ h2 => exact ih h2
  | element _ ih =>
    cases h' with
    | element h2 => exact ih h2
  | first he hd hf _ ih =>
    cases h' with
    | plain h => exact absurd rfl h
    | first _ hd' hf' h2 =>
      rw [hd] at hd'; cases hd'
      rw [hf] at hf'; cases hf'
      exact ih h2
    | empty hd' hf' =>
      rw [hd] at hd'; cases hd'
      rw [hf] at hf'; cases hf'
    | endless h => exact absurd he h
  | empty hd hf =>
    cases h' with
    | plain h => exact absurd rfl h
    | first _ hd' hf' =>
      rw [hd] at hd'; cases hd'
      rw [hf] at hf'; cases hf'
    | empty => rfl
    | endless => rfl
  | endless hn =>
    cases h' with
    | plain h => exact absurd rfl h
    | first he => exact absurd he hn
    | empty => rfl
    | endless => rfl
  | untyped =>
    cases h' with
    | plain h => exact absurd rfl h
    | untyped => rfl

end Verif.Lemmas.Discr
