import Verif.Model.Init

/-
C39: initialisation runs once under concurrency.
-/
namespace Verif.Props.Init
open Verif.Model.Init

/-- The stores of the initialising thread, in order. -/
def stores (tables : Nat) : List Var := (List.range tables).map Var.table ++ [.initialized]

theorem stores_length (n : Nat) : (stores n).length = n + 1 := by simp [stores]

theorem stores_table {n k : Nat} (h : k < n) : (stores n)[k]? = some (.table k) := by
  simp [stores, List.getElem?_append, h]

theorem stores_last (n : Nat) : (stores n)[n]? = some .initialized := by
  simp [stores, List.getElem?_append]

theorem stores_nodup (n : Nat) : (stores n).Nodup := by
  unfold stores
  rw [List.nodup_append]
  refine ⟨?_, by simp, ?_⟩
  · rw [List.nodup_iff_pairwise_ne, List.pairwise_map]
    refine List.Pairwise.imp ?_ List.nodup_range
    intro a b h e
    cases e
    exact h rfl
  · intro a ha b hb
    simp at ha hb
    obtain ⟨k, _, rfl⟩ := ha
    subst hb
    simp

/-- Nobody has passed the test-and-set. -/
structure Before (s : St) : Prop where
  mem : ∀ v, s.mem v = false
  buf : ∀ t, s.buf t = []
  pc : ∀ t, s.pc t = .outside ∨ s.pc t = .check ∨ s.pc t = .testAndSet
  built : s.built = []

/-- Thread `b` has issued `j` of its stores, `f` of them have reached the memory. -/
structure After (n : Nat) (s : St) (b j f : Nat) : Prop where
  fj : f ≤ j
  jn : j ≤ n + 1
  mem : ∀ v, s.mem v = true ↔ v = .initInProgress ∨ v ∈ (stores n).take f
  bufb : s.buf b = ((stores n).take j).drop f
  bufo : ∀ t, t ≠ b → s.buf t = []
  pcb : j ≤ n → s.pc b = .build j
  pcb' : j = n + 1 → s.pc b = .spin ∨ s.pc b = .returned ∨ s.pc b = .check
  pco : ∀ t, t ≠ b → ∀ k, s.pc t ≠ .build k
  ret : ∀ t, t ≠ b → s.pc t = .returned → f = n + 1
  built : s.built = (List.range (min j n)).map fun k => (b, k)

def Inv (n : Nat) (s : St) : Prop := Before s ∨ ∃ b j f, After n s b j f

theorem put_self {α : Type} (f : Nat → α) (t : Nat) (x : α) : put f t x t = x := by simp [put]

theorem put_other {α : Type} (f : Nat → α) {t u : Nat} (x : α) (h : u ≠ t) : put f t x u = f u := by
  simp [put, h]

theorem load_other {n : Nat} {s : St} {b j f : Nat} (h : After n s b j f) {t : Nat} (ht : t ≠ b) (v : Var) :
    load s t v = s.mem v := by
  simp [load, h.bufo t ht]

theorem mem_initialized {n : Nat} {s : St} {b j f : Nat} (h : After n s b j f) :
    s.mem .initialized = true ↔ f = n + 1 := by
  rw [h.mem]
  constructor
  · rintro (e | e)
    · simp at e
    · have hf := h.fj
      have hj := h.jn
      rcases Nat.lt_or_ge f (n + 1) with hlt | hge
      · exfalso
        have : (stores n).take f = ((List.range n).map Var.table).take f := by
          unfold stores
          rw [List.take_append_of_le_length (by simp; omega)]
        rw [this] at e
        have := List.mem_of_mem_take e
        simp at this
      · omega
  · intro e
    right
    rw [e, List.take_of_length_le (by rw [stores_length]; omega)]
    simp [stores]

theorem load_builder {n : Nat} {s : St} {b j f : Nat} (h : After n s b j f) (hj : j = n + 1) (v : Var)
    (hv : v ∈ stores n) : load s b v = true := by
  unfold load
  split
  · rfl
  · rename_i hn
    rw [h.bufb, hj, List.take_of_length_le (by rw [stores_length]; omega)] at hn
    rw [h.mem]
    right
    rw [← List.take_append_drop f (stores n)] at hv
    rcases List.mem_append.1 hv with hv | hv
    · exact hv
    · exact absurd hv hn

theorem init_mem_stores (n : Nat) : Var.initialized ∈ stores n := by simp [stores]

theorem inv_start (n : Nat) : Inv n start :=
  Or.inl ⟨fun _ => rfl, fun _ => rfl, fun _ => Or.inl rfl, rfl⟩

/-- Moving a thread that is not the builder. -/
theorem after_goto {n : Nat} {s : St} {b j f : Nat} (h : After n s b j f) {t : Nat} (ht : t ≠ b) (p : Pc)
    (hp : ∀ k, p ≠ .build k) (hr : p = .returned → f = n + 1) : After n (goto s t p) b j f where
  fj := h.fj
  jn := h.jn
  mem := h.mem
  bufb := h.bufb
  bufo := h.bufo
  pcb := fun q => by show put _ _ _ _ = _; rw [put_other _ _ (Ne.symm ht)]; exact h.pcb q
  pcb' := fun q => by
    show put _ _ _ _ = _ ∨ put _ _ _ _ = _ ∨ put _ _ _ _ = _
    rw [put_other _ _ (Ne.symm ht)]; exact h.pcb' q
  pco := by
    intro u hu
    show ∀ k, put _ _ _ _ ≠ _
    by_cases e : u = t
    · subst e; rw [put_self]; exact hp
    · rw [put_other _ _ e]; exact h.pco u hu
  ret := by
    intro u hu
    show put _ _ _ _ = _ → _
    by_cases e : u = t
    · subst e; rw [put_self]; exact hr
    · rw [put_other _ _ e]; exact h.ret u hu
  built := h.built

/-- Moving the builder when it is done. -/
theorem after_goto_builder {n : Nat} {s : St} {b j f : Nat} (h : After n s b j f) (hj : j = n + 1) (p : Pc)
    (hp : p = .spin ∨ p = .returned ∨ p = .check) : After n (goto s b p) b j f where
  fj := h.fj
  jn := h.jn
  mem := h.mem
  bufb := h.bufb
  bufo := h.bufo
  pcb := fun q => by omega
  pcb' := fun _ => by
    show put _ _ _ _ = _ ∨ put _ _ _ _ = _ ∨ put _ _ _ _ = _
    rw [put_self]; exact hp
  pco := by
    intro u hu
    show ∀ k, put _ _ _ _ ≠ _
    rw [put_other _ _ hu]; exact h.pco u hu
  ret := by
    intro u hu
    show put _ _ _ _ = _ → _
    rw [put_other _ _ hu]; exact h.ret u hu
  built := h.built

theorem before_goto {s : St} (h : Before s) (t : Nat) (p : Pc)
    (hp : p = .outside ∨ p = .check ∨ p = .testAndSet) : Before (goto s t p) where
  mem := h.mem
  buf := h.buf
  pc := by
    intro u
    show put _ _ _ _ = _ ∨ put _ _ _ _ = _ ∨ put _ _ _ _ = _
    by_cases e : u = t
    · subst e; rw [put_self]; exact hp
    · rw [put_other _ _ e]; exact h.pc u
  built := h.built

theorem inv_step (n : Nat) (s s' : St) (h : Inv n s) (hs : Step .fifo n s s') : Inv n s' := by
  cases hs with
  | call t hp =>
    rcases h with h | ⟨b, j, f, h⟩
    · exact Or.inl (before_goto h t _ (by simp))
    · by_cases e : t = b
      · subst e
        have hj : j = n + 1 := by
          rcases Nat.lt_or_ge n j with q | q
          · have := h.jn; omega
          · rw [h.pcb q] at hp; simp at hp
        exact Or.inr ⟨t, j, f, after_goto_builder h hj _ (by simp)⟩
      · exact Or.inr ⟨b, j, f, after_goto h e _ (by simp) (by simp)⟩
  | check t hp =>
    rcases h with h | ⟨b, j, f, h⟩
    · have : load s t .initialized = false := by simp [load, h.buf, h.mem]
      rw [this]
      exact Or.inl (before_goto h t _ (by simp))
    · by_cases e : t = b
      · subst e
        have hj : j = n + 1 := by
          rcases Nat.lt_or_ge n j with q | q
          · have := h.jn; omega
          · rw [h.pcb q] at hp; simp at hp
        rw [load_builder h hj _ (init_mem_stores n)]
        exact Or.inr ⟨t, j, f, after_goto_builder h hj _ (by simp)⟩
      · refine Or.inr ⟨b, j, f, after_goto h e _ (by split <;> simp) ?_⟩
        intro q
        rw [load_other h e] at q
        split at q
        · rename_i hm; exact (mem_initialized h).1 hm
        · simp at q
  | testAndSet t hp hb =>
    rcases h with h | ⟨b, j, f, h⟩
    · rw [h.mem .initInProgress]
      refine Or.inr ⟨t, 0, 0, ?_⟩
      refine ⟨by omega, by omega, ?_, ?_, ?_, ?_, ?_, ?_, ?_, ?_⟩
      · intro v
        show store s.mem _ v = true ↔ _
        simp [store, h.mem]
      · simpa [goto] using hb
      · intro u _; exact h.buf u
      · intro _; show put _ _ _ _ = _; rw [put_self]; rfl
      · intro q; omega
      · intro u hu k
        show put _ _ _ _ ≠ _
        rw [put_other _ _ hu]
        rcases h.pc u with e | e | e <;> rw [e] <;> simp
      · intro u hu
        show put _ _ _ _ = _ → _
        rw [put_other _ _ hu]
        rcases h.pc u with e | e | e <;> rw [e] <;> simp
      · show s.built = _
        rw [h.built]; simp
    · have hm : s.mem .initInProgress = true := (h.mem _).2 (Or.inl rfl)
      have hmem : store s.mem .initInProgress = s.mem := by
        funext v
        unfold store
        split
        · rename_i e; rw [e, hm]
        · rfl
      rw [hm, hmem]
      have e : t ≠ b := by
        intro e; subst e
        rcases Nat.lt_or_ge n j with q | q
        · have hj : j = n + 1 := by have := h.jn; omega
          rcases h.pcb' hj with e | e | e <;> rw [e] at hp <;> simp at hp
        · rw [h.pcb q] at hp; simp at hp
      exact Or.inr ⟨b, j, f, after_goto h e .spin (by simp) (by simp)⟩
  | build t k hp hk =>
    rcases h with h | ⟨b, j, f, h⟩
    · rcases h.pc t with e | e | e <;> rw [e] at hp <;> simp at hp
    · have e : t = b := Classical.byContradiction fun e => h.pco t e k hp
      subst e
      have hj : j = k := by
        rcases Nat.lt_or_ge n j with q | q
        · have hj : j = n + 1 := by have := h.jn; omega
          rcases h.pcb' hj with e | e | e <;> rw [e] at hp <;> simp at hp
        · rw [h.pcb q] at hp; simpa using hp
      subst hj
      have hfj := h.fj
      refine Or.inr ⟨t, j + 1, f, by omega, by omega, h.mem, ?_, ?_, ?_, ?_, ?_, ?_, ?_⟩
      · show put _ _ _ _ = _
        rw [put_self, h.bufb, List.take_add_one, stores_table hk, List.drop_append_of_le_length]
        · rfl
        · rw [List.length_take, stores_length]; omega
      · intro u hu; show put _ _ _ _ = _; rw [put_other _ _ hu]; exact h.bufo u hu
      · intro _; show put _ _ _ _ = _; rw [put_self]
      · intro q; omega
      · intro u hu k'; show put _ _ _ _ ≠ _; rw [put_other _ _ hu]; exact h.pco u hu k'
      · intro u hu; show put _ _ _ _ = _ → _; rw [put_other _ _ hu]; exact h.ret u hu
      · show s.built ++ _ = _
        rw [h.built, Nat.min_eq_left (by omega), Nat.min_eq_left (by omega), List.range_succ, List.map_append]
        rfl
  | publish t hp =>
    rcases h with h | ⟨b, j, f, h⟩
    · rcases h.pc t with e | e | e <;> rw [e] at hp <;> simp at hp
    · have e : t = b := Classical.byContradiction fun e => h.pco t e n hp
      subst e
      have hj : j = n := by
        rcases Nat.lt_or_ge n j with q | q
        · have hj : j = n + 1 := by have := h.jn; omega
          rcases h.pcb' hj with e | e | e <;> rw [e] at hp <;> simp at hp
        · rw [h.pcb q] at hp; simpa using hp
      subst hj
      have hfj := h.fj
      refine Or.inr ⟨t, j + 1, f, by omega, by omega, h.mem, ?_, ?_, ?_, ?_, ?_, ?_, ?_⟩
      · show put _ _ _ _ = _
        rw [put_self, h.bufb, List.take_add_one, stores_last, List.drop_append_of_le_length]
        · rfl
        · rw [List.length_take, stores_length]; omega
      · intro u hu; show put _ _ _ _ = _; rw [put_other _ _ hu]; exact h.bufo u hu
      · intro q; omega
      · intro _; left; show put _ _ _ _ = _; rw [put_self]
      · intro u hu k'; show put _ _ _ _ ≠ _; rw [put_other _ _ hu]; exact h.pco u hu k'
      · intro u hu; show put _ _ _ _ = _ → _; rw [put_other _ _ hu]; exact h.ret u hu
      · show s.built = _
        rw [h.built, Nat.min_self, Nat.min_eq_right (by omega)]
  | spin t hp =>
    rcases h with h | ⟨b, j, f, h⟩
    · rcases h.pc t with e | e | e <;> rw [e] at hp <;> simp at hp
    · by_cases e : t = b
      · subst e
        have hj : j = n + 1 := by
          rcases Nat.lt_or_ge n j with q | q
          · have := h.jn; omega
          · rw [h.pcb q] at hp; simp at hp
        exact Or.inr ⟨t, j, f, after_goto_builder h hj _ (by split <;> simp)⟩
      · refine Or.inr ⟨b, j, f, after_goto h e _ (by split <;> simp) ?_⟩
        intro q
        rw [load_other h e] at q
        split at q
        · rename_i hm; exact (mem_initialized h).1 hm
        · simp at q
  | drain t v c hl =>
    rcases h with h | ⟨b, j, f, h⟩
    · rw [h.buf t] at hl; cases hl
    · have e : t = b := by
        refine Classical.byContradiction fun e => ?_
        rw [h.bufo t e] at hl; cases hl
      subst e
      have hbuf : s.buf t = v :: c := by
        generalize hb : s.buf t = q at hl
        cases hl
        rfl
      have hfj := h.fj
      have hjn := h.jn
      have hb := h.bufb
      rw [hbuf] at hb
      have hlt : f < j := by
        have := congrArg List.length hb
        simp [stores_length] at this
        omega
      have hv : (stores n)[f]? = some v := by
        have := congrArg (fun l => l[0]?) hb
        simp only [List.getElem?_cons_zero, List.getElem?_drop, Nat.add_zero, List.getElem?_take] at this
        rw [if_pos hlt] at this
        exact this.symm
      have hc : c = ((stores n).take j).drop (f + 1) := by
        have := congrArg (fun l => l.drop 1) hb
        simpa [List.drop_drop] using this
      refine Or.inr ⟨t, j, f + 1, by omega, hjn, ?_, ?_, ?_, h.pcb, h.pcb', h.pco, ?_, h.built⟩
      · intro w
        show store s.mem v w = true ↔ _
        rw [List.take_add_one, hv]
        unfold store
        by_cases q : w = v
        · subst q; simp
        · rw [if_neg q, h.mem]; simp [q]
      · show put _ _ _ _ = _; rw [put_self]; exact hc
      · intro u hu; show put _ _ _ _ = _; rw [put_other _ _ hu]; exact h.bufo u hu
      · intro u hu q
        have := h.ret u hu q
        omega

theorem inv_steps (n : Nat) (s : St) (h : Steps .fifo n start s) : Inv n s := by
  suffices ∀ s0, Inv n s0 → Steps .fifo n s0 s → Inv n s from this start (inv_start n) h
  clear h
  intro s0 h0 h
  induction h with
  | refl => exact h0
  | tail s' s'' h1 h2 ih => exact inv_step n s' s'' ih h2

/-- C39: at every moment of every execution by any number of threads, one single thread
has built parts of the tables, each part once and in order. -/
theorem C39_once (tables : Nat) (s : St) (h : Steps .fifo tables start s) :
    ∃ b m, m ≤ tables ∧ s.built = (List.range m).map fun k => (b, k) := by
  rcases inv_steps tables s h with h | ⟨b, j, f, h⟩
  · exact ⟨0, 0, by omega, by rw [h.built]; simp⟩
  · exact ⟨b, min j tables, by omega, h.built⟩

/-- C39: a thread whose call has returned sees `initialized` and every part of the tables,
whatever is still on its way in the buffers, and all of the tables have been built. -/
theorem C39_complete (tables : Nat) (s : St) (h : Steps .fifo tables start s) (t : Nat)
    (ht : s.pc t = .returned) :
    load s t .initialized = true ∧ (∀ k, k < tables → load s t (.table k) = true) ∧
      ∃ b, s.built = (List.range tables).map fun k => (b, k) := by
  rcases inv_steps tables s h with h | ⟨b, j, f, h⟩
  · rcases h.pc t with e | e | e <;> rw [e] at ht <;> simp at ht
  · have hj : j = tables + 1 := by
      have := h.fj; have := h.jn
      by_cases e : t = b
      · subst e
        rcases Nat.lt_or_ge tables j with q | q
        · omega
        · rw [h.pcb q] at ht; simp at ht
      · have := h.ret t e ht; omega
    have all : ∀ v ∈ stores tables, load s t v = true := by
      intro v hv
      by_cases e : t = b
      · subst e; exact load_builder h hj v hv
      · rw [load_other h e, h.mem]
        right
        rw [h.ret t e ht, List.take_of_length_le (by rw [stores_length]; omega)]
        exact hv
    refine ⟨all _ (init_mem_stores _), ?_, b, ?_⟩
    · intro k hk
      exact all _ (by simp [stores, hk])
    · rw [h.built, hj, Nat.min_eq_right (by omega)]

/-- C39: the tables a thread saw when its call returned do not change afterwards: no later
step, by whatever thread, builds anything. -/
theorem C39_stable (tables : Nat) (s s' : St) (h : Steps .fifo tables start s) (t : Nat)
    (ht : s.pc t = .returned) (hs : Steps .fifo tables s s') : s'.built = s.built := by
  have key : ∀ (u : St), Inv tables u → u.built.length = tables → ∀ u', Step .fifo tables u u' →
      u'.built = u.built := by
    intro u hu hl u' hstep
    have hu' := inv_step tables u u' hu hstep
    cases hstep with
    | build v k hp hk =>
      exfalso
      have : (u.built ++ [(v, k)]).length ≤ tables := by
        rcases hu' with h | ⟨b, j, f, h⟩
        · have := h.built; simp at this
        · have := h.built
          simp only at this
          rw [this]; simp; omega
      simp at this; omega
    | _ => rfl
  obtain ⟨_, _, b, hb⟩ := C39_complete tables s h t ht
  have hlen : s.built.length = tables := by rw [hb]; simp
  have : Steps .fifo tables start s' ∧ s'.built = s.built := by
    induction hs with
    | refl => exact ⟨h, rfl⟩
    | tail u u' h1 h2 ih =>
      obtain ⟨g1, g2⟩ := ih
      exact ⟨.tail _ _ _ g1 h2, by rw [key u (inv_steps _ _ g1) (by rw [g2]; exact hlen) u' h2, g2]⟩
  exact this.2

theorem steps_trans {d : Drain} {n : Nat} {a b c : St} (h : Steps d n a b) (h' : Steps d n b c) :
    Steps d n a c := by
  induction h' with
  | refl => exact h
  | tail s' s'' _ h2 ih => exact .tail _ _ _ ih h2

theorem steps_one {d : Drain} {n : Nat} {a b : St} (h : Step d n a b) : Steps d n a b :=
  .tail _ _ _ (.refl _) h

/-- The builder runs to the end of the tables. -/
theorem run_builder (n : Nat) : ∀ (m : Nat) (s : St) (b j f : Nat), After n s b j f → n + 1 - j = m →
    ∃ s' f', Steps .fifo n s s' ∧ After n s' b (n + 1) f' := by
  intro m
  induction m with
  | zero => intro s b j f h e; have := h.jn; exact ⟨s, f, .refl _, by rwa [show n + 1 = j by omega]⟩
  | succ m ih =>
    intro s b j f h e
    have hpc := h.pcb (by omega)
    rcases Nat.lt_or_ge j n with hj | hj
    · have h1 := Step.build (d := .fifo) (tables := n) s b j hpc hj
      rcases inv_step n s _ (Or.inr ⟨b, j, f, h⟩) h1 with h2 | ⟨b', j', f', h2⟩
      · have := h2.pc b
        simp [goto, put] at this
      · have hp1 : ({ goto s b (.build (j + 1)) with buf := put s.buf b (s.buf b ++ [.table j]), built := s.built ++ [(b, j)] } : St).pc b = .build (j + 1) := put_self _ _ _
        have hb : b = b' := Classical.byContradiction fun q => h2.pco b q _ hp1
        subst hb
        have hj' : j' = j + 1 := by
          rcases Nat.lt_or_ge n j' with q | q
          · have q' : j' = n + 1 := by have := h2.jn; omega
            rcases h2.pcb' q' with r | r | r <;> rw [r] at hp1 <;> simp at hp1
          · rw [h2.pcb q] at hp1; simpa using hp1
        obtain ⟨s3, f3, h3, h4⟩ := ih _ b j' f' h2 (by omega)
        exact ⟨s3, f3, steps_trans (steps_one h1) h3, h4⟩
    · have hj : j = n := by omega
      subst hj
      have h1 := Step.publish (d := .fifo) (tables := j) s b hpc
      rcases inv_step j s _ (Or.inr ⟨b, j, f, h⟩) h1 with h2 | ⟨b', j', f', h2⟩
      · have := h2.buf b
        simp [put] at this
      · have hbuf : ({ goto s b .spin with buf := put s.buf b (s.buf b ++ [.initialized]) } : St).buf b = s.buf b ++ [.initialized] := put_self _ _ _
        have hb : b = b' := by
          refine Classical.byContradiction fun q => ?_
          rw [h2.bufo b q] at hbuf; simp at hbuf
        subst hb
        have hj' : j' = j + 1 := by
          rcases Nat.lt_or_ge j j' with q | q
          · have := h2.jn; omega
          · have := h2.pcb q; simp [goto, put] at this
        subst hj'
        exact ⟨_, f', steps_one h1, h2⟩

theorem run_drain (n : Nat) : ∀ (m : Nat) (s : St) (b f : Nat), After n s b (n + 1) f → n + 1 - f = m →
    ∃ s', Steps .fifo n s s' ∧ After n s' b (n + 1) (n + 1) := by
  intro m
  induction m with
  | zero => intro s b f h e; have := h.fj; exact ⟨s, .refl _, by rwa [show n + 1 = f by omega] at h ⊢⟩
  | succ m ih =>
    intro s b f h e
    have hf : f < (stores n).length := by rw [stores_length]; omega
    have hb := h.bufb
    rw [List.take_of_length_le (by rw [stores_length]; omega), List.drop_eq_getElem_cons hf] at hb
    have h1 : Step .fifo n s { s with mem := store s.mem (stores n)[f], buf := put s.buf b ((stores n).drop (f + 1)) } :=
      .drain s b _ _ (by rw [hb]; exact .oldest _ _ _)
    have hfj := h.fj
    have h2 : After n { s with mem := store s.mem (stores n)[f], buf := put s.buf b ((stores n).drop (f + 1)) } b (n + 1) (f + 1) := by
      refine ⟨by omega, by omega, ?_, ?_, ?_, h.pcb, h.pcb', h.pco, ?_, h.built⟩
      · intro w
        show store s.mem _ w = true ↔ _
        rw [List.take_add_one, List.getElem?_eq_getElem hf]
        generalize (stores n)[f] = x
        unfold store
        by_cases q : w = x
        · rw [if_pos q]; simp [q]
        · rw [if_neg q, h.mem]; simp [q]
      · show put _ _ _ _ = _
        rw [put_self, List.take_of_length_le (by rw [stores_length]; omega)]
      · intro u hu; show put _ _ _ _ = _; rw [put_other _ _ hu]; exact h.bufo u hu
      · intro u hu q
        have := h.ret u hu q
        omega
    obtain ⟨s3, h3, h4⟩ := ih _ b (f + 1) h2 (by omega)
    exact ⟨s3, steps_trans (steps_one h1) h3, h4⟩

/-- When all stores have drained a thread runs to its return. -/
theorem run_thread (n : Nat) (s : St) (b : Nat) (h : After n s b (n + 1) (n + 1)) (t : Nat) :
    ∃ s', Steps .fifo n s s' ∧ After n s' b (n + 1) (n + 1) ∧ s'.pc t = .returned ∧
      ∀ u, u ≠ t → s'.pc u = s.pc u := by
  have hmem : s.mem .initialized = true := (mem_initialized h).2 rfl
  have hload : ∀ u, load s u .initialized = true := by
    intro u; unfold load; split
    · rfl
    · exact hmem
  have fin : ∀ (s : St), After n s b (n + 1) (n + 1) → (∀ u, load s u .initialized = true) →
      (s.pc t = .check ∨ s.pc t = .spin) →
      ∃ s', Steps .fifo n s s' ∧ After n s' b (n + 1) (n + 1) ∧ s'.pc t = .returned ∧
        ∀ u, u ≠ t → s'.pc u = s.pc u := by
    intro s h hl hp
    have ha : After n (goto s t .returned) b (n + 1) (n + 1) := by
      by_cases e : t = b
      · subst e; exact after_goto_builder h rfl _ (by simp)
      · exact after_goto h e _ (by simp) (fun _ => rfl)
    refine ⟨goto s t .returned, ?_, ha, put_self _ _ _, fun u hu => put_other _ _ hu⟩
    rcases hp with hp | hp
    · have := Step.check (d := .fifo) (tables := n) s t hp
      rw [hl t] at this
      exact steps_one this
    · have := Step.spin (d := .fifo) (tables := n) s t hp
      rw [hl t] at this
      exact steps_one this
  have hcall : ∀ (s : St), After n s b (n + 1) (n + 1) → (∀ u, load s u .initialized = true) →
      (s.pc t = .outside) →
      ∃ s', Steps .fifo n s s' ∧ After n s' b (n + 1) (n + 1) ∧ s'.pc t = .returned ∧
        ∀ u, u ≠ t → s'.pc u = s.pc u := by
    intro s h hl hp
    have e : t ≠ b := by
      intro e; subst e
      rcases h.pcb' rfl with q | q | q <;> rw [q] at hp <;> simp at hp
    obtain ⟨s', h1, h2, h3, h4⟩ := fin (goto s t .check) (after_goto h e _ (by simp) (by simp)) hl
      (Or.inl (put_self _ _ _))
    refine ⟨s', steps_trans (steps_one (.call s t (Or.inl hp))) h1, h2, h3, ?_⟩
    intro u hu
    rw [h4 u hu]; exact put_other _ _ hu
  cases hp : s.pc t with
  | outside => exact hcall s h hload hp
  | returned => exact ⟨s, .refl _, h, hp, fun _ _ => rfl⟩
  | check => exact fin s h hload (Or.inl hp)
  | spin => exact fin s h hload (Or.inr hp)
  | build k =>
    exfalso
    by_cases e : t = b
    · subst e; rcases h.pcb' rfl with q | q | q <;> rw [q] at hp <;> simp at hp
    · exact h.pco t e k hp
  | testAndSet =>
    have e : t ≠ b := by
      intro e; subst e
      rcases h.pcb' rfl with q | q | q <;> rw [q] at hp <;> simp at hp
    have hm : s.mem .initInProgress = true := (h.mem _).2 (Or.inl rfl)
    have hst : store s.mem .initInProgress = s.mem := by
      funext v
      unfold store
      split
      · rename_i q; rw [q, hm]
      · rfl
    have h1 := Step.testAndSet (d := .fifo) (tables := n) s t hp (h.bufo t e)
    rw [hm, hst] at h1
    have h1' : Step .fifo n s (goto s t .spin) := h1
    obtain ⟨s', h2, h3, h4, h5⟩ := fin (goto s t .spin) (after_goto h e _ (by simp) (by simp)) hload
      (Or.inr (put_self _ _ _))
    refine ⟨s', steps_trans (steps_one h1') h2, h3, h4, ?_⟩
    intro u hu
    rw [h5 u hu]; exact put_other _ _ hu

/-- C39: no call can get stuck: from every reachable state every group of threads can be
run until all of them have returned. -/
theorem C39_no_deadlock (tables : Nat) (s : St) (h : Steps .fifo tables start s) (ts : List Nat) :
    ∃ s', Steps .fifo tables s s' ∧ ∀ t ∈ ts, s'.pc t = .returned := by
  -- first some thread becomes the builder
  have ready : ts = [] ∨ ∃ s1 b j f, Steps .fifo tables s s1 ∧ After tables s1 b j f := by
    rcases inv_steps tables s h with h | ⟨b, j, f, h⟩
    · cases ts with
      | nil => exact Or.inl rfl
      | cons t ts =>
        right
        have tas : ∀ s : St, Before s → s.pc t = .testAndSet →
            ∃ s1 b j f, Steps .fifo tables s s1 ∧ After tables s1 b j f := by
          intro s h hp
          have h1 := Step.testAndSet (d := .fifo) (tables := tables) s t hp (h.buf t)
          rcases inv_step tables s _ (Or.inl h) h1 with h2 | ⟨b, j, f, h2⟩
          · have := h2.mem .initInProgress
            simp [store] at this
          · exact ⟨_, b, j, f, steps_one h1, h2⟩
        have chk : ∀ s : St, Before s → s.pc t = .check →
            ∃ s1 b j f, Steps .fifo tables s s1 ∧ After tables s1 b j f := by
          intro s h hp
          have hl : load s t .initialized = false := by simp [load, h.buf, h.mem]
          have h1 := Step.check (d := .fifo) (tables := tables) s t hp
          rw [hl] at h1
          obtain ⟨s1, b, j, f, h2, h3⟩ := tas _ (before_goto h t .testAndSet (by simp)) (put_self _ _ _)
          exact ⟨s1, b, j, f, steps_trans (steps_one h1) h2, h3⟩
        rcases h.pc t with e | e | e
        · obtain ⟨s1, b, j, f, h2, h3⟩ := chk _ (before_goto h t .check (by simp)) (put_self _ _ _)
          exact ⟨s1, b, j, f, steps_trans (steps_one (.call s t (Or.inl e))) h2, h3⟩
        · exact chk s h e
        · exact tas s h e
    · exact Or.inr ⟨s, b, j, f, .refl _, h⟩
  rcases ready with rfl | ⟨s1, b, j, f, h1, h2⟩
  · exact ⟨s, .refl _, by simp⟩
  · obtain ⟨s2, f2, h3, h4⟩ := run_builder tables _ s1 b j f h2 rfl
    obtain ⟨s3, h5, h6⟩ := run_drain tables _ s2 b f2 h4 rfl
    have hall : ∀ (us : List Nat) (s : St), After tables s b (tables + 1) (tables + 1) →
        ∃ s', Steps .fifo tables s s' ∧ After tables s' b (tables + 1) (tables + 1) ∧
          ∀ t ∈ us, s'.pc t = .returned := by
      intro us
      induction us with
      | nil => intro s h; exact ⟨s, .refl _, h, by simp⟩
      | cons t us ih =>
        intro s h
        obtain ⟨s1, g1, g2, g3⟩ := ih s h
        obtain ⟨s2, k1, k2, k3, k4⟩ := run_thread tables s1 b g2 t
        refine ⟨s2, steps_trans g1 k1, k2, ?_⟩
        intro u hu
        by_cases e : u = t
        · rw [e]; exact k3
        · rw [k4 u e]
          rcases List.mem_cons.1 hu with q | q
          · exact absurd q e
          · exact g3 u q
    obtain ⟨s4, h7, _, h8⟩ := hall ts s3 h6
    exact ⟨s4, steps_trans (steps_trans (steps_trans h1 h3) h5) h7, h8⟩

/-- C39: once the flag has reached the memory, a thread that waits returns at its next step. -/
theorem C39_prompt (tables : Nat) (s : St) (t : Nat) (hm : s.mem .initialized = true)
    (hp : s.pc t = .spin ∨ s.pc t = .check) :
    Step .fifo tables s (goto s t .returned) := by
  have hl : load s t .initialized = true := by
    unfold load; split
    · rfl
    · exact hm
  rcases hp with hp | hp
  · have := Step.spin (d := .fifo) (tables := tables) s t hp
    rwa [hl] at this
  · have := Step.check (d := .fifo) (tables := tables) s t hp
    rwa [hl] at this

/-! A thread that comes while another one builds returns and sees the complete table. -/
example : ∃ s b, Steps .fifo 1 start s ∧ s.pc 2 = .returned ∧ load s 2 (.table 0) = true ∧
    s.built = [(b, 0)] := by
  have h0 : Steps .fifo 1 start (goto _ 2 .check) :=
    .tail _ _ _ (.tail _ _ _ (.tail _ _ _ (steps_one (.call start 1 (Or.inl rfl)))
      (.check _ 1 rfl)) (.testAndSet _ 1 rfl rfl)) (.call _ 2 (Or.inl rfl))
  obtain ⟨s, h1, h2⟩ := C39_no_deadlock 1 _ h0 [2]
  obtain ⟨_, h3, b, h4⟩ := C39_complete 1 s (steps_trans h0 h1) 2 (h2 2 (by simp))
  exact ⟨s, b, steps_trans h0 h1, h2 2 (by simp), h3 0 (by omega), h4⟩

/-- Deviation: on a machine that may swap stores to different variables (which the plain
stores and the relaxed test-and-set allow) a call can return before the tables are
visible. -/
theorem C39_deviation_weak_memory :
    ∃ s, Steps .perVariable 1 start s ∧ s.pc 2 = .returned ∧ load s 2 (.table 0) = false :=
  ⟨_, .tail _ _ _ (.tail _ _ _ (.tail _ _ _ (.tail _ _ _ (.tail _ _ _ (.tail _ _ _ (.tail _ _ _
      (.tail _ _ _ (.refl _) (.call start 1 (Or.inl rfl))) (.check _ 1 rfl)) (.testAndSet _ 1 rfl rfl))
      (.build _ 1 0 rfl (by omega))) (.publish _ 1 rfl))
      (.drain _ 1 .initialized [.table 0] (.later (.table 0) .initialized [.initialized] [] (by simp)
        (.oldest _ _ _)))) (.call _ 2 (Or.inl rfl))) (.check _ 2 rfl), rfl, rfl⟩

end Verif.Props.Init
