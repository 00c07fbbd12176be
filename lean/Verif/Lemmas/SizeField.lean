import Verif.Spec.SizeField
namespace Verif.Lemmas.SizeField
open Verif.Model Verif.Model.Ic Verif.Model.SizeField Verif.Spec.SizeField

/-! ## memory -/

theorem store_out {M : Mem} {w a v x : Nat} (h : x < a ∨ a + w ≤ x) : store M w a v x = M x := by
  unfold store; rw [if_neg (by omega)]

theorem store_in {M : Mem} {w a v i : Nat} (h : i < w) : store M w a v (a + i) = v / 256 ^ i % 256 := by
  unfold store; rw [if_pos (by omega)]; congr 3; omega

theorem load_congr {M M' : Mem} : ∀ {w a : Nat}, (∀ i < w, M (a + i) = M' (a + i)) → load M w a = load M' w a := by
  intro w
  induction w with
  | zero => intro a _; rfl
  | succ w ih =>
    intro a h
    have h0 := h 0 (by omega)
    have := @ih (a + 1) (fun i hi => by have := h (i + 1) (by omega); rwa [show a + 1 + i = a + (i + 1) by omega])
    simp only [Nat.add_zero] at h0
    simp only [load, h0, this]

theorem emod_split (v k : Int) (hk : 0 < k) : v % (256 * k) = v % 256 + 256 * (v / 256 % k) := by
  have h1 := Int.mul_ediv_add_emod v 256
  have h2 := Int.mul_ediv_add_emod (v / 256) k
  have h3 := Int.emod_nonneg v (show (256 : Int) ≠ 0 by decide)
  have h4 := Int.emod_lt_of_pos v (show (0 : Int) < 256 by decide)
  have h5 := Int.emod_nonneg (v / 256) (show k ≠ 0 by omega)
  have h6 := Int.emod_lt_of_pos (v / 256) hk
  have h7 : v = (v % 256 + 256 * (v / 256 % k)) + 256 * k * (v / 256 / k) := by
    rw [Int.mul_assoc]
    generalize k * (v / 256 / k) = t at *
    omega
  rw [h7, Int.add_mul_emod_self_left, ← h7]
  exact Int.emod_eq_of_lt (by omega) (by omega)

/-- the bytes of `v` -/
def Bytes (M : Mem) (w a : Nat) (v : Int) : Prop := ∀ i < w, (M (a + i) : Int) = v / (256 ^ i : Nat) % 256

theorem load_bytes {M : Mem} : ∀ {w a : Nat} {v : Int}, Bytes M w a v → (load M w a : Int) = v % (256 ^ w : Nat) := by
  intro w
  induction w with
  | zero => intro a v _; simp [load, Int.emod_one]
  | succ w ih =>
    intro a v h
    have h0 := h 0 (by omega)
    simp only [Nat.pow_zero, Nat.add_zero, Int.ediv_one, Int.natCast_one] at h0
    have hr : Bytes M w (a + 1) (v / 256) := by
      intro i hi
      have := h (i + 1) (by omega)
      rw [show a + 1 + i = a + (i + 1) by omega, this, Int.ediv_ediv_of_nonneg (by decide)]
      congr 2
      rw [Nat.pow_succ, Nat.mul_comm]; simp
    have := ih hr
    simp only [load, Int.natCast_add, Int.natCast_mul, this]
    rw [Nat.pow_succ, Nat.mul_comm, Int.natCast_mul]
    have hp : (0 : Int) < ((256 ^ w : Nat) : Int) := by
      have := Nat.pow_pos (n := w) (show 0 < 256 by decide); omega
    have e := emod_split v _ hp
    have : ((M a % 256 : Nat) : Int) = v % 256 := by rw [Int.natCast_emod, h0]; omega
    rw [this]; exact e.symm

theorem store_bytes {M : Mem} {w a v : Nat} : Bytes (store M w a v) w a v := by
  intro i hi
  rw [store_in hi]; simp

theorem load_store {M : Mem} {w a v : Nat} : load (store M w a v) w a = v % 256 ^ w := by
  have := load_bytes (store_bytes (M := M) (w := w) (a := a) (v := v))
  rw [← Int.natCast_emod] at this
  exact Int.ofNat.inj this

theorem pow256 (w : Nat) : 256 ^ w = 2 ^ (8 * w) := by rw [Nat.pow_mul]

theorem pow_half {w : Nat} (h : 0 < w) : 2 ^ (8 * w) = 2 * 2 ^ (8 * w - 1) := by
  rw [← Nat.pow_succ']; congr 1; omega

/-- reading an integer gives its value in 128 bits -/
theorem widen_holds {M : Mem} {s : Bool} {w b : Nat} {v : Int} (hw : 0 < w) (hw' : w ≤ 16) (h : Holds M s w b v) :
    (widen s w (load M w b) : Int) = v % (2 ^ 128 : Nat) := by
  obtain ⟨hr, hb⟩ := h
  have hl : (load M w b : Int) = v % (256 ^ w : Nat) := load_bytes hb
  rw [pow256] at hl
  have hle : 2 ^ (8 * w) ≤ 2 ^ 128 := Nat.pow_le_pow_right (by decide) (by omega)
  have hh := pow_half hw
  have hp : 0 < 2 ^ (8 * w - 1) := Nat.pow_pos (by decide)
  unfold widen
  generalize load M w b = r at *
  unfold InRange at hr
  generalize 2 ^ (8 * w) = P at *
  generalize 2 ^ (8 * w - 1) = H at *
  generalize hQ : 2 ^ 128 = Q at *
  have hQp : 0 < Q := by omega
  cases s with
  | false =>
    simp only [Bool.false_eq_true, if_false, false_and] at *
    rw [Int.emod_eq_of_lt hr.1 hr.2] at hl
    rw [Int.emod_eq_of_lt hr.1 (by omega)]; exact hl
  | true =>
    simp only [if_true, true_and] at *
    by_cases hv : 0 ≤ v
    · rw [Int.emod_eq_of_lt hv (by omega)] at hl
      rw [if_neg (by omega), Int.emod_eq_of_lt hv (by omega)]; exact hl
    · have e1 : v % (P : Int) = v + P := by
        rw [← Int.add_emod_right, Int.emod_eq_of_lt (by omega) (by omega)]
      have e2 : v % (Q : Int) = v + Q := by
        rw [← Int.add_emod_right, Int.emod_eq_of_lt (by omega) (by omega)]
      rw [e1] at hl
      rw [if_pos (by omega), e2]
      omega

theorem holds_congr {M M' : Mem} {s : Bool} {w b : Nat} {v : Int} (h : Holds M s w b v)
    (he : ∀ i < w, M' (b + i) = M (b + i)) : Holds M' s w b v :=
  ⟨h.1, fun i hi => by rw [he i hi]; exact h.2 i hi⟩

theorem holds_store_apart {M : Mem} {s : Bool} {w b c n x : Nat} {v : Int} (h : Holds M s w b v)
    (ha : Apart c n b w) : Holds (store M n c x) s w b v :=
  holds_congr h (fun i hi => store_out (by unfold Apart at ha; omega))

theorem load_ptr {M : Mem} {a b : Nat} (h : Holds M false 8 a b) : load M 8 a = b := by
  have := load_bytes h.2
  have hr := h.1
  simp only [InRange, Bool.false_eq_true, if_false] at hr
  rw [Int.emod_eq_of_lt hr.1 (by have : 256 ^ 8 = 2 ^ (8 * 8) := by decide
                                 omega)] at this
  omega

/-! ## copying an integer -/

theorem getValue_int {M : Mem} {f : Fd} {s : Bool} {w a b : Nat} (h : IntField f s w) :
    getValue M { ty := f.ty, aux := f.aux, eff := f.eff, addr := a } b = widen s w (load M w b) := by
  obtain ⟨_, _, h⟩ := h
  unfold getValue
  rcases h with h | ⟨h | h, h'⟩ | ⟨h', h | ⟨h | h, h'' | h''⟩⟩ <;> simp [*]

theorem setValue_int {M : Mem} {f : Fd} {s : Bool} {w a b v : Nat} (h : IntField f s w) :
    setValue M { ty := f.ty, aux := f.aux, eff := f.eff, addr := a } b v = store M w b v := by
  obtain ⟨_, _, h⟩ := h
  unfold setValue
  rcases h with h | ⟨h | h, h'⟩ | ⟨h', h | ⟨h | h, h'' | h''⟩⟩ <;> simp [*]

theorem located_data {M : Mem} {f : Fd} {a b : Nat} (h : Located M f a b) :
    (if f.ty = .pointer then load M 8 a else a) = b := by
  obtain ⟨_, h⟩ := h
  by_cases hp : f.ty = .pointer
  · rw [if_pos hp] at h ⊢; exact load_ptr h
  · rw [if_neg hp] at h ⊢; exact h.symm

theorem located_congr {M M' : Mem} {f : Fd} {a b : Nat} (h : Located M f a b)
    (he : f.ty = .pointer → ∀ i < 8, M' (a + i) = M (a + i)) : Located M' f a b := by
  obtain ⟨h0, h⟩ := h
  refine ⟨h0, ?_⟩
  by_cases hp : f.ty = .pointer
  · rw [if_pos hp] at h ⊢; exact holds_congr h (he hp)
  · rw [if_neg hp] at h ⊢; exact h

/-- from the size field to a plain variable -/
theorem assign_from {M : Mem} {f : Fd} {s s' : Bool} {w w' a b c : Nat} (hi : IntField f s w) (hl : Located M f a b)
    (hc : c ≠ 0) :
    assignInt M { ty := .int s' w', addr := c } { ty := f.ty, aux := f.aux, eff := f.eff, addr := a } =
      store M w' c (widen s w (load M w b)) := by
  have hd := located_data hl
  unfold assignInt
  simp only [hd, if_neg hl.1, reduceCtorEq, if_false, if_neg hc, getValue_int hi]
  simp [setValue]

/-- from a plain variable to the size field -/
theorem assign_to {M : Mem} {f : Fd} {s s' : Bool} {w w' a b c : Nat} (hi : IntField f s w) (hl : Located M f a b)
    (hc : c ≠ 0) :
    assignInt M { ty := f.ty, aux := f.aux, eff := f.eff, addr := a } { ty := .int s' w', addr := c } =
      store M w b (widen s' w' (load M w' c)) := by
  have hd := located_data hl
  unfold assignInt
  simp only [hd, if_neg hl.1, reduceCtorEq, if_false, if_neg hc, setValue_int hi]
  simp [getValue]

/-! ## finding the field -/

theorem cmp_eq {x y : Fd} : offsetCmp x y = 0 ↔ x.offset = y.offset := by
  unfold offsetCmp; split <;> split <;> omega

theorem cmp_le {x y : Fd} : offsetCmp x y ≤ 0 ↔ x.offset ≤ y.offset := by
  unfold offsetCmp; split <;> split <;> omega

theorem findLoop_ok {fields : List Fd} (hs : Sorted fields) (hlen : fields.length < 2 ^ 31) (key : Fd) :
    ∀ (fuel down up : Nat) (diff : Int), up - down < fuel → down ≤ up → up ≤ fields.length →
    (∀ (j : Nat) (g : Fd), j < down → fields[j]? = some g → g.offset < key.offset) →
    (diff = 0 → ∃ f, fields[up]? = some f ∧ f.offset = key.offset) →
    (diff ≠ 0 → ∀ (j : Nat) (g : Fd), up ≤ j → fields[j]? = some g → key.offset < g.offset) →
    ∃ d i, findIdxLoop offsetCmp fields key fuel down up diff = some (d, i) ∧
      (d = 0 → ∃ f, fields[i]? = some f ∧ f.offset = key.offset) ∧
      (d ≠ 0 → ∀ (j : Nat) (g : Fd), fields[j]? = some g → g.offset ≠ key.offset) := by
  intro fuel
  induction fuel with
  | zero => intro down up diff h; omega
  | succ fuel ih =>
    intro down up diff hf hdu hul hb he ha
    rw [findIdxLoop]
    by_cases hcond : up ≠ down ∧ diff ≠ 0
    · rw [if_pos hcond]
      have hmid : u32 (down + up) / 2 = (down + up) / 2 := by unfold u32; omega
      rw [hmid]
      have hm1 : down ≤ (down + up) / 2 := by omega
      have hm2 : (down + up) / 2 < up := by omega
      clear hmid
      generalize (down + up) / 2 = mid at *
      obtain ⟨m, hm⟩ : ∃ m, fields[mid]? = some m := ⟨_, List.getElem?_eq_getElem (show mid < fields.length by omega)⟩
      simp only [hm, Option.bind_eq_bind, Option.bind_some]
      by_cases hd : offsetCmp key m ≤ 0
      · rw [if_pos hd]
        refine ih _ _ _ (by clear he ha hb; omega) (by clear he ha hb; omega) (by clear he ha hb; omega) hb (fun h => ⟨m, hm, (cmp_eq.mp h).symm⟩) ?_
        intro hne j g hj hg
        have h1 : key.offset < m.offset := by
          have := cmp_le.mp hd
          have : key.offset ≠ m.offset := fun h => hne (cmp_eq.mpr h)
          omega
        by_cases hjm : j = mid
        · subst hjm; rw [hm] at hg; cases hg; exact h1
        · have := hs mid j m g (by omega) hm hg; omega
      · rw [if_neg hd]
        have h1 : m.offset < key.offset := by
          have : ¬ key.offset ≤ m.offset := fun h => hd (cmp_le.mpr h)
          omega
        refine ih _ _ _ (by clear he ha hb; omega) (by clear he ha hb; omega) (by clear he ha hb; omega) ?_ (fun h => absurd (cmp_le.mp (by rw [h]; decide)) (by omega)) (fun _ => ha hcond.2)
        intro j g hj hg
        by_cases hjm : j = mid
        · subst hjm; rw [hm] at hg; cases hg; exact h1
        · have := hs j mid g m (by omega) hg hm; omega
    · rw [if_neg hcond]
      refine ⟨diff, up, rfl, he, ?_⟩
      intro hd j g hg
      by_cases hj : j < up
      · have := hb j g (by omega) hg; omega
      · have := ha hd j g (by omega) hg; omega

theorem skip_ok {fields : List Fd} (hs : Sorted fields) (o : Nat) : ∀ (fuel idx : Nat) (f : Fd),
    fields.length - idx < fuel → fields[idx]? = some f → f.offset = o →
    ∃ i g, skipLoop fields o fuel idx = some i ∧ fields[i]? = some g ∧ g.offset = o ∧
      ∀ (j : Nat) (g : Fd), i < j → fields[j]? = some g → g.offset ≠ o := by
  intro fuel
  induction fuel with
  | zero => intro idx f h; omega
  | succ fuel ih =>
    intro idx f hf hi ho
    have hlt : idx < fields.length := (List.getElem?_eq_some_iff.mp hi).1
    rw [skipLoop]
    cases hn : fields[idx + 1]? with
    | none =>
      refine ⟨idx, f, rfl, hi, ho, ?_⟩
      intro j g hj hg
      have := List.getElem?_eq_none_iff.mp hn
      have := (List.getElem?_eq_some_iff.mp hg).1
      omega
    | some g =>
      by_cases hg : g.offset = o
      · simp only [hg, if_true]
        exact ih (idx + 1) g (by omega) hn hg
      · simp only [hg, if_false]
        refine ⟨idx, f, rfl, hi, ho, ?_⟩
        intro j k hj hk
        have h1 := hs idx (idx + 1) f g (by omega) hi hn
        by_cases hj1 : j = idx + 1
        · subst hj1; rw [hn] at hk; cases hk; exact hg
        · have := hs (idx + 1) j g k (by omega) hn hk; omega

theorem lastAt_unique {fields : List Fd} {o : Nat} {f g : Fd} (hf : LastAt fields o f) (hg : LastAt fields o g) : f = g := by
  obtain ⟨i, h1, h2, h3⟩ := hf
  obtain ⟨j, h4, h5, h6⟩ := hg
  rcases Nat.lt_trichotomy i j with h | h | h
  · exact absurd h5 (h3 j g h h4)
  · subst h; rw [h1] at h4; exact Option.some.inj h4
  · exact absurd h2 (h6 i f h h1)

theorem fdByOffset_ok {fields : List Fd} (hs : Sorted fields) (hlen : fields.length < 2 ^ 31) (o : Nat) :
    ∃ r, fdByOffset fields o = some r ∧ ∀ f, r = some f ↔ LastAt fields o f := by
  obtain ⟨d, i, h1, h2, h3⟩ := findLoop_ok hs hlen { name := "", offset := o, ty := .other } (fields.length + 1) 0
    fields.length 1 (by omega) (by omega) (by omega) (fun _ _ h => by omega) (fun h => by omega)
    (fun _ j g hj hg => by have := (List.getElem?_eq_some_iff.mp hg).1; omega)
  unfold fdByOffset findIdx
  simp only [h1, Option.bind_eq_bind, Option.bind_some]
  by_cases hd : d = 0
  · obtain ⟨f, hf, ho⟩ := h2 hd
    obtain ⟨k, g, h4, h5, h6, h7⟩ := skip_ok hs o (fields.length + 1) i f (by omega) hf ho
    have hg : LastAt fields o g := ⟨k, h5, h6, h7⟩
    refine ⟨some g, by simp [hd, h4, h5], fun x => ⟨(fun h => by cases h; exact hg), fun h => ?_⟩⟩
    rw [lastAt_unique hg h]
  · refine ⟨none, by simp [hd], fun x => ⟨(fun h => by cases h), fun h => ?_⟩⟩
    obtain ⟨k, h4, h5, _⟩ := h
    exact absurd h5 (h3 hd k x h4)

theorem fdByName_ok {fields : List Fd} {name : String} (hd : ∀ f ∈ fields, ∀ g ∈ fields, f.name = g.name → f = g) (f : Fd) :
    fdByName fields name = some f ↔ f ∈ fields ∧ f.name = name := by
  unfold fdByName
  constructor
  · intro h
    exact ⟨List.mem_of_find?_eq_some h, by have := List.find?_some h; simpa using this⟩
  · rintro ⟨h1, h2⟩
    cases h : List.find? (fun f => f.name == name) fields with
    | none => have := List.find?_eq_none.mp h f h1; simp [h2] at this
    | some g =>
      have h3 := List.mem_of_find?_eq_some h
      have h4 := List.find?_some h
      have h4 : g.name = name := by simpa using h4
      rw [hd f h1 g h3 (by rw [h2, h4])]

/-- the search upwards -/
theorem up_ok {known : String → Bool} {ra : List Node} (hg : Graph known ra) : ∀ (fuel i : Nat) (n : Node), i < fuel → ra[i]? = some n →
    ∃ r, upLoop ra fuel n.parent = some r ∧ ∀ p, r = some p ↔ Encloses ra i p := by
  intro fuel
  induction fuel with
  | zero => intro i n h; omega
  | succ fuel ih =>
    intro i n hi hn
    cases hp : n.parent with
    | none =>
      refine ⟨none, rfl, fun p => ⟨(fun h => by cases h), fun h => ?_⟩⟩
      cases h with
      | here h1 h2 => rw [hn] at h1; cases h1; rw [hp] at h2; cases h2
      | up h1 h2 => rw [hn] at h1; cases h1; rw [hp] at h2; cases h2
    | some q =>
      have hq := hg.parent i q n hn hp
      have hlt : i < ra.length := (List.getElem?_eq_some_iff.mp hn).1
      obtain ⟨m, hm⟩ : ∃ m, ra[q]? = some m := ⟨_, List.getElem?_eq_getElem (show q < ra.length by omega)⟩
      by_cases hs : m.ty = .struct
      · refine ⟨some q, by simp [upLoop, hm, hs], fun p => ⟨fun h => ?_, fun h => ?_⟩⟩
        · cases h; exact .here hn hp hm hs
        · cases h with
          | here h1 h2 => rw [hn] at h1; cases h1; rw [hp] at h2; exact h2
          | up h1 h2 h3 h4 =>
            rw [hn] at h1; cases h1; rw [hp] at h2; cases h2; rw [hm] at h3; cases h3; exact absurd hs h4
      · obtain ⟨r, h1, h2⟩ := ih q m (by omega) hm
        refine ⟨r, by simp [upLoop, hm, hs, h1], fun p => ⟨fun h => ?_, fun h => ?_⟩⟩
        · exact .up hn hp hm hs ((h2 p).mp h)
        · cases h with
          | here h3 h4 h5 h6 =>
            rw [hn] at h3; cases h3; rw [hp] at h4; cases h4; rw [hm] at h5; cases h5; exact absurd h6 hs
          | up h3 h4 h5 h6 h7 =>
            rw [hn] at h3; cases h3; rw [hp] at h4; cases h4
            exact (h2 p).mpr h7

theorem encl_get {ra : List Node} {i p : Nat} (he : Encloses ra i p) : ∃ m, ra[p]? = some m := by
  induction he with
  | here _ _ h3 _ => exact ⟨_, h3⟩
  | up _ _ _ _ _ ih => exact ih

/-- the size field is found, and nothing else -/
theorem getSize_ok {known : String → Bool} {ra : List Node} (hg : Graph known ra) {idx : Nat} {n : Node} (hn : ra[idx]? = some n) :
    ∃ pl, getSizePtrdes known ra idx = some pl ∧
      (∀ f a, SizeField ra idx f a → pl = { ty := f.ty, aux := f.aux, eff := f.eff, addr := a }) ∧
      ((¬ ∃ f a, SizeField ra idx f a) → pl.addr = 0) := by
  -- the rest of the function for a name
  have rest : ∀ (name : String) (look : List Fd → Option (Option Fd)),
      (∀ fs, look fs = findSizeFd fs name n.resOffset) →
      (∀ p m fs, Encloses ra idx p → ra[p]? = some m → m.fields = some fs →
        ∃ r, look fs = some r ∧ ∀ f, r = some f ↔ Names n fs f) →
      ∃ pl, (do
        match ← upLoop ra (ra.length + 1) n.parent with
        | none => some noPlace
        | some p => do
          let pn ← ra[p]?
          match pn.fields with
          | none => some noPlace
          | some fields => do
            let fd ← findSizeFd fields name n.resOffset
            match fd with
            | none => some noPlace
            | some f => some { ty := f.ty, aux := f.aux, eff := f.eff, addr := pn.data + f.offset } : Option Place) = some pl ∧
        (∀ f a, SizeField ra idx f a → pl = { ty := f.ty, aux := f.aux, eff := f.eff, addr := a }) ∧
        ((¬ ∃ f a, SizeField ra idx f a) → pl.addr = 0) := by
    intro name look hlook hr
    have hlt : idx < ra.length := (List.getElem?_eq_some_iff.mp hn).1
    obtain ⟨r, h1, h2⟩ := up_ok hg (ra.length + 1) idx n (by omega) hn
    simp only [h1, Option.bind_eq_bind, Option.bind_some]
    cases r with
    | none =>
      refine ⟨noPlace, rfl, ?_, fun _ => rfl⟩
      rintro f a ⟨n', p, m, fs, _, he, _⟩
      exact absurd ((h2 p).mpr he) (fun h => by cases h)
    | some p =>
      have he := (h2 p).mp rfl
      obtain ⟨m, hm⟩ : ∃ m, ra[p]? = some m := by
        exact encl_get he
      simp only [hm, Option.bind_some]
      cases hf : m.fields with
      | none =>
        refine ⟨noPlace, rfl, ?_, fun _ => rfl⟩
        rintro f a ⟨n', p', m', fs, _, he', hm', hf', _⟩
        have := (h2 p').mpr he'
        cases this
        rw [hm] at hm'; cases hm'; rw [hf] at hf'; cases hf'
      | some fs =>
        obtain ⟨r, h3, h4⟩ := hr p m fs he hm hf
        rw [hlook] at h3
        simp only [h3, Option.bind_some]
        cases r with
        | none =>
          refine ⟨noPlace, rfl, ?_, fun _ => rfl⟩
          rintro f a ⟨n', p', m', fs', hn', he', hm', hf', hN, _⟩
          have := (h2 p').mpr he'
          cases this
          rw [hn] at hn'; cases hn'
          rw [hm] at hm'; cases hm'; rw [hf] at hf'; cases hf'
          exact absurd ((h4 f).mpr hN) (fun h => by cases h)
        | some g =>
          refine ⟨_, rfl, ?_, ?_⟩
          · rintro f a ⟨n', p', m', fs', hn', he', hm', hf', hN, ha⟩
            have := (h2 p').mpr he'
            cases this
            rw [hn] at hn'; cases hn'
            rw [hm] at hm'; cases hm'; rw [hf] at hf'; cases hf'
            have := (h4 f).mpr hN
            cases this
            rw [ha]
          · intro h
            exact absurd ⟨g, _, n, p, m, fs, hn, he, hm, hf, (h4 g).mp rfl, rfl⟩ h
  have none_case : (∀ fs f, ¬ ∃ p m, Encloses ra idx p ∧ ra[p]? = some m ∧ m.fields = some fs ∧ Names n fs f) →
      ∃ pl, (some noPlace : Option Place) = some pl ∧
      (∀ f a, SizeField ra idx f a → pl = { ty := f.ty, aux := f.aux, eff := f.eff, addr := a }) ∧
      ((¬ ∃ f a, SizeField ra idx f a) → pl.addr = 0) := by
    intro h
    refine ⟨noPlace, rfl, ?_, fun _ => rfl⟩
    rintro f a ⟨n', p, m, fs, hn', he, hm, hf, hN, _⟩
    rw [hn] at hn'; cases hn'
    exact absurd ⟨p, m, he, hm, hf, hN⟩ (h fs f)
  unfold getSizePtrdes
  simp only [hn, Option.bind_eq_bind, Option.bind_some]
  cases ht : n.resType with
  | none => exact none_case (by rintro fs f ⟨p, m, _, _, _, h | h⟩ <;> rw [ht] at h <;> cases h.1)
  | some t =>
    by_cases h1 : t = "offset"
    · subst h1
      simp only [if_true]
      refine rest "" (fun fs => fdByOffset fs n.resOffset) (fun fs => by simp [findSizeFd]) ?_
      intro p m fs he hm hf
      obtain ⟨r, h2, h3⟩ := fdByOffset_ok (hg.sorted p m fs hm hf) (hg.small p m fs hm hf) n.resOffset
      refine ⟨r, h2, fun f => ?_⟩
      rw [h3 f]
      exact ⟨fun h => .inl ⟨ht, h⟩, fun h => by
        rcases h with h | h
        · exact h.2
        · have := h.1; rw [ht] at this; exact absurd this (by decide)⟩
    · by_cases h2 : t = "string"
      · subst h2
        simp only [show ("string" : String) ≠ "offset" by decide, if_false, if_true]
        by_cases hk : known n.resString = true
        · have hne : n.resString ≠ "" := fun h => by rw [h, hg.named] at hk; cases hk
          simp only [hk, if_true]
          refine rest n.resString (fun fs => some (fdByName fs n.resString)) (fun fs => by simp [findSizeFd, hne]) ?_
          intro p m fs he hm hf
          refine ⟨_, rfl, fun f => ?_⟩
          rw [fdByName_ok (hg.distinct p m fs hm hf)]
          exact ⟨fun h => .inr ⟨ht, h⟩, fun h => by
            rcases h with h | h
            · have := h.1; rw [ht] at this; exact absurd this (by decide)
            · exact h.2⟩
        · simp only [hk]
          refine none_case ?_
          rintro fs f ⟨p, m, _, hm, hf, h | ⟨_, h3, h4⟩⟩
          · have := h.1; rw [ht] at this; exact absurd this (by decide)
          · have := hg.exists_known p m fs hm hf f h3
            rw [h4] at this; exact hk this
      · simp only [h1, h2, if_false]
        refine none_case ?_
        rintro fs f ⟨p, m, _, _, _, h | h⟩
        · have := h.1; rw [ht] at this; exact h1 (Option.some.inj this)
        · have := h.1; rw [ht] at this; exact h2 (Option.some.inj this)

theorem getSize_some {known : String → Bool} {ra : List Node} (hg : Graph known ra) {idx : Nat} {f : Fd} {a : Nat}
    (h : SizeField ra idx f a) : getSizePtrdes known ra idx = some { ty := f.ty, aux := f.aux, eff := f.eff, addr := a } := by
  have ⟨n, _, _, _, hn, _⟩ := h
  obtain ⟨pl, h1, h2, _⟩ := getSize_ok hg hn
  rw [h1, h2 f a h]

end Verif.Lemmas.SizeField
