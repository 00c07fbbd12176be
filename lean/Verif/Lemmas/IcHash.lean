import Verif.Lemmas.IcArray
import Verif.Model.IcHash
namespace Verif.Lemmas.IcHash
open Verif.Model Verif.Model.Ic Verif.Spec Verif.Lemmas.Collection

/-- `d` steps forward from `b` on a circle of `N` slots (`b < N`, `d < N`) -/
def fwd (N b d : Nat) : Nat := if b + d < N then b + d else b + d - N

theorem fwd_lt {N b d : Nat} (hb : b < N) (hd : d < N) : fwd N b d < N := by
  unfold fwd; split <;> omega

theorem fwd_inj {N b d d' : Nat} (hb : b < N) (hd : d < N) (hd' : d' < N)
    (h : fwd N b d = fwd N b d') : d = d' := by
  unfold fwd at h; split at h <;> split at h <;> omega

theorem fwd_surj {N b j : Nat} (hb : b < N) (hj : j < N) : ∃ d < N, fwd N b d = j := by
  by_cases h : b ≤ j
  · exact ⟨j - b, by omega, by unfold fwd; split <;> omega⟩
  · exact ⟨j + N - b, by omega, by unfold fwd; split <;> omega⟩

theorem fwd_zero {N b : Nat} (hb : b < N) : fwd N b 0 = b := by
  unfold fwd; split <;> omega

theorem fwd_succ {N b d : Nat} (hb : b < N) (hd : d + 1 < N) :
    (if fwd N b d + 1 ≥ N then 0 else fwd N b d + 1) = fwd N b (d + 1) := by
  unfold fwd; split <;> split <;> split <;> omega

theorem fwd_last {N b d : Nat} (hb : b < N) (hd : d + 1 = N) :
    (if fwd N b d + 1 ≥ N then 0 else fwd N b d + 1) = b := by
  unfold fwd; split <;> split <;> omega

theorem exists_least (P : Nat → Prop) (n : Nat) (h : P n) : ∃ m, P m ∧ m ≤ n ∧ ∀ x < m, ¬ P x := by
  induction n using Nat.strongRecOn with
  | _ n ih =>
    by_cases hx : ∃ x < n, P x
    · obtain ⟨x, hx1, hx2⟩ := hx
      obtain ⟨m, h1, h2, h3⟩ := ih x hx1 hx2
      exact ⟨m, h1, by omega, h3⟩
    · exact ⟨n, h, Nat.le_refl _, fun x hx1 hx2 => hx ⟨x, hx1, hx2⟩⟩

/-- slot contents -/
def sl (t : List Key) (i : Nat) : Key := t.getD i 0

theorem sl_get {t : List Key} {i : Nat} (h : i < t.length) : t[i]? = some (sl t i) := by
  simp [sl, h]

theorem sl_set {t : List Key} {i j : Nat} {v : Key} (h : i < t.length) :
    sl (t.set i v) j = if i = j then v else sl t j := by
  unfold sl
  simp only [List.getD_eq_getElem?_getD, List.getElem?_set]
  split
  · rename_i h1; subst h1; simp
  · rfl

variable {cmp : Cmp} {hash : Key → Nat}

/-- Outcome of the probing loop when some slot is free. -/
theorem probe_ok (t : List Key) (N b : Nat) (key : Key) (hN : N < t.length) (hb : b < N)
    (hfree : ∃ e < N, sl t e = 0) : ∀ (fuel d : Nat), d < N → N - d < fuel →
    (∀ x < d, sl t (fwd N b x) ≠ 0 ∧ cmp key (sl t (fwd N b x)) ≠ 0) →
    ∃ m < N, (∀ x < m, sl t (fwd N b x) ≠ 0 ∧ cmp key (sl t (fwd N b x)) ≠ 0) ∧
      ((sl t (fwd N b m) = 0 ∧ probe cmp t N b key fuel (fwd N b d) = some (.empty (fwd N b m))) ∨
       (sl t (fwd N b m) ≠ 0 ∧ cmp key (sl t (fwd N b m)) = 0 ∧
          probe cmp t N b key fuel (fwd N b d) = some (.found (fwd N b m)))) := by
  intro fuel
  induction fuel with
  | zero => intro d h1 h2; omega
  | succ fuel ih =>
    intro d hd hf hall
    have hlt := fwd_lt hb hd
    rw [probe]
    simp only [sl_get (t := t) (i := fwd N b d) (by omega), Option.bind_eq_bind, Option.bind_some]
    by_cases h0 : sl t (fwd N b d) = 0
    · exact ⟨d, hd, hall, .inl ⟨h0, by rw [if_pos h0]⟩⟩
    · by_cases h1 : cmp key (sl t (fwd N b d)) = 0
      · exact ⟨d, hd, hall, .inr ⟨h0, h1, by rw [if_neg h0, if_pos h1]⟩⟩
      · rw [if_neg h0, if_neg h1]
        by_cases hlast : d + 1 = N
        · exfalso
          obtain ⟨e, he, hz⟩ := hfree
          obtain ⟨x, hx, rfl⟩ := fwd_surj hb he
          by_cases hxd : x = d
          · subst hxd; exact h0 hz
          · exact (hall x (by omega)).1 hz
        · have hs := fwd_succ hb (d := d) (N := N) (by omega)
          rw [hs]
          have hne : fwd N b (d + 1) ≠ b := by
            intro h
            have := fwd_inj hb (d := d + 1) (d' := 0) (by omega) (by omega) (by rw [h, fwd_zero hb])
            omega
          rw [if_neg hne]
          apply ih (d + 1) (by omega) (by omega)
          intro x hx
          by_cases hxd : x = d
          · subst hxd; exact ⟨h0, h1⟩
          · exact hall x (by omega)

/-- The key in slot `j` is found by probing from its home slot. -/
def Reach (hash : Key → Nat) (t : List Key) (N j : Nat) : Prop :=
  ∃ m < N, fwd N (hash (sl t j) % N) m = j ∧ ∀ d < m, sl t (fwd N (hash (sl t j) % N) d) ≠ 0

/-- non-zero keys in the probed slots -/
def keys (t : List Key) (N : Nat) : List Key := (t.take N).filter (· ≠ 0)

theorem mem_keys {t : List Key} {N : Nat} (hN : N ≤ t.length) {x : Key} :
    x ∈ keys t N ↔ ∃ j < N, sl t j = x ∧ x ≠ 0 := by
  unfold keys
  rw [List.mem_filter, List.mem_iff_getElem?]
  constructor
  · rintro ⟨⟨j, hj⟩, hx⟩
    rw [List.getElem?_take] at hj
    split at hj
    · rename_i hlt
      rw [sl_get (by omega)] at hj
      exact ⟨j, hlt, by simpa using hj, by simpa using hx⟩
    · cases hj
  · rintro ⟨j, hj, rfl, hx⟩
    exact ⟨⟨j, by rw [List.getElem?_take, if_pos hj, sl_get (by omega)]⟩, by simpa using hx⟩

theorem filter_set_perm (x : Key) (hx : x ≠ 0) : ∀ (l : List Key) (i : Nat), l[i]? = some 0 →
    ((l.set i x).filter (· ≠ 0)).Perm (x :: l.filter (· ≠ 0)) := by
  intro l
  induction l with
  | nil => intro i h; simp at h
  | cons a l ih =>
    intro i h
    cases i with
    | zero =>
      simp only [List.getElem?_cons_zero, Option.some.injEq] at h
      subst h
      simp [hx]
    | succ i =>
      simp only [List.getElem?_cons_succ] at h
      have := ih i h
      simp only [List.set_cons_succ, List.filter_cons]
      by_cases ha : a = 0
      · simpa [ha] using this
      · simp only [ne_eq, ha, not_false_eq_true, decide_true, if_true]
        exact (this.cons a).trans (List.Perm.swap _ _ _)

/-- filling a free slot adds one key -/
theorem keys_set {t : List Key} {N i : Nat} (hN : N ≤ t.length) (hi : i < N) (h0 : sl t i = 0)
    {x : Key} (hx : x ≠ 0) : (keys (t.set i x) N).Perm (x :: keys t N) := by
  unfold keys
  rw [List.take_set]
  apply filter_set_perm x hx
  rw [List.getElem?_take, if_pos hi, sl_get (by omega), h0]

/-- emptying a slot removes one key -/
theorem keys_clear {t : List Key} {N i : Nat} (hN : N ≤ t.length) (hi : i < N) (h0 : sl t i ≠ 0) :
    (keys t N).Perm (sl t i :: keys (t.set i 0) N) := by
  have h := keys_set (t := t.set i 0) (N := N) (i := i) (by simpa) hi
    (by rw [sl_set (by omega)]; simp) h0
  rw [List.set_set] at h
  have : t.set i (sl t i) = t := by
    apply List.ext_getElem?
    intro n
    rw [List.getElem?_set]
    split
    · rename_i h1; subst h1; rw [if_pos (by omega), sl_get (by omega)]
    · rfl
  rw [this] at h
  exact h

theorem keys_free {t : List Key} {N : Nat} (hN : N ≤ t.length) (h : (keys t N).length < N) :
    ∃ e < N, sl t e = 0 := by
  refine Classical.byContradiction fun hno => ?_
  have : keys t N = t.take N := by
    unfold keys
    rw [List.filter_eq_self]
    intro x hx
    obtain ⟨j, hj, rfl⟩ := List.getElem_of_mem hx
    simp only [List.length_take] at hj
    have h1 : sl t j ≠ 0 := fun h => hno ⟨j, by omega, h⟩
    have h2 := sl_get (t := t) (i := j) (by omega)
    rw [List.getElem?_eq_getElem (by omega)] at h2
    rw [List.getElem_take]
    simpa [Option.some.inj h2] using h1
  rw [this] at h
  simp at h
  omega

/-- No key in the probed slots equals `key`. -/
def Absent (cmp : Cmp) (t : List Key) (N : Nat) (key : Key) : Prop :=
  ∀ j < N, sl t j ≠ 0 → cmp key (sl t j) ≠ 0

/-- Inserting an absent non-zero key. -/
theorem insert_ok (t : List Key) (N : Nat) (hN : t.length = N + 1) (hN0 : 0 < N) (key : Key)
    (hk : key ≠ 0) (hfree : ∃ e < N, sl t e = 0) (habs : Absent cmp t N key) (h : Hash)
    (ht : h.table = t) :
    ∃ m < N, (∀ d < m, sl t (fwd N (hash key % N) d) ≠ 0) ∧ sl t (fwd N (hash key % N) m) = 0 ∧
      hashIndexAdd cmp hash h key = some ({ h with
        table := t.set (fwd N (hash key % N) m) key, itemsCount := u32 (h.itemsCount + 1) },
        some (fwd N (hash key % N) m)) := by
  have hb : hash key % N < N := Nat.mod_lt _ hN0
  obtain ⟨m, hm, hall, hr⟩ := probe_ok (cmp := cmp) t N (hash key % N) key (by omega) hb hfree
    (N + 1) 0 hN0 (by omega) (by intro x hx; omega)
  have hlt := fwd_lt hb hm
  rw [fwd_zero hb] at hr
  refine ⟨m, hm, fun d hd => (hall d hd).1, ?_⟩
  rcases hr with ⟨h0, hp⟩ | ⟨h0, h1, hp⟩
  · refine ⟨h0, ?_⟩
    unfold hashIndexAdd
    rw [ht, if_pos (by omega), if_neg hk]
    have : t.length - 1 = N := by omega
    simp only [this, hp, Option.bind_eq_bind, Option.bind_some]
    unfold wr
    rw [if_pos (by omega)]
    rfl
  · exact absurd h1 (habs _ hlt h0)

/-- Reachability survives filling a free slot. -/
theorem reach_set {t : List Key} {N i : Nat} (hi : i < t.length) (h0 : sl t i = 0) {x : Key}
    (hx : x ≠ 0) {j : Nat} (hj : i ≠ j) (h : Reach hash t N j) : Reach hash (t.set i x) N j := by
  obtain ⟨m, hm, h1, h2⟩ := h
  have e : sl (t.set i x) j = sl t j := by rw [sl_set hi, if_neg hj]
  refine ⟨m, hm, by rw [e]; exact h1, ?_⟩
  intro d hd
  rw [e, sl_set hi]
  split
  · exact hx
  · exact h2 d hd

/-- The inserted key is reachable. -/
theorem reach_new {t : List Key} {N m : Nat} (hN : t.length = N + 1) (hN0 : 0 < N) {key : Key}
    (hk : key ≠ 0) (hm : m < N) (hall : ∀ d < m, sl t (fwd N (hash key % N) d) ≠ 0) :
    Reach hash (t.set (fwd N (hash key % N) m) key) N (fwd N (hash key % N) m) := by
  have hb : hash key % N < N := Nat.mod_lt _ hN0
  have hlt := fwd_lt hb hm
  have e : sl (t.set (fwd N (hash key % N) m) key) (fwd N (hash key % N) m) = key := by
    rw [sl_set (by omega), if_pos rfl]
  refine ⟨m, hm, by rw [e], ?_⟩
  intro d hd
  rw [e, sl_set (by omega)]
  split
  · exact hk
  · exact hall d hd

/-! ### deletion -/

/-- Invariant of the re-indexing loop: `p` is the emptied slot, offsets `≤ ii` from it are done,
offset `ee` is the first free slot after them. -/
structure DelInv (hash : Key → Nat) (t : List Key) (N p ii ee : Nat) : Prop where
  lt : ii < ee
  eeN : ee < N
  free : sl t (fwd N p ee) = 0
  run : ∀ x, ii < x → x < ee → sl t (fwd N p x) ≠ 0
  good : ∀ j < N, sl t j ≠ 0 → (∀ x, ii < x → x < ee → j ≠ fwd N p x) → Reach hash t N j
  pend : ∀ x, ii < x → x < ee → ∃ m < N, fwd N (hash (sl t (fwd N p x)) % N) m = fwd N p x ∧
    ∀ d < m, sl t (fwd N (hash (sl t (fwd N p x)) % N) d) ≠ 0 ∨
      ∃ y ≤ ii, fwd N (hash (sl t (fwd N p x)) % N) d = fwd N p y

/-- A probe sequence that passes offset `u` and ends outside `(u, ee)` passes offset `ee`. -/
theorem passes {N p u ee b m d j : Nat} (hp : p < N) (hb : b < N) (hee : ee < N) (hu : u < ee)
    (hm : m < N) (hd : d < m) (hj : fwd N b m = j) (hdu : fwd N b d = fwd N p u)
    (hout : ∀ x, u < x → x < ee → j ≠ fwd N p x) (hje : j ≠ fwd N p ee) :
    ∃ d' < m, fwd N b d' = fwd N p ee := by
  by_cases h : d + (ee - u) < m
  · refine ⟨d + (ee - u), h, ?_⟩
    unfold fwd at *
    split at hdu <;> split at hdu <;> split <;> split <;> omega
  · exfalso
    have hx : fwd N p (u + (m - d)) = j := by
      rw [← hj]; clear hout hje
      unfold fwd at *
      split at hdu <;> split at hdu <;> split <;> split <;> omega
    by_cases hlt : u + (m - d) < ee
    · exact hout _ (by omega) hlt hx.symm
    · have : u + (m - d) = ee := by omega
      rw [this] at hx
      exact hje hx.symm

theorem delInv_init {t : List Key} {N p : Nat} (hN : t.length = N + 1) (hp : p < N)
    (hp0 : sl t p ≠ 0) (hfree : ∃ e < N, sl t e = 0)
    (hreach : ∀ j < N, sl t j ≠ 0 → Reach hash t N j) :
    ∃ ee, DelInv hash (t.set p 0) N p 0 ee := by
  obtain ⟨e, he, hz⟩ := hfree
  obtain ⟨d, hd, rfl⟩ := fwd_surj hp he
  obtain ⟨ee, h1, h2, h3⟩ := exists_least (fun n => n < N ∧ sl t (fwd N p n) = 0) d ⟨hd, hz⟩
  have hee0 : 0 < ee := by
    rcases Nat.eq_zero_or_pos ee with h | h
    · subst h; rw [fwd_zero hp] at h1; exact absurd h1.2 hp0
    · exact h
  have hset : ∀ j, sl (t.set p 0) j = if p = j then 0 else sl t j := fun j => sl_set (by omega)
  have hnp : ∀ x, 0 < x → x < N → p ≠ fwd N p x := by
    intro x hx hxN h
    have := fwd_inj hp (d := 0) (d' := x) (by omega) hxN (by rw [fwd_zero hp]; exact h)
    omega
  refine ⟨ee, hee0, h1.1, ?_, ?_, ?_, ?_⟩
  · rw [hset, if_neg (hnp ee hee0 h1.1)]; exact h1.2
  · intro x hx hxe
    rw [hset, if_neg (hnp x hx (by omega))]
    exact fun h => h3 x hxe ⟨by omega, h⟩
  · intro j hj hj0 hout
    rw [hset] at hj0
    have hpj : p ≠ j := by intro h; rw [if_pos h] at hj0; exact hj0 rfl
    rw [if_neg hpj] at hj0
    obtain ⟨m, hm, hr1, hr2⟩ := hreach j hj hj0
    have e : sl (t.set p 0) j = sl t j := by rw [hset, if_neg hpj]
    refine ⟨m, hm, by rw [e]; exact hr1, ?_⟩
    intro d hd
    rw [e, hset]
    split
    · rename_i hpd
      exfalso
      have hb : hash (sl t j) % N < N := Nat.mod_lt _ (by omega)
      obtain ⟨d', hd', he'⟩ := passes hp hb h1.1 hee0 hm hd hr1
        (by rw [fwd_zero hp]; exact hpd.symm) hout (fun h => by rw [h] at hj0; exact hj0 h1.2)
      exact hr2 d' hd' (by rw [he']; exact h1.2)
    · exact hr2 d hd
  · intro x hx hxe
    have hxp := hnp x hx (by omega)
    have hx0 : sl t (fwd N p x) ≠ 0 := fun h => h3 x hxe ⟨by omega, h⟩
    obtain ⟨m, hm, hr1, hr2⟩ := hreach (fwd N p x) (fwd_lt hp (by omega)) hx0
    have e : sl (t.set p 0) (fwd N p x) = sl t (fwd N p x) := by rw [hset, if_neg hxp]
    refine ⟨m, hm, by rw [e]; exact hr1, ?_⟩
    intro d hd
    rw [e, hset]
    by_cases hpd : p = fwd N (hash (sl t (fwd N p x)) % N) d
    · right; exact ⟨0, Nat.le_refl _, by rw [fwd_zero hp]; exact hpd.symm⟩
    · left; rw [if_neg hpd]; exact hr2 d hd

/-- One iteration: the key at offset `ii + 1` is taken out and inserted again at `q`. -/
theorem delInv_step {t : List Key} {N p ii ee : Nat} (hN : t.length = N + 1) (hp : p < N)
    (inv : DelInv hash t N p ii ee) (hlt : ii + 1 < ee) (m' : Nat) (hm' : m' < N)
    (key : Key) (hkey : key = sl t (fwd N p (ii + 1)))
    (hall : ∀ d < m', sl (t.set (fwd N p (ii + 1)) 0) (fwd N (hash key % N) d) ≠ 0)
    (hz : sl (t.set (fwd N p (ii + 1)) 0) (fwd N (hash key % N) m') = 0) :
    DelInv hash ((t.set (fwd N p (ii + 1)) 0).set (fwd N (hash key % N) m') key) N p (ii + 1) ee := by
  have heeN := inv.eeN
  have hu : fwd N p (ii + 1) < N := fwd_lt hp (by omega)
  have hb : hash key % N < N := Nat.mod_lt _ (by omega)
  have hq : fwd N (hash key % N) m' < N := fwd_lt hb hm'
  have hk0 : key ≠ 0 := by rw [hkey]; exact inv.run _ (by omega) hlt
  have hset1 : ∀ j, sl (t.set (fwd N p (ii + 1)) 0) j = if fwd N p (ii + 1) = j then 0 else sl t j :=
    fun j => sl_set (by omega)
  have hset2 : ∀ j, sl ((t.set (fwd N p (ii + 1)) 0).set (fwd N (hash key % N) m') key) j =
      if fwd N (hash key % N) m' = j then key else sl (t.set (fwd N p (ii + 1)) 0) j :=
    fun j => sl_set (by rw [List.length_set]; omega)
  have hne : ∀ x, x < N → x ≠ ii + 1 → fwd N p (ii + 1) ≠ fwd N p x := by
    intro x hx hxi h
    exact hxi (fwd_inj hp (by omega) hx h).symm
  obtain ⟨m, hm, hpe1, hpe2⟩ := inv.pend (ii + 1) (by omega) hlt
  rw [← hkey] at hpe1 hpe2
  -- the probe stops no later than at the old slot
  have hm'm : m' ≤ m := by
    refine Classical.byContradiction fun h => ?_
    exact hall m (by omega) (by rw [hset1, if_pos hpe1.symm])
  have hqe : fwd N (hash key % N) m' ≠ fwd N p ee := by
    intro h
    have hne' : m' ≠ m := by
      intro h2; subst h2; rw [hpe1] at h
      have := fwd_inj hp (by omega) heeN h; omega
    rcases hpe2 m' (by omega) with h3 | ⟨y, hy, h3⟩
    · rw [h] at h3; exact h3 inv.free
    · rw [h] at h3
      have := fwd_inj hp heeN (by omega) h3; omega
  -- slots with a key in the table without the moved key keep it
  have hkeep : ∀ j, sl (t.set (fwd N p (ii + 1)) 0) j ≠ 0 →
      sl ((t.set (fwd N p (ii + 1)) 0).set (fwd N (hash key % N) m') key) j = sl t j := by
    intro j hj
    rw [hset2, if_neg (fun h => hj (by rw [← h]; exact hz)), hset1]
    rw [hset1] at hj
    split
    · rename_i h; rw [if_pos h] at hj; exact absurd rfl hj
    · rfl
  have hrun1 : ∀ x, ii + 1 < x → x < ee → sl (t.set (fwd N p (ii + 1)) 0) (fwd N p x) ≠ 0 := by
    intro x hx hxe
    rw [hset1, if_neg (hne x (by omega) (by omega))]
    exact inv.run x (by omega) hxe
  refine ⟨hlt, heeN, ?_, ?_, ?_, ?_⟩
  · rw [hset2, if_neg hqe, hset1, if_neg (hne ee heeN (by omega))]; exact inv.free
  · intro x hx hxe
    rw [hkeep _ (hrun1 x hx hxe)]
    exact inv.run x (by omega) hxe
  · intro j hj hj0 hout
    by_cases hjq : fwd N (hash key % N) m' = j
    · rw [← hjq]
      exact reach_new (by simpa using hN) (by omega) hk0 hm' hall
    · rw [hset2, if_neg hjq] at hj0
      apply reach_set (by rw [List.length_set]; omega) hz hk0 hjq
      have hju : fwd N p (ii + 1) ≠ j := by
        intro h; rw [hset1, if_pos h] at hj0; exact hj0 rfl
      have hjt : sl t j ≠ 0 := by rw [hset1, if_neg hju] at hj0; exact hj0
      have hout' : ∀ x, ii < x → x < ee → j ≠ fwd N p x := by
        intro x hx hxe
        by_cases hxi : x = ii + 1
        · subst hxi; exact fun h => hju h.symm
        · exact hout x (by omega) hxe
      obtain ⟨mj, hmj, hr1, hr2⟩ := inv.good j hj hjt hout'
      have e : sl (t.set (fwd N p (ii + 1)) 0) j = sl t j := by rw [hset1, if_neg hju]
      refine ⟨mj, hmj, by rw [e]; exact hr1, ?_⟩
      intro d hd
      rw [e, hset1]
      split
      · rename_i hud
        exfalso
        have hb' : hash (sl t j) % N < N := Nat.mod_lt _ (by omega)
        obtain ⟨d', hd', he'⟩ := passes hp hb' heeN hlt hmj hd hr1 hud.symm
          (fun x hx hxe => hout x hx hxe) (fun h => by rw [h] at hjt; exact hjt inv.free)
        exact hr2 d' hd' (by rw [he']; exact inv.free)
      · exact hr2 d hd
  · intro x hx hxe
    rw [hkeep _ (hrun1 x hx hxe)]
    obtain ⟨mx, hmx, hx1, hx2⟩ := inv.pend x (by omega) hxe
    refine ⟨mx, hmx, hx1, ?_⟩
    intro d hd
    rcases hx2 d hd with h | ⟨y, hy, h⟩
    · by_cases hud : fwd N p (ii + 1) = fwd N (hash (sl t (fwd N p x)) % N) d
      · right; exact ⟨ii + 1, Nat.le_refl _, hud.symm⟩
      · left
        rw [hkeep _ (by rw [hset1, if_neg hud]; exact h)]
        exact h
    · right; exact ⟨y, by omega, h⟩

/-! ### the whole collection -/

/-- number of probed slots -/
def cnt (h : Hash) : Nat := h.table.length - 1

/-- Invariant of a hash collection. -/
structure HashOK (cmp : Cmp) (hash : Key → Nat) (h : Hash) : Prop where
  size : (h.table = [] ∧ h.zeroKey = false) ∨ 10 ≤ h.table.length
  reach : ∀ j < cnt h, sl h.table j ≠ 0 → Reach hash h.table (cnt h) j
  zero : h.zeroKey = true → sl h.table (cnt h) = 0
  dist : Distinct cmp (hashForeach h)
  load : (keys h.table (cnt h)).length ≤ h.table.length / 2
  count : (hashForeach h).length ≤ h.itemsCount

theorem foreach_eq {h : Hash} (hs : 10 ≤ h.table.length) (hz : h.zeroKey = true → sl h.table (cnt h) = 0) :
    hashForeach h = (if h.zeroKey then [0] else []) ++ keys h.table (cnt h) := by
  unfold hashForeach
  rw [if_neg (by omega)]
  show (if h.zeroKey = true then [h.table.getD (h.table.length - 1) 0] else []) ++ _ = _
  congr 1
  cases hk : h.zeroKey with
  | false => rfl
  | true =>
    have := hz hk
    unfold sl cnt at this
    rw [this]

theorem mem_foreach {h : Hash} (hs : 10 ≤ h.table.length)
    (hz : h.zeroKey = true → sl h.table (cnt h) = 0) {x : Key} :
    x ∈ hashForeach h ↔ (x = 0 ∧ h.zeroKey = true) ∨ ∃ j < cnt h, sl h.table j = x ∧ x ≠ 0 := by
  rw [foreach_eq hs hz, List.mem_append, mem_keys (by unfold cnt; omega)]
  cases h.zeroKey <;> simp

theorem HashOK.free {h : Hash} (ok : HashOK cmp hash h) (hs : 10 ≤ h.table.length) :
    ∃ e < cnt h, sl h.table e = 0 :=
  keys_free (by unfold cnt; omega) (by have := ok.load; unfold cnt at *; omega)

/-- What `probe` says about the stored keys. -/
theorem probe_lookup (hc : Comparator cmp) (hh : ∀ x y, cmp x y = 0 → hash x = hash y) {h : Hash}
    (ok : HashOK cmp hash h) (hs : 10 ≤ h.table.length) (key : Key) :
    (∃ i < cnt h, probe cmp h.table (cnt h) (hash key % cnt h) key (cnt h + 1) (hash key % cnt h) =
        some (.found i) ∧ sl h.table i ≠ 0 ∧ cmp key (sl h.table i) = 0) ∨
    (∃ i < cnt h, probe cmp h.table (cnt h) (hash key % cnt h) key (cnt h + 1) (hash key % cnt h) =
        some (.empty i) ∧ sl h.table i = 0 ∧ Absent cmp h.table (cnt h) key) := by
  have hN0 : 0 < cnt h := by unfold cnt; omega
  have hb : hash key % cnt h < cnt h := Nat.mod_lt _ hN0
  obtain ⟨m, hm, hall, hr⟩ := probe_ok (cmp := cmp) h.table (cnt h) (hash key % cnt h) key
    (by unfold cnt; omega) hb (ok.free hs) (cnt h + 1) 0 hN0 (by omega) (by intro x hx; omega)
  have hlt := fwd_lt hb hm
  rw [fwd_zero hb] at hr
  rcases hr with ⟨h0, hp⟩ | ⟨h0, h1, hp⟩
  · right
    refine ⟨_, hlt, hp, h0, ?_⟩
    intro j hj hj0 heq
    obtain ⟨mj, hmj, hr1, hr2⟩ := ok.reach j hj hj0
    rw [← hh _ _ heq] at hr1 hr2
    rcases Nat.lt_trichotomy mj m with hlt' | heq' | hgt
    · have := (hall mj hlt').2
      rw [hr1] at this; exact this heq
    · subst heq'; rw [hr1] at h0; exact hj0 h0
    · exact hr2 m hgt h0
  · left; exact ⟨_, hlt, hp, h0, h1⟩

theorem hashFind_ok (hc : Comparator cmp) (hh : ∀ x y, cmp x y = 0 → hash x = hash y) {h : Hash}
    (ok : HashOK cmp hash h) (key : Key) :
    ∃ r, hashFind cmp hash h key = some r ∧ r.bind (h.table[·]?) = lookup cmp (hashForeach h) key ∧
      (r = none ↔ lookup cmp (hashForeach h) key = none) ∧
      (∀ i, r = some i → 10 ≤ h.table.length ∧
        ((i < cnt h ∧ sl h.table i ≠ 0 ∧ cmp key (sl h.table i) = 0) ∨
         (i = cnt h ∧ h.zeroKey = true ∧ cmp key 0 = 0))) := by
  rcases ok.size with ⟨h1, h2⟩ | hs
  · refine ⟨none, ?_, ?_, ?_, ?_⟩
    · unfold hashFind; rw [h1]; rfl
    · unfold hashForeach; rw [h1]; rfl
    · unfold hashForeach; rw [h1]; simp [lookup_nil]
    · intro i h; cases h
  · unfold hashFind
    rw [if_neg (by omega)]
    have hmem := fun x => mem_foreach (x := x) hs ok.zero
    rcases probe_lookup hc hh ok hs key with ⟨i, hi, hp, h0, h1⟩ | ⟨i, hi, hp, h0, habs⟩
    · have hl : lookup cmp (hashForeach h) key = some (sl h.table i) :=
        (lookup_eq_some_iff hc ok.dist).mpr ⟨(hmem _).mpr (.inr ⟨i, hi, rfl, h0⟩), h1⟩
      refine ⟨some i, ?_, ?_, ?_, ?_⟩
      · unfold cnt at hp
        simp only [hp, Option.bind_eq_bind, Option.bind_some]
      · rw [hl]; exact sl_get (by unfold cnt at hi; omega)
      · simp [hl]
      · intro j hj; cases hj; exact ⟨hs, .inl ⟨hi, h0, h1⟩⟩
    · have hp' := hp
      unfold cnt at hp'
      simp only [hp', Option.bind_eq_bind, Option.bind_some]
      cases hz : h.zeroKey with
      | false =>
        have hl : lookup cmp (hashForeach h) key = none := by
          rw [lookup_none]
          intro r hr
          rcases (hmem r).mp hr with ⟨_, h2⟩ | ⟨j, hj, rfl, hj0⟩
          · rw [hz] at h2; cases h2
          · exact habs j hj hj0
        refine ⟨none, rfl, by rw [hl]; rfl, by simp [hl], ?_⟩
        intro i h; cases h
      | true =>
        have hzz := ok.zero hz
        have hg : h.table[h.table.length - 1]? = some 0 := by
          rw [sl_get (by omega)]; exact congrArg some hzz
        simp only [if_true, hg, Option.bind_some]
        by_cases hk : cmp key 0 = 0
        · have hl : lookup cmp (hashForeach h) key = some 0 :=
            (lookup_eq_some_iff hc ok.dist).mpr ⟨(hmem _).mpr (.inl ⟨rfl, hz⟩), hk⟩
          refine ⟨some (h.table.length - 1), by rw [if_pos hk], ?_, by simp [hl], ?_⟩
          · rw [hl]; exact hg
          · intro j hj; cases hj; exact ⟨hs, .inr ⟨rfl, trivial, hk⟩⟩
        · have hl : lookup cmp (hashForeach h) key = none := by
            rw [lookup_none]
            intro r hr
            rcases (hmem r).mp hr with ⟨h1, h2⟩ | ⟨j, hj, rfl, hj0⟩
            · rw [h1]; exact hk
            · exact habs j hj hj0
          refine ⟨none, by rw [if_neg hk], by rw [hl]; rfl, by simp [hl], ?_⟩
          intro i h; cases h

/-- Filling a free slot with an absent key at the place where probing stops. -/
theorem hashOK_insert (hc : Comparator cmp) {h : Hash} (ok : HashOK cmp hash h)
    (hs : 10 ≤ h.table.length) (hroom : (hashForeach h).length < h.table.length / 2)
    (hb : h.itemsCount < 4294967295) {key : Key} (hk : key ≠ 0)
    (hl : lookup cmp (hashForeach h) key = none) {m : Nat}
    (hm : m < cnt h) (hall : ∀ d < m, sl h.table (fwd (cnt h) (hash key % cnt h) d) ≠ 0)
    (h0 : sl h.table (fwd (cnt h) (hash key % cnt h) m) = 0) (h' : Hash)
    (hh' : h' = { h with table := h.table.set (fwd (cnt h) (hash key % cnt h) m) key,
                         itemsCount := u32 (h.itemsCount + 1) }) :
    HashOK cmp hash h' ∧ (hashForeach h').Perm (hashForeach h ++ [key]) ∧
      h'.itemsCount = h.itemsCount + 1 := by
  have hN0 : 0 < cnt h := by unfold cnt; omega
  have hb' : hash key % cnt h < cnt h := Nat.mod_lt _ hN0
  have hq := fwd_lt hb' hm
  have hlen : h'.table.length = h.table.length := by rw [hh']; simp
  have hcnt : cnt h' = cnt h := by unfold cnt; rw [hlen]
  have htab : h'.table = h.table.set (fwd (cnt h) (hash key % cnt h) m) key := by rw [hh']
  have hzk : h'.zeroKey = h.zeroKey := by rw [hh']
  have hz' : h'.zeroKey = true → sl h'.table (cnt h') = 0 := by
    intro hz
    rw [hcnt, htab, sl_set (by unfold cnt at *; omega), if_neg (by omega)]
    exact ok.zero (hzk ▸ hz)
  have hkeys := keys_set (t := h.table) (N := cnt h) (by unfold cnt; omega) hq h0 hk
  have hperm : (hashForeach h').Perm (hashForeach h ++ [key]) := by
    rw [foreach_eq (by omega) hz', foreach_eq hs ok.zero, hzk, hcnt, htab, List.append_assoc]
    exact List.Perm.append_left _ (hkeys.trans (List.perm_append_comm (l₁ := [key])))
  have hic : h'.itemsCount = h.itemsCount + 1 := by
    rw [hh']; show u32 _ = _; unfold u32; omega
  have hcount := ok.count
  refine ⟨⟨.inr (by omega), ?_, hz', ?_, ?_, ?_⟩, hperm, hic⟩
  · intro j hj hj0
    rw [hcnt] at hj ⊢
    rw [htab] at hj0 ⊢
    by_cases hjq : fwd (cnt h) (hash key % cnt h) m = j
    · rw [← hjq]
      exact reach_new (by unfold cnt; omega) hN0 hk hm hall
    · rw [sl_set (by unfold cnt at *; omega), if_neg hjq] at hj0
      exact reach_set (by unfold cnt at *; omega) h0 hk hjq (ok.reach j hj hj0)
  · exact distinct_perm hc hperm.symm (distinct_append_singleton hc ok.dist hl)
  · rw [hlen, hcnt, htab, hkeys.length_eq]
    rw [foreach_eq hs ok.zero] at hroom
    simp at hroom ⊢
    omega
  · rw [hperm.length_eq, hic]; simp; omega

/-- `mr_ic_hash_index_add` when there is room. -/
theorem hashIndexAdd_ok (hc : Comparator cmp) (hh : ∀ x y, cmp x y = 0 → hash x = hash y) {h : Hash}
    (ok : HashOK cmp hash h) (hs : 10 ≤ h.table.length)
    (hroom : (hashForeach h).length < h.table.length / 2) (hb : h.itemsCount < 4294967295) (key : Key)
    (hz : key = 0 → lookup cmp (hashForeach h) 0 = none)
    (hnz : key ≠ 0 → h.zeroKey = true → cmp key 0 ≠ 0) :
    ∃ h' i, hashIndexAdd cmp hash h key = some (h', some i) ∧ HashOK cmp hash h' ∧
      h'.table.length = h.table.length ∧
      ((∃ v, lookup cmp (hashForeach h) key = some v ∧ h' = h ∧ h'.table[i]? = some v) ∨
       (lookup cmp (hashForeach h) key = none ∧ (hashForeach h').Perm (hashForeach h ++ [key]) ∧
         h'.itemsCount = h.itemsCount + 1 ∧ h'.table[i]? = some key)) := by
  by_cases hk : key = 0
  · subst hk
    have hl := hz rfl
    unfold hashIndexAdd
    rw [if_pos (by omega), if_pos rfl]
    unfold wr
    rw [if_pos (by omega)]
    have hzk : h.zeroKey = false := by
      cases hzk : h.zeroKey with
      | false => rfl
      | true =>
        have := lookup_none.mp hl 0 ((mem_foreach hs ok.zero).mpr (.inl ⟨rfl, hzk⟩))
        exact absurd (cmp_self hc 0) this
    have hcl : cnt h < h.table.length := by unfold cnt; omega
    let h' : Hash := { table := h.table.set (cnt h) 0, zeroKey := true, itemsCount := u32 (h.itemsCount + 1) }
    have hsl : ∀ j, sl h'.table j = if cnt h = j then 0 else sl h.table j := fun j => sl_set hcl
    have hlen : h'.table.length = h.table.length := by simp [h']
    have hcnt : cnt h' = cnt h := by unfold cnt; rw [hlen]
    have hz' : h'.zeroKey = true → sl h'.table (cnt h') = 0 := by
      intro _; rw [hsl, hcnt, if_pos rfl]
    have hkeys : keys h'.table (cnt h) = keys h.table (cnt h) := by
      unfold keys
      show List.filter _ ((h.table.set (cnt h) 0).take (cnt h)) = _
      rw [List.take_set_of_le (Nat.le_refl _)]
    have hperm : (hashForeach h').Perm (hashForeach h ++ [0]) := by
      rw [foreach_eq (by omega) hz', foreach_eq hs ok.zero, hcnt, hkeys, hzk]
      exact List.perm_append_comm (l₁ := [0])
    have hic : h'.itemsCount = h.itemsCount + 1 := by
      show u32 _ = _; unfold u32; omega
    have hcount := ok.count
    refine ⟨h', cnt h, rfl, ⟨.inr (by omega), ?_, hz', ?_, ?_, ?_⟩, hlen, .inr ⟨hl, hperm, hic, ?_⟩⟩
    · intro j hj hj0
      rw [hcnt] at hj ⊢
      have e : ∀ j < cnt h, sl h'.table j = sl h.table j := fun j hj => by
        rw [hsl, if_neg (by omega)]
      rw [e j hj] at hj0
      obtain ⟨m, hm, h1, h2⟩ := ok.reach j hj hj0
      have hbk : hash (sl h.table j) % cnt h < cnt h := Nat.mod_lt _ (by omega)
      refine ⟨m, hm, by rw [e j hj]; exact h1, ?_⟩
      intro d hd
      rw [e j hj, e _ (fwd_lt hbk (by omega))]
      exact h2 d hd
    · exact distinct_perm hc hperm.symm (distinct_append_singleton hc ok.dist hl)
    · rw [hlen, hcnt, hkeys]; exact ok.load
    · rw [hperm.length_eq, hic]; simp; omega
    · rw [sl_get (by omega), hsl, if_pos rfl]
  · have hmem := fun x => mem_foreach (x := x) hs ok.zero
    rcases probe_lookup hc hh ok hs key with ⟨i, hi, hp, h0, h1⟩ | ⟨i, hi, hp, h0, habs⟩
    · have hl : lookup cmp (hashForeach h) key = some (sl h.table i) :=
        (lookup_eq_some_iff hc ok.dist).mpr ⟨(hmem _).mpr (.inr ⟨i, hi, rfl, h0⟩), h1⟩
      refine ⟨h, i, ?_, ok, rfl, .inl ⟨_, hl, rfl, sl_get (by unfold cnt at hi; omega)⟩⟩
      unfold hashIndexAdd
      unfold cnt at hp
      rw [if_pos (by omega), if_neg hk]
      simp only [hp, Option.bind_eq_bind, Option.bind_some]
    · have hl : lookup cmp (hashForeach h) key = none := by
        rw [lookup_none]
        intro r hr
        rcases (hmem r).mp hr with ⟨h1, h2⟩ | ⟨j, hj, rfl, hj0⟩
        · rw [h1]; exact hnz hk h2
        · exact habs j hj hj0
      obtain ⟨m, hm, hall, h0', hr⟩ := insert_ok (hash := hash) h.table (cnt h)
        (by unfold cnt; omega) (by unfold cnt; omega) key hk (ok.free hs) habs h rfl
      obtain ⟨g1, g2, g3⟩ := hashOK_insert hc ok hs hroom hb hk hl hm hall h0' _ rfl
      refine ⟨_, _, hr, g1, by simp, .inr ⟨hl, g2, g3, ?_⟩⟩
      have hb' : hash key % cnt h < cnt h := Nat.mod_lt _ (by unfold cnt; omega)
      have hq := fwd_lt hb' hm
      show (h.table.set _ key)[_]? = some key
      rw [List.getElem?_set, if_pos rfl, if_pos (by unfold cnt at *; omega)]

/-- no other key of the list equals the zero key -/
def ZeroClean (cmp : Cmp) (l : List Key) : Prop :=
  l.Pairwise fun x y => (x = 0 ∨ y = 0) → cmp x y ≠ 0

theorem hashVisit_ok (hc : Comparator cmp) (hh : ∀ x y, cmp x y = 0 → hash x = hash y) :
    ∀ (src : List Key) (h : Hash), HashOK cmp hash h → 10 ≤ h.table.length →
    (hashForeach h).length + src.length ≤ h.table.length / 2 →
    h.itemsCount = (hashForeach h).length → h.table.length < 2 ^ 32 →
    (0 ∈ src → ∀ x ∈ hashForeach h, cmp x 0 ≠ 0) →
    (h.zeroKey = true → ∀ x ∈ src, cmp x 0 ≠ 0) → ZeroClean cmp src →
    ∃ h', hashVisit cmp hash h src = some (h', true) ∧ HashOK cmp hash h' ∧
      h'.table.length = h.table.length ∧ h'.itemsCount = (hashForeach h').length ∧
      (hashForeach h').length ≤ (hashForeach h).length + src.length ∧
      (∀ k, lookup cmp (hashForeach h') k = (lookup cmp (hashForeach h) k).or (lookup cmp src k)) := by
  intro src
  induction src with
  | nil =>
    intro h ok _ _ hic _ _ _ _
    exact ⟨h, rfl, ok, rfl, hic, by simp, fun k => by simp [lookup_nil]⟩
  | cons key src ih =>
    intro h ok hs hroom hic h32 hz1 hz2 hclean
    simp only [List.length_cons] at hroom
    have hcl := List.pairwise_cons.mp hclean
    obtain ⟨h', i, hr, ok', hlen, hcase⟩ := hashIndexAdd_ok hc hh ok hs (by omega) (by omega) key
      (by
        intro h0; rw [lookup_none]
        intro r hr
        exact fun h2 => hz1 (by simp [h0]) r hr (cmp_symm hc h2))
      (fun _ hzk => hz2 hzk key (by simp))
    rw [hashVisit]
    simp only [hr, Option.bind_eq_bind, Option.bind_some]
    have hz1' : 0 ∈ src → ∀ x ∈ hashForeach h', cmp x 0 ≠ 0 := by
      intro h0 x hx
      rcases hcase with ⟨v, _, he, _⟩ | ⟨_, hp, _, _⟩
      · rw [he] at hx; exact hz1 (by simp [h0]) x hx
      · rw [hp.mem_iff, List.mem_append, List.mem_singleton] at hx
        rcases hx with hx | rfl
        · exact hz1 (by simp [h0]) x hx
        · exact hcl.1 0 h0 (.inr rfl)
    have hz2' : h'.zeroKey = true → ∀ x ∈ src, cmp x 0 ≠ 0 := by
      intro hzk x hx
      rcases hcase with ⟨v, _, he, _⟩ | ⟨_, hp, _, _⟩
      · rw [he] at hzk; exact hz2 hzk x (by simp [hx])
      · have h0 : (0 : Key) ∈ hashForeach h' := (mem_foreach (by omega) ok'.zero).mpr (.inl ⟨rfl, hzk⟩)
        rw [hp.mem_iff, List.mem_append, List.mem_singleton] at h0
        rcases h0 with h0 | h0
        · rcases (mem_foreach hs ok.zero).mp h0 with ⟨_, hzz⟩ | ⟨_, _, _, hne⟩
          · exact hz2 hzz x (by simp [hx])
          · exact absurd rfl hne
        · have := hcl.1 x hx (.inl h0.symm)
          rw [← h0] at this
          exact fun h => this (cmp_symm hc h)
    have hlen' : (hashForeach h').length ≤ (hashForeach h).length + 1 ∧
        h'.itemsCount = (hashForeach h').length := by
      rcases hcase with ⟨v, _, he, _⟩ | ⟨_, hp, hi, _⟩
      · rw [he]; omega
      · rw [hp.length_eq, hi, hic]; simp
    obtain ⟨h'', g1, g2, g3, g4, g5, g6⟩ := ih h' ok' (by omega) (by omega) hlen'.2 (by omega)
      hz1' hz2' hcl.2
    refine ⟨h'', g1, g2, by omega, g4, by simp only [List.length_cons]; omega, ?_⟩
    intro k
    rw [g6, lookup_cons]
    rcases hcase with ⟨v, hv, he, _⟩ | ⟨hn, hp, _, _⟩
    · rw [he]
      by_cases hk : cmp k key = 0
      · rw [lookup_congr hc _ hk, hv]; rfl
      · rw [if_neg hk]
    · rw [lookup_perm hc hp ok'.dist, lookup_append, lookup_cons, lookup_nil]
      by_cases hk : cmp k key = 0
      · rw [lookup_congr hc _ hk, hn, if_pos hk, if_pos hk]; rfl
      · rw [if_neg hk, if_neg hk]; simp

theorem sl_replicate (n j : Nat) : sl (List.replicate n 0) j = 0 := by
  unfold sl
  simp only [List.getD_eq_getElem?_getD, List.getElem?_replicate]
  split <;> rfl

/-- the zeroed table -/
theorem zeroed_ok (n : Nat) (hn : n = 0 ∨ 10 ≤ n) :
    HashOK cmp hash { table := List.replicate n 0, zeroKey := false, itemsCount := 0 } ∧
    hashForeach { table := List.replicate n 0, zeroKey := false, itemsCount := 0 } = [] := by
  have hf : hashForeach { table := List.replicate n 0, zeroKey := false, itemsCount := 0 } = [] := by
    unfold hashForeach
    split
    · rfl
    · simp
  refine ⟨⟨?_, ?_, ?_, ?_, ?_, ?_⟩, hf⟩
  · rcases hn with h | h
    · left; subst h; exact ⟨rfl, rfl⟩
    · right; simpa
  · intro j hj h0; exact absurd (sl_replicate _ _) h0
  · intro h; cases h
  · rw [hf]; exact List.Pairwise.nil
  · unfold keys; simp
  · rw [hf]; simp

/-- `mr_ic_hash_reindex` into a fresh collection. -/
theorem hashReindex_ok (hc : Comparator cmp) (hh : ∀ x y, cmp x y = 0 → hash x = hash y)
    (srcCount : Nat) (src : List Key) (hsrc : src.length ≤ srcCount) (hb : srcCount < 2 ^ 29)
    (hclean : ZeroClean cmp src) (okm : Bool) :
    (∃ h', hashReindex cmp hash hashNew srcCount src okm = some (h', true) ∧ HashOK cmp hash h' ∧
      h'.itemsCount = (hashForeach h').length ∧ (hashForeach h').length ≤ src.length ∧
      (srcCount ≠ 0 → h'.table.length = srcCount * 4 + 6) ∧
      (∀ k, lookup cmp (hashForeach h') k = lookup cmp src k)) ∨
    (okm = false ∧ ∃ h', hashReindex cmp hash hashNew srcCount src okm = some (h', false)) := by
  unfold hashReindex
  have hu : u32 (srcCount * 4 + 6) = srcCount * 4 + 6 := by unfold u32; omega
  simp only [hu]
  by_cases h0 : srcCount = 0
  · have : src = [] := List.length_eq_zero_iff.mp (by omega)
    subst this
    rw [if_neg (by simp [h0])]
    left
    obtain ⟨h1, h2⟩ := zeroed_ok (cmp := cmp) (hash := hash) 0 (.inl rfl)
    exact ⟨_, rfl, h1, by rw [show hashNew.table.length = 0 from rfl, h2]; rfl,
      by rw [show hashNew.table.length = 0 from rfl, h2]; exact Nat.le_refl _, by omega,
      fun k => by rw [show hashNew.table.length = 0 from rfl, h2]⟩
  · rw [if_pos ⟨h0, by show 0 < _; omega⟩]
    cases okm with
    | false => right; exact ⟨rfl, _, rfl⟩
    | true =>
      left
      obtain ⟨h1, h2⟩ := zeroed_ok (cmp := cmp) (hash := hash) (srcCount * 4 + 6) (.inr (by omega))
      obtain ⟨h', g1, g2, g3, g4, g5, g6⟩ := hashVisit_ok hc hh src _ h1 (by simp; omega)
        (by rw [h2]; simp; omega) (by rw [h2]; rfl) (by simp; omega) (by rw [h2]; simp)
        (by intro h; cases h) hclean
      refine ⟨h', g1, g2, g4, ?_, fun _ => by rw [g3]; simp, ?_⟩
      · rw [h2] at g5; simpa using g5
      · intro k; rw [g6, h2, lookup_nil]; rfl

theorem distinct_zeroClean {l : List Key} (h : Distinct cmp l) : ZeroClean cmp l :=
  List.Pairwise.imp (S := fun x y => (x = 0 ∨ y = 0) → cmp x y ≠ 0) (fun {_ _} h _ => h) h

theorem hashAdd_ok (hc : Comparator cmp) (hh : ∀ x y, cmp x y = 0 → hash x = hash y) {h : Hash}
    (ok : HashOK cmp hash h) (hb : h.itemsCount + 1 < 2 ^ 29) (key : Key) (okm : Bool) :
    ∃ h' r, hashAdd cmp hash h key okm = some (h', r) ∧ HashOK cmp hash h' ∧
      h'.itemsCount ≤ h.itemsCount + 1 ∧
      ((∃ v, lookup cmp (hashForeach h) key = some v ∧ h' = h ∧ r.bind (h'.table[·]?) = some v) ∨
       (lookup cmp (hashForeach h) key = none ∧ (hashForeach h').Perm (hashForeach h ++ [key]) ∧
          r.bind (h'.table[·]?) = some key ∧
          (h.itemsCount = (hashForeach h).length → h'.itemsCount = (hashForeach h').length)) ∨
       (lookup cmp (hashForeach h) key = none ∧ okm = false ∧ hashForeach h' = hashForeach h ∧
          r = none)) := by
  obtain ⟨r, h1, h2, h3, _⟩ := hashFind_ok hc hh ok key
  unfold hashAdd
  simp only [h1, Option.bind_eq_bind, Option.bind_some]
  cases r with
  | some i =>
    have hl : lookup cmp (hashForeach h) key = h.table[i]? := h2.symm
    have hne : lookup cmp (hashForeach h) key ≠ none := fun h => by simpa using h3.mpr h
    cases hv : lookup cmp (hashForeach h) key with
    | none => exact absurd hv hne
    | some v =>
      refine ⟨h, some i, rfl, ok, by omega, .inl ⟨v, rfl, rfl, ?_⟩⟩
      rw [← hv, hl]; rfl
  | none =>
    have hl := h3.mp rfl
    have hcount := ok.count
    by_cases hg : h.itemsCount ≥ h.table.length / 2
    · simp only [if_pos hg]
      have hu : u32 (h.itemsCount + 1) = h.itemsCount + 1 := by unfold u32; omega
      simp only [hu]
      rcases hashReindex_ok hc hh (h.itemsCount + 1) (hashForeach h) (by omega) hb
        (distinct_zeroClean ok.dist) okm with ⟨d, g1, g2, g3, g4, g5, g6⟩ | ⟨g0, d, g1⟩
      · have hfe : hashForeach { table := h.table, zeroKey := h.zeroKey, itemsCount := h.itemsCount + 1 }
            = hashForeach h := rfl
        simp only [hfe, g1, Option.bind_some]
        have hperm := perm_of_lookup hc g2.dist ok.dist g6
        have g5' := g5 (by omega)
        obtain ⟨h', i, k1, k2, k3, k4⟩ := hashIndexAdd_ok hc hh g2 (by omega) (by omega) (by omega) key
          (by intro h0; rw [g6, ← h0]; exact hl)
          (by
            intro _ hzk
            have h0 : (0 : Key) ∈ hashForeach d := (mem_foreach (by omega) g2.zero).mpr (.inl ⟨rfl, hzk⟩)
            exact lookup_none.mp hl 0 (hperm.mem_iff.mp h0))
        rcases k4 with ⟨v, k4, _, _⟩ | ⟨_, k4, k5, k6⟩
        · rw [g6, hl] at k4; cases k4
        · have hp2 : (hashForeach h').Perm (hashForeach h ++ [key]) :=
            k4.trans (hperm.append_right [key])
          refine ⟨h', some i, k1, k2, by omega, .inr (.inl ⟨hl, hp2, k6, ?_⟩)⟩
          intro _
          rw [k5, k4.length_eq, g3]; simp
      · have hfe : hashForeach { table := h.table, zeroKey := h.zeroKey, itemsCount := h.itemsCount + 1 }
            = hashForeach h := rfl
        simp only [hfe, g1, Option.bind_some]
        refine ⟨_, none, rfl, ⟨ok.size, ok.reach, ok.zero, ok.dist, ok.load, ?_⟩, by simp,
          .inr (.inr ⟨hl, g0, rfl, rfl⟩)⟩
        show _ ≤ h.itemsCount + 1
        rw [hfe]; omega
    · simp only [if_neg hg]
      have hs : 10 ≤ h.table.length := by
        rcases ok.size with ⟨h5, _⟩ | h5
        · rw [h5] at hg; simp at hg
        · exact h5
      obtain ⟨h', i, k1, k2, k3, k4⟩ := hashIndexAdd_ok hc hh ok hs (by omega) (by omega) key
        (by intro h0; rw [← h0]; exact hl)
        (by
          intro _ hzk
          exact lookup_none.mp hl 0 ((mem_foreach hs ok.zero).mpr (.inl ⟨rfl, hzk⟩)))
      rcases k4 with ⟨v, k4, _, _⟩ | ⟨_, k4, k5, k6⟩
      · rw [hl] at k4; cases k4
      · refine ⟨h', some i, k1, k2, by omega, .inr (.inl ⟨hl, k4, k6, ?_⟩)⟩
        intro he
        rw [k5, k4.length_eq, he]; simp

/-! deletion of the whole collection -/

theorem hashDelLoop_ok (hc : Comparator cmp) {N p : Nat} (hp : p < N) (hN1 : 9 ≤ N) :
    ∀ (fuel ii ee : Nat) (h : Hash), h.table.length = N + 1 → ee - ii ≤ fuel →
    DelInv hash h.table N p ii ee → Distinct cmp (keys h.table N) → h.itemsCount < 4294967296 →
    ∃ h', hashDelLoop cmp hash p fuel h (fwd N p ii) = some (h', true) ∧
      h'.table.length = N + 1 ∧ h'.zeroKey = h.zeroKey ∧ h'.itemsCount = h.itemsCount ∧
      sl h'.table N = sl h.table N ∧
      (keys h'.table N).Perm (keys h.table N) ∧
      (∀ j < N, sl h'.table j ≠ 0 → Reach hash h'.table N j) := by
  intro fuel
  induction fuel with
  | zero => intro ii ee h _ hf inv; have := inv.lt; omega
  | succ fuel ih =>
    intro ii ee h hN hf inv hd hic
    have heeN := inv.eeN
    have hiiee := inv.lt
    have hstep : (if fwd N p ii + 1 ≥ N then 0 else fwd N p ii + 1) = fwd N p (ii + 1) :=
      fwd_succ hp (by omega)
    have hu : fwd N p (ii + 1) < N := fwd_lt hp (by omega)
    rw [hashDelLoop]
    have hc1 : h.table.length - 1 = N := by omega
    simp only [hc1, hstep, sl_get (t := h.table) (i := fwd N p (ii + 1)) (by omega),
      Option.bind_eq_bind, Option.bind_some]
    by_cases hlast : ii + 1 = ee
    · subst hlast
      rw [if_pos inv.free]
      exact ⟨h, rfl, hN, rfl, rfl, rfl, List.Perm.refl _, fun j hj hj0 => inv.good j hj hj0 (by omega)⟩
    · have hk0 : sl h.table (fwd N p (ii + 1)) ≠ 0 := inv.run _ (by omega) (by omega)
      have hup : fwd N p (ii + 1) ≠ p := by
        intro h
        have := fwd_inj hp (d := ii + 1) (d' := 0) (by omega) (by omega) (by rw [h, fwd_zero hp])
        omega
      rw [if_neg hk0, if_neg hup]
      unfold wr
      rw [if_pos (by omega)]
      simp only [Option.bind_some]
      let t1 := h.table.set (fwd N p (ii + 1)) 0
      have hclear := keys_clear (t := h.table) (N := N) (by omega) hu hk0
      have hset1 : ∀ j, sl t1 j = if fwd N p (ii + 1) = j then 0 else sl h.table j :=
        fun j => sl_set (by omega)
      have habs : Absent cmp t1 N (sl h.table (fwd N p (ii + 1))) := by
        intro j hj hj0
        have hmem : sl t1 j ∈ keys t1 N := (mem_keys (by simp [t1]; omega)).mpr ⟨j, hj, rfl, hj0⟩
        have hd' : Distinct cmp (sl h.table (fwd N p (ii + 1)) :: keys t1 N) :=
          distinct_perm hc hclear hd
        exact (List.pairwise_cons.mp hd').1 _ hmem
      obtain ⟨m, hm, hall, hz, hr⟩ := insert_ok (hash := hash) t1 N (by simp [t1]; omega) (by omega)
        (sl h.table (fwd N p (ii + 1))) hk0 ⟨fwd N p (ii + 1), hu, by rw [hset1, if_pos rfl]⟩ habs
        { h with table := t1, itemsCount := u32 (h.itemsCount + 4294967295) } rfl
      have hr' := hr
      simp only [t1] at hr'
      simp only [hr', Option.bind_some]
      have inv' := delInv_step hN hp inv (by omega) m hm _ rfl hall hz
      have hb : hash (sl h.table (fwd N p (ii + 1))) % N < N := Nat.mod_lt _ (by omega)
      have hq := fwd_lt hb hm
      have hk2 := (keys_set (t := t1) (N := N) (by simp [t1]; omega) hq hz hk0).trans hclear.symm
      have hic' : u32 (u32 (h.itemsCount + 4294967295) + 1) = h.itemsCount := by
        unfold u32; omega
      obtain ⟨h', g1, g2, g3, g4, g5, g6, g7⟩ := ih (ii + 1) ee
        { h with table := t1.set (fwd N (hash (sl h.table (fwd N p (ii + 1))) % N) m)
                  (sl h.table (fwd N p (ii + 1))),
                 itemsCount := u32 (u32 (h.itemsCount + 4294967295) + 1) }
        (by simp [t1]; omega) (by omega) inv' (distinct_perm hc hk2.symm hd)
        (by show u32 _ < _; rw [hic']; exact hic)
      refine ⟨h', g1, g2, g3, by rw [g4]; exact hic', ?_, g6.trans hk2, g7⟩
      rw [g5]
      show sl (t1.set _ _) N = _
      rw [sl_set (by simp [t1]; omega), if_neg (by omega), hset1, if_neg (by omega)]

theorem hashDel_ok (hc : Comparator cmp) (hh : ∀ x y, cmp x y = 0 → hash x = hash y) {h : Hash}
    (ok : HashOK cmp hash h) (hb : h.itemsCount < 4294967296) (key : Key) :
    ∃ h' st, hashDel cmp hash h key = some (h', st) ∧ HashOK cmp hash h' ∧
      h'.itemsCount ≤ h.itemsCount ∧
      ((∃ v, lookup cmp (hashForeach h) key = some v ∧ st = true ∧
          (hashForeach h').Perm ((hashForeach h).filter fun r => decide (cmp key r ≠ 0)) ∧
          h'.itemsCount + 1 = h.itemsCount) ∨
       (lookup cmp (hashForeach h) key = none ∧ st = false ∧ h' = h)) := by
  obtain ⟨r, h1, h2, h3, h4⟩ := hashFind_ok hc hh ok key
  unfold hashDel
  simp only [h1, Option.bind_eq_bind, Option.bind_some]
  cases r with
  | none => exact ⟨h, false, rfl, ok, Nat.le_refl _, .inr ⟨h3.mp rfl, rfl, rfl⟩⟩
  | some i =>
    obtain ⟨hs, h4⟩ := h4 i rfl
    have hne : lookup cmp (hashForeach h) key ≠ none := fun h => by simpa using h3.mpr h
    obtain ⟨v, hv⟩ := Option.ne_none_iff_exists'.mp hne
    obtain ⟨hvm, hvk⟩ := lookup_some_mem hv
    have hpos : 0 < (hashForeach h).length := List.length_pos_of_mem hvm
    have hcount := ok.count
    have hu : u32 (h.itemsCount + 4294967295) = h.itemsCount - 1 := by unfold u32; omega
    have hgi : h.table[i]? = some v := by rw [← hv]; exact h2
    have hfilt := filter_eq_erase hc ok.dist hvm hvk
    rcases h4 with ⟨hi, hi0, hik⟩ | ⟨hi, hzk, hk⟩
    · have hvi : v = sl h.table i := by
        rw [sl_get (by unfold cnt at hi; omega)] at hgi; exact (Option.some.inj hgi).symm
      have hN : h.table.length = cnt h + 1 := by unfold cnt; omega
      have hicnt : i ≠ h.table.length - 1 := by unfold cnt at hi; omega
      simp only [hicnt, if_false, wr]
      rw [if_pos (by omega)]
      simp only [Option.bind_some, hu]
      obtain ⟨ee, inv⟩ := delInv_init hN hi hi0 (ok.free hs) ok.reach
      have heeN := inv.eeN
      have hclear := keys_clear (t := h.table) (N := cnt h) (by omega) hi hi0
      have hdk : Distinct cmp (keys h.table (cnt h)) := by
        have := ok.dist
        rw [foreach_eq hs ok.zero] at this
        exact (List.pairwise_append.mp this).2.1
      have hdk' : Distinct cmp (keys (h.table.set i 0) (cnt h)) :=
        (List.pairwise_cons.mp (distinct_perm hc hclear hdk)).2
      obtain ⟨h', g1, g2, g3, g4, g5, g6, g7⟩ := hashDelLoop_ok (cmp := cmp) hc hi
        (by unfold cnt; omega) (h.table.length - 1) 0 ee
        { h with table := h.table.set i 0, itemsCount := h.itemsCount - 1 } (by simpa using hN)
        (by unfold cnt at heeN; omega) inv hdk' (by show h.itemsCount - 1 < _; omega)
      rw [fwd_zero hi] at g1
      have hcnt : cnt h' = cnt h := by unfold cnt at *; omega
      have hz' : h'.zeroKey = true → sl h'.table (cnt h') = 0 := by
        intro hz
        rw [hcnt, g5]
        show sl (h.table.set i 0) _ = 0
        rw [sl_set (by omega), if_neg (by omega)]
        exact ok.zero (by rw [← hz, g3])
      have hfe : hashForeach h' = (if h.zeroKey then [0] else []) ++ keys h'.table (cnt h) := by
        rw [foreach_eq (by omega) hz', g3, hcnt]
      have hcons : (hashForeach h).Perm (v :: hashForeach h') := by
        rw [hfe, foreach_eq hs ok.zero, hvi]
        exact ((hclear.trans ((g6.symm).cons _)).append_left _).trans List.perm_middle
      have hperm : (hashForeach h').Perm ((hashForeach h).filter fun r => decide (cmp key r ≠ 0)) := by
        rw [hfilt]
        exact List.perm_cons v |>.mp (hcons.symm.trans (List.perm_cons_erase hvm))
      have hic : h'.itemsCount = h.itemsCount - 1 := g4
      have hleneq := hcons.length_eq
      simp only [List.length_cons] at hleneq
      refine ⟨h', true, g1, ⟨.inr (by omega), ?_, hz', ?_, ?_, ?_⟩, by omega,
        .inl ⟨v, hv, rfl, hperm, by omega⟩⟩
      · rw [hcnt]; exact g7
      · exact (List.pairwise_cons.mp (distinct_perm hc hcons ok.dist)).2
      · rw [hcnt, g6.length_eq]
        have := ok.load
        rw [hclear.length_eq] at this
        simp only [List.length_cons] at this
        show (keys (h.table.set i 0) (cnt h)).length ≤ h'.table.length / 2
        omega
      · omega
    · have hvz : v = 0 := by
        have := ok.zero hzk
        rw [hi, sl_get (by unfold cnt; omega)] at hgi
        rw [this] at hgi; exact (Option.some.inj hgi).symm
      subst hvz
      have hib : i = h.table.length - 1 := hi
      simp only [hib, if_true, hu]
      let h' : Hash := { table := h.table, zeroKey := false, itemsCount := h.itemsCount - 1 }
      have hz' : h'.zeroKey = true → sl h'.table (cnt h') = 0 := by intro h; cases h
      have hfe : hashForeach h' = keys h.table (cnt h) := by
        exact foreach_eq (h := h') hs hz'
      have hfe0 : hashForeach h = 0 :: keys h.table (cnt h) := by
        rw [foreach_eq hs ok.zero, hzk]; rfl
      have hperm : (hashForeach h').Perm ((hashForeach h).filter fun r => decide (cmp key r ≠ 0)) := by
        rw [hfilt, hfe, hfe0]; simp
      have hleneq := congrArg List.length hfe0
      simp only [List.length_cons] at hleneq
      have hdist := ok.dist
      rw [hfe0] at hdist
      refine ⟨h', true, rfl, ⟨.inr hs, ok.reach, hz', ?_, ok.load, ?_⟩, ?_,
        .inl ⟨0, hv, rfl, hperm, ?_⟩⟩
      · rw [hfe]; exact (List.pairwise_cons.mp hdist).2
      · rw [hfe]; show _ ≤ h.itemsCount - 1; omega
      · show h.itemsCount - 1 ≤ _; omega
      · show h.itemsCount - 1 + 1 = _; omega

end Verif.Lemmas.IcHash
