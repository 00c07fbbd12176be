import Verif.Spec.Func
import Verif.Lemmas.Decimal
import Verif.Props.Print
/-!
# C74, C75: pointers to functions
-/
namespace Verif.Props.Func
open Verif.Model Verif.Model.Func Verif.Spec.Func

theorem resolve_right (W : World) (func : Nat) : Right W func (resolve W func) := by
  unfold resolve
  cases h : W.dladdr func with
  | none => intro n hn; rw [hn.1] at h; cases h
  | some x =>
    obtain ⟨n, a⟩ := x
    cases n with
    | none => intro n hn; rw [hn.1] at h; cases h
    | some n =>
      simp only
      split
      · rename_i hc
        exact ⟨by rw [h, ← hc.1], hc.2⟩
      · rename_i hc
        intro m hm
        rw [hm.1] at h
        cases h
        exact hc ⟨rfl, hm.2⟩

/-- what the cache holds: indices of elements, and elements with the right names -/
def Inv (W : World) (c : Cache) : Prop := (∀ i ∈ c.indexed, i < c.ra.length) ∧ ∀ x ∈ c.ra, x.2 = resolve W x.1

theorem inv_push {W : World} {c : Cache} (h : Inv W c) (func : Nat) (l : List Nat) (hl : ∀ i ∈ l, i ∈ c.indexed ∨ i = c.ra.length) :
    Inv W { ra := (c.ra ++ [(func, none)]).set c.ra.length (func, resolve W func), indexed := l } := by
  constructor
  · intro i hi
    simp only [List.length_set, List.length_append, List.length_singleton]
    rcases hl i hi with hi | rfl
    · have := h.1 i hi; omega
    · omega
  · have : (c.ra ++ [(func, none)]).set c.ra.length (func, resolve W func) = c.ra ++ [(func, resolve W func)] := by
      rw [List.set_append_right _ _ (by omega), Nat.sub_self]; rfl
    simp only [this]
    intro x hx
    rcases List.mem_append.mp hx with hx | hx
    · exact h.2 x hx
    · simp only [List.mem_singleton] at hx; rw [hx]

theorem serialize_ok {W : World} {c : Cache} (h : Inv W c) (caching alloc add : Bool) (func : Nat) :
    ∃ c', serialize W caching alloc add c func = some (c', resolve W func) ∧ Inv W c' := by
  unfold serialize
  by_cases hc : caching = true ∧ alloc = true
  · rw [if_pos hc]
    cases add with
    | false =>
      refine ⟨_, by rw [if_neg (by simp)], inv_push h func c.indexed fun i hi => Or.inl hi⟩
    | true =>
      simp only [if_true]
      cases hl : lookup (c.ra ++ [(func, none)]) c.indexed func with
      | none => exact ⟨_, rfl, inv_push h func _ fun i hi => by simpa using hi⟩
      | some i =>
        have hi := h.1 i (List.mem_of_find?_eq_some hl)
        have hf := List.find?_some hl
        simp only [beq_iff_eq] at hf
        rw [List.getElem?_append_left hi, List.getElem?_eq_getElem hi, Option.map_some, Option.some.injEq] at hf
        have hx := h.2 c.ra[i] (List.getElem_mem hi)
        refine ⟨c, ?_, h⟩
        simp only [List.getElem?_append_left hi, List.getElem?_eq_getElem hi, Option.bind_eq_bind, Option.bind_some, hx, hf]
  · rw [if_neg hc]
    exact ⟨c, rfl, h⟩

/-- **C74.** As long as the dynamic linker does not change, in every sequence of calls, with caching switched on and off and allocations
failing in between, each function gets its name if it has one, and no name otherwise: the cache is not visible. -/
theorem C74_right_names (W : World) (xs : List Call) :
    ∃ c ns, run W xs {} = some (c, ns) ∧ ns.length = xs.length ∧
      ∀ (i : Nat) (x : Call) (n : Option Name), xs[i]? = some x → ns[i]? = some n → Right W x.func n := by
  have key : ∀ (xs : List Call) (c : Cache), Inv W c → ∃ c' , run W xs c = some (c', xs.map fun x => resolve W x.func) := by
    intro xs
    induction xs with
    | nil => intro c _; exact ⟨c, rfl⟩
    | cons x xs ih =>
      intro c h
      obtain ⟨c1, e1, h1⟩ := serialize_ok h x.caching x.alloc x.add x.func
      obtain ⟨c2, e2⟩ := ih c1 h1
      exact ⟨c2, by simp [run, e1, e2]⟩
  obtain ⟨c, e⟩ := key xs {} ⟨by simp, by simp⟩
  refine ⟨c, _, e, by simp, ?_⟩
  intro i x n hx hn
  rw [List.getElem?_map, hx] at hn
  cases hn
  exact resolve_right W x.func

theorem digitOf_char {d : Nat} (h : d < 16) : Lemmas.Decimal.digitOf (Scanf.digitChar false d) = some d := by
  have : ∀ d : Fin 16, Lemmas.Decimal.digitOf (Scanf.digitChar false d.1) = some d.1 := by decide
  exact this ⟨d, h⟩

theorem read_address {p : Nat} (h : p < 2 ^ 64) : Decimal.strtouintmax (Print.address p) 0 = (p, []) := by
  obtain ⟨h1, h2, _⟩ := Lemmas.ScmTok.radix_spec 32 p (Nat.lt_trans h (by decide))
  have hd := Lemmas.Decimal.strtoLoop_digits 16 ((Scanf.radix 16 33 p).map (Scanf.digitChar false)) (Scanf.radix 16 33 p) [] 0
    (by
      rw [List.map_map]
      refine List.map_congr_left fun d hd => ?_
      exact digitOf_char (h1 d hd)) h1 (by decide) (by simp)
  rw [List.append_nil] at hd
  have hp : (Scanf.radix 16 33 p).foldl (fun a d => a * 16 + d) 0 = p := h2
  rw [hp, Nat.mod_eq_of_lt (Nat.lt_trans h (by decide))] at hd
  have ha : Print.address p = 48 :: 120 :: (Scanf.radix 16 33 p).map (Scanf.digitChar false) := by
    simp [Print.address, Scanf.printRadix]
  rw [ha]
  have e : ∀ t : List Nat, Decimal.strtouintmax (48 :: 120 :: t) 0 = ((Decimal.strtoLoop 16 t 0).1, (Decimal.strtoLoop 16 t 0).2) := by
    intro t
    simp [Decimal.strtouintmax, isspace, isdigit, ch]
  rw [e, hd]

theorem get_written {W : World} {func : Nat} {r : Option Name} (h0 : func ≠ 0) (hf : func < 2 ^ 64) (hr : Right W func r)
    (hd : r = none → W.dlsym (Print.address func) = 0) : getFunc W (written r func) = some func := by
  unfold getFunc
  cases r with
  | some n =>
    have : W.dlsym n = func := hr.2
    simp [written, this, h0]
  | none =>
    have := hd rfl
    simp only [written, this, ne_eq, not_true, if_false, read_address hf, List.dropWhile_nil, Nat.mod_eq_of_lt hf]

/-- **C75**, for names of at most 63 characters: a pointer to a function that was written by name or as an address is the same
after loading, in the same process.  The last hypothesis: no function is called like the address.  Missing: longer names, see
`C75_deviation_long_name`. -/
theorem C75_round_trip_partial (W : World) (func : Nat) (r : Option Name) (h0 : func ≠ 0) (hf : func < 2 ^ 64) (hr : Right W func r)
    (hl : ∀ n, r = some n → n.length ≤ 63) (hd : r = none → W.dlsym (Print.address func) = 0) :
    loadFunc W (.substr (written r func)) = some func ∧ loadFunc W (.string (written r func)) = some func ∧
    loadFunc W (.int func) = some func := by
  refine ⟨?_, get_written h0 hf hr hd, by simp [loadFunc, Nat.mod_eq_of_lt hf]⟩
  have : (written r func).length ≤ 63 := by
    cases r with
    | some n => exact hl n rfl
    | none =>
      have := Lemmas.Print.address_length hf
      simp only [written]
      omega
  have hb : bufSize - 1 = 63 := rfl
  simp only [loadFunc, hb, this, if_true, Nat.min_eq_left this, List.take_length]
  exact get_written h0 hf hr hd

/-- **C75.** Any text: if loading by text succeeds, the result is the function with this name, or the text is a number. -/
theorem C75_only_names_and_numbers (W : World) (s : List Nat) (func : Nat) (h : loadFunc W (.string s) = some func) :
    (W.dlsym s = func ∧ func ≠ 0) ∨ (W.dlsym s = 0 ∧ (Decimal.strtouintmax s 0).2.dropWhile isspace = [] ∧ func = (Decimal.strtouintmax s 0).1 % 2 ^ 64) := by
  simp only [loadFunc, getFunc] at h
  split at h
  · rename_i hn
    cases h
    exact Or.inl ⟨rfl, hn⟩
  · rename_i hn
    split at h
    · cases h
    · rename_i hr
      cases h
      exact Or.inr ⟨by simpa using hn, by simpa using hr, rfl⟩

/-- **C75**, deviation: a function with a name of 64 characters or more is written by its name, but cannot be loaded from
documents where the name stands as it is. -/
theorem C75_deviation_long_name (W : World) (func : Nat) (name : Name) (h : Named W func name) (hl : 64 ≤ name.length) :
    resolve W func = some name ∧ loadFunc W (.substr (written (some name) func)) = none := by
  have hb : bufSize - 1 = 63 := rfl
  refine ⟨by simp [resolve, h.1, h.2], ?_⟩
  simp only [loadFunc, written, hb]
  rw [if_neg (by omega)]

/-- **C74**, deviation: if the dynamic linker changes, the cache is visible: a function asked for before a library made its name
known has no name afterwards either. -/
theorem C74_deviation_library_loaded : ∃ (W W' : World) (func : Nat) (name : Name), Named W' func name ∧
    ∃ c c', serialize W true true true {} func = some (c, none) ∧ serialize W' true true true c func = some (c', none) := by
  refine ⟨⟨fun _ => none, fun _ => 0⟩, ⟨fun a => some (some [102], a), fun _ => 4096⟩, 4096, [102], ⟨rfl, rfl⟩, _, _, rfl, rfl⟩

/-! A program with the functions "f" at 4096 and "g" at 8192; the function at 5000 has no name of its own. -/
def exW : World where
  dladdr a := if a < 4096 then none else if a < 8192 then some (some [102], 4096) else some (some [103], 8192)
  dlsym n := if n = [102] then 4096 else if n = [103] then 8192 else 0
example : Named exW 4096 [102] ∧ Right exW 5000 none := by
  refine ⟨⟨rfl, rfl⟩, ?_⟩
  intro n hn
  have h1 := hn.1
  simp only [exW] at h1
  cases h1
example : (run exW [⟨true, true, true, 4096⟩, ⟨true, true, true, 5000⟩, ⟨true, true, true, 4096⟩, ⟨true, true, false, 8192⟩, ⟨false, true, true, 5000⟩,
    ⟨true, true, true, 8192⟩] {}) = some ({ ra := [(4096, some [102]), (5000, none), (8192, some [103]), (8192, some [103])], indexed := [0, 1, 3] },
    [some [102], none, some [102], some [103], none, some [103]]) := by decide +kernel
example : loadFunc exW (.substr (written none 5000)) = some 5000 ∧ loadFunc exW (.substr [103]) = some 8192 ∧
    loadFunc exW (.string [104]) = none := by decide +kernel
example : exW.dlsym (Print.address 5000) = 0 := by decide +kernel
/- a name of 64 characters -/
example : Named ⟨fun a => some (some (List.replicate 64 97), a), fun _ => 4096⟩ 4096 (List.replicate 64 97) := ⟨rfl, rfl⟩

end Verif.Props.Func
