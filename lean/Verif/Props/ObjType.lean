import Verif.Model.ObjType
import Verif.Spec.ObjType
import Verif.Props.Types
/-!
# C81: copies of texts; C82: the type of an object from the compiler's dump
-/
namespace Verif.Props.ObjType
open Verif.Model.ObjType Verif.Spec.ObjType Verif.Spec.Types

theorem count_text {mem s rest : List Nat} {size : Nat} (hm : mem = s ++ rest) (h0 : 0 ∉ s)
    (he : s.length = size ∨ (s.length < size ∧ ∃ r, rest = 0 :: r)) :
    ∀ fuel n, n ≤ s.length → s.length < n + fuel → count mem size fuel n = some s.length := by
  intro fuel
  induction fuel with
  | zero => intro n h1 h2; omega
  | succ fuel ih =>
    intro n h1 h2
    simp only [count]
    by_cases hn : n = s.length
    · rcases he with he | ⟨he, r, hr⟩
      · rw [if_neg (by omega), hn]
      · rw [if_pos (by omega), hm, hn, List.getElem?_append_right (by omega), hr]
        simp
    · have hlt : n < s.length := by omega
      have hb : s[n] ≠ 0 := fun h => h0 (h ▸ List.getElem_mem hlt)
      rw [if_pos (by rcases he with he | ⟨he, -⟩ <;> omega), hm, List.getElem?_append_left hlt, List.getElem?_eq_getElem hlt]
      simp only [Option.bind_eq_bind, Option.bind_some, if_neg hb]
      rw [← hm]
      exact ih (n + 1) (by omega) (by omega)

/-- **C81**: if the memory has a text, of which `size` bytes are wanted at most, nothing behind it is read, and the result is a new block with
exactly these bytes and a zero, or NULL if there is no memory.  A zero at the end is not needed if there are `size` bytes. -/
theorem C81_copy {mem s : List Nat} {size : Nat} (h : TextIn mem size s) (alloc : Bool) :
    strndup mem size alloc = some (if alloc then some (s ++ [0]) else none) := by
  obtain ⟨h0, rest, hm, he⟩ := h
  have hc := count_text hm h0 he (size + 1) 0 (by omega) (by rcases he with he | ⟨he, -⟩ <;> omega)
  have hl : s.length ≤ mem.length := by rw [hm]; simp
  cases alloc
  · simp [strndup, hc]
  · have htk : mem.take s.length = s := by rw [hm]; simp
    simp [strndup, hc, hl, htk]

example : TextIn [97, 98, 0, 99] 9 [97, 98] ∧ TextIn [97, 98] 2 [97, 98] ∧ TextIn [] 0 [] := by
  refine ⟨⟨by decide, [0, 99], rfl, Or.inr ⟨by decide, [99], rfl⟩⟩, ⟨by decide, [], rfl, Or.inl rfl⟩, ⟨by decide, [], rfl, Or.inl rfl⟩⟩

theorem plain_of {n tail : List Nat} (hs : 32 ∉ n) (hk : n ∉ keywords) (ht : tail = [] ∨ ∃ t, tail = 32 :: t) : Plain (n ++ tail) := by
  have key : ∀ w : List Nat, 32 ∉ w → n ≠ w → ¬ (w ++ [32]) <+: n ++ tail := by
    intro w hw hne hp
    apply hne
    have h1 : w ++ [32] <+: n ++ tail := hp
    obtain ⟨t, h⟩ := h1
    have htw : (n ++ tail).takeWhile (· != 32) = n := by
      rw [List.takeWhile_append_of_pos (by intro x hx; simpa using fun e : x = 32 => hs (e ▸ hx))]
      rcases ht with rfl | ⟨t, rfl⟩ <;> simp
    have hww : (w ++ [32] ++ t).takeWhile (· != 32) = w := by
      rw [List.append_assoc, List.takeWhile_append_of_pos (by intro x hx; simpa using fun e : x = 32 => hw (e ▸ hx))]
      simp
    rw [← htw, ← h, hww]
  have es : structKw = [115, 116, 114, 117, 99, 116] ++ [32] := by decide +kernel
  have eu : unionKw = [117, 110, 105, 111, 110] ++ [32] := by decide +kernel
  have ee : enumKw = [101, 110, 117, 109] ++ [32] := by decide +kernel
  simp only [keywords, List.mem_cons, not_or] at hk
  exact ⟨es ▸ key _ (by decide) hk.1, eu ▸ key _ (by decide) hk.2.1, ee ▸ key _ (by decide) hk.2.2.1⟩

theorem placeholder_eq : placeholder = dummy := by decide +kernel

theorem typeName_plain {known : List Nat → Bool} {n text : List Nat} (hn : Name n) (hk : n ∉ keywords) (hd : Dumped n text)
    (hp : text ≠ [37, 115]) (hsp : ∀ m, known m = true → 32 ∉ m) (arg : Option (List Nat)) :
    typeName known text arg = some (if known n = true ∧ n ≠ placeholder then some n else none) := by
  obtain ⟨kw, hkw, tail, ht, rfl⟩ := hd
  have hplain := plain_of hn.2 hk ht
  have hskip : Model.Types.skipKeywords (kw ++ n ++ tail) = n ++ tail := by
    apply Types.skip_names
    refine ⟨hplain, ?_⟩
    rw [List.append_assoc]
    simp only [List.mem_cons, List.not_mem_nil, or_false] at hkw
    rcases hkw with rfl | rfl | rfl | rfl
    · exact Or.inl rfl
    · exact Or.inr (Or.inl rfl)
    · exact Or.inr (Or.inr (Or.inl rfl))
    · exact Or.inr (Or.inr (Or.inr rfl))
  have hpct : ¬ (kw ++ n ++ tail = percentS) := hp
  unfold typeName
  rw [if_neg hpct]
  simp only [Option.bind_eq_bind, Option.bind_some, hskip]
  rw [placeholder_eq]
  rcases ht with rfl | ⟨t, rfl⟩
  · rw [List.append_nil]
    have hc : n.contains 32 = false := by simpa using hn.2
    cases hkn : known n
    · exact by simp [hn.2]
    · by_cases hdm : n = dummy <;> simp [hdm]
  · have h1 : known (n ++ 32 :: t) = false := by
      cases h : known (n ++ 32 :: t)
      · rfl
      · exact absurd (by simp) (hsp _ h)
    have h2 : (n ++ 32 :: t).contains 32 = true := by simp
    have h3 : (n ++ 32 :: t).takeWhile (· != 32) = n := by
      rw [List.takeWhile_append_of_pos (by intro x hx; simpa using fun e : x = 32 => hn.2 (e ▸ hx))]
      simp
    simp only [h1, h2, h3, Bool.false_eq_true, if_false, if_true]
    cases hkn : known n
    · simp
    · by_cases hdm : n = dummy <;> simp [hdm]

/-- **C82**: from what the compiler writes for an object of type `n`, directly or as an argument of "%s", the library gets the name `n` if it is
known and not the placeholder, and nothing otherwise. -/
theorem C82_type_of_object {known : List Nat → Bool} {n text : List Nat} (hn : Name n) (hk : n ∉ keywords) (hd : Dumped n text)
    (hp : text ≠ [37, 115]) (hsp : ∀ m, known m = true → 32 ∉ m) :
    (∀ arg, typeName known text arg = some (if known n = true ∧ n ≠ placeholder then some n else none)) ∧
    typeName known [37, 115] (some text) = some (if known n = true ∧ n ≠ placeholder then some n else none) := by
  refine ⟨typeName_plain hn hk hd hp hsp, ?_⟩
  rw [← typeName_plain hn hk hd hp hsp none]
  have hpct : ¬ (text = percentS) := hp
  unfold typeName
  rw [if_pos (show ([37, 115] : List Nat) = percentS from rfl), if_neg hpct]

/-- **C82**: the variant for compilers without an extra argument gives the same for texts that are passed directly -/
theorem C82_thread_partial {known : List Nat → Bool} {n text : List Nat} (hn : Name n) (hk : n ∉ keywords) (hd : Dumped n text)
    (hp : text ≠ [37, 115]) (hsp : ∀ m, known m = true → 32 ∉ m) (arg : Option (List Nat)) :
    typeNameThread known text arg = some (if known n = true ∧ n ≠ placeholder then some n else none) :=
  typeName_plain hn hk hd hp hsp none

/-- `struct ab {` with a known type `ab` -/
example : typeName (· == [97, 98]) (structKw ++ [97, 98] ++ [32, 123]) none = some (some [97, 98]) := by
  have := (C82_type_of_object (known := (· == [97, 98])) (n := [97, 98]) (text := structKw ++ [97, 98] ++ [32, 123])
    ⟨by decide, by decide⟩ (by decide) ⟨structKw, by simp, [32, 123], Or.inr ⟨[123], rfl⟩, rfl⟩ (by decide +kernel)
    (by intro m h; simp at h; subst h; decide)).1 none
  rw [this]
  decide +kernel

/-- for "%s" the variant without an extra argument reads an argument nobody passed, whatever the object is -/
theorem C82_deviation_argument_lost (known : List Nat → Bool) (arg : Option (List Nat)) :
    typeNameThread known [37, 115] arg = none := rfl

end Verif.Props.ObjType
