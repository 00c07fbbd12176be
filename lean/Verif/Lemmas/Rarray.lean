import Verif.Model.Rarray
namespace Verif.Lemmas.Rarray
open Verif.Model Verif.Model.Rarray

/-- well-formed resizable array -/
structure WF (ra : Rarray) : Prop where
  nonneg : 0 ≤ ra.size
  le : ra.size ≤ ra.alloc
  lt : ra.alloc < 2 ^ 63
  len : ((ra.data.getD []).length : Int) = ra.alloc

def contents (ra : Rarray) : List Nat := (ra.data.getD []).take ra.size.toNat

theorem store_eq : ∀ (bs block : List Nat) (off : Nat), off + bs.length ≤ block.length →
    store block off bs = some (block.take off ++ bs ++ block.drop (off + bs.length)) := by
  intro bs
  induction bs with
  | nil => intro block off h; simp [store]
  | cons b bs ih =>
    intro block off h
    simp only [List.length_cons] at h
    have hlt : off < block.length := by omega
    simp only [store, wr, if_pos hlt, Option.bind_eq_bind, Option.bind_some]
    rw [ih _ _ (by simp; omega)]
    congr 1
    apply List.ext_getElem?
    intro i
    simp only [List.getElem?_append, List.getElem?_take, List.getElem?_set, List.length_append,
      List.length_take, List.length_set, List.getElem?_cons, List.getElem?_drop, List.length_cons]
    grind

theorem wrap64_range (x : Int) : -(2 ^ 63) ≤ wrap64 x ∧ wrap64 x < 2 ^ 63 := by
  unfold wrap64; omega

theorem realloc_length (o : Option (List Nat)) (n : Nat) (j : Nat → Nat) : (realloc o n j).length = n := by
  simp [realloc]

theorem realloc_take (o : Option (List Nat)) (n k : Nat) (j : Nat → Nat) (h1 : k ≤ n)
    (h2 : k ≤ (o.getD []).length) : (realloc o n j).take k = (o.getD []).take k := by
  apply List.ext_getElem?
  intro i
  simp only [realloc, List.getElem?_take, List.getElem?_map]
  by_cases h : i < k
  · have h3 : i < (o.getD []).length := by omega
    rw [if_pos h, if_pos h, List.getElem?_range (by omega), Option.map_some, List.getElem?_eq_getElem h3]
    rfl
  · rw [if_neg h, if_neg h]

/-- specification of `mr_rarray_allocate_element` on a well-formed array -/
theorem alloc_ok (ra : Rarray) (n : Nat) (ans : Answer) (h : WF ra) (hn : ra.size + n < 2 ^ 63) :
    (∃ ra', allocateElement ra n ans = some (ra', some ra.size.toNat) ∧ WF ra' ∧
        ra'.size = ra.size + n ∧ ra'.data.isSome ∧
        (ra'.data.getD []).take ra.size.toNat = contents ra) ∨
    (allocateElement ra n ans = some (ra, none) ∧ (ans = none ∨ (n = 0 ∧ ra.data = none))) := by
  obtain ⟨h1, h2, h3, h4⟩ := h
  unfold allocateElement
  rw [if_neg (by omega), if_neg (by omega)]
  by_cases hg : ra.size + (n : Int) > ra.alloc
  · simp only [if_pos hg]
    cases ans with
    | none => exact Or.inr ⟨rfl, Or.inl rfl⟩
    | some junk =>
      refine Or.inl ⟨_, rfl, ?_, rfl, rfl, ?_⟩
      · have hr := wrap64_range ((ra.size + n) * 2)
        refine ⟨by simp; omega, ?_, ?_, ?_⟩
        · dsimp only; split <;> omega
        · dsimp only; split <;> omega
        · dsimp only
          simp only [Option.getD_some, realloc_length]
          split <;> omega
      · dsimp only
        simp only [Option.getD_some]
        rw [realloc_take]
        · rfl
        · split <;> omega
        · omega
  · simp only [if_neg hg]
    cases hd : ra.data with
    | none =>
      right
      simp [hd] at h4
      have e1 : ra.size = 0 := by omega
      have e2 : n = 0 := by omega
      refine ⟨?_, Or.inr ⟨e2, rfl⟩⟩
      cases ra
      simp_all
      omega
    | some b =>
      left
      refine ⟨{ ra with size := ra.size + n }, by simp [hd], ?_, rfl, by simp [hd], ?_⟩
      · refine ⟨by simp; omega, by simp; omega, h3, ?_⟩
        simpa [hd] using h4
      · simp [contents, hd]

theorem append_ok (ra : Rarray) (bytes : List Nat) (ans : Answer) (h : WF ra)
    (hn : ra.size + bytes.length < 2 ^ 63) :
    ∃ ra' ok, append ra bytes ans = some (ra', ok) ∧ WF ra' ∧
      ra'.size = ra.size + (if ok then bytes.length else 0 : Nat) ∧
      contents ra' = contents ra ++ (if ok then bytes else []) ∧
      (ok = false → ra' = ra ∧ (ans = none ∨ bytes = [])) := by
  rcases alloc_ok ra bytes.length ans h hn with ⟨ra', e, hw, hs, hd, hc⟩ | ⟨e, hcase⟩
  · have hlen : ra.size.toNat + bytes.length ≤ (ra'.data.getD []).length := by
      have := hw.len; have := hw.le; have := h.nonneg; omega
    refine ⟨{ ra' with data := some ((ra'.data.getD []).take ra.size.toNat ++ bytes ++
      (ra'.data.getD []).drop (ra.size.toNat + bytes.length)) }, true, ?_, ?_, ?_, ?_, by simp⟩
    · unfold append
      rw [e]
      simp only [Option.bind_eq_bind, Option.bind_some]
      rw [store_eq _ _ _ hlen]
      rfl
    · refine ⟨hw.nonneg, hw.le, hw.lt, ?_⟩
      have := hw.len
      simp only [Option.getD_some, List.length_append, List.length_take, List.length_drop]
      omega
    · simpa using hs
    · have := h.nonneg
      have hcl : (contents ra).length = ra.size.toNat := by
        unfold contents; rw [List.length_take]; have := h.len; have := h.le; omega
      simp only [contents, Option.getD_some, if_true]
      rw [hc, hs]
      have e3 : (ra.size + (bytes.length : Int)).toNat = (contents ra ++ bytes).length := by
        rw [List.length_append, hcl]; omega
      rw [e3, List.take_left']
      · rfl
      · rfl
  · refine ⟨ra, false, ?_, h, by simp, by simp, fun _ => ⟨rfl, ?_⟩⟩
    · unfold append; rw [e]; rfl
    · rcases hcase with hc | ⟨hc, _⟩
      · exact Or.inl hc
      · exact Or.inr (by simpa using hc)

/-- a text buffer: `text` followed by its terminator -/
def Text (ra : Rarray) (text : List Nat) : Prop :=
  WF ra ∧ contents ra = text ++ [0]

theorem contents_length {ra : Rarray} (h : WF ra) : (contents ra).length = ra.size.toNat := by
  unfold contents; rw [List.length_take]; have := h.len; have := h.le; have := h.nonneg; omega

theorem appendString_ok (ra : Rarray) (text str : List Nat) (ans : Answer) (h : Text ra text)
    (hl : str.length < 2 ^ 31) (hn : text.length + str.length + 1 < 2 ^ 63) :
    (∃ ra', appendString ra str ans = some (ra', (str.length : Int)) ∧ Text ra' (text ++ str)) ∨
    (appendString ra str ans = some (freed, -1) ∧ ans = none) := by
  obtain ⟨hw, hc⟩ := h
  have hcl := contents_length hw
  rw [hc] at hcl
  simp only [List.length_append, List.length_cons, List.length_nil] at hcl
  have hnn := hw.nonneg
  have hds : ra.data.isNone = false := by
    cases hd : ra.data with
    | none => have := hw.len; have := hw.le; simp [hd] at *; omega
    | some b => rfl
  unfold appendString
  rw [if_neg (by rw [hds]; simp; omega), if_neg (by omega)]
  rcases alloc_ok ra str.length ans hw (by omega) with ⟨ra', e, hw', hs, hd, hc'⟩ | ⟨e, hcase⟩
  · left
    rw [e]
    simp only [Option.bind_eq_bind, Option.bind_some]
    rw [if_neg (by omega)]
    have hlen : ra.size.toNat - 1 + (str ++ [0]).length ≤ (ra'.data.getD []).length := by
      have := hw'.len; have := hw'.le; simp; omega
    rw [store_eq _ _ _ hlen]
    refine ⟨_, rfl, ?_, ?_⟩
    · refine ⟨hw'.nonneg, hw'.le, hw'.lt, ?_⟩
      have := hw'.len
      simp only [Option.getD_some, List.length_append, List.length_take, List.length_drop] at *
      omega
    · simp only [contents, Option.getD_some]
      have e1 : (ra'.data.getD []).take (ra.size.toNat - 1) = text := by
        have : ra.size.toNat - 1 = min (ra.size.toNat - 1) ra.size.toNat := by omega
        rw [this, ← List.take_take, hc', hc]
        have e2 : ra.size.toNat - 1 = text.length := by omega
        rw [e2, List.take_left']
        rfl
      rw [e1]
      have e3 : ra'.size.toNat = (text ++ (str ++ [0])).length := by
        simp; omega
      rw [e3, List.take_left' rfl]
      simp
  · right
    rw [e]
    refine ⟨rfl, ?_⟩
    rcases hcase with hcs | ⟨_, hcs⟩
    · exact hcs
    · rw [hcs] at hds; simp at hds

theorem appendChar_eq (ra : Rarray) (text : List Nat) (c : Nat) (ans : Answer) (h : Text ra text) :
    appendChar ra c ans = appendString ra [c] ans := by
  unfold appendChar appendString
  by_cases hc : ra.size = 0 ∨ ra.data.isNone
  · rw [if_pos hc, if_pos hc]
  · rw [if_neg hc, if_neg hc, if_neg (by simp)]
    simp only [List.length_cons, List.length_nil, Option.bind_eq_bind]
    cases hal : allocateElement ra (1 : Int) ans with
    | none => simp [hal]
    | some p =>
      obtain ⟨ra', tail⟩ := p
      simp only [Option.bind_some]
      cases tail with
      | none => rfl
      | some t =>
        by_cases ht : t = 0
        · simp [ht]
        · have e2 : t - 1 + 1 = t := by omega
          simp only [if_neg ht, List.singleton_append, store, e2, Option.bind_eq_bind]
          cases h1 : wr (ra'.data.getD []) (t - 1) c with
          | none => simp
          | some b =>
            simp only [Option.bind_some]
            cases wr b t 0 <;> simp

theorem freed_appendString (str : List Nat) (ans : Answer) :
    appendString freed str ans = some (freed, -1) := by
  simp [appendString, freed]
theorem freed_appendChar (c : Nat) (ans : Answer) :
    appendChar freed c ans = some (freed, -1) := by
  simp [appendChar, freed]

end Verif.Lemmas.Rarray
