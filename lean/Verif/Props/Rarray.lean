import Verif.Lemmas.Rarray
import Verif.Spec.Buffer
/-!
# C11, C46: resizable arrays and text buffers under arbitrary allocation failures
-/
namespace Verif.Props.Rarray
open Verif.Model Verif.Model.Rarray Verif.Spec

/-- the array the library starts with: `{ .data = NULL, .size = 0, .alloc_size = 0 }` -/
def empty : Rarray := { data := none, size := 0, alloc := 0 }

/-- A history: each append supplies its bytes and the allocator's answer in case it is asked.
Returns the final array and which appends succeeded. -/
def run (ra : Rarray) : List (List Nat × Answer) → Option (Rarray × List Bool)
  | [] => some (ra, [])
  | (bytes, ans) :: h => do
    let (ra, ok) ← append ra bytes ans
    let (ra, oks) ← run ra h
    some (ra, ok :: oks)

/-- the bytes in use: the first `size` bytes of the block -/
def used (ra : Rarray) : List Nat := (ra.data.getD []).take ra.size.toNat

theorem run_ok (ra : Rarray) (h : List (List Nat × Answer)) (hw : Lemmas.Rarray.WF ra)
    (hsum : ra.size + ((h.map (fun op => op.1.length)).sum : Nat) < 2 ^ 63) :
    ∃ ra' oks, run ra h = some (ra', oks) ∧ oks.length = h.length ∧ Lemmas.Rarray.WF ra' ∧
      Lemmas.Rarray.contents ra' = Lemmas.Rarray.contents ra ++ appended ((h.map Prod.fst).zip oks) ∧
      (∀ i : Nat, oks[i]? = some false → ∃ op, h[i]? = some op ∧ (op.2 = none ∨ op.1 = [])) := by
  induction h generalizing ra with
  | nil => exact ⟨ra, [], rfl, rfl, hw, by simp [appended], by simp⟩
  | cons op h ih =>
    obtain ⟨bytes, ans⟩ := op
    simp only [List.map_cons, List.sum_cons] at hsum
    obtain ⟨ra1, ok, e, hw1, hs1, hc1, hf⟩ := Lemmas.Rarray.append_ok ra bytes ans hw (by omega)
    obtain ⟨ra2, oks, e2, hl, hw2, hc2, hf2⟩ := ih ra1 hw1 (by
      rw [hs1]; cases ok <;> simp <;> omega)
    refine ⟨ra2, ok :: oks, ?_, by simp [hl], hw2, ?_, ?_⟩
    · simp [run, e, e2]
    · rw [hc2, hc1]; simp [appended]
    · intro i hi
      cases i with
      | zero =>
        simp at hi
        exact ⟨_, rfl, (hf hi).2⟩
      | succ i => simpa using hf2 i (by simpa using hi)

/-- **C11** For every history of appends and allocation failures: no access outside the block, the
bytes in use are exactly the concatenation of the successful appends in order, `0 ≤ size ≤ alloc` with
a block of `alloc` bytes, and an append fails only if the allocator failed (or for a zero-size append
to the NULL array). -/
theorem C11_append_history (h : List (List Nat × Answer))
    (hsum : (h.map (fun op => op.1.length)).sum < 2 ^ 63) :
    ∃ ra oks, run empty h = some (ra, oks) ∧ oks.length = h.length ∧
      used ra = appended ((h.map Prod.fst).zip oks) ∧
      0 ≤ ra.size ∧ ra.size ≤ ra.alloc ∧ ((ra.data.getD []).length : Int) = ra.alloc ∧
      (∀ i : Nat, oks[i]? = some false → ∃ op, h[i]? = some op ∧ (op.2 = none ∨ op.1 = [])) := by
  have hw : Lemmas.Rarray.WF empty := ⟨by decide, by decide, by decide, by decide⟩
  obtain ⟨ra, oks, e, hl, hw', hc, hf⟩ := run_ok empty h hw (by
    have : (empty.size : Int) = 0 := rfl
    rw [this]; omega)
  exact ⟨ra, oks, e, hl, by simpa [Lemmas.Rarray.contents, used, empty] using hc, hw'.nonneg, hw'.le, hw'.len, hf⟩

/-- **C11** One call: on success the returned address is the first free byte, the requested zone lies
inside the block, and every earlier byte is preserved; on failure the array is unchanged. -/
theorem C11_allocate_element (ra : Rarray) (n : Nat) (ans : Answer)
    (h0 : 0 ≤ ra.size) (h1 : ra.size ≤ ra.alloc) (h2 : ra.alloc < 2 ^ 63)
    (h3 : ((ra.data.getD []).length : Int) = ra.alloc) (hn : ra.size + n < 2 ^ 63) :
    ∃ ra' ptr, allocateElement ra n ans = some (ra', ptr) ∧
      match ptr with
      | none => ra' = ra ∧ (ans = none ∨ (n = 0 ∧ ra.data = none))
      | some off => (off : Int) = ra.size ∧ ra'.size = ra.size + n ∧
          off + n ≤ (ra'.data.getD []).length ∧
          ∀ i : Nat, i < off → (ra'.data.getD [])[i]? = (ra.data.getD [])[i]? := by
  rcases Lemmas.Rarray.alloc_ok ra n ans ⟨h0, h1, h2, h3⟩ hn with ⟨ra', e, hw, hs, hd, hc⟩ | ⟨e, hcase⟩
  · refine ⟨ra', _, e, ?_⟩
    refine ⟨by omega, hs, ?_, ?_⟩
    · have := hw.len; have := hw.le; omega
    · intro i hi
      have := congrArg (fun l => l[i]?) hc
      simpa [Lemmas.Rarray.contents, List.getElem?_take, hi] using this
  · exact ⟨ra, none, e, rfl, hcase⟩

/-! ### Text buffers -/

/-- One step of a text writer. -/
inductive Piece where
  | char (c : Nat)
  | string (s : List Nat)

def Piece.text : Piece → List Nat
  | .char c => [c]
  | .string s => s

/-- A writer emitting pieces; it goes on after a failure (callers usually stop, which is the prefix
case). Returns the buffer and the results. -/
def write (ra : Rarray) : List (Piece × Answer) → Option (Rarray × List Int)
  | [] => some (ra, [])
  | (p, ans) :: h => do
    let (ra, r) ← match p with
      | .char c => appendChar ra c ans
      | .string s => appendString ra s ans
    let (ra, rs) ← write ra h
    some (ra, r :: rs)

theorem write_freed (h : List (Piece × Answer)) :
    ∃ rs, write freed h = some (freed, rs) := by
  induction h with
  | nil => exact ⟨[], rfl⟩
  | cons op h ih =>
    obtain ⟨p, ans⟩ := op
    obtain ⟨rs, e⟩ := ih
    cases p with
    | char c => exact ⟨-1 :: rs, by simp [write, Lemmas.Rarray.freed_appendChar, e]⟩
    | string s => exact ⟨-1 :: rs, by simp [write, Lemmas.Rarray.freed_appendString, e]⟩

theorem write_ok (ra : Rarray) (text : List Nat) (h : List (Piece × Answer)) (hw : Lemmas.Rarray.Text ra text)
    (hp : ∀ op ∈ h, op.1.text.length < 2 ^ 31)
    (hsum : text.length + (h.map (fun op => op.1.text.length)).sum + 1 < 2 ^ 63) :
    ∃ ra' rs, write ra h = some (ra', rs) ∧
      ((Lemmas.Rarray.Text ra' (text ++ (h.map (fun op => op.1.text)).flatten) ∧
          rs = h.map (fun op => (op.1.text.length : Int))) ∨
       (ra' = freed ∧ -1 ∈ rs ∧ ∃ op ∈ h, op.2 = none)) := by
  induction h generalizing ra text with
  | nil => exact ⟨ra, [], rfl, Or.inl ⟨by simpa using hw, rfl⟩⟩
  | cons op h ih =>
    obtain ⟨p, ans⟩ := op
    simp only [List.map_cons, List.sum_cons] at hsum
    have hstep : (∃ ra', (match p with
        | .char c => appendChar ra c ans
        | .string s => appendString ra s ans) = some (ra', (p.text.length : Int)) ∧
          Lemmas.Rarray.Text ra' (text ++ p.text)) ∨
        ((match p with
        | .char c => appendChar ra c ans
        | .string s => appendString ra s ans) = some (freed, -1) ∧ ans = none) := by
      have hlt := hp _ (List.mem_cons_self ..)
      cases p with
      | char c =>
        simp only [Lemmas.Rarray.appendChar_eq ra text c ans hw]
        exact Lemmas.Rarray.appendString_ok ra text [c] ans hw (by simp) (by simp [Piece.text] at hsum ⊢; omega)
      | string s =>
        exact Lemmas.Rarray.appendString_ok ra text s ans hw (by simpa [Piece.text] using hlt)
          (by simp [Piece.text] at hsum; omega)
    rcases hstep with ⟨ra1, e1, hw1⟩ | ⟨e1, hans⟩
    · obtain ⟨ra2, rs, e2, hcase⟩ := ih ra1 (text ++ p.text) hw1 (fun o ho => hp o (by simp [ho]))
        (by simp; omega)
      refine ⟨ra2, (p.text.length : Int) :: rs, ?_, ?_⟩
      · unfold write; cases p <;> simp_all
      · rcases hcase with ⟨ht, hr⟩ | ⟨hr1, hr2, o, ho, hr3⟩
        · left
          refine ⟨by simpa [List.append_assoc] using ht, by simp [hr]⟩
        · exact Or.inr ⟨hr1, by simp [hr2], o, by simp [ho], hr3⟩
    · obtain ⟨rs, e2⟩ := write_freed h
      refine ⟨freed, -1 :: rs, ?_, Or.inr ⟨rfl, by simp, _, List.mem_cons_self .., hans⟩⟩
      unfold write; cases p <;> simp_all

/-- **C46** A serialized text is complete or absent.  Starting from the buffer holding `""` (as every
text writer does), after any sequence of character and string appends with any pattern of allocation
failures either every append returned its length and the buffer is exactly the concatenation of the
pieces with one terminating NUL, or some append returned -1, the buffer is NULL with size 0, and an
allocation did fail. -/
theorem C46_text_complete_or_null (h : List (Piece × Answer))
    (hp : ∀ op ∈ h, op.1.text.length < 2 ^ 31)
    (hsum : (h.map (fun op => op.1.text.length)).sum + 1 < 2 ^ 63) :
    ∃ ra rs, write { data := some [0], size := 1, alloc := 1 } h = some (ra, rs) ∧
      ((used ra = (h.map (fun op => op.1.text)).flatten ++ [0] ∧
          rs = h.map (fun op => (op.1.text.length : Int))) ∨
       (ra.data = none ∧ ra.size = 0 ∧ -1 ∈ rs ∧ ∃ op ∈ h, op.2 = none)) := by
  obtain ⟨ra, rs, e, hcase⟩ := write_ok { data := some [0], size := 1, alloc := 1 } [] h
    ⟨⟨by decide, by decide, by decide, by decide⟩, by decide⟩ hp (by simpa using hsum)
  refine ⟨ra, rs, e, ?_⟩
  rcases hcase with ⟨ht, hr⟩ | ⟨h1, h2, h3⟩
  · exact Or.inl ⟨by have h2 := ht.2; rw [List.nil_append] at h2; exact h2, hr⟩
  · subst h1
    exact Or.inr ⟨rfl, rfl, h2, h3⟩

/-! Non-vacuity: a history with a failure in the middle. -/
example : (run empty [([1, 2], some fun _ => 7), ([3, 4, 5], none), ([6], none), ([8, 9], some fun _ => 7)]).map
    (fun p => (used p.1, p.2)) = some ([1, 2, 6, 8, 9], [true, false, true, true]) := by decide +kernel
example : (write { data := some [0], size := 1, alloc := 1 }
    [(.string [104, 105], some fun _ => 170), (.char 33, some fun _ => 170)]).map (fun p => (used p.1, p.2)) =
    some ([104, 105, 33, 0], [2, 1]) := by decide +kernel
example : (write { data := some [0], size := 1, alloc := 1 }
    [(.string [104, 105], some fun _ => 170), (.string [33, 34, 35, 36, 37, 38], none), (.char 1, some fun _ => 0)]).map
    (fun p => (p.1.data, p.2)) = some (none, [2, -1, -1]) := by decide +kernel

end Verif.Props.Rarray
