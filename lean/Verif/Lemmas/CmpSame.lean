import Verif.Lemmas.CopyMem
import Verif.Lemmas.Bitfield
import Verif.Model.Cmp
/-!
Values in memory that has the same contents.
-/
namespace Verif.Lemmas.CmpSame
open Verif.Model Verif.Model.Ptrs Verif.Model.Save Verif.Model.Copy Verif.Model.Cmp Verif.Spec.Copy Verif.Lemmas.CopyMem

variable {tds : List Td} {m : Bytes} {fuel : Nat}

theorem text_same (n : Nat) : ∀ {fuel a b : Nat}, n < fuel → Text m a n → (∀ k, k ≤ n → m (b + k) = m (a + k)) → ∃ t, text m fuel a = some t ∧ text m fuel b = some t := by
  induction n with
  | zero =>
    intro fuel a b hf h he
    cases fuel with
    | zero => omega
    | succ fuel =>
      have h0 := h.1
      have h1 := he 0 (by omega)
      simp only [Nat.add_zero] at h0 h1
      exact ⟨[], by simp [text, h0], by simp [text, h1, h0]⟩
  | succ n ih =>
    intro fuel a b hf h he
    cases fuel with
    | zero => omega
    | succ fuel =>
      have h0 := h.2 0 (by omega)
      have h1 := he 0 (by omega)
      simp only [Nat.add_zero] at h0 h1
      obtain ⟨t, e1, e2⟩ := ih (fuel := fuel) (a := a + 1) (b := b + 1) (by omega)
        ⟨by have := h.1; rw [show a + 1 + n = a + (n + 1) by omega]; exact this, fun k hk => by rw [show a + 1 + k = a + (k + 1) by omega]; exact h.2 (k + 1) (by omega)⟩
        (fun k hk => by rw [show a + 1 + k = a + (k + 1) by omega, show b + 1 + k = b + (k + 1) by omega]; exact he (k + 1) (by omega))
      exact ⟨(m a).toNat :: t, by simp [text, h0, e1], by simp [text, h1, h0, e2]⟩

theorem block_congr {m' : Bytes} {a b n : Nat} (h : ∀ k, k < n → m (b + k) = m' (a + k)) : block m b n = block m' a n := by
  unfold block
  apply List.map_congr_left
  intro k hk
  rw [h k (List.mem_range.1 hk)]

theorem saveLoop_congr {l l' : List Bitfield.Byte} {shift width : Nat} (h : ∀ k : Nat, 8 * k < shift + width → l'[k]? = l[k]?) (fuel : Nat) :
    ∀ (i ptr : Nat) (v : Bitfield.Word), i + shift = 8 * ptr → Bitfield.saveLoop l' width fuel i ptr v = Bitfield.saveLoop l width fuel i ptr v := by
  induction fuel with
  | zero => intros; rfl
  | succ fuel ih =>
    intro i ptr v hi
    unfold Bitfield.saveLoop
    by_cases hw : i < width
    · rw [if_pos hw, if_pos hw, h ptr (by omega)]
      cases l[ptr]? with
      | none => rfl
      | some b =>
        simp only [Option.bind_eq_bind, Option.bind_some]
        exact ih _ _ _ (by omega)
    · rw [if_neg hw, if_neg hw]

theorem saveBitfield_congr {l l' : List Bitfield.Byte} {shift width : Nat} {sg : Bool} (hs : shift < 8) (hw : 1 ≤ width) (h : ∀ k : Nat, 8 * k < shift + width → l'[k]? = l[k]?) :
    Bitfield.saveBitfield l' shift width sg = Bitfield.saveBitfield l shift width sg := by
  unfold Bitfield.saveBitfield
  rw [h 0 (by omega)]
  cases l[0]? with
  | none => rfl
  | some b =>
    simp only [Option.bind_eq_bind, Option.bind_some]
    rw [saveLoop_congr h _ _ _ _ (by omega)]

theorem bitVal_same {x y : Info} {f : Fd} (hx : x.fd = some f) (hy : y.fd = x.fd) (ha : y.aux = x.aux) (hs : f.shift < 8) (hw : 1 ≤ f.width) (hw' : f.width ≤ 128)
    (h : ∀ k, k < (f.shift + f.width + 7) / 8 → m (y.addr + k) = m (x.addr + k)) : ∃ v, bitVal tds m x = some v ∧ bitVal tds m y = some v := by
  unfold bitVal
  rw [hy, hx, ha]
  simp only [Option.bind_eq_bind, Option.bind_some]
  generalize signedType (if x.aux = .enum ∧ f.td ≠ none then effectiveType tds f.td else x.aux) = sg
  have hw0 : ¬ f.width = 0 := by omega
  rw [if_neg hw0, if_neg hw0]
  rw [saveBitfield_congr (l := (List.range (f.width + 1)).map fun k => (m (x.addr + k)).toBitVec) (l' := (List.range (f.width + 1)).map fun k => (m (y.addr + k)).toBitVec) hs hw]
  · obtain ⟨v, hv, _⟩ := Bitfield.save_ok ((List.range (f.width + 1)).map fun k => (m (x.addr + k)).toBitVec) f.shift f.width sg hs hw hw' (by simp; omega)
    exact ⟨v, hv, hv⟩
  · intro k hk
    rw [List.getElem?_map, List.getElem?_map]
    by_cases hr : k < f.width + 1
    · rw [List.getElem?_range hr]
      simp only [Option.map_some]
      rw [h k (by omega)]
    · rw [List.getElem?_eq_none (by simp; omega)]
      rfl

/-- the memory of two nodes with the same type has the same contents -/
def SameMem (tds : List Td) (m : Bytes) (max : Nat) (ty : MrType) (x y : Info) : Prop :=
  match ty with
  | .string => (word m x.addr = 0 ∧ word m y.addr = 0) ∨
      (word m x.addr ≠ 0 ∧ word m y.addr ≠ 0 ∧ ∃ n, n < max ∧ Text m (word m x.addr) n ∧ ∀ k, k ≤ n → m (word m y.addr + k) = m (word m x.addr + k))
  | .charArray => ∃ n, n < max ∧ Text m x.addr n ∧ ∀ k, k ≤ n → m (y.addr + k) = m (x.addr + k)
  | .bitfield => ∃ f, x.fd = some f ∧ f.shift < 8 ∧ 1 ≤ f.width ∧ f.width ≤ 128 ∧ ∀ k, k < (f.shift + f.width + 7) / 8 → m (y.addr + k) = m (x.addr + k)
  | .enum => ∃ w, typeSize x.aux ≤ w ∧ (∀ d, (tdOf x.fd).bind (tds[·]?) = some d → d.ty = .enum → typeSize d.effective ≤ w) ∧ ∀ k, k < w → m (y.addr + k) = m (x.addr + k)
  | .pointer | .void => True
  | ty => ∀ k, k < typeSize ty → m (y.addr + k) = m (x.addr + k)

theorem same_num {x y w : Nat} (h : ∀ k, k < w → m (y + k) = m (x + k)) (n : Nat) (hn : n ≤ w) : number m y n = number m x n :=
  number_congr n fun k hk => h k (by omega)

theorem same_num_at {x y w : Nat} (h : ∀ k, k < w → m (y + k) = m (x + k)) (o n : Nat) (hn : o + n ≤ w) : number m (y + o) n = number m (x + o) n :=
  number_congr n fun k hk => by rw [Nat.add_assoc, Nat.add_assoc]; exact h (o + k) (by omega)

theorem same_block {x y w : Nat} (h : ∀ k, k < w → m (y + k) = m (x + k)) (n : Nat) (hn : n ≤ w) : block m y n = block m x n :=
  block_congr fun k hk => h k (by omega)

theorem same_block_at {x y w : Nat} (h : ∀ k, k < w → m (y + k) = m (x + k)) (o n : Nat) (hn : o + n ≤ w) : block m (y + o) n = block m (x + o) n :=
  block_congr fun k hk => by rw [Nat.add_assoc, Nat.add_assoc]; exact h (o + k) (by omega)

theorem intVal_same {x y w : Nat} (h : ∀ k, k < w → m (y + k) = m (x + k)) (ty : MrType) (hw : typeSize ty ≤ w) : intVal m y ty = intVal m x ty := by
  have g := same_num h
  cases ty <;> simp only [intVal] <;> simp only [typeSize] at hw <;> rw [g _ hw]

/-- the same contents give the same value and the same hash value -/
theorem value_same {p : Pd} {x y : Info} {max : Nat} (hf : y.fd = x.fd) (ha : y.aux = x.aux) (hm : max ≤ fuel) (h : SameMem tds m max p.ty x y) :
    (∃ v, value tds m fuel p x = some v ∧ value tds m fuel p y = some v) ∧ hashLeaf tds m fuel p y = hashLeaf tds m fuel p x := by
  unfold value hashLeaf
  revert h
  generalize p.ty = ty
  intro h
  cases ty
  case string =>
    simp only [SameMem] at h ⊢
    rcases h with ⟨h1, h2⟩ | ⟨h1, h2, n, hn, ht, he⟩
    · simp [h1, h2]
    · obtain ⟨t, e1, e2⟩ := text_same n (fuel := fuel) (by omega) ht he
      simp [h1, h2, e1, e2]
  case charArray =>
    obtain ⟨n, hn, ht, he⟩ := h
    obtain ⟨t, e1, e2⟩ := text_same n (fuel := fuel) (by omega) ht he
    simp [e1, e2]
  case bitfield =>
    obtain ⟨f, h1, h2, h3, h4, h5⟩ := h
    obtain ⟨v, e1, e2⟩ := bitVal_same (tds := tds) h1 hf ha h2 h3 h4 h5
    simp [e1, e2]
  case enum =>
    obtain ⟨w, h1, h2, h3⟩ := h
    simp only
    rw [hf, ha, intVal_same h3 _ h1]
    refine ⟨⟨_, rfl, rfl⟩, ?_⟩
    cases hd : (tdOf x.fd).bind (tds[·]?) with
    | none => rfl
    | some d =>
      simp only
      split
      · rename_i ht
        rw [same_block h3 _ (h2 d hd ht)]
      · rfl
  case pointer => exact ⟨⟨_, rfl, rfl⟩, rfl⟩
  case none | void | struct | array | union | anonUnion | namedAnonUnion | endAnonUnion | last => exact ⟨⟨_, rfl, rfl⟩, rfl⟩
  case bool =>
    simp only [SameMem] at h
    simp only [intVal]
    rw [same_num h 1 (by decide)]
    exact ⟨⟨_, rfl, rfl⟩, rfl⟩
  case char | int8 | uint8 =>
    simp only [SameMem] at h
    simp only [intVal]
    rw [same_num h 1 (by decide), same_block h 1 (by decide)]
    exact ⟨⟨_, rfl, rfl⟩, rfl⟩
  case int16 | uint16 =>
    simp only [SameMem] at h
    simp only [intVal]
    rw [same_num h 2 (by decide), same_block h 2 (by decide)]
    exact ⟨⟨_, rfl, rfl⟩, rfl⟩
  case int32 | uint32 | float =>
    simp only [SameMem] at h
    simp only [intVal]
    rw [same_num h 4 (by decide), same_block h 4 (by decide)]
    exact ⟨⟨_, rfl, rfl⟩, rfl⟩
  case int64 | uint64 | double | func | funcType =>
    simp only [SameMem] at h
    simp only [intVal]
    rw [same_num h 8 (by decide), same_block h 8 (by decide)]
    exact ⟨⟨_, rfl, rfl⟩, rfl⟩
  case int128 | uint128 =>
    simp only [SameMem] at h
    simp only [intVal]
    rw [same_num h 16 (by decide), same_block h 16 (by decide)]
    exact ⟨⟨_, rfl, rfl⟩, rfl⟩
  case longDouble =>
    simp only [SameMem] at h
    simp only [intVal]
    rw [same_num h 10 (by decide), same_block h 10 (by decide)]
    exact ⟨⟨_, rfl, rfl⟩, rfl⟩
  case complexFloat =>
    simp only [SameMem] at h
    simp only [intVal]
    rw [same_num h 4 (by decide), same_num_at h 4 4 (by decide), same_block h 8 (by decide)]
    exact ⟨⟨_, rfl, rfl⟩, rfl⟩
  case complexDouble =>
    simp only [SameMem] at h
    simp only [intVal]
    rw [same_num h 8 (by decide), same_num_at h 8 8 (by decide), same_block h 16 (by decide)]
    exact ⟨⟨_, rfl, rfl⟩, rfl⟩
  case complexLongDouble =>
    simp only [SameMem] at h
    simp only [intVal]
    rw [same_num h 10 (by decide), same_num_at h 16 10 (by decide), same_block h 10 (by decide), same_block_at h 16 10 (by decide)]
    exact ⟨⟨_, rfl, rfl⟩, rfl⟩

end Verif.Lemmas.CmpSame
