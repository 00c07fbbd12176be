import Verif.Model.Arrays

/-
C36: arrays are saved and loaded with their declared shape.
An array of shape `dims` has `elements dims` elements of `s` bytes; they follow each other
in memory, the k-th of them (in row-major order) is `k * s` bytes behind the first one.
-/
namespace Verif.Props.Arrays
open Verif.Model.Arrays

/-- The number of elements of an array. -/
def elements : List Nat → Nat
  | [] => 1
  | d :: ds => d * elements ds

/-- The addresses of the first `n` elements. -/
def addresses (addr s n : Nat) : List Nat := (List.range n).map fun k => addr + k * s

theorem forEach_eq {α : Type} (f : Nat → Option (List α)) (g : Nat → List α) : ∀ (n i : Nat),
    (∀ k, k < n → f (i + k) = some (g (i + k))) →
    forEach f i n = some ((List.range n).flatMap fun k => g (i + k)) := by
  intro n
  induction n with
  | zero => intro i _; rfl
  | succ n ih =>
    intro i h
    have h0 := h 0 (by omega)
    have h1 := ih (i + 1) (fun k hk => by
      have := h (k + 1) (by omega)
      rwa [show i + (k + 1) = i + 1 + k by omega] at this)
    simp only [forEach, Nat.add_zero] at h0 ⊢
    rw [h0, h1]
    simp only [Option.bind_eq_bind, Option.bind_some]
    rw [List.range_succ_eq_map, List.flatMap_cons, List.flatMap_map]
    congr 2
    simp only [List.flatMap]
    congr 1
    apply List.map_congr_left
    intro k _
    rw [show i + 1 + k = i + k.succ by omega]

theorem forEach_length {α : Type} (f : Nat → Option (List α)) (m : Nat) : ∀ (n i : Nat) (l : List α),
    (∀ k l, f k = some l → l.length = m) → forEach f i n = some l → l.length = n * m := by
  intro n
  induction n with
  | zero => intro i l _ h; simp [forEach] at h; subst h; simp
  | succ n ih =>
    intro i l hf h
    simp only [forEach, Option.bind_eq_bind] at h
    cases h0 : f i with
    | none => simp [h0] at h
    | some a =>
      cases h1 : forEach f (i + 1) n with
      | none => simp [h0, h1] at h
      | some b =>
        simp only [h0, h1, Option.bind_some, Option.some.injEq] at h
        subst h
        rw [List.length_append, hf _ _ h0, ih _ _ hf h1, Nat.add_mul]
        omega

/-- Blocks of `m` elements, one behind the other. -/
theorem flatMap_addresses (addr s m : Nat) : ∀ d, (List.range d).flatMap
    (fun i => addresses (addr + i * (m * s)) s m) = addresses addr s (d * m) := by
  intro d
  induction d with
  | zero => simp [addresses]
  | succ d ih =>
    rw [List.range_succ, List.flatMap_append, ih]
    unfold addresses
    rw [Nat.succ_mul, List.range_add, List.map_append, List.map_map]
    simp only [List.flatMap_cons, List.flatMap_nil, List.append_nil]
    congr 1
    apply List.map_congr_left
    intro k _
    show addr + d * (m * s) + k * s = addr + (d * m + k) * s
    rw [Nat.add_mul, Nat.mul_assoc]; omega

/-- C36, one dimension: an array of `d` elements is saved as exactly its elements; with a
size field, as exactly the elements that fit completely into the bytes it announces. -/
theorem C36_save_one_dimension (d s addr : Nat) (rest : List Nat) (limit : Option Int) (hd : 0 < d) (hs : 0 < s)
    (hbig : d < 4294967296) (hl : ∀ b, limit = some b → b.toNat / s < 4294967296) :
    saveArray (d :: rest) 1 (d * s) addr limit = some ((addresses addr s
      (match limit with | none => d | some b => min d (b.toNat / s))).map fun a => (a, s)) := by
  have hds : d * s ≠ 0 := Nat.mul_ne_zero (by omega) (by omega)
  simp only [saveArray, List.getElem?_cons_zero, Option.bind_eq_bind, Option.bind_some,
    show ¬ d = 0 by omega, hds, ↓reduceIte]
  rw [Nat.mul_div_cancel_left s hd, forEach_eq _ (fun i => [(addr + i * s, s)]) _ _ (fun _ _ => rfl)]
  have hcount : limited d s limit = (match limit with | none => d | some b => min d (b.toNat / s)) := by
    cases limit with
    | none => rfl
    | some b =>
      have hb := hl b rfl
      show (if b ≤ 0 then 0 else if d > b.toNat / s % 4294967296 then b.toNat / s % 4294967296 else d) = min d (b.toNat / s)
      rw [Nat.mod_eq_of_lt hb]
      by_cases hb0 : b ≤ 0
      · have : b.toNat = 0 := by omega
        rw [if_pos hb0, this, Nat.zero_div]
        exact (Nat.min_eq_right (Nat.zero_le _)).symm
      · rw [if_neg hb0]
        split <;> omega
  rw [hcount]
  unfold addresses
  rw [List.map_map, List.map_eq_flatMap]
  congr 2
  funext k
  simp

theorem save_square (d s : Nat) (rest : List Nat) (hd : 0 < d) (hs : 0 < s) : ∀ (n addr : Nat),
    saveArray (d :: rest) (n + 1) (d ^ (n + 1) * s) addr none =
      some ((addresses addr s (d ^ (n + 1))).map fun a => (a, s)) := by
  intro n
  induction n with
  | zero =>
    intro addr
    have hds : d * s ≠ 0 := Nat.mul_ne_zero (by omega) (by omega)
    simp only [saveArray, List.getElem?_cons_zero, Option.bind_eq_bind, Option.bind_some,
      show ¬ d = 0 by omega, hds, ↓reduceIte, Nat.zero_add, Nat.pow_one]
    rw [Nat.mul_div_cancel_left s hd, forEach_eq _ (fun i => [(addr + i * s, s)]) _ _ (fun _ _ => rfl)]
    unfold limited addresses
    rw [List.map_map, List.map_eq_flatMap]
    congr 2
    funext k
    simp
  | succ n ih =>
    intro addr
    have hp : 0 < d ^ (n + 1) := Nat.pow_pos hd
    have hsize : d ^ (n + 2) * s = d * (d ^ (n + 1) * s) := by
      rw [Nat.pow_succ d (n + 1), Nat.mul_comm (d ^ (n + 1)) d, Nat.mul_assoc]
    have hne : d ^ (n + 2) * s ≠ 0 := Nat.mul_ne_zero (by have := Nat.pow_pos (n := n + 2) hd; omega) (by omega)
    rw [show n + 1 + 1 = n + 2 from rfl]
    unfold saveArray
    simp only [List.getElem?_cons_zero, Option.bind_eq_bind, Option.bind_some,
      show ¬ d = 0 by omega, hne, ↓reduceIte, show ¬ (n + 1 = 0) by omega]
    rw [hsize, Nat.mul_div_cancel_left _ hd,
      forEach_eq _ (fun i => (addresses (addr + i * (d ^ (n + 1) * s)) s (d ^ (n + 1))).map fun a => (a, s)) _ _
        (fun k _ => ih _)]
    simp only [Nat.zero_add]
    have := flatMap_addresses addr s (d ^ (n + 1)) d
    rw [← List.map_flatMap, this, Nat.pow_succ d (n + 1), Nat.mul_comm d (d ^ (n + 1))]

theorem elements_replicate (n d : Nat) : elements (List.replicate n d) = d ^ n := by
  induction n with
  | zero => rfl
  | succ n ih => rw [List.replicate_succ, elements, ih, Nat.pow_succ, Nat.mul_comm]

/-- C36, saving, partial: an array all of whose `n` dimensions are equal is saved as
exactly its elements, in order, each at its own address and with its own size.
Missing: shapes with different dimensions, for which the claim is false, see
`C36_deviation_save_shape`. -/
theorem C36_save_square_partial (n d s addr : Nat) (hn : 0 < n) (hd : 0 < d) (hs : 0 < s) :
    saveArray (List.replicate n d) n (elements (List.replicate n d) * s) addr none =
      some ((addresses addr s (elements (List.replicate n d))).map fun a => (a, s)) := by
  obtain ⟨m, rfl⟩ : ∃ m, n = m + 1 := ⟨n - 1, by omega⟩
  rw [elements_replicate, List.replicate_succ]
  exact save_square d s _ hd hs m addr

/-- C36 is violated: no matrix with two different dimensions is saved as its elements. -/
theorem C36_deviation_save_shape (d e s addr : Nat) (hd : 0 < d) (hs : 0 < s) (he : 0 < e) (hne : d ≠ e) :
    saveArray [d, e] 2 (elements [d, e] * s) addr none ≠
      some ((addresses addr s (elements [d, e])).map fun a => (a, s)) := by
  intro h
  unfold saveArray at h
  have hel : elements [d, e] = d * e := by simp [elements]
  have hpos : elements [d, e] * s ≠ 0 := by
    rw [hel]; exact Nat.mul_ne_zero (Nat.mul_ne_zero (by omega) (by omega)) (by omega)
  simp only [List.getElem?_cons_zero, Option.bind_eq_bind, Option.bind_some,
      show ¬ d = 0 by omega, hpos, ↓reduceIte, show ¬ (1 = 0) by omega] at h
  have := forEach_length _ d d 0 _ (by
    intro k l hk
    simp only [saveArray, List.getElem?_cons_zero, Option.bind_eq_bind, Option.bind_some,
      show ¬ d = 0 by omega, ↓reduceIte] at hk
    split at hk
    · simp at hk
    · have := forEach_length _ 1 _ _ _ (by intro k l hk; simp at hk; subst hk; rfl) hk
      simpa [limited] using this) h
  simp [addresses, hel] at this
  exact hne (Nat.eq_of_mul_eq_mul_left hd this.symm)

/-- The witness: `int a[2][3]` is saved as four elements of six bytes. -/
theorem C36_deviation_int_2_3 :
    saveArray [2, 3] 2 24 0 none = some [(0, 6), (6, 6), (12, 6), (18, 6)] := by decide +kernel

/-! Loading. -/

/-- The tree of an array: the values in row-major order. -/
def docOf : List Nat → (Nat → Nat) → Doc
  | [], v => .scalar (v 0)
  | d :: ds, v => .list ((List.range d).map fun i => docOf ds fun k => v (i * elements ds + k))

theorem loadNodes_eq (f : Nat → Doc → Option (List (Nat × Nat))) (count : Nat) (c : Nat → Doc)
    (g : Nat → List (Nat × Nat)) : ∀ (n i : Nat), i + n ≤ count →
    (∀ k, k < n → f (i + k) (c (i + k)) = some (g (i + k))) →
    loadNodes f count i ((List.range n).map fun k => c (i + k)) = some ((List.range n).flatMap fun k => g (i + k)) := by
  intro n
  induction n with
  | zero => intro i _ _; rfl
  | succ n ih =>
    intro i hi h
    have h0 := h 0 (by omega)
    have h1 := ih (i + 1) (by omega) (fun k hk => by
      have := h (k + 1) (by omega)
      rwa [show i + (k + 1) = i + 1 + k by omega] at this)
    rw [List.range_succ_eq_map, List.map_cons, List.map_map]
    have e1 : (List.range n).map ((fun k => c (i + k)) ∘ Nat.succ) = (List.range n).map fun k => c (i + 1 + k) := by
      apply List.map_congr_left
      intro k _
      show c (i + (k + 1)) = _
      rw [show i + (k + 1) = i + 1 + k by omega]
    rw [e1]
    simp only [loadNodes, show ¬ (i ≥ count) by omega, ↓reduceIte, Nat.add_zero] at h0 ⊢
    rw [h0, h1]
    simp only [Option.bind_eq_bind, Option.bind_some, List.flatMap_cons, List.flatMap_map, Nat.add_zero]
    congr 2
    simp only [List.flatMap]
    congr 1
    apply List.map_congr_left
    intro k _
    rw [show i + 1 + k = i + k.succ by omega]

theorem elements_pos : ∀ (dims : List Nat), (∀ d ∈ dims, 0 < d) → 0 < elements dims := by
  intro dims
  induction dims with
  | nil => intro _; exact Nat.one_pos
  | cons d ds ih =>
    intro h
    exact Nat.mul_pos (h d (by simp)) (ih fun x hx => h x (by simp [hx]))

/-- C36, loading: for every shape each value of the document is stored at the address of
its element. -/
theorem C36_load : ∀ (dims : List Nat) (s addr : Nat) (v : Nat → Nat), (∀ d ∈ dims, 0 < d) → 0 < s →
    loadArray dims (elements dims * s) addr (docOf dims v) =
      some ((List.range (elements dims)).map fun k => (addr + k * s, v k)) := by
  intro dims
  induction dims with
  | nil => intro s addr v _ _; simp [loadArray, docOf, elements]
  | cons d ds ih =>
    intro s addr v hp hs
    have hd : 0 < d := hp d (by simp)
    have hds : ∀ x ∈ ds, 0 < x := fun x hx => hp x (by simp [hx])
    have hpos := elements_pos ds hds
    have hne : elements (d :: ds) * s ≠ 0 :=
      Nat.mul_ne_zero (by have := elements_pos (d :: ds) hp; omega) (by omega)
    have hdiv : elements (d :: ds) * s / d = elements ds * s := by
      show d * elements ds * s / d = _
      rw [Nat.mul_assoc, Nat.mul_div_cancel_left _ hd]
    simp only [loadArray, docOf, show ¬ d = 0 by omega, hne, ↓reduceIte, Doc.children, hdiv]
    have hn := loadNodes_eq (fun i c => loadArray ds (elements ds * s) (addr + i * (elements ds * s)) c) d
      (fun i => docOf ds fun k => v (i * elements ds + k))
      (fun i => (List.range (elements ds)).map fun k => (addr + i * (elements ds * s) + k * s, v (i * elements ds + k)))
      d 0 (by omega) (fun k _ => by simpa using ih s _ _ hds hs)
    simp only [Nat.zero_add] at hn
    rw [hn]
    congr 1
    show _ = (List.range (d * elements ds)).map _
    clear hn hdiv hne
    induction d with
    | zero => simp
    | succ d ihd =>
      rw [List.range_succ, List.flatMap_append, Nat.succ_mul, List.range_add, List.map_append, List.map_map]
      by_cases h0 : d = 0
      · subst h0; simp
      · rw [ihd (by intro x hx; rcases List.mem_cons.1 hx with rfl | hx; omega; exact hds x hx) (by omega)]
        simp only [List.flatMap_cons, List.flatMap_nil, List.append_nil]
        congr 1
        apply List.map_congr_left
        intro k _
        show (addr + d * (elements ds * s) + k * s, _) = (addr + (d * elements ds + k) * s, _)
        rw [Nat.add_mul, Nat.mul_assoc, Nat.add_assoc]

theorem loadNodes_mem (f : Nat → Doc → Option (List (Nat × Nat))) (count : Nat) (P : Nat × Nat → Prop) :
    ∀ (cs : List Doc) (i : Nat) (l : List (Nat × Nat)),
    (∀ j c l, j < count → f j c = some l → ∀ x ∈ l, P x) → loadNodes f count i cs = some l → ∀ x ∈ l, P x := by
  intro cs
  induction cs with
  | nil => intro i l _ h; simp [loadNodes] at h; subst h; simp
  | cons c cs ih =>
    intro i l hf h
    simp only [loadNodes] at h
    by_cases hi : i ≥ count
    · simp [hi] at h
    · simp only [hi, ↓reduceIte, Option.bind_eq_bind] at h
      cases h0 : f i c with
      | none => simp [h0] at h
      | some a =>
        cases h1 : loadNodes f count (i + 1) cs with
        | none => simp [h0, h1] at h
        | some b =>
          simp only [h0, h1, Option.bind_some, Option.some.injEq] at h
          subst h
          intro x hx
          rcases List.mem_append.1 hx with hx | hx
          · exact hf i c a (by omega) h0 x hx
          · exact ih (i + 1) b hf h1 x hx

/-- C36, loading: whatever the document is, nothing is stored outside of the elements of
the array. -/
theorem C36_load_in_bounds : ∀ (dims : List Nat) (s addr : Nat) (doc : Doc) (l : List (Nat × Nat)),
    loadArray dims (elements dims * s) addr doc = some l →
    ∀ x ∈ l, ∃ k, k < elements dims ∧ x.1 = addr + k * s := by
  intro dims
  induction dims with
  | nil =>
    intro s addr doc l h x hx
    cases doc with
    | scalar v => simp [loadArray] at h; subst h; simp at hx; subst hx; exact ⟨0, by simp [elements], by simp⟩
    | list c => simp [loadArray] at h
  | cons d ds ih =>
    intro s addr doc l h
    simp only [loadArray] at h
    by_cases hd : d = 0
    · simp only [hd, ↓reduceIte] at h
      split at h
      · simp at h; subst h; simp
      · simp at h
    · simp only [hd, ↓reduceIte] at h
      split at h
      · simp at h
      · have hdiv : elements (d :: ds) * s / d = elements ds * s := by
          show d * elements ds * s / d = _
          rw [Nat.mul_assoc, Nat.mul_div_cancel_left _ (by omega)]
        rw [hdiv] at h
        refine loadNodes_mem _ d _ _ _ l ?_ h
        intro j c l' hj hl x hx
        obtain ⟨k, hk, e⟩ := ih s _ c l' hl x hx
        refine ⟨j * elements ds + k, ?_, ?_⟩
        · show _ < d * elements ds
          have : (j + 1) * elements ds ≤ d * elements ds := Nat.mul_le_mul_right _ hj
          rw [Nat.add_mul] at this
          omega
        · rw [e, Nat.add_mul, Nat.mul_assoc]; omega

/-- A document with more values than the array has elements is rejected. -/
theorem C36_load_too_many (d : Nat) (s addr : Nat) (vs : List Nat) (h : d < vs.length) (hs : 0 < s) :
    loadArray [d] (elements [d] * s) addr (.list (vs.map .scalar)) = none := by
  have : ∀ (size : Nat) (vs : List Nat) (i : Nat), d < i + vs.length → i ≤ d →
      loadNodes (fun i c => loadArray [] size (addr + i * size) c) d i (vs.map .scalar) = none := by
    intro size vs
    induction vs with
    | nil => intro i h1 h2; simp at h1; omega
    | cons v vs ih =>
      intro i h1 h2
      simp only [List.map_cons, loadNodes]
      by_cases hi : i ≥ d
      · simp [hi]
      · simp only [hi, ↓reduceIte, loadArray, Option.bind_eq_bind, Option.bind_some]
        rw [ih (i + 1) (by simp at h1; omega) (by omega)]
        rfl
  simp only [loadArray]
  by_cases hd : d = 0
  · rw [if_pos hd, if_neg]
    cases vs with
    | nil => simp at h
    | cons v vs => simp [Doc.children]
  · rw [if_neg hd]
    split
    · rfl
    · exact this _ vs 0 (by omega) (by omega)

example : saveArray [2, 2] 2 16 100 none = some [(100, 4), (104, 4), (108, 4), (112, 4)] := by decide +kernel

example : loadArray [2, 3] 24 100 (docOf [2, 3] fun k => k + 1) =
    some [(100, 1), (104, 2), (108, 3), (112, 4), (116, 5), (120, 6)] := by
  have := C36_load [2, 3] 4 100 (fun k => k + 1) (by simp) (by omega)
  simpa [elements, List.range_succ] using this

end Verif.Props.Arrays
