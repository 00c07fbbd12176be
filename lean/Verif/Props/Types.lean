import Verif.Lemmas.Types

/-
C34: type registration precedence is deterministic.
-/
namespace Verif.Props.Types
open Verif.Model Verif.Model.Types Verif.Spec.Types Verif.Lemmas.Types

/-! ## The sort -/

/-- C34.  Sorting any finite list of distinct descriptors ends, keeps exactly the
descriptors of known producers, puts smaller producer numbers (macro declarations first)
before larger ones, keeps the order inside one producer, and changes nothing in the
descriptors but the links. -/
theorem C34_sort (h : Heap) (p : Option Nat) (xs : List Nat) (fuel : Nat)
    (hl : Linked h p xs) (hnd : xs.Nodup) (hf : xs.length ≤ fuel) :
    ∃ h' r ys, sortTd fuel h p = some (h', r) ∧ Linked h' r ys ∧
      ys.Perm (xs.filter (fun x => producer h x < 4)) ∧
      ys.Pairwise (fun a b => producer h a ≤ producer h b) ∧
      (∀ k, k < 4 → ys.filter (fun x => producer h x = k) = xs.filter (fun x => producer h x = k)) ∧
      (∀ (t : Nat) (d : Td), h[t]? = some d → ∃ n, h'[t]? = some { d with next := n }) := by
  obtain ⟨h', r, e, hl', hs⟩ := sortTd_linked h p xs fuel hl hnd hf
  refine ⟨h', r, sorted h xs, e, hl', sorted_perm h xs, sorted_pairwise h xs,
    fun k hk => sorted_stable h xs k hk, ?_⟩
  intro t d hd
  obtain ⟨d', e', a, b, c⟩ := hs.2 t d hd
  refine ⟨d'.next, ?_⟩
  rw [e', ← a, ← b, ← c]

/-! ## Registration -/

/-- The descriptors a sequence of `mr_add_type` calls registers: NULL and descriptors
whose type was not detected are skipped. -/
def registered (h : Heap) (ops : List (Option Nat)) : List Nat :=
  ops.filterMap (fun o => o.bind (fun t =>
    if (h[t]?.map Td.typeNone) = some true then none else some t))

theorem registered_same {h h' : Heap} (s : Same h h') (ops : List (Option Nat)) :
    registered h' ops = registered h ops := by
  unfold registered
  congr 1
  funext o
  cases o with
  | none => rfl
  | some t =>
    simp only [Option.bind_some]
    cases e : h[t]? with
    | some d =>
      obtain ⟨d', e', _, b, _⟩ := s.2 t d e
      simp [e', b]
    | none =>
      have : h'[t]? = none := by
        rw [List.getElem?_eq_none_iff] at *; have := s.1; omega
      simp [this]

theorem addAll_linked : ∀ (ops : List (Option Nat)) (h : Heap) (list : Option Nat) (xs : List Nat),
    Linked h list xs → (∀ t, some t ∈ ops → t < h.length) →
    (registered h ops).Nodup → (∀ t ∈ registered h ops, t ∉ xs ∧ Fresh h t) →
    ∃ h' list', addAll h list ops = some (h', list') ∧
      Linked h' list' ((registered h ops).reverse ++ xs) ∧ Same h h' := by
  intro ops
  induction ops with
  | nil => intro h list xs hl _ _ _; exact ⟨h, list, rfl, by simpa [registered] using hl, Same.refl h⟩
  | cons o ops ih =>
    intro h list xs hl hv hnd hfr
    cases o with
    | none =>
      obtain ⟨h', l', e, hl', hs⟩ := ih h list xs hl (fun t ht => hv t (List.mem_cons_of_mem _ ht))
        (by simpa [registered] using hnd) (by simpa [registered] using hfr)
      exact ⟨h', l', by simp [addAll, addType, e], by simpa [registered] using hl', hs⟩
    | some t =>
      have ht : t < h.length := hv t List.mem_cons_self
      obtain ⟨d, hd⟩ : ∃ d, h[t]? = some d := ⟨_, List.getElem?_eq_getElem ht⟩
      by_cases hn : d.typeNone = true
      · have hreg : registered h (some t :: ops) = registered h ops := by
          simp [registered, hd, hn]
        rw [hreg] at hnd hfr ⊢
        obtain ⟨h', l', e, hl', hs⟩ := ih h list xs hl
          (fun t ht => hv t (List.mem_cons_of_mem _ ht)) hnd hfr
        exact ⟨h', l', by simp [addAll, addType, hd, hn, e], hl', hs⟩
      · have hreg : registered h (some t :: ops) = t :: registered h ops := by
          simp [registered, hd, hn]
        rw [hreg] at hnd hfr ⊢
        simp only [List.nodup_cons] at hnd
        obtain ⟨htx, d', hd', hnx, htn⟩ := hfr t List.mem_cons_self
        rw [hd] at hd'; cases hd'
        have hs1 : Same h (h.set t { d with next := list }) := same_set hd
        have hreg1 := registered_same hs1 ops
        obtain ⟨h', l', e, hl', hs⟩ := ih (h.set t { d with next := list }) (some t) (t :: xs)
          ⟨rfl, _, set_self hd, linked_set htx hl⟩
          (fun u hu => by have := hv u (List.mem_cons_of_mem _ hu); simpa using this)
          (by rw [hreg1]; exact hnd.2)
          (by
            rw [hreg1]
            intro u hu
            have hut : t ≠ u := fun e => hnd.1 (e ▸ hu)
            obtain ⟨hux, d, hd', hnx', htn'⟩ := hfr u (List.mem_cons_of_mem _ hu)
            refine ⟨?_, d, ?_, hnx', htn'⟩
            · simp only [List.mem_cons, not_or]; exact ⟨fun e => hut e.symm, hux⟩
            · rw [List.getElem?_set_ne hut]; exact hd')
        refine ⟨h', l', ?_, ?_, hs1.trans hs⟩
        · simp only [addAll, addType, hd, htn, hnx, setNext, Option.bind_eq_bind, Option.bind_some,
            Bool.false_or, Option.isSome_none, Bool.false_eq_true, ↓reduceIte]
          rw [htn] at e
          exact e
        · rw [hreg1] at hl'; simpa using hl'

/-- C34.  Registering distinct, detected descriptors (NULL and undetected ones are
ignored) leaves exactly them in the list, the last registered first, and changes nothing
else in them. -/
theorem C34_register (h : Heap) (ops : List (Option Nat)) (hv : ∀ t, some t ∈ ops → t < h.length)
    (hnd : (registered h ops).Nodup) (hfr : ∀ t ∈ registered h ops, Fresh h t) :
    ∃ h' list, addAll h none ops = some (h', list) ∧ Linked h' list (registered h ops).reverse ∧
      (∀ (t : Nat) (d : Td), h[t]? = some d → ∃ n, h'[t]? = some { d with next := n }) := by
  obtain ⟨h', l', e, hl, hs⟩ := addAll_linked ops h none [] rfl hv hnd
    (fun t ht => ⟨by simp, hfr t ht⟩)
  refine ⟨h', l', e, by simpa using hl, ?_⟩
  intro t d hd
  obtain ⟨d', e', a, b, c⟩ := hs.2 t d hd
  refine ⟨d'.next, ?_⟩
  rw [e', ← a, ← b, ← c]

/-- C34.  Registering again a descriptor that is already in the list, but is not its last
element (the one registered first), has no effect. -/
theorem C34_register_again (h : Heap) (list : Option Nat) (xs : List Nat) (t : Nat)
    (hl : Linked h list xs) (hnd : xs.Nodup) (ht : t ∈ xs) (hlast : xs.getLast? ≠ some t) :
    addType h list (some t) = some (h, list) := by
  have key : ∀ (xs : List Nat) (p : Option Nat), Linked h p xs → t ∈ xs → xs.getLast? ≠ some t →
      ∃ d, h[t]? = some d ∧ d.next.isSome = true := by
    intro xs
    induction xs with
    | nil => intro p _ ht; simp at ht
    | cons x xs ih =>
      intro p hp ht hla
      obtain ⟨_, d, hd, hr⟩ := hp
      cases xs with
      | nil =>
        simp only [List.mem_cons, List.not_mem_nil, or_false] at ht
        subst ht; simp at hla
      | cons y ys =>
        rcases List.mem_cons.1 ht with rfl | ht
        · obtain ⟨hy, _⟩ := hr
          exact ⟨d, hd, by rw [hy]; rfl⟩
        · exact ih d.next hr ht (by simpa using hla)
  obtain ⟨d, hd, hn⟩ := key xs list hl ht hlast
  simp [addType, hd, hn]

/-! ## The table of types by name -/

/-- Key under which a descriptor is stored. -/
def key (h : Heap) (t : Nat) : Option (List Nat) := h[t]?.map (fun d => skipKeywords d.name)

theorem skipOne_hit (kw n : List Nat) : skipOne kw (kw ++ [32] ++ n) = n := by
  unfold skipOne
  have : (kw ++ [32]).isPrefixOf (kw ++ [32] ++ n) = true := by
    rw [List.isPrefixOf_iff_prefix]; exact List.prefix_append _ _
  rw [if_pos this]
  rw [List.drop_left' (by simp)]

theorem skipOne_miss (kw n : List Nat) (h : ¬ (kw ++ [32]) <+: n) : skipOne kw n = n := by
  unfold skipOne
  rw [if_neg]
  rw [List.isPrefixOf_iff_prefix]; exact h

theorem prefix_first {a b : Nat} {l m n : List Nat} (h : (a :: l) <+: (b :: m) ++ n) : a = b := by
  obtain ⟨t, ht⟩ := h
  simp only [List.cons_append, List.cons.injEq] at ht
  exact ht.1

/-- A text that names the type `n` is stored under `n`. -/
theorem skip_names {s n : List Nat} (h : Names s n) : skipKeywords s = n := by
  obtain ⟨⟨h1, h2, h3⟩, h⟩ := h
  have es : structKw = [115, 116, 114, 117, 99, 116] ++ [32] := by decide +kernel
  have eu : unionKw = [117, 110, 105, 111, 110] ++ [32] := by decide +kernel
  have ee : enumKw = [101, 110, 117, 109] ++ [32] := by decide +kernel
  rw [es] at h1
  rw [eu] at h2
  rw [ee] at h3
  have m1 : skipOne [115, 116, 114, 117, 99, 116] n = n := skipOne_miss _ _ h1
  have m2 : skipOne [117, 110, 105, 111, 110] n = n := skipOne_miss _ _ h2
  have m3 : skipOne [101, 110, 117, 109] n = n := skipOne_miss _ _ h3
  unfold skipKeywords
  rcases h with rfl | rfl | rfl | rfl
  · rw [m1, m2, m3]
  · rw [es, skipOne_hit, m2, m3]
  · rw [eu, skipOne_miss [115, 116, 114, 117, 99, 116], skipOne_hit, m3]
    intro hp
    have := prefix_first hp
    omega
  · rw [ee, skipOne_miss [115, 116, 114, 117, 99, 116], skipOne_miss [117, 110, 105, 111, 110],
      skipOne_hit]
    · intro hp
      have := prefix_first hp
      omega
    · intro hp
      have := prefix_first hp
      omega

theorem lookup_congr {h h' : Heap} {table : List Nat}
    (hh : ∀ t ∈ table, (h'[t]?.map Td.name) = (h[t]?.map Td.name)) (n : List Nat) :
    lookup h' table n = lookup h table n := by
  unfold lookup
  induction table with
  | nil => rfl
  | cons x xs ih =>
    have hx := hh x List.mem_cons_self
    rw [List.find?_cons, List.find?_cons, ih (fun t ht => hh t (List.mem_cons_of_mem _ ht))]
    congr 1
    cases e : h[x]? <;> cases e' : h'[x]? <;> simp [e, e'] at hx ⊢
    rw [hx]

theorem lookup_append (h : Heap) (table : List Nat) (t : Nat) (d : Td) (hd : h[t]? = some d)
    (n : List Nat) :
    lookup h (table ++ [t]) n = (lookup h table n).or (if d.name = n then some t else none) := by
  unfold lookup
  rw [List.find?_append]
  congr 1
  by_cases e : d.name = n <;> simp [List.find?_cons, hd, e]

theorem fill_lookup (h0 : Heap) : ∀ (ys zs : List Nat) (fuel : Nat) (h : Heap) (p : Option Nat)
    (table : List Nat),
    Linked h p ys → (zs ++ ys).Nodup → ys.length ≤ fuel →
    h.length = h0.length →
    (∀ t, t ∉ zs → h[t]?.map Td.name = h0[t]?.map Td.name) →
    (∀ n, lookup h table n = zs.find? (fun t => key h0 t == some n)) →
    (∀ t ∈ table, t ∈ zs) →
    ∃ h' table', fill fuel h p table = some (h', table') ∧
      ∀ n, lookup h' table' n = (zs ++ ys).find? (fun t => key h0 t == some n) := by
  intro ys
  induction ys with
  | nil =>
    intro zs fuel h p table hp _ _ _ _ hlk _
    simp only [Linked] at hp
    subst hp
    exact ⟨h, table, by cases fuel <;> rfl, by simpa using hlk⟩
  | cons y ys ih =>
    intro zs fuel h p table hp hnd hf hlen hname hlk hsub
    obtain ⟨rfl, d, hd, hr⟩ := hp
    cases fuel with
    | zero => simp at hf
    | succ fuel =>
      have hyz : y ∉ zs := by
        intro hy
        rw [List.nodup_append] at hnd
        exact hnd.2.2 y hy y List.mem_cons_self rfl
      have hyy : y ∉ ys := by
        rw [List.nodup_append] at hnd
        exact (List.nodup_cons.1 hnd.2.1).1
      obtain ⟨d0, hd0⟩ : ∃ d0, h0[y]? = some d0 :=
        ⟨_, List.getElem?_eq_getElem (by have := (List.getElem?_eq_some_iff.1 hd).1; omega)⟩
      have hdn : d.name = d0.name := by
        have := hname y hyz
        simpa [hd, hd0] using this
      have hkey : key h0 y = some (skipKeywords d.name) := by simp [key, hd0, hdn]
      generalize hd' : ({ d with name := skipKeywords d.name } : Td) = d'
      have hd'n : d'.name = skipKeywords d.name := by rw [← hd']
      have hd'x : d'.next = d.next := by rw [← hd']
      have hget : (h.set y d')[y]? = some d' := set_self hd
      have hlk' : ∀ n, lookup (h.set y d') table n =
          zs.find? (fun t => key h0 t == some n) := by
        intro n
        rw [← hlk n]
        apply lookup_congr
        intro t ht
        have : y ≠ t := fun e => hyz (e ▸ hsub t ht)
        rw [List.getElem?_set_ne this]
      have hlinked : Linked (h.set y d') d'.next ys := by
        rw [hd'x]; exact linked_set hyy hr
      have hassoc : zs ++ y :: ys = (zs ++ [y]) ++ ys := by simp
      have hnames : ∀ t, t ∉ zs ++ [y] → (h.set y d')[t]?.map Td.name = h0[t]?.map Td.name := by
        intro t ht
        simp only [List.mem_append, List.mem_cons, List.not_mem_nil, or_false, not_or] at ht
        rw [List.getElem?_set_ne (fun e => ht.2 e.symm)]
        exact hname t ht.1
      have hfind : ∀ n, (zs ++ [y]).find? (fun t => key h0 t == some n) =
          (zs.find? (fun t => key h0 t == some n)).or (if d'.name = n then some y else none) := by
        intro n
        rw [List.find?_append]
        congr 1
        by_cases e : d'.name = n
        · simp [List.find?_cons, hkey, ← hd'n, e]
        · simp [List.find?_cons, hkey, ← hd'n, e]
      cases hl : lookup (h.set y d') table d'.name with
      | some z =>
        obtain ⟨h', table', e, hall⟩ := ih (zs ++ [y]) fuel (h.set y d') d'.next table hlinked
          (by rw [← hassoc]; exact hnd) (by simpa using hf) (by simpa using hlen) hnames
          (by
            intro n
            rw [hlk' n, hfind n]
            by_cases e : d'.name = n
            · subst e
              rw [← hlk' d'.name, hl]; rfl
            · simp [e])
          (fun t ht => List.mem_append.2 (Or.inl (hsub t ht)))
        refine ⟨h', table', ?_, fun n => by rw [hassoc]; exact hall n⟩
        rw [hd'n] at hl
        rw [hd'x] at e
        simp only [fill, hd, Option.bind_eq_bind, Option.bind_some, hd', hl]
        exact e
      | none =>
        obtain ⟨h', table', e, hall⟩ := ih (zs ++ [y]) fuel (h.set y d') d'.next (table ++ [y])
          hlinked
          (by rw [← hassoc]; exact hnd) (by simpa using hf) (by simpa using hlen) hnames
          (by
            intro n
            rw [lookup_append _ _ _ d' hget, hlk' n, hfind n])
          (by
            intro t ht
            rcases List.mem_append.1 ht with ht | ht
            · exact List.mem_append.2 (Or.inl (hsub t ht))
            · exact List.mem_append.2 (Or.inr ht))
        refine ⟨h', table', ?_, fun n => by rw [hassoc]; exact hall n⟩
        rw [hd'n] at hl
        rw [hd'x] at e
        simp only [fill, hd, Option.bind_eq_bind, Option.bind_some, hd', hl]
        exact e

theorem split_unique {t : Nat} : ∀ {A C B D : List Nat}, A ++ t :: B = C ++ t :: D →
    t ∉ A → t ∉ C → A = C := by
  intro A
  induction A with
  | nil =>
    intro C B D h _ hC
    cases C with
    | nil => rfl
    | cons c C =>
      simp only [List.nil_append, List.cons_append, List.cons.injEq] at h
      exact absurd (h.1 ▸ List.mem_cons_self) hC
  | cons a A ih =>
    intro C B D h hA hC
    cases C with
    | nil =>
      simp only [List.nil_append, List.cons_append, List.cons.injEq] at h
      exact absurd (h.1 ▸ List.mem_cons_self) hA
    | cons c C =>
      simp only [List.cons_append, List.cons.injEq] at h
      simp only [List.mem_cons, not_or] at hA hC
      rw [h.1, ih h.2 hA.2 hC.2]

/-- C34.  Registration followed by the initialisation of the library: whatever the order
in which distinct descriptors are registered, initialisation ends, and looking up a type
by its name gives the descriptor declared for it by the producer of the highest priority
and, among descriptors of the same producer, the one registered last; a name nobody
declared is not found. -/
theorem C34_lookup (h : Heap) (ts : List Nat) (fuel : Nat) (hnd : ts.Nodup)
    (hfr : ∀ t ∈ ts, Fresh h t) (hpr : ∀ t ∈ ts, producer h t < 4)
    (hnm : ∀ t ∈ ts, ∃ n, DeclaredFor h t n) (hf : ts.length ≤ fuel) :
    ∃ h' table, confInit fuel h (ts.map some) = some (h', table) ∧
      ∀ n, Plain n →
        ((∀ t ∈ ts, ¬ DeclaredFor h t n) → lookup h' table n = none) ∧
        (∀ t, lookup h' table n = some t → DeclaredFor h t n ∧
          ∃ before after, ts = before ++ t :: after ∧
            (∀ u ∈ before, DeclaredFor h u n → producer h t ≤ producer h u) ∧
            (∀ u ∈ after, DeclaredFor h u n → producer h t < producer h u)) ∧
        ((∃ t ∈ ts, DeclaredFor h t n) → ∃ t, lookup h' table n = some t) := by
  have hreg : registered h (ts.map some) = ts := by
    unfold registered
    have go : ∀ us : List Nat, (∀ t ∈ us, Fresh h t) →
        (us.map some).filterMap (fun o => o.bind (fun t =>
          if (h[t]?.map Td.typeNone) = some true then none else some t)) = us := by
      intro us
      induction us with
      | nil => intro _; rfl
      | cons u us ih =>
        intro hu
        obtain ⟨d, hd, _, hn⟩ := hu u List.mem_cons_self
        rw [List.map_cons, List.filterMap_cons]
        simp only [Option.bind_some, hd, Option.map_some, hn]
        rw [if_neg (by simp)]
        simp only [ih (fun t ht => hu t (List.mem_cons_of_mem _ ht))]
    exact go ts hfr
  obtain ⟨h1, l1, e1, hl1, hs1⟩ := addAll_linked (ts.map some) h none [] rfl
    (by
      intro t ht
      simp only [List.mem_map, Option.some.injEq, exists_eq_right] at ht
      obtain ⟨d, hd, _⟩ := hfr t ht
      exact (List.getElem?_eq_some_iff.1 hd).1)
    (by rw [hreg]; exact hnd)
    (by rw [hreg]; exact fun t ht => ⟨by simp, hfr t ht⟩)
  rw [hreg, List.append_nil] at hl1
  have hndr : ts.reverse.Nodup := (List.reverse_perm ts).nodup_iff.2 hnd
  obtain ⟨h2, r2, e2, hl2, hs2⟩ := sortTd_linked h1 l1 ts.reverse fuel hl1 hndr (by simpa using hf)
  have hs := hs1.trans hs2
  have hsort : sorted h1 ts.reverse = sorted h ts.reverse := by
    simp only [sorted, hs1.producer]
  rw [hsort] at hl2
  have hperm := sorted_perm h ts.reverse
  have hall : ts.reverse.filter (fun x => producer h x < 4) = ts.reverse := by
    rw [List.filter_eq_self]
    intro t ht
    simpa using hpr t (by simpa using ht)
  rw [hall] at hperm
  have hmem : ∀ t, t ∈ sorted h ts.reverse ↔ t ∈ ts := by
    intro t
    rw [hperm.mem_iff]; simp
  obtain ⟨h3, table, e3, hlk⟩ := fill_lookup h2 (sorted h ts.reverse) [] fuel h2 r2 [] hl2
    (by simpa using sorted_nodup h hndr)
    (by have := hperm.length_eq; simp at this; omega)
    rfl (fun _ _ => rfl) (fun _ => rfl) (by simp)
  simp only [List.nil_append] at hlk
  have hkey : ∀ t ∈ ts, ∀ n, Plain n → (key h2 t = some n ↔ DeclaredFor h t n) := by
    intro t ht n _
    obtain ⟨d, hd, _, _⟩ := hfr t ht
    obtain ⟨d2, hd2, _, _, hn2⟩ := hs.2 t d hd
    have hk : key h2 t = some (skipKeywords d.name) := by simp [key, hd2, hn2]
    rw [hk]
    constructor
    · intro e
      obtain ⟨m, d', hd', hm⟩ := hnm t ht
      rw [hd] at hd'; cases hd'
      rw [skip_names hm] at e
      cases e
      exact ⟨d, hd, hm⟩
    · rintro ⟨d', hd', hm⟩
      rw [hd] at hd'; cases hd'
      rw [skip_names hm]
  refine ⟨h3, table, ?_, ?_⟩
  · simp [confInit, e1, e2, e3]
  · intro n hn
    rw [hlk n]
    refine ⟨?_, ?_, ?_⟩
    · intro hno
      rw [List.find?_eq_none]
      intro t ht he
      rw [hmem] at ht
      have he' : key h2 t = some n := by simpa using he
      exact hno t ht ((hkey t ht n hn).1 he')
    · intro t ht
      rw [List.find?_eq_some_iff_append] at ht
      obtain ⟨hk, A, B, hAB, hA⟩ := ht
      have hk' : key h2 t = some n := by simpa using hk
      have htm : t ∈ ts := by
        rw [← hmem, hAB]; simp
      refine ⟨(hkey t htm n hn).1 hk', ?_⟩
      obtain ⟨before, after, hts⟩ := List.append_of_mem htm
      refine ⟨before, after, hts, ?_, ?_⟩
      · -- smallest producer
        intro u hu hdecl
        have hum : u ∈ ts := by rw [hts]; simp [hu]
        have hus : u ∈ A ++ t :: B := by rw [← hAB, hmem]; exact hum
        have hpw := sorted_pairwise h ts.reverse
        rw [hAB] at hpw
        rcases List.mem_append.1 hus with hu' | hu'
        · have := hA u hu'
          have hk2 := (hkey u hum n hn).2 hdecl
          simp [hk2] at this
        · rcases List.mem_cons.1 hu' with rfl | hu'
          · exact Nat.le_refl _
          · rw [List.pairwise_append] at hpw
            exact (List.pairwise_cons.1 hpw.2.1).1 u hu'
      · intro u hu hdecl
        have hum : u ∈ ts := by rw [hts]; simp [hu]
        have hus : u ∈ A ++ t :: B := by rw [← hAB, hmem]; exact hum
        have hpw := sorted_pairwise h ts.reverse
        rw [hAB] at hpw
        have hnA : u ∉ A := by
          intro hu'
          have := hA u hu'
          have hk2 := (hkey u hum n hn).2 hdecl
          simp [hk2] at this
        have hut : t ≠ u := by
          intro e
          subst e
          rw [hts, List.nodup_append] at hnd
          exact (List.nodup_cons.1 hnd.2.1).1 hu
        have huB : u ∈ B := by
          rcases List.mem_append.1 hus with hu' | hu'
          · exact absurd hu' hnA
          · rcases List.mem_cons.1 hu' with rfl | hu'
            · exact absurd rfl hut
            · exact hu'
        have hle : producer h t ≤ producer h u := by
          rw [List.pairwise_append] at hpw
          exact (List.pairwise_cons.1 hpw.2.1).1 u huB
        apply Nat.lt_of_le_of_ne hle
        intro he
        have hst := sorted_stable h ts.reverse (producer h t) (hpr t htm)
        rw [hAB, hts] at hst
        simp only [List.filter_append, List.filter_cons, decide_true, ↓reduceIte,
          List.reverse_append, List.reverse_cons, List.append_assoc, List.cons_append,
          List.nil_append, List.filter_nil] at hst
        have hndA : t ∉ A := by
          have := sorted_nodup h hndr
          rw [hAB, List.nodup_append] at this
          intro hh
          exact this.2.2 t hh t List.mem_cons_self rfl
        have htaft : t ∉ after := by
          rw [hts, List.nodup_append] at hnd
          exact (List.nodup_cons.1 hnd.2.1).1
        have := split_unique hst (fun hh => hndA ((List.mem_filter.1 hh).1))
          (fun hh => htaft (by simpa using (List.mem_filter.1 hh).1))
        apply hnA
        have hin : u ∈ after.reverse.filter (fun x => producer h x = producer h t) := by
          simp [List.mem_filter, hu, he]
        rw [← this] at hin
        exact (List.mem_filter.1 hin).1
    · rintro ⟨t, ht, hdecl⟩
      have : ((sorted h ts.reverse).find? (fun t => key h2 t == some n)).isSome = true := by
        rw [List.find?_isSome]
        exact ⟨t, (hmem t).2 ht, by simp [(hkey t ht n hn).2 hdecl]⟩
      exact Option.isSome_iff_exists.1 this

/-! ## Deviations -/

/-- Deviation: registering twice in a row the very first type makes the list cyclic, and
the initialisation of the library never ends. -/
theorem C34_deviation_register_first_twice (h : Heap) (t : Nat) (ht : Fresh h t) :
    ∃ h', addAll h none [some t, some t] = some (h', some t) ∧
      (∃ d, h'[t]? = some d ∧ d.next = some t) := by
  obtain ⟨d, hd, hn, hty⟩ := ht
  refine ⟨(h.set t { d with next := none }).set t { d with next := some t }, ?_, ?_⟩
  · have hlt := (List.getElem?_eq_some_iff.1 hd).1
    have hg : (h.set t { d with next := none })[t]? = some { d with next := none } := set_self hd
    rw [hty] at hg ⊢
    simp only [addAll, addType, hd, hn, hty, setNext, Option.bind_eq_bind, Option.bind_some,
      Bool.false_or, Option.isSome_none, Bool.false_eq_true, ↓reduceIte, hg]
  · refine ⟨{ d with next := some t }, ?_, rfl⟩
    have hlt := (List.getElem?_eq_some_iff.1 hd).1
    rw [List.getElem?_set_self (by simpa using hlt)]

/-- Descriptor list used in the examples: two declarations of "foo" by macro, one by
DWARF written "struct foo", one DWARF declaration of "bar". -/
def demo : Heap :=
  [{ next := none, producer := 0, typeNone := false, name := [102, 111, 111] },
   { next := none, producer := 1, typeNone := false, name := structKw ++ [102, 111, 111] },
   { next := none, producer := 0, typeNone := false, name := [102, 111, 111] },
   { next := none, producer := 1, typeNone := false, name := [98, 97, 114] }]

theorem fill_cycle (t : Nat) : ∀ (fuel : Nat) (h : Heap) (table : List Nat),
    (∃ d, h[t]? = some d ∧ d.next = some t) → fill fuel h (some t) table = none := by
  intro fuel
  induction fuel with
  | zero => intros; rfl
  | succ fuel ih =>
    intro h table hc
    obtain ⟨d, hd, hn⟩ := hc
    simp only [fill, hd, Option.bind_eq_bind, Option.bind_some]
    generalize hd' : ({ d with name := skipKeywords d.name } : Td) = d'
    have hset : ∃ d'', (h.set t d')[t]? = some d'' ∧ d''.next = some t :=
      ⟨_, set_self hd, by rw [← hd']; exact hn⟩
    rw [hn]
    split
    · exact ih _ _ hset
    · exact ih _ _ hset

/-- With the list made cyclic the initialisation of the library does not end: no number of
iterations is enough. -/
theorem C34_deviation_cycle (fuel : Nat) : confInit fuel demo [some 0, some 0] = none := by
  have e : addAll demo none [some 0, some 0] =
      some (demo.set 0 ⟨some 0, 0, false, [102, 111, 111]⟩, some 0) := by decide +kernel
  simp only [confInit, e, Option.bind_eq_bind, Option.bind_some]
  match fuel with
  | 0 => rfl
  | 1 => rfl
  | n + 2 =>
    have e2 : sortTd (n + 2) (demo.set 0 ⟨some 0, 0, false, [102, 111, 111]⟩) (some 0) =
        some (demo.set 0 ⟨some 0, 0, false, [102, 111, 111]⟩, some 0) := by
      have dn : ∀ h b, distribute n h none b = some (h, b) := by intro h b; cases n <;> rfl
      have cn : ∀ f h r, collect f h none r = some (h, r) := by intro f h r; cases f <;> rfl
      simp [sortTd, distribute, collectAll, collect, demo, setNext, wr, tdpLast, dn, cn,
        List.replicate]
    rw [e2]
    simp only [Option.bind_some]
    exact fill_cycle 0 _ _ _ ⟨_, rfl, rfl⟩

/-- Non-vacuity: the hypotheses of `C34_lookup` hold of the demo heap. -/
example : (∀ t ∈ [0, 1, 2, 3], Fresh demo t) ∧ (∀ t ∈ [0, 1, 2, 3], producer demo t < 4) ∧
    DeclaredFor demo 1 [102, 111, 111] ∧ Plain [98, 97, 114] := by
  refine ⟨?_, ?_, ?_, ?_⟩
  · intro t ht
    simp only [List.mem_cons, List.not_mem_nil, or_false] at ht
    rcases ht with rfl | rfl | rfl | rfl <;> exact ⟨_, rfl, rfl, rfl⟩
  · decide +kernel
  · refine ⟨_, rfl, ⟨?_, ?_, ?_⟩, Or.inr (Or.inl rfl)⟩ <;> decide +kernel
  · refine ⟨?_, ?_, ?_⟩ <;> decide +kernel

end Verif.Props.Types
