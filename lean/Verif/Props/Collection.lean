import Verif.Lemmas.Ic
import Verif.Lemmas.BasicCmp
/-!
# C12–C17, C21, C44, C47: indexed collections

The reference collection is `Verif.Spec.Collection`.  `cmp` is any comparator, `hash` any function
that gives equal keys equal values (not used by the array kinds).  `icRun … = some _` includes: no
access outside the storage, no endless loop.
The bound 2^29 keeps the 32-bit size computation of the hash table from wrapping.
-/
namespace Verif.Props.Collection
open Verif.Model Verif.Model.Ic Verif.Spec

/-- The collection of kind `kind`, loaded with the array `keys` by `mr_ic_index` and then used by the
calls `ops`, answers every call like the reference set; `foreach` visits exactly the stored keys and
`items_count` is their number.  Exceptions: an unsorted array loaded with equal keys visits them all; the
count of a tree that never held a key is wrong after a `del` (`C16_del_on_empty_tree_miscounts`). -/
def SetContract (cmp : Cmp) (hash : Key → Nat) (kind : Kind) (keys : List Key) (ops : List (Op Key)) :
    Prop :=
  ∃ ic₀ ic, icIndex cmp hash (icNew kind) keys (true, true) = some (ic₀, true) ∧
    icRun cmp hash ic₀ (ops.map fun op => (op, true, true)) =
      some (ic, (refRun cmp (refIndex cmp keys) ops).2) ∧
    ((kind = .unsorted → Distinct cmp keys) →
      (icForeach ic).Perm (refRun cmp (refIndex cmp keys) ops).1 ∧
      ((kind = .rb ∨ kind = .avl → keys ≠ [] ∨ (∃ k, .add k ∈ ops) ∨ ∀ k, .del k ∉ ops) →
        icCount ic = (refRun cmp (refIndex cmp keys) ops).1.length))

theorem contract (cmp : Cmp) (hash : Key → Nat) (kind : Kind) (hcmp : Comparator cmp)
    (hhash : ∀ x y, cmp x y = 0 → hash x = hash y) (keys : List Key)
    (hzero : kind = .hash → keys.Pairwise fun x y => (x = 0 ∨ y = 0) → cmp x y ≠ 0)
    (ops : List (Op Key)) (hlen : keys.length + ops.length + 3 < 2 ^ 29) :
    SetContract cmp hash kind keys ops := by
  obtain ⟨ic₀, st, h1, h2⟩ := Lemmas.Ic.index_ok hcmp hhash kind keys (keys.length + 3) (by omega)
    (by omega) hzero (true, true)
  rcases h2 with ⟨rfl, h3, h4, h5⟩ | ⟨_, h3⟩
  · obtain ⟨ic, g1, g2, g3⟩ := Lemmas.Ic.run_ok hcmp hhash ops (keys.length + 3) _ ic₀
      (Lemmas.Ic.refIndex_distinct hcmp keys) (by omega) (by omega) h3 h4
    exact ⟨ic₀, ic, h1, g1, fun hd => ⟨(g3 (h5 hd)).1, fun hk => (g3 (h5 hd)).2
      (Lemmas.Ic.contract_not_wrapped hcmp kind keys ops hlen h1 g1 hk)⟩⟩
  · cases h3

/-- **C12** The unsorted array behaves as a set.  `foreach` and the item count are exact unless the
array it was loaded with held equal keys. -/
theorem C12_unsorted_array_is_a_set (cmp : Cmp) (hcmp : Comparator cmp) (keys : List Key)
    (ops : List (Op Key)) (hlen : keys.length + ops.length + 3 < 2 ^ 29) :
    SetContract cmp (fun _ => 0) .unsorted keys ops :=
  contract cmp _ _ hcmp (fun _ _ _ => rfl) keys (fun h => by cases h) ops hlen

/-- **C13** The sorted array behaves as a set. -/
theorem C13_sorted_array_is_a_set (cmp : Cmp) (hcmp : Comparator cmp) (keys : List Key)
    (ops : List (Op Key)) (hlen : keys.length + ops.length + 3 < 2 ^ 29) :
    SetContract cmp (fun _ => 0) .sorted keys ops :=
  contract cmp _ _ hcmp (fun _ _ _ => rfl) keys (fun h => by cases h) ops hlen

/-- **C13** Iteration over a sorted array is strictly increasing after every history, even when the
allocator refuses some requests. -/
theorem C13_iteration_increasing (cmp : Cmp) (hcmp : Comparator cmp) (keys : List Key)
    (m : Bool × Bool) (ops : List (Op Key × Bool × Bool)) (ic₀ ic : Ic) (rs : List (Res Key))
    (hlen : keys.length + ops.length + 3 < 2 ^ 29)
    (hindex : icIndex cmp (fun _ => 0) (icNew .sorted) keys m = some (ic₀, true))
    (hrun : icRun cmp (fun _ => 0) ic₀ ops = some (ic, rs)) :
    (icForeach ic).Pairwise fun x y => cmp x y < 0 := by
  obtain ⟨ic₁, st, h1, h2⟩ := Lemmas.Ic.index_ok (hash := fun _ => 0) hcmp (fun _ _ _ => rfl) .sorted keys
    (keys.length + 3) (by omega) (by omega) (fun h => by cases h) m
  rw [hindex] at h1
  simp only [Option.some.injEq, Prod.mk.injEq] at h1
  obtain ⟨rfl, rfl⟩ := h1
  rcases h2 with ⟨_, h3, h4, _⟩ | ⟨h, _⟩
  · have hk : ∃ a, ic₀ = .sorted a := by
      simp only [icIndex, icNew, Option.bind_eq_bind, Option.bind_eq_some_iff] at hindex
      obtain ⟨x, _, hx⟩ := hindex
      simp only [Option.some.injEq, Prod.mk.injEq] at hx
      exact ⟨_, hx.1.symm⟩
    obtain ⟨a, rfl⟩ := hk
    obtain ⟨a', rfl⟩ := Lemmas.Ic.run_sorted ops a ic rs hrun
    obtain ⟨ic', rs', s', g1, _, _, g4, _⟩ := Lemmas.Ic.run_any_memory hcmp (fun _ _ _ => rfl) ops
      (keys.length + 3) _ _ (Lemmas.Ic.refIndex_distinct hcmp keys) (by omega) (by omega) h3 h4
    rw [hrun] at g1
    simp only [Option.some.injEq, Prod.mk.injEq] at g1
    obtain ⟨rfl, rfl⟩ := g1
    exact g4.1.strict
  · cases h

/-- **C14** The small static array behaves as a set before, at and after its conversion. -/
theorem C14_static_array_is_a_set (cmp : Cmp) (hcmp : Comparator cmp) (keys : List Key)
    (ops : List (Op Key)) (hlen : keys.length + ops.length + 3 < 2 ^ 29) :
    SetContract cmp (fun _ => 0) .static keys ops :=
  contract cmp _ _ hcmp (fun _ _ _ => rfl) keys (fun h => by cases h) ops hlen

/-- **C15** The hash table behaves as a set whatever the hash values.  In the array it is loaded with,
no other key may equal the zero key (see `C15_bulk_zero_key_counted_twice`). -/
theorem C15_hash_is_a_set (cmp : Cmp) (hash : Key → Nat) (hcmp : Comparator cmp)
    (hhash : ∀ x y, cmp x y = 0 → hash x = hash y) (keys : List Key)
    (hzero : keys.Pairwise fun x y => (x = 0 ∨ y = 0) → cmp x y ≠ 0)
    (ops : List (Op Key)) (hlen : keys.length + ops.length + 3 < 2 ^ 29) :
    SetContract cmp hash .hash keys ops :=
  contract cmp hash _ hcmp hhash keys (fun _ => hzero) ops hlen

/-- **C16** The red-black tree behaves as a set. -/
theorem C16_rbtree_is_a_set (cmp : Cmp) (hcmp : Comparator cmp) (keys : List Key)
    (ops : List (Op Key)) (hlen : keys.length + ops.length + 3 < 2 ^ 29) :
    SetContract cmp (fun _ => 0) .rb keys ops :=
  contract cmp _ _ hcmp (fun _ _ _ => rfl) keys (fun h => by cases h) ops hlen

/-- **C17** The AVL tree behaves as a set. -/
theorem C17_avltree_is_a_set (cmp : Cmp) (hcmp : Comparator cmp) (keys : List Key)
    (ops : List (Op Key)) (hlen : keys.length + ops.length + 3 < 2 ^ 29) :
    SetContract cmp (fun _ => 0) .avl keys ops :=
  contract cmp _ _ hcmp (fun _ _ _ => rfl) keys (fun h => by cases h) ops hlen

/-- **C21** All kinds give the same answers, store the same keys and report the same count for the same
history, starting empty (the count: unless the history deletes without ever adding). -/
theorem C21_kinds_interchangeable (cmp : Cmp) (hash : Key → Nat) (hcmp : Comparator cmp)
    (hhash : ∀ x y, cmp x y = 0 → hash x = hash y) (k₁ k₂ : Kind) (ops : List (Op Key))
    (hlen : ops.length + 3 < 2 ^ 29) :
    ∃ ic₁ ic₂ rs, icRun cmp hash (icNew k₁) (ops.map fun op => (op, true, true)) = some (ic₁, rs) ∧
      icRun cmp hash (icNew k₂) (ops.map fun op => (op, true, true)) = some (ic₂, rs) ∧
      (icForeach ic₁).Perm (icForeach ic₂) ∧
      ((∃ k, .add k ∈ ops) ∨ (∀ k, .del k ∉ ops) → icCount ic₁ = icCount ic₂) := by
  obtain ⟨a1, a2, a3⟩ := Lemmas.Ic.new_ok (cmp := cmp) (hash := hash) k₁ 3
  obtain ⟨b1, b2, b3⟩ := Lemmas.Ic.new_ok (cmp := cmp) (hash := hash) k₂ 3
  obtain ⟨ic₁, g1, _, g3⟩ := Lemmas.Ic.run_ok hcmp hhash ops 3 [] _ List.Pairwise.nil (by omega)
    (by omega) a1 a2
  obtain ⟨ic₂, f1, _, f3⟩ := Lemmas.Ic.run_ok hcmp hhash ops 3 [] _ List.Pairwise.nil (by omega)
    (by omega) b1 b2
  refine ⟨ic₁, ic₂, _, g1, f1, ?_, ?_⟩
  · exact (g3 a3).1.trans (f3 b3).1.symm
  · intro h
    exact ((g3 a3).2 (Lemmas.Ic.new_not_wrapped hcmp k₁ ops hlen g1 h)).trans
      ((f3 b3).2 (Lemmas.Ic.new_not_wrapped hcmp k₂ ops hlen f1 h)).symm

/-- **C47** When the allocator may refuse any request, every call either does what the reference set
does, or is an add returning NULL or a del returning failure that leaves the set as it was; no call
reads or writes outside the storage, and the collection keeps working. -/
theorem C47_survives_memory_failure (cmp : Cmp) (hash : Key → Nat) (hcmp : Comparator cmp)
    (hhash : ∀ x y, cmp x y = 0 → hash x = hash y) (kind : Kind)
    (ops : List (Op Key × Bool × Bool)) (hlen : ops.length + 4 < 2 ^ 29) :
    ∃ ic rs s, icRun cmp hash (icNew kind) ops = some (ic, rs) ∧
      Allowed cmp [] (ops.map (·.1)) rs s ∧
      ∀ k, icFind cmp hash ic k = some (lookup cmp s k) := by
  obtain ⟨a1, a2, a3⟩ := Lemmas.Ic.new_ok (cmp := cmp) (hash := hash) kind (3 + ops.length)
  obtain ⟨a1', a2', _⟩ := Lemmas.Ic.new_ok (cmp := cmp) (hash := hash) kind 3
  obtain ⟨ic, rs, s, g1, g2, g3, g4, g5⟩ := Lemmas.Ic.run_any_memory hcmp hhash ops 3 [] _
    List.Pairwise.nil (by omega) (by omega) a1' a2'
  refine ⟨ic, rs, s, g1, g2, ?_⟩
  intro k
  obtain ⟨ic', r, h1, _, h3⟩ := Lemmas.Ic.step_ok hcmp hhash g3 (by omega) (by omega) g4 g5 (true, true) (.find k)
  simp only [icStep, Option.bind_eq_bind, Option.bind_eq_some_iff] at h1
  obtain ⟨v, h1, h2⟩ := h1
  simp only [Option.some.injEq, Prod.mk.injEq] at h2
  rcases h3 with ⟨h3, _⟩ | ⟨h3, _⟩
  · rw [h1]
    rw [h3, ← h2.1] at h2
    exact congrArg some (Res.key.inj h2.2)
  · exact absurd rfl h3

/-- **C44** After every history, even with refused allocations, a hash table has a free slot among the
probed ones, or no table at all. -/
theorem C44_hash_has_free_slot (cmp : Cmp) (hash : Key → Nat) (hcmp : Comparator cmp)
    (hhash : ∀ x y, cmp x y = 0 → hash x = hash y) (ops : List (Op Key × Bool × Bool))
    (hlen : ops.length + 3 < 2 ^ 29) (ic : Ic) (rs : List (Res Key))
    (hrun : icRun cmp hash (icNew .hash) ops = some (ic, rs)) :
    ∃ h, ic = .hash h ∧ (h.table = [] ∨ ∃ e, e < h.table.length - 1 ∧ h.table[e]? = some 0) := by
  obtain ⟨h, rfl⟩ := Lemmas.Ic.run_hash ops hashNew ic rs hrun
  refine ⟨h, rfl, ?_⟩
  obtain ⟨a1, a2, _⟩ := Lemmas.Ic.new_ok (cmp := cmp) (hash := hash) .hash 3
  obtain ⟨ic', rs', s', g1, _, _, g4, _⟩ := Lemmas.Ic.run_any_memory hcmp hhash ops 3 [] _
    List.Pairwise.nil (by omega) (by omega) a1 a2
  rw [hrun] at g1
  simp only [Option.some.injEq, Prod.mk.injEq] at g1
  obtain ⟨rfl, rfl⟩ := g1
  obtain ⟨ok, _⟩ := g4
  rcases ok.size with ⟨h1, _⟩ | h1
  · exact .inl h1
  · obtain ⟨e, he, hz⟩ := ok.free h1
    refine .inr ⟨e, he, ?_⟩
    rw [Lemmas.IcHash.sl_get (by unfold Lemmas.IcHash.cnt at he; omega), hz]

/-! ### deviations found -/

/-- comparator of unsigned words -/
def wordCmp (x y : Nat) : Int := (if x > y then 1 else 0) - (if x < y then 1 else 0)

theorem wordCmp_comparator : Comparator wordCmp := by
  constructor
  · intro (x : Nat) (y : Nat); unfold wordCmp; split <;> split <;> omega
  · intro (x : Nat) (y : Nat) (z : Nat); unfold wordCmp
    split <;> split <;> split <;> split <;> split <;> split <;> omega

/-- Loading an array with two zero keys into a hash table counts both although one is stored
(`++ic->items_count` in `mr_ic_hash_index_add` is not guarded by `zero_key`). -/
theorem C15_bulk_zero_key_counted_twice : ∃ ic,
    icIndex wordCmp id (icNew .hash) [0, 0] (true, true) = some (ic, true) ∧
      icForeach ic = [0] ∧ icCount ic = 2 := ⟨_, rfl, by decide +kernel, by decide +kernel⟩

/-- After an add that failed for lack of memory the hash table reports one item too many
(`++ic->items_count` in `mr_ic_hash_add` is not undone). -/
theorem C15_failed_add_miscounts : ∃ ic,
    icRun wordCmp id (icNew .hash) [(.add 5, false, false)] = some (ic, [.key none]) ∧
      icForeach ic = [] ∧ icCount ic = 1 := ⟨_, rfl, by decide +kernel, by decide +kernel⟩

/-- Iteration over an unsorted array loaded with equal keys visits both. -/
theorem C12_iteration_repeats_loaded_duplicates : ∃ ic,
    icIndex wordCmp id (icNew .unsorted) [7, 7] (true, true) = some (ic, true) ∧
      icForeach ic = [7, 7] := ⟨_, rfl, rfl⟩

/-- Deleting from a tree that never held a key makes it report 4294967295 items
(`ic->rb.size / sizeof (ic->rb.pool[0]) - 1` with `size = 0` in `mr_ic_rbtree_del`; likewise AVL).
Every other kind reports 0 after the same calls, so the kinds are not fully interchangeable. -/
theorem C16_del_on_empty_tree_miscounts : ∀ kind, kind = .rb ∨ kind = .avl → ∃ ic,
    icRun wordCmp id (icNew kind) [(.del 5, true, true)] = some (ic, [.status false]) ∧
      icForeach ic = [] ∧ icCount ic = 4294967295 := by
  rintro kind (rfl | rfl)
  · exact ⟨_, rfl, by decide +kernel, by decide +kernel⟩
  · exact ⟨_, rfl, by decide +kernel, by decide +kernel⟩

/-- So does an add to an empty tree that fails for lack of memory. -/
theorem C16_failed_first_add_miscounts : ∃ ic,
    icRun wordCmp id (icNew .rb) [(.add 5, false, false)] = some (ic, [.key none]) ∧
      icForeach ic = [] ∧ icCount ic = 4294967295 := ⟨_, rfl, by decide +kernel, by decide +kernel⟩

/-! ### the hypotheses are met -/

example : Comparator wordCmp := wordCmp_comparator
/-- all keys in one bucket, wrap-around, deletion inside a cluster -/
example : (icRun wordCmp (fun _ => 8) (icNew .hash)
    [(.add 1, true, true), (.add 2, true, true), (.add 0, true, true), (.add 3, true, true),
     (.del 1, true, true), (.find 3, true, true), (.find 1, true, true), (.add 2, true, true)]).map (·.2) =
    some [.key (some 1), .key (some 2), .key (some 0), .key (some 3), .status true, .key (some 3),
      .key none, .key (some 2)] := by decide +kernel
/-- equal keys that are different words: the stored one is returned -/
example : (icRun (fun x y => wordCmp (x / 10) (y / 10)) id (icNew .static)
    [(.add 11, true, true), (.add 12, true, true), (.add 25, true, true), (.add 31, true, true),
     (.add 47, true, true), (.find 49, true, true), (.del 20, true, true), (.find 21, true, true)]).map (·.2) =
    some [.key (some 11), .key (some 11), .key (some 25), .key (some 31), .key (some 47), .key (some 47),
      .status true, .key none] := by decide +kernel
/-- rotations, double rotations, deletion of an inner node, deletion down to empty and refilling -/
example : (icRun wordCmp id (icNew .rb)
    [(.add 5, true, true), (.add 1, true, true), (.add 3, true, true), (.add 9, true, true),
     (.add 7, true, true), (.del 5, true, true), (.find 7, true, true), (.find 5, true, true),
     (.del 3, true, true), (.del 9, true, true), (.del 1, true, true), (.del 7, true, true),
     (.add 4, true, true)]).map (fun x => (x.2, icCount x.1)) =
    some ([.key (some 5), .key (some 1), .key (some 3), .key (some 9), .key (some 7), .status true,
      .key (some 7), .key none, .status true, .status true, .status true, .status true,
      .key (some 4)], 1) := by decide +kernel
example : [5, 0, 7].Pairwise fun x y : Key => (x = 0 ∨ y = 0) → wordCmp x y ≠ 0 := by decide

end Verif.Props.Collection
