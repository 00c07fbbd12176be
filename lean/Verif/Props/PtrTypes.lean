import Verif.Model.PtrTypes
import Verif.Spec.PtrTypes
/-!
# C83: every registered type can be pointed to
-/
namespace Verif.Props.PtrTypes
open Verif.Model.PtrTypes Verif.Spec.PtrTypes

theorem find_append (u : PtrUnion) (f : Fd) (n : List Nat) :
    find { u with index := u.index ++ [f] } n = (find u n).or (if f.name = n then some f else none) := by
  unfold find
  rw [List.find?_append]
  congr 1
  by_cases h : f.name = n <;> simp [h]

theorem register_some {u : PtrUnion} {first : Fd} (hf : u.fields[0]? = some first) (t : Td) :
    ∃ v, register (some u) t = some (some v) ∧ v.fields = u.fields ∧
      (∀ n f, find u n = some f → find v n = some f) ∧
      (∀ n, n ≠ t.name → find v n = find u n) ∧
      (find u t.name = none → ∃ f, find v t.name = some f ∧ PointsTo first f t) := by
  unfold register
  simp only
  cases h : find u t.name with
  | some g =>
    exact ⟨u, by simp, rfl, fun _ _ h => h, fun _ _ => rfl, by simp⟩
  | none =>
    simp only [Option.isSome_none, Bool.false_eq_true, if_false, hf]
    refine ⟨_, rfl, rfl, ?_, ?_, ?_⟩
    · intro n f hn
      rw [find_append, hn]; rfl
    · intro n hn
      rw [find_append, if_neg (fun e => hn e.symm), Option.or_none]
    · intro _
      refine ⟨⟨t.name, t.name, pointerKind, t.kind, some t.id, t.kind, first.rest⟩,
        by rw [find_append, h, if_pos rfl]; rfl, rfl, rfl, rfl, rfl, rfl, rfl, rfl⟩

/-- **C83**: after all types were registered, `mr_ptr_t` has its own members as before, a pointer to every registered type under the name of
the type unless a member of its own has that name, and nothing else. -/
theorem C83_members {u : PtrUnion} {first : Fd} (hf : u.fields[0]? = some first) : ∀ (ts : List Td), DistinctTypes ts →
    ∃ v, registerAll (some u) ts = some (some v) ∧ v.fields = u.fields ∧
      (∀ n f, find u n = some f → find v n = some f) ∧
      (∀ t ∈ ts, find u t.name = none → ∃ f, find v t.name = some f ∧ PointsTo first f t) ∧
      (∀ n, (∀ t ∈ ts, t.name ≠ n) → find v n = find u n) := by
  intro ts
  induction ts generalizing u with
  | nil => intro _; exact ⟨u, rfl, rfl, fun _ _ h => h, by simp, fun _ _ => rfl⟩
  | cons t ts ih =>
    intro hd
    obtain ⟨hd1, hd2⟩ := List.pairwise_cons.1 hd
    obtain ⟨v, h1, hv, hold, hother, hnew⟩ := register_some hf t
    obtain ⟨w, h2, hw, wold, wnew, wother⟩ := ih (u := v) (by rw [hv]; exact hf) hd2
    refine ⟨w, by simp [registerAll, h1, h2], hw.trans hv, fun n f h => wold n f (hold n f h), ?_, ?_⟩
    · intro s hs hn
      rcases List.mem_cons.1 hs with rfl | hs
      · obtain ⟨f, hfv, hp⟩ := hnew hn
        exact ⟨f, wold _ _ hfv, hp⟩
      · refine wnew s hs ?_
        rw [hother _ (fun e => hd1 s hs e.symm)]
        exact hn
    · intro n hn
      rw [wother n (fun s hs => hn s (by simp [hs])), hother n (fun e => hn t (by simp) e.symm)]

/-- **C83**: without `mr_ptr_t` nothing happens -/
theorem C83_no_union (ts : List Td) : registerAll none ts = some none := by
  induction ts with
  | nil => rfl
  | cons t ts ih => simp [registerAll, register, ih]

/-- **C83**: registering again changes nothing -/
theorem C83_again {u : PtrUnion} {first : Fd} (hf : u.fields[0]? = some first) (t : Td) :
    ∃ v, register (some u) t = some (some v) ∧ register (some v) t = some (some v) := by
  obtain ⟨v, h, hv, hold, -, hnew⟩ := register_some hf t
  refine ⟨v, h, ?_⟩
  have : (find v t.name).isSome := by
    cases hu : find u t.name with
    | none => obtain ⟨f, hfv, -⟩ := hnew hu; simp [hfv]
    | some f => simp [hold _ _ hu]
  simp [register, this]

/-- `ptr` at place 5, types `a` and `b` -/
def exUnion : PtrUnion := ⟨[⟨[112], [118], 1, 0, none, 1, 5⟩], [⟨[112], [118], 1, 0, none, 1, 5⟩]⟩

example : DistinctTypes [⟨1, [97], 7⟩, ⟨2, [98], 8⟩] ∧
    ((registerAll (some exUnion) [⟨1, [97], 7⟩, ⟨2, [98], 8⟩]).bind id).bind (find · [98]) =
      some ⟨[98], [98], pointerKind, 8, some 2, 8, 5⟩ := by
  refine ⟨by simp [DistinctTypes], by decide⟩

/-- a type that is named like a member of `mr_ptr_t` cannot be pointed to: the member stays what it is -/
theorem C83_deviation_named_like_member :
    ((registerAll (some exUnion) [⟨1, [112], 7⟩]).bind id).bind (find · [112]) = some ⟨[112], [118], 1, 0, none, 1, 5⟩ := by decide

end Verif.Props.PtrTypes
