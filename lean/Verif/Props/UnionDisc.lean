import Verif.Lemmas.UnionDisc
/-!
# C63: which member of a union is saved

The member of a union that is saved is the one which the nearest object around it with the discriminator selects, whatever
has been saved before: that results are remembered and used again cannot be seen.
-/
namespace Verif.Props.UnionDisc
open Verif.Model.UnionDisc Verif.Spec.UnionDisc Verif.Lemmas.UnionDisc

variable {E : Env}

/-- C63 (partial): after any history of added nodes, resolved unions and moved nodes, the search for the member of a union
ends, accesses existing elements only, and has the result of a search from the beginning.  Missing: a pointer to more than
one element is moved although only the unions in the first have been checked (`C63_deviation_moved_elements`), and the
results must fit into the type of their indices (`C63_deviation_limit`). -/
theorem C63_union_member_partial {s : St} (h : Reached E s) {p u : Nat} (hp : p < s.tree.length) (hlim : s.ud.length < E.limit) (hty : E.typed u = true)
    (hk : ∀ t, E.has t u = true → E.known u = true) : ∃ d s', query E s p u = some (d, s') ∧ InUse E s.tree u p d ∧ s'.tree = s.tree := by
  have I := inv_reached h
  cases hkn : E.known u with
  | true =>
    obtain ⟨d, s', e, Q, _⟩ := query_ok I hp hlim
    exact ⟨d, s', e, (Q.value hty hkn).1, Q.tree⟩
  | false =>
    refine ⟨E.dflt u, s, by simp [query, hty, hkn], inUse_unknown I.root (fun t => ?_) hp, rfl⟩
    cases ht : E.has t u with
    | false => rfl
    | true => rw [hk t ht] at hkn; cases hkn

/-- C63: there is only one member in use. -/
theorem C63_one_member {tree : List Node} {u p : Nat} {d e : Option Nat} (h1 : InUse E tree u p d) (h2 : InUse E tree u p e) : d = e := inUse_det h1 h2

/-- C63: nothing that happens in between changes the answer: if a union is resolved twice and the nodes are the same, the
member is the same. -/
theorem C63_same_answer {s t : St} (hs : Reached E s) (ht : Reached E t) (htree : s.tree = t.tree) {p u : Nat} (hp : p < s.tree.length) (hls : s.ud.length < E.limit) (hlt : t.ud.length < E.limit)
    (hty : E.typed u = true) (hk : ∀ t, E.has t u = true → E.known u = true) : (query E s p u).map Prod.fst = (query E t p u).map Prod.fst := by
  obtain ⟨d, s', e1, h1, _⟩ := C63_union_member_partial hs hp hls hty hk
  obtain ⟨d', t', e2, h2, _⟩ := C63_union_member_partial ht (by rw [← htree]; exact hp) hlt hty hk
  rw [← htree] at h2
  rw [e1, e2, inUse_det h1 h2]
  rfl

/-! ## Example

Node 1 is an object (type 1) with the discriminator of field 9, which selects member 4.  Node 2 is a pointer to two objects, 3
and 4, of type 2, without it; 4 has a pointer 5 to the object 6, where the union is.  Node 7 is an object of type 1 inside
of node 1 with a discriminator that selects member 5. -/
namespace Example

def env : Env where
  typed _ := true
  known _ := true
  dflt _ := some 3
  has t _ := t == 1
  pick _ a _ := if a == 100 then some 4 else if a == 200 then some 5 else none
  limit := 256

def nodes : List Node := [{ parent := 0, td := some 1, addr := 100 }, { parent := 1, skip := true, td := some 2, addr := 110 }, { parent := 2, td := some 2, addr := 300 },
  { parent := 2, td := some 2, addr := 310 }, { parent := 4, skip := true, td := some 3, addr := 310 }, { parent := 5, td := some 3, addr := 400 }, { parent := 1, td := some 1, addr := 200 }]

def s0 : St := nodes.foldl append { tree := [{ parent := 0 }], uds := [[]], ud := [] }

theorem reached0 (E : Env) : Reached E s0 := by
  have h1 := Reached.step (E := E) .start (.append (x := nodes[0]) (by decide))
  have h2 := Reached.step h1 (.append (x := nodes[1]) (by decide))
  have h3 := Reached.step h2 (.append (x := nodes[2]) (by decide))
  have h4 := Reached.step h3 (.append (x := nodes[3]) (by decide))
  have h5 := Reached.step h4 (.append (x := nodes[4]) (by decide))
  have h6 := Reached.step h5 (.append (x := nodes[5]) (by decide))
  exact Reached.step h6 (.append (x := nodes[6]) (by decide))

/-- the union in 6 has been resolved: all nodes up to the object with the discriminator know it -/
def s1 : St := { s0 with uds := [[], [0], [0], [], [0], [0], [0], []], ud := [(9, some 4)] }

theorem query0 : query env s0 6 9 = some (some 4, s1) := by decide +kernel

theorem reached1 : Reached env s1 := .step (reached0 env) (.query (by decide) (by decide) query0)

/-- the answer is used for the pointer 2 too, and the theorem holds of it -/
example : ∃ d s', query env s1 2 9 = some (d, s') ∧ InUse env s1.tree 9 2 d ∧ s'.tree = s1.tree := C63_union_member_partial (p := 2) (u := 9) reached1 (by decide) (by decide) rfl (fun _ _ => rfl)

example : query env s1 2 9 = some (some 4, s1) := by decide +kernel
example : (query env s1 7 9).map Prod.fst = some (some 5) := by decide +kernel
example : (query env s1 0 9).map Prod.fst = some (some 3) := by decide +kernel

/-- node 4 may not be moved below 7, since the union in it would become another member -/
example : (move env s1 4 7).map Prod.fst = some false := by decide +kernel

/-- but below node 1 -/
def s2 : St := { s1 with tree := s1.tree.set 4 { parent := 1, td := some 2, addr := 310 } }

theorem move1 : move env s1 4 1 = some (true, s2) := by decide +kernel

theorem reached2 : Reached env s2 := by
  refine .step reached1 (.move (by decide) (by decide) ?_ move1 (by decide))
  intro x hx
  have : s1.tree[4]? = some { parent := 2, td := some 2, addr := 310 } := by decide
  rw [this] at hx; cases hx
  refine ⟨rfl, fun p => [0, 1, 2, 3, 2, 3, 4, 2].getD p 0, ?_⟩
  intro p y hp hy
  have hlt := (List.getElem?_eq_some_iff.1 hy).1
  have h8 : p < 8 := hlt
  have hc : p = 1 ∨ p = 2 ∨ p = 3 ∨ p = 4 ∨ p = 5 ∨ p = 6 ∨ p = 7 := by omega
  rcases hc with rfl | rfl | rfl | rfl | rfl | rfl | rfl <;> (cases hy; decide)

example : ∃ d s', query env s2 6 9 = some (d, s') ∧ InUse env s2.tree 9 6 d ∧ s'.tree = s2.tree := C63_union_member_partial (p := 6) (u := 9) reached2 (by decide) (by decide) rfl (fun _ _ => rfl)

/-- all elements of the pointer 2 are moved below 7 -/
def s3 : St := { s1 with tree := (s1.tree.set 3 { parent := 7, td := some 2, addr := 300 }).set 4 { parent := 7, td := some 2, addr := 310 } }

end Example

/-- C63, where the code is wrong: the elements of a pointer are moved into another object if the unions in the first element
stay the same.  The unions in the others may have other members there: their member is not the one which the nearest object
around them selects. -/
theorem C63_deviation_moved_elements : ∃ (E : Env) (s s' : St) (i : Nat) (l : List Nat) (p q u : Nat) (d e : Option Nat),
    Reached E s ∧ moveAll E s i l p = some (true, s') ∧ query E s' q u = some (d, s') ∧ InUse E s'.tree u q e ∧ d ≠ e := by
  refine ⟨Example.env, Example.s1, Example.s3, 3, [4], 7, 6, 9, some 4, some 5, Example.reached1, by decide +kernel, by decide +kernel, ?_, by decide⟩
  have h7 : InUse Example.env Example.s3.tree 9 7 (some 5) := .here (d := some 5) (x := { parent := 1, td := some 1, addr := 200 }) (by decide) (by decide) ⟨rfl, 1, rfl, rfl, rfl⟩
  have h4 : InUse Example.env Example.s3.tree 9 4 (some 5) := .up (x := { parent := 7, td := some 2, addr := 310 }) (by decide) (by decide) (by rintro e ⟨_, t, ht, hh, _⟩; cases ht; cases hh) h7
  have h5 : InUse Example.env Example.s3.tree 9 5 (some 5) := .up (x := { parent := 4, skip := true, td := some 3, addr := 310 }) (by decide) (by decide) (by rintro e ⟨hs, _⟩; cases hs) h4
  exact .up (x := { parent := 5, td := some 3, addr := 400 }) (by decide) (by decide) (by rintro e ⟨_, t, ht, hh, _⟩; cases ht; cases hh) h5

/-- C63, where the code is wrong: once there are as many results as their indices can tell, no union is resolved any more, not
even one whose result is known; src/mr_save.c:1145–1165 then saves it without a member. -/
theorem C63_deviation_limit : ∃ (E : Env) (s : St) (p u : Nat) (d : Nat), Reached E s ∧ query E s p u = some (none, s) ∧ InUse E s.tree u p (some d) := by
  have hq : query { Example.env with limit := 1 } Example.s0 6 9 = some (some 4, Example.s1) := by decide +kernel
  refine ⟨{ Example.env with limit := 1 }, Example.s1, 1, 9, 4, .step (Example.reached0 _) (.query (by decide) (by decide) hq), by decide +kernel, ?_⟩
  exact .here (d := some 4) (x := { parent := 0, td := some 1, addr := 100 }) (by decide) (by decide) ⟨rfl, 1, rfl, rfl, rfl⟩

end Verif.Props.UnionDisc
