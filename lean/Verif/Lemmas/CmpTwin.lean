import Verif.Lemmas.CmpHash
import Verif.Lemmas.DfsTwin
import Verif.Lemmas.Dfs
import Verif.Spec.Final
/-!
# Graphs that compare as equal have the same hash value
-/
namespace Verif.Lemmas.CmpTwin
open Verif.Model Verif.Model.Ptrs Verif.Model.Save Verif.Model.Copy Verif.Model.BasicCmp Verif.Model.Cmp Verif.Spec.Cmp Verif.Spec.Ptrs Verif.Spec.Save
open Verif.Lemmas.Cmp Verif.Lemmas.CmpFloat Verif.Lemmas.CmpHash Verif.Lemmas.DfsTwin

theorem hashChildren_twin {T : Nat → Prop} {ra rb : List Pd} (h : Twin T ra rb) (res : Nat → UInt32) : ∀ (fuel c : Nat) (v : UInt32),
    (c = 0 ∨ T c) → hashChildren rb res fuel c v = hashChildren ra res fuel c v
  | 0, _, _, _ => rfl
  | fuel + 1, c, v, hc => by
    simp only [hashChildren]
    by_cases h0 : c = 0
    · simp [h0]
    · have hc := hc.resolve_left h0
      obtain ⟨p, q, h1, h2, _, e2, _⟩ := h.get hc
      simp only [h0, if_false, h1, h2, Option.bind_eq_bind, Option.bind_some, e2]
      exact hashChildren_twin h res fuel p.next _ (h.closed c p hc h1).2.1

theorem nodeHash_twin {T : Nat → Prop} {s t : St} {tds : List Td} {m m' : Bytes} {fuel : Nat} (h : Twin T s.ptrs.ra t.ptrs.ra)
    (hinfo : ∀ i, T i → ∃ (p q : Pd) (x y : Info), s.ptrs.ra[i]? = some p ∧ t.ptrs.ra[i]? = some q ∧ s.info[i]? = some x ∧ t.info[i]? = some y ∧
      hashLeaf tds m' fuel q y = hashLeaf tds m fuel p x) :
    Alike T s.ptrs.ra t.ptrs.ra (nodeHash tds m fuel s.info) (nodeHash tds m' fuel t.info) where
  keep c i l o r hr := by
    cases o with
    | pre => simp [nodeHash] at hr; rw [← hr]
    | post =>
      simp only [nodeHash, Option.bind_eq_bind] at hr
      obtain ⟨_, _, hr⟩ := Option.bind_eq_some_iff.1 hr
      obtain ⟨_, _, hr⟩ := Option.bind_eq_some_iff.1 hr
      obtain ⟨_, _, hr⟩ := Option.bind_eq_some_iff.1 hr
      cases hr; rfl
  same c i l o hi := by
    cases o with
    | pre => rfl
    | post =>
      obtain ⟨p, q, x, y, h1, h2, h3, h4, hl⟩ := hinfo i hi
      obtain ⟨_, _, e3, _, e5⟩ := h.same i p q hi h1 h2
      simp only [nodeHash, h1, h2, h3, h4, Option.bind_eq_bind, Option.bind_some, e5, e3, hl, h.len]
      rw [hashChildren_twin h c _ _ _ (h.closed i p hi h1).2.2]
      cases hx : (if inner p.ty = true then hashChildren s.ptrs.ra c (s.ptrs.ra.length + 1) p.firstChild 0 else hashLeaf tds m fuel p x) with
      | none => rfl
      | some v => rfl

theorem hashStruct_twin {T : Nat → Prop} {s t : St} {tds : List Td} {m m' : Bytes} {fuel : Nat} (h : Twin T s.ptrs.ra t.ptrs.ra) (h1 : T 1)
    (hinfo : ∀ i, T i → ∃ (p q : Pd) (x y : Info), s.ptrs.ra[i]? = some p ∧ t.ptrs.ra[i]? = some q ∧ s.info[i]? = some x ∧ t.info[i]? = some y ∧
      hashLeaf tds m' fuel q y = hashLeaf tds m fuel p x) :
    hashStruct tds m' fuel t = hashStruct tds m fuel s := by
  unfold hashStruct dfs
  simp only [h.len]
  rw [dfsLoop_twin h (nodeHash_twin h hinfo) 1 _ (fun _ => 0) 1 0 (.inr h1)]
  split
  · rfl
  · cases dfsLoop (nodeHash tds m fuel s.info) 1 (s.ptrs.ra.length + 1) (s.ptrs.ra, fun _ => 0) 1 0 with
    | none => rfl
    | some r => rfl

theorem rep_links {ra : List Pd} {f : Forest} : ∀ {par head : Nat}, Rep ra par head f → ∀ (i : Nat) (pd : Pd), i ∈ f.nodes → ra[i]? = some pd →
    (pd.parent = par ∨ pd.parent ∈ f.nodes) ∧ (pd.next = 0 ∨ pd.next ∈ f.nodes) ∧ (kidsHead pd = 0 ∨ kidsHead pd ∈ f.nodes) := by
  have hh : ∀ {g : Forest} {par head : Nat}, Rep ra par head g → head = 0 ∨ head ∈ g.nodes := by
    intro g par head h
    cases g with
    | nil => exact .inl h
    | cons j k s => right; rw [h.1]; simp [Forest.nodes]
  induction f with
  | nil => intro _ _ _ i pd hi; simp [Forest.nodes] at hi
  | cons j k s ih1 ih2 =>
    intro par head h i pd hi hp
    obtain ⟨_, hj0, p, hjp, hpar, hk, hs⟩ := h
    simp only [Forest.nodes, List.mem_cons, List.mem_append] at hi ⊢
    rcases hi with hi | hi | hi
    · subst hi
      rw [hjp] at hp
      cases hp
      refine ⟨.inl hpar, ?_, ?_⟩
      · rcases hh hs with h | h
        · exact .inl h
        · exact .inr (.inr (.inr h))
      · rcases hh hk with h | h
        · exact .inl h
        · exact .inr (.inr (.inl h))
    · obtain ⟨a, b, c⟩ := ih1 hk i pd hi hp
      refine ⟨.inr ?_, ?_, ?_⟩
      · rcases a with a | a
        · exact .inl a
        · exact .inr (.inl a)
      · rcases b with b | b
        · exact .inl b
        · exact .inr (.inr (.inl b))
      · rcases c with c | c
        · exact .inl c
        · exact .inr (.inr (.inl c))
    · obtain ⟨a, b, c⟩ := ih2 hs i pd hi hp
      refine ⟨?_, ?_, ?_⟩
      · rcases a with a | a
        · exact .inl a
        · exact .inr (.inr (.inr a))
      · rcases b with b | b
        · exact .inl b
        · exact .inr (.inr (.inr b))
      · rcases c with c | c
        · exact .inl c
        · exact .inr (.inr (.inr c))

variable {mem : Mem} {tds : List Td} {root : Obj} {st : St} {k : Forest} {obj : Nat → Obj}

/-- the links of the nodes of the tree do not leave the tree -/
theorem final_closed (F : Final mem tds root st k obj) (i : Nat) (p : Pd) (hi : i ∈ 1 :: k.nodes) (hp : st.ptrs.ra[i]? = some p) :
    (p.parent = 0 ∨ p.parent ∈ 1 :: k.nodes) ∧ (p.next = 0 ∨ p.next ∈ 1 :: k.nodes) ∧ (p.firstChild = 0 ∨ p.firstChild ∈ 1 :: k.nodes) := by
  have hn : (Forest.cons 1 k .nil).nodes = 1 :: k.nodes := by simp [Forest.nodes]
  obtain ⟨h1, h2, h3⟩ := rep_links F.tree i p (by rw [hn]; exact hi) hp
  rw [hn] at h1 h2 h3
  refine ⟨h1, h2, ?_⟩
  cases hr : (p.ref || p.cref) with
  | false => unfold kidsHead at h3; rw [hr] at h3; simpa using h3
  | true =>
    by_cases hpt : p.ty = .pointer
    · cases hu : untyped (obj i).aux with
      | false =>
        obtain ⟨_, hm⟩ := F.pointer i p hi hp hpt hu
        cases ht : target mem tds (obj i) with
        | none => rw [ht] at hm; exact .inl hm.1
        | some o => rw [ht] at hm; exact .inr hm.1
      | true =>
        rcases F.void i p hi hp hpt hu with h | h | h
        · exact .inl h.2.2.1
        · exact .inr h.2.2.1
        · exact .inr h.2.2.1
    · by_cases hs : p.ty = .string
      · have hm := F.string i p hi hp hs
        cases ht : target mem tds (obj i) with
        | none => rw [ht] at hm; exact .inl hm.1
        | some o =>
          rw [ht] at hm
          rcases hm with h | h | h
          · exact .inl h.2.2.1
          · exact .inr h.2.2.1
          · exact .inr h.2.2.1
      · have := F.parts i p hi hp hpt hs
        rw [this.1, this.2.1] at hr
        exact absurd hr (by decide)

theorem final_range (F : Final mem tds root st k obj) {i : Nat} (hi : i ∈ 1 :: k.nodes) : i < st.ptrs.ra.length ∧ 1 ≤ i := by
  have hn : (Forest.cons 1 k .nil).nodes = 1 :: k.nodes := by simp [Forest.nodes]
  refine ⟨Verif.Lemmas.Dfs.rep_range F.tree i (by rw [hn]; exact hi), ?_⟩
  have : ∀ {f : Forest} {par head : Nat}, Rep st.ptrs.ra par head f → ∀ i ∈ f.nodes, i ≠ 0 := by
    intro f
    induction f with
    | nil => intro _ _ _ i hi; simp [Forest.nodes] at hi
    | cons j a b ih1 ih2 =>
      intro par head h i hi
      obtain ⟨_, h0, p, _, _, hk, hs⟩ := h
      simp only [Forest.nodes, List.mem_cons, List.mem_append] at hi
      rcases hi with hi | hi | hi
      · rw [hi]; exact h0
      · exact ih1 hk i hi
      · exact ih2 hs i hi
  have := this F.tree i (by rw [hn]; exact hi)
  omega

theorem final_idx (F : Final mem tds root st k obj) {i : Nat} {p : Pd} (hi : i ∈ 1 :: k.nodes) (hp : st.ptrs.ra[i]? = some p) : p.idx ≠ 0 := by
  obtain ⟨j, hj⟩ := List.mem_iff_getElem?.1 hi
  have := F.ids j i hj
  rw [hp] at this
  simp at this
  omega

end Verif.Lemmas.CmpTwin
