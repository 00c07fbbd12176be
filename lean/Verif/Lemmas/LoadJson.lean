import Verif.Props.Json
import Verif.Lemmas.LoadSafe
/-!
What the JSON parser leaves is a tree.
-/
namespace Verif.Lemmas.LoadJson
open Verif.Model Verif.Model.Ptrs Verif.Model.Json Verif.Spec.Ptrs Verif.Lemmas.TopDown Verif.Lemmas.JsonLex Verif.Lemmas.JsonLoad
open Verif.Spec.Load (Siblings Tree Names Distinct Unrepeated)
open DF

/-- the text of a value -/
def BodyOK (known : List Nat → Bool) (b : Body) (k : DF) : Prop :=
  match b with
  | .obj => WF known true k
  | .arr => WF known false k
  | .empty => k = .nil
  | .tok t n v => k = .nil ∧ meaning t = some (n, v)

/-- what is derived from a symbol -/
def Says (known : List Nat → Bool) (nt : NT) (inp rest : List Tok) : Prop :=
  match nt with
  | .members => ∃ D : DF, D ≠ .nil ∧ WF known true D ∧ inp = D.toks ++ rest
  | .elements => ∃ D : DF, D ≠ .nil ∧ WF known false D ∧ inp = D.toks ++ rest
  | .member => ∃ nm b k, known nm = true ∧ BodyOK known b k ∧ inp = nameToks (some nm) ++ bodyToks b k ++ rest
  | _ => ∃ b k, BodyOK known b k ∧ inp = bodyToks b k ++ rest

theorem says {known : List Nat → Bool} {nt : NT} {s s' : St} {inp rest : List Tok} (h : Derives known nt s inp s' rest) : Says known nt inp rest := by
  induction h with
  | element _ _ _ ih => exact ih
  | object _ ih => exact ih
  | array _ ih => exact ih
  | @scalar s s' t rest h =>
    have : ∃ n v, meaning t = some (n, v) := by
      cases t with
      | string b =>
        simp only [Json.scalar] at h
        obtain ⟨v, h1, _⟩ := Option.bind_eq_some_iff.1 h
        exact ⟨false, .string v, by simp [meaning, h1]⟩
      | int v => exact ⟨_, _, rfl⟩
      | float v => exact ⟨_, _, rfl⟩
      | null => exact ⟨_, _, rfl⟩
      | _ => simp [Json.scalar] at h
    obtain ⟨n, v, h1⟩ := this
    exact ⟨.tok t n v, .nil, ⟨rfl, h1⟩, rfl⟩
  | emptyObject => exact ⟨.empty, .nil, rfl, rfl⟩
  | fullObject _ ih =>
    obtain ⟨D, h1, h2, h3⟩ := ih
    refine ⟨.obj, D, h2, ?_⟩
    have : D.shape ≠ .nil := fun h => h1 (shape_nil.1 h)
    simp only [bodyToks, if_neg this, h3]
    simp
  | lastMember _ ih =>
    obtain ⟨nm, b, k, h1, h2, h3⟩ := ih
    refine ⟨.cons (some nm) b k .nil, by simp, ⟨⟨nm, rfl, h1⟩, ?_, trivial⟩, by rw [toks_cons, h3]; simp [shape]⟩
    cases b <;> exact h2
  | moreMembers _ _ ih1 ih2 =>
    obtain ⟨nm, b, k, h1, h2, h3⟩ := ih1
    obtain ⟨D, h4, h5, h6⟩ := ih2
    have : D.shape ≠ .nil := fun h => h4 (shape_nil.1 h)
    refine ⟨.cons (some nm) b k D, by simp, ⟨⟨nm, rfl, h1⟩, ?_, h5⟩, by rw [toks_cons, h3, h6, if_neg this]; simp⟩
    cases b <;> exact h2
  | @member s s1 s2 name inp rest _ hm ih =>
    obtain ⟨b, k, h1, h2⟩ := ih
    refine ⟨name, b, k, ?_, h1, by rw [h2]; simp [nameToks]⟩
    unfold Json.member at hm
    obtain ⟨⟨p, idx⟩, _, hm⟩ := Option.bind_eq_some_iff.1 hm
    simp only at hm
    split at hm
    · cases hm
    · split at hm
      · assumption
      · cases hm
  | emptyArray => exact ⟨.arr, .nil, trivial, rfl⟩
  | fullArray _ ih =>
    obtain ⟨D, h1, h2, h3⟩ := ih
    refine ⟨.arr, D, h2, ?_⟩
    have : D.shape ≠ .nil := fun h => h1 (shape_nil.1 h)
    simp only [bodyToks, if_neg this, h3]
    simp
  | lastElement _ ih =>
    obtain ⟨b, k, h2, h3⟩ := ih
    refine ⟨.cons none b k .nil, by simp, ⟨rfl, ?_, trivial⟩, by rw [toks_cons, h3]; simp [shape, nameToks]⟩
    cases b <;> exact h2
  | moreElements _ _ ih1 ih2 =>
    obtain ⟨b, k, h2, h3⟩ := ih1
    obtain ⟨D, h4, h5, h6⟩ := ih2
    have : D.shape ≠ .nil := fun h => h4 (shape_nil.1 h)
    refine ⟨.cons none b k D, by simp, ⟨rfl, ?_, h5⟩, by rw [toks_cons, h3, h6, if_neg this]; simp [nameToks]⟩
    cases b <;> exact h2

/-- Whatever text is accepted, the nodes are those of a tree in document order. -/
theorem loads_tree {known : List Nat → Bool} {text : List Nat} {ptrs : Ptrs} {data : List Loaded} (h : Loads known text ptrs data) :
    ∃ b k, WF known false (.cons none b k .nil) ∧ ptrs.ra = ({} : Pd) :: canon 0 1 (DF.cons none b k .nil).shape ∧ data = {} :: (DF.cons none b k .nil).data := by
  obtain ⟨toks, s, _, hd, rfl, rfl⟩ := h
  obtain ⟨b, k, h1, h2⟩ := says hd
  have hwf : WF known false (.cons none b k .nil) := ⟨rfl, by cases b <;> exact h1, trivial⟩
  obtain ⟨lc, h3⟩ := build_root known b k hwf
  have e : toks = (DF.cons none b k .nil).toks := by rw [toks_cons, h2]; simp [shape, nameToks]
  rw [← e] at h3
  obtain ⟨rfl, _⟩ := Verif.Props.Json.derives_unique hd _ _ h3 (by simp)
  exact ⟨b, k, hwf, rfl, rfl⟩

/-- the roots of a forest -/
def roots : Forest → List Nat
  | .nil => []
  | .cons i _ s => i :: roots s

theorem rep_siblings {ra : List Pd} {f : Forest} : ∀ {p h : Nat}, Rep ra p h f → Siblings ra h (roots f) ∧ ∀ c ∈ roots f, ∃ pc : Pd, ra[c]? = some pc ∧ pc.parent = p := by
  induction f with
  | nil => intro p h hr; cases hr; exact ⟨.nil, fun c hc => by cases hc⟩
  | cons i k s _ ih =>
    intro p h ⟨e, h0, pd, h1, h2, _, h3⟩
    subst e
    obtain ⟨h4, h5⟩ := ih h3
    exact ⟨.cons h0 h1 h4, fun c hc => by
      rcases List.mem_cons.1 hc with rfl | hc
      · exact ⟨pd, h1, h2⟩
      · exact h5 c hc⟩

theorem rep_kids {ra : List Pd} {f : Forest} : ∀ {p h : Nat}, Rep ra p h f → ∀ i ∈ f.nodes, ∃ pd k, ra[i]? = some pd ∧ Rep ra i (kidsHead pd) k := by
  induction f with
  | nil => intro p h _ i hi; cases hi
  | cons i k s ih1 ih2 =>
    intro p h ⟨_, _, pd, h1, _, h2, h3⟩ j hj
    simp only [Forest.nodes, List.mem_cons, List.mem_append] at hj
    rcases hj with rfl | hj | hj
    · exact ⟨pd, k, h1, h2⟩
    · exact ih1 h2 j hj
    · exact ih2 h3 j hj

theorem canon_ty (f : Forest) : ∀ (p n : Nat), ∀ pd ∈ canon p n f, pd.ty = .none := by
  induction f with
  | nil => intro p n pd h; cases h
  | cons i k s ih1 ih2 =>
    intro p n pd h
    simp only [canon, List.mem_cons, List.mem_append] at h
    rcases h with rfl | h | h
    · rfl
    · exact ih1 _ _ _ h
    · exact ih2 _ _ _ h

theorem canon_tree (f : Forest) (h : f.nodes.length + 1 < 2 ^ 32) : Tree (({} : Pd) :: canon 0 1 f) := by
  have hget : ∀ (c : Nat) (pc : Pd), (({} : Pd) :: canon 0 1 f)[c]? = some pc → pc.ref = false ∧ pc.cref = false ∧ pc.idx = c ∧ (pc.parent < c ∨ c = 0 ∧ pc.parent = 0) := by
    intro c pc hc
    cases c with
    | zero => simp only [List.getElem?_cons_zero, Option.some.injEq] at hc; subst hc; exact ⟨rfl, rfl, rfl, .inr ⟨rfl, rfl⟩⟩
    | succ c =>
      rw [List.getElem?_cons_succ] at hc
      obtain ⟨h1, h2, h3⟩ := canon_idx _ _ _ _ _ hc
      refine ⟨h2, h3, by omega, .inl ?_⟩
      rcases canon_parent _ _ _ _ _ hc with h4 | h4 <;> omega
  have hrep := canon_rep f [({} : Pd)] [] 0 (by simp)
  simp only [List.append_nil, List.singleton_append, List.length_singleton] at hrep
  refine ⟨fun i pd hi => ?_, fun c pc hc => (hget c pc hc).2.2.2, fun pd hpd => ?_, fun pd hpd => ?_⟩
  · cases i with
    | zero =>
      simp only [List.getElem?_cons_zero, Option.some.injEq] at hi
      subst hi
      exact ⟨[], .nil, fun c hc => by cases hc⟩
    | succ i =>
      have hlt := (List.getElem?_eq_some_iff.1 hi).1
      rw [List.length_cons, canon_length] at hlt
      obtain ⟨pd', k, h1, h2⟩ := rep_kids hrep (i + 1) (by rw [number_nodes, List.mem_range'_1]; omega)
      rw [hi] at h1
      cases h1
      have hb := hget _ _ hi
      have : kidsHead pd = pd.firstChild := by unfold kidsHead; rw [hb.1, hb.2.1]; rfl
      rw [this] at h2
      obtain ⟨h3, h4⟩ := rep_siblings h2
      refine ⟨roots k, h3, fun c hc => ?_⟩
      obtain ⟨pc, h5, h6⟩ := h4 c hc
      refine ⟨?_, pc, h5, h6⟩
      have := (hget c pc h5).2.2.2
      omega
  · have := (hget 1 pd hpd).2.2.2
    omega
  · obtain ⟨i, hi⟩ := List.mem_iff_getElem?.1 hpd
    have hlt := (List.getElem?_eq_some_iff.1 hi).1
    rw [List.length_cons, canon_length] at hlt
    have := hget i pd hi
    refine ⟨this.1, this.2.1, ?_, by omega⟩
    rcases List.mem_cons.1 hpd with rfl | hp
    · rfl
    · exact canon_ty _ _ _ _ hp

theorem named {known : List Nat → Bool} (D : DF) : ∀ (m : Bool) (p n : Nat), p < n → WF known m D →
    (∀ (j : Nat) (pj : Pd) (x : Loaded), (canon p n D.shape)[j]? = some pj → D.data[j]? = some x → pj.parent = p → x.name.isSome = m) ∧
    ∀ (j k : Nat) (pj pk : Pd) (x y : Loaded), (canon p n D.shape)[j]? = some pj → (canon p n D.shape)[k]? = some pk → D.data[j]? = some x → D.data[k]? = some y →
      pj.parent = pk.parent → x.name.isSome = y.name.isSome := by
  induction D with
  | nil => intro m p n _ _; exact ⟨fun j pj x h => by simp [shape, canon] at h, fun j k pj pk x y h => by simp [shape, canon] at h⟩
  | cons name b kd s ih1 ih2 =>
    intro m p n hpn hwf
    obtain ⟨hname, hb, hs⟩ := hwf
    have hk : ∃ m', WF known m' kd := by
      cases b with
      | obj => exact ⟨true, hb⟩
      | arr => exact ⟨false, hb⟩
      | empty => have : kd = .nil := hb; subst this; exact ⟨true, trivial⟩
      | tok t n v => have : kd = .nil := hb.1; subst this; exact ⟨true, trivial⟩
    obtain ⟨m', hk⟩ := hk
    obtain ⟨a1, a2⟩ := ih1 m' n (n + 1) (by omega) hk
    obtain ⟨b1, b2⟩ := ih2 m p (n + 1 + kd.shape.nodes.length) (by omega) hs
    have hroot : name.isSome = m := by
      cases m with
      | true => obtain ⟨nm, rfl, _⟩ := hname; rfl
      | false => simp only [Bool.false_eq_true, if_false] at hname; rw [hname]; rfl
    -- where a node is
    have cases3 : ∀ (j : Nat) (pj : Pd) (x : Loaded), (canon p n (DF.cons name b kd s).shape)[j]? = some pj → (DF.cons name b kd s).data[j]? = some x →
        (pj.parent = p ∧ x.name.isSome = m) ∨
        (∃ j' : Nat, (canon n (n + 1) kd.shape)[j']? = some pj ∧ kd.data[j']? = some x ∧ n ≤ pj.parent ∧ pj.parent < n + 1 + kd.shape.nodes.length) ∨
        (∃ j' : Nat, (canon p (n + 1 + kd.shape.nodes.length) s.shape)[j']? = some pj ∧ s.data[j']? = some x ∧ (pj.parent = p ∨ n + 1 + kd.shape.nodes.length ≤ pj.parent)) := by
      intro j pj x hj hx
      simp only [shape, canon, data] at hj hx
      cases j with
      | zero =>
        simp only [List.getElem?_cons_zero, Option.some.injEq] at hj hx
        subst hj hx
        exact .inl ⟨rfl, hroot⟩
      | succ j =>
        rw [List.getElem?_cons_succ, List.getElem?_append, canon_length] at hj
        rw [List.getElem?_cons_succ, List.getElem?_append, data_length] at hx
        split at hj
        · rename_i hlt
          rw [if_pos hlt] at hx
          refine .inr (.inl ⟨j, hj, hx, ?_⟩)
          rcases canon_parent _ _ _ _ _ hj with h | h <;> omega
        · rename_i hlt
          rw [if_neg hlt] at hx
          refine .inr (.inr ⟨_, hj, hx, ?_⟩)
          rcases canon_parent _ _ _ _ _ hj with h | h
          · exact .inl h
          · exact .inr h.1
    refine ⟨fun j pj x hj hx hp => ?_, fun j k pj pk x y hj hkk hx hy hpar => ?_⟩
    · rcases cases3 j pj x hj hx with h | ⟨j', h1, h2, h3, _⟩ | ⟨j', h1, h2, _⟩
      · exact h.2
      · omega
      · exact b1 j' pj x h1 h2 hp
    · rcases cases3 j pj x hj hx with h | ⟨j', h1, h2, h3, h4⟩ | ⟨j', h1, h2, h3⟩
      · rcases cases3 k pk y hkk hy with g | ⟨k', g1, g2, g3, g4⟩ | ⟨k', g1, g2, g3⟩
        · rw [h.2, g.2]
        · omega
        · rw [h.2, b1 k' pk y g1 g2 (by omega)]
      · rcases cases3 k pk y hkk hy with g | ⟨k', g1, g2, g3, g4⟩ | ⟨k', g1, g2, g3⟩
        · omega
        · exact a2 j' k' pj pk x y h1 g1 h2 g2 hpar
        · omega
      · rcases cases3 k pk y hkk hy with g | ⟨k', g1, g2, g3, g4⟩ | ⟨k', g1, g2, g3⟩
        · rw [g.2, b1 j' pj x h1 h2 (by omega)]
        · omega
        · exact b2 j' k' pj pk x y h1 g1 h2 g2 hpar

/-- the names of the children of a node -/
theorem distinct_of {known : List Nat → Bool} {text : List Nat} {ptrs : Ptrs} {data : List Loaded} (h : Loads known text ptrs data) (doc : Loaded → Load.Doc)
    (hdoc : ∀ x, (doc x).name = x.name) (hT : Tree ptrs.ra) (hU : Unrepeated ptrs.ra (data.map doc)) : Distinct ptrs.ra (data.map doc) := by
  obtain ⟨b, k, hwf, hra, hdata⟩ := loads_tree h
  have hlen : data.length = ptrs.ra.length := by
    rw [hra, hdata, List.length_cons, List.length_cons, data_length, canon_length]
  intro i pd l hi hl
  obtain ⟨l', h1, h2⟩ := hT.kids i pd hi
  have := Verif.Lemmas.LoadSafe.siblings_unique hl h1
  subst this
  have hsame : ∀ c ∈ l, ∀ c' ∈ l, ∀ x y : Loaded, data[c]? = some x → data[c']? = some y → x.name.isSome = y.name.isSome := by
    intro c hc c' hc' x y hx hy
    obtain ⟨g1, pc, g2, g3⟩ := h2 c hc
    obtain ⟨g1', pc', g2', g3'⟩ := h2 c' hc'
    obtain ⟨c, rfl⟩ : ∃ n, c = n + 1 := ⟨c - 1, by omega⟩
    obtain ⟨c', rfl⟩ : ∃ n, c' = n + 1 := ⟨c' - 1, by omega⟩
    rw [hra, List.getElem?_cons_succ] at g2 g2'
    rw [hdata, List.getElem?_cons_succ] at hx hy
    exact (named _ false 0 1 (by omega) hwf).2 c c' pc pc' x y g2 g2' hx hy (by rw [g3, g3'])
  have hget : ∀ c ∈ l, ∃ x : Loaded, data[c]? = some x ∧ ((data.map doc)[c]?).bind Load.Doc.name = x.name := by
    intro c hc
    obtain ⟨_, pc, g2, _⟩ := h2 c hc
    have hlt := (List.getElem?_eq_some_iff.1 g2).1
    refine ⟨data[c], List.getElem?_eq_getElem (by omega), ?_⟩
    rw [List.getElem?_map, List.getElem?_eq_getElem (by omega)]
    exact hdoc _
  by_cases hn : ∀ n ∈ Names (data.map doc) l, n = none
  · exact .inl hn
  · right
    have hall : ∀ n ∈ Names (data.map doc) l, n ≠ none := by
      intro n hn1 e
      refine hn fun n' hn' => ?_
      unfold Names at hn1 hn'
      obtain ⟨c, hc, rfl⟩ := List.mem_map.1 hn1
      obtain ⟨c', hc', rfl⟩ := List.mem_map.1 hn'
      obtain ⟨x, hx, ex⟩ := hget c hc
      obtain ⟨y, hy, ey⟩ := hget c' hc'
      rw [ex] at e
      rw [ey]
      have := hsame c hc c' hc' x y hx hy
      rw [e] at this
      cases e2 : y.name with
      | none => rfl
      | some v => rw [e2] at this; cases this
    refine ⟨hall, ?_⟩
    unfold Names
    have hnd := Verif.Lemmas.LoadSafe.siblings_nodup hl
    rw [List.nodup_iff_pairwise_ne] at hnd
    rw [List.nodup_iff_pairwise_ne, List.pairwise_map]
    refine hnd.imp_of_mem ?_
    intro c c' hc hc' hne e
    obtain ⟨x, hx, ex⟩ := hget c hc
    obtain ⟨y, hy, ey⟩ := hget c' hc'
    obtain ⟨_, pc, g2, g3⟩ := h2 c hc
    obtain ⟨_, pc', g2', g3'⟩ := h2 c' hc'
    cases en : x.name with
    | none => exact hall none (by unfold Names; rw [← en, ← ex]; exact List.mem_map_of_mem hc) rfl
    | some v =>
      refine hU c c' pc pc' (doc x) (doc y) v hne g2 g2' (by rw [g3, g3']) (by rw [List.getElem?_map, hx]; rfl) (by rw [List.getElem?_map, hy]; rfl) (by rw [hdoc, en]) ?_
      rw [hdoc, ← ey, ← e, ex, en]

end Verif.Lemmas.LoadJson
