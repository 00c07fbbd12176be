import Verif.Lemmas.LoadStep
/-!
Loading an arbitrary tree of nodes: objects loaded one after another.
-/
namespace Verif.Lemmas.LoadRow
open Verif.Model Verif.Model.Ptrs Verif.Model.Save Verif.Model.Copy Verif.Model.Load Verif.Spec Verif.Spec.Save Verif.Spec.Load
  Verif.Lemmas.XdrMem Verif.Lemmas.CopyMem Verif.Lemmas.LoadSafe Verif.Lemmas.LoadInv Verif.Lemmas.LoadStep
open Verif.Model.XdrGraph (put peek bytesAt bitBytes toBits ofBits bytesWord tdAt tdType wordBytes)
open Verif.Spec.Copy (Apart Layout span Allocator Grown)
open Verif.Lemmas.XdrSafe (home home_mono home_live not_home)

section
variable (E : Env) (dst ext : Nat) (live0 : Blocks)

/-- the name of the node is not that of the field: loading fails -/
def Doomed (c : Nat) (g : Fd) : Prop := ∃ d n, E.data[c]? = some d ∧ d.name = some n ∧ g.unnamed = false ∧ g.name ≠ [] ∧ n ≠ g.name

/-- nothing in common but bits -/
def Away (a : Nat) (f : Fd) (b : Nat) (g : Fd) : Prop :=
  (f.ty = .bitfield ∧ g.ty = .bitfield ∧ (BitsApart E.tds → Apart (8 * a + f.shift) f.width (8 * b + g.shift) g.width)) ∨ Apart a (room E.tds f) b (room E.tds g)

/-- the objects that are loaded later have nothing in common with this one -/
def Clear (i a : Nat) (f : Fd) : List Item → Prop
  | [] => True
  | none :: _ => True
  | some (j, b, g) :: l => Doomed E j g ∨ (Away E a f b g ∧ ¬ Desc E.ra i j ∧ Clear i a f l)

/-- objects that can be loaded one after another -/
def Row (cur : Nat) (s : LSt) (i a n : Nat) : List Item → Prop
  | [] => True
  | none :: _ => True
  | some (j, b, g) :: l => Doomed E j g ∨ (Slot (E := E) (dst := dst) (ext := ext) (live0 := live0) cur s j b g ∧ i < j ∧ Desc E.ra i j ∧ (a ≤ b ∧ b + room E.tds g ≤ a + n) ∧
      Row cur s i a n l ∧ Clear E j b g l)

variable {E dst ext live0} {m0 : Bytes}

theorem slot_step (S : Setup E dst ext live0) {cur : Nat} {s s' : LSt} (h : Inv E dst ext live0 m0 cur s) {i a j b : Nat} {f g : Fd}
    (hs : Step E dst ext live0 m0 cur i a (room E.tds f) (bitty f) s s') (hj : Slot (E := E) (dst := dst) (ext := ext) (live0 := live0) cur s j b g)
    (hA : Away E a f b g) (hd : ¬ Desc E.ra i j) : Slot (E := E) (dst := dst) (ext := ext) (live0 := live0) cur s' j b g := by
  have hap := apart_later S.alloc S.space h hs.inv hs.live (sits_home hj.sits)
  refine ⟨hj.index, hj.good, hs.sits h hj.sits, fun hb k hk => ?_, fun k x hx hc => ?_, fun x hx => ?_, fun pd hpd => ?_⟩
  · rw [hs.mem (b + k) ?_ (not_covered_of_apart hap (by omega) (by omega))]
    · exact hj.zero hb k hk
    · rcases hA with hA | hA
      · exact absurd hA.2.1 hb
      · unfold Apart at hA; omega
  · rcases hs.cells k x hx hc with ⟨y, h1, h2⟩ | ⟨h1, h2, h3⟩ | h1
    · obtain ⟨x', g1, g2, g3, _⟩ := hs.keep k y h1 h2
      rw [hx] at g1; cases g1
      rw [g2]
      refine hj.away k y h1 ?_
      unfold isCell at *
      rw [← g3]
      exact hc
    · rcases hA with hA | hA
      · simp [bitty, hA.1] at h1
      · unfold Apart at *; omega
    · rw [covered_mem] at h1
      obtain ⟨c, hc', h2⟩ := h1
      have := hap c hc'
      unfold Apart at *
      omega
  · refine Classical.byContradiction fun hne => ?_
    rcases hs.loaded j x hx hne with ⟨y, h1, h2⟩ | h1
    · exact h2 (hj.blank y h1)
    · exact hd h1
  · rcases hj.par pd hpd with h1 | ⟨y, h1, h2, h3⟩
    · exact .inl h1
    · obtain ⟨y', g1, g2, g3, _⟩ := hs.keep _ y h1 h2
      exact .inr ⟨y', g1, by rw [g2]; exact h2, by rw [g3]; exact h3⟩

theorem row_step (S : Setup E dst ext live0) {cur : Nat} {s s' : LSt} (h : Inv E dst ext live0 m0 cur s) {i a : Nat} {f : Fd}
    (hs : Step E dst ext live0 m0 cur i a (room E.tds f) (bitty f) s s') {i0 a0 n0 : Nat} : ∀ {l : List Item},
    Row E dst ext live0 cur s i0 a0 n0 l → Clear E i a f l → Row E dst ext live0 cur s' i0 a0 n0 l := by
  intro l
  induction l with
  | nil => intro _ _; trivial
  | cons y l ih =>
    cases y with
    | none => intro _ _; trivial
    | some y =>
      obtain ⟨j, b, g⟩ := y
      intro hr hc
      rcases hr with hr | ⟨h1, h2, h3, h4, h5, h6⟩
      · exact .inl hr
      · rcases hc with hc | ⟨c1, c2, c3⟩
        · exact .inl hc
        · exact .inr ⟨slot_step S h hs h1 c1 c2, h2, h3, h4, ih h5 c3, h6⟩

/-- what loading of one object does -/
def Works (E : Env) (dst ext : Nat) (live0 : Blocks) (m0 : Bytes) (cur i0 : Nat) (inner : LSt → Nat × Nat × Fd → Option (Bool × LSt)) : Prop :=
  (∀ s j b g, Inv E dst ext live0 m0 cur s → i0 < j → Slot (E := E) (dst := dst) (ext := ext) (live0 := live0) cur s j b g →
    ∃ ok s', inner s (j, b, g) = some (ok, s') ∧ Step E dst ext live0 m0 cur j b (room E.tds g) (bitty g) s s') ∧
  ∀ s j b g, Doomed E j g → inner s (j, b, g) = some (false, s)

theorem loadAll_ok (S : Setup E dst ext live0) {cur i0 a0 n0 : Nat} {inner : LSt → Nat × Nat × Fd → Option (Bool × LSt)}
    (hw : Works E dst ext live0 m0 cur i0 inner) : ∀ (l : List Item) (s : LSt), Inv E dst ext live0 m0 cur s → Row E dst ext live0 cur s i0 a0 n0 l →
    ∃ ok s', loadAll inner s l = some (ok, s') ∧ Step E dst ext live0 m0 cur i0 a0 n0 false s s' := by
  intro l
  induction l with
  | nil => intro s h _; exact ⟨true, s, rfl, h.step⟩
  | cons y l ih =>
    intro s h hr
    cases y with
    | none => exact ⟨false, s, rfl, h.step⟩
    | some y =>
      obtain ⟨j, b, g⟩ := y
      rcases hr with hr | ⟨h1, h2, h3, h4, h5, h6⟩
      · refine ⟨false, s, ?_, h.step⟩
        simp [loadAll, hw.2 s j b g hr]
      · obtain ⟨ok, s', e, hs⟩ := hw.1 s j b g h h2 h1
        have hs' : Step E dst ext live0 m0 cur i0 a0 n0 false s s' := h.step.trans hs h3 (.inl ⟨h4.1, h4.2, by simp⟩)
        cases ok with
        | false =>
          refine ⟨false, s', ?_, hs'⟩
          simp [loadAll, e]
        | true =>
          obtain ⟨ok, s'', e', hs''⟩ := ih s' hs.inv (row_step S h hs h5 h6)
          refine ⟨ok, s'', ?_, hs'.trans hs'' .self (.inl ⟨by omega, by omega, by simp⟩)⟩
          simp [loadAll, e, e']

/-! ### children of a node -/

/-- a range that belongs to a node whose children have not been loaded -/
structure Frame (cur : Nat) (s : LSt) (i a n : Nat) (chars : Prop) : Prop where
  sits : Sits dst ext live0 s (i + 1) a n
  zero : ∀ k, k < n → s.m (a + k) = 0
  away : ∀ (j : Nat) (x : Node), s.nodes[j]? = some x → isCell x → Apart x.addr 8 a n
  node : ∃ y, s.nodes[i]? = some y ∧ y.addr ≠ 0 ∧ (y.ty = .pointer → i < cur ∧ ¬ chars)
  kids : ∀ (c : Nat) (pc : Pd) (x : Node), E.ra[c]? = some pc → pc.parent = i → s.nodes[c]? = some x → x.addr = 0

theorem frame_slot {cur : Nat} {s : LSt} {i a n : Nat} {chars : Prop} (F : Frame (E := E) (dst := dst) (ext := ext) (live0 := live0) cur s i a n chars)
    {c b : Nat} {pc : Pd} {g : Fd} (hc : E.ra[c]? = some pc) (hp : pc.parent = i) (hic : i < c) (hg : Good E.tds g) (h1 : a ≤ b) (h2 : b + room E.tds g ≤ a + n)
    (hch : g.ty = .charArray → chars) :
    Slot (E := E) (dst := dst) (ext := ext) (live0 := live0) cur s c b g := by
  refine ⟨(List.getElem?_eq_some_iff.1 hc).1, hg, sits_part F.sits (by omega) h1 h2, fun _ k hk => ?_, fun j x hx hcx => ?_, fun x hx => F.kids c pc x hc hp hx, fun pd hpd => ?_⟩
  · rw [show b + k = a + (b - a + k) from by omega]
    exact F.zero _ (by omega)
  · have := F.away j x hx hcx
    unfold Apart at *
    omega
  · rw [hc] at hpd; cases hpd
    obtain ⟨y, h3, h4, h5⟩ := F.node
    rw [hp]
    exact .inr ⟨y, h3, h4, fun e => ⟨(h5 e).1, fun e' => (h5 e).2 (hch e')⟩⟩

theorem desc_kid {i c : Nat} {pc : Pd} (hc : E.ra[c]? = some pc) (hp : pc.parent = i) : Desc E.ra i c := .down hc (by rw [hp]; exact .self)

/-- elements one after another -/
theorem row_elements (hT : Tree E.ra) {cur : Nat} {s : LSt} {i a n : Nat} {chars : Prop} (F : Frame (E := E) (dst := dst) (ext := ext) (live0 := live0) cur s i a n chars)
    {g : Fd} {count : Nat} (hg : Good E.tds g) (hb : g.ty ≠ .bitfield) (hcg : g.ty ≠ .charArray) (hr : room E.tds g ≤ g.size) (hn : count * g.size ≤ n) :
    ∀ (l : List Nat) (k : Nat), l.Nodup → (∀ c ∈ l, i < c ∧ ∃ pc : Pd, E.ra[c]? = some pc ∧ pc.parent = i) →
      Row E dst ext live0 cur s i a n (elements a g count k l) ∧
      ∀ j k', (∃ pj : Pd, E.ra[j]? = some pj ∧ pj.parent = i) → i < j → j ∉ l → k' < k → Clear E j (a + k' * g.size) g (elements a g count k l) := by
  intro l
  induction l with
  | nil => intro k _ _; exact ⟨trivial, fun _ _ _ _ _ _ => trivial⟩
  | cons c l ih =>
    intro k hnd hl
    rw [List.nodup_cons] at hnd
    obtain ⟨hic, pc, hpc, hpp⟩ := hl c (by simp)
    obtain ⟨ih1, ih2⟩ := ih (k + 1) hnd.2 (fun c hc => hl c (by simp [hc]))
    unfold elements
    by_cases hk : k ≥ count
    · rw [if_pos hk]; exact ⟨trivial, fun _ _ _ _ _ _ => trivial⟩
    · rw [if_neg hk]
      have hfit : (k + 1) * g.size ≤ n := Nat.le_trans (Nat.mul_le_mul_right _ (by omega)) hn
      rw [Nat.succ_mul] at hfit
      refine ⟨.inr ⟨frame_slot F hpc hpp hic hg (by omega) (by omega) (fun e => absurd e hcg), hic, desc_kid hpc hpp, ⟨by omega, by omega⟩, ih1, ?_⟩, fun j k' hj hij hjl hk' => ?_⟩
      · exact ih2 c k ⟨pc, hpc, hpp⟩ hic hnd.1 (by omega)
      · obtain ⟨pj, hpj, hjp⟩ := hj
        refine .inr ⟨.inr ?_, desc_sibling hT hpj hjp hij hpc hpp (fun e => hjl (by simp [e])), ih2 j k' ⟨pj, hpj, hjp⟩ hij (fun hm => hjl (by simp [hm])) (by omega)⟩
        have : (k' + 1) * g.size ≤ k * g.size := Nat.mul_le_mul_right _ (by omega)
        rw [Nat.succ_mul] at this
        unfold Apart
        omega

theorem findIdx?_name {fields : List Fd} {n : List Nat} {k : Nat} (h : fields.findIdx? (fun g => g.name == n) = some k) : ∃ g, fields[k]? = some g ∧ g.name = n := by
  obtain ⟨h1, h2, _⟩ := List.findIdx?_eq_some_iff_getElem.1 h
  exact ⟨_, List.getElem?_eq_getElem h1, by simpa using h2⟩

/-- the field of a structure for a child -/
theorem assign_ok (S : Setup E dst ext live0) {t : Nat} {d : Td} (ht : E.tds[t]? = some d) (hd : d.ty = .struct) {a : Nat} : ∀ (l : List Nat) (cur : Option Nat),
    (∀ c ∈ l, c < E.ra.length) → ∃ items, assign E d.fields a cur l = some items := by
  intro l
  induction l with
  | nil => intro cur _; exact ⟨[], rfl⟩
  | cons c l ih =>
    intro cur hl
    have hc : c < E.data.length := by rw [S.data]; exact hl c (by simp)
    unfold assign
    rw [List.getElem?_eq_getElem hc]
    simp only [Option.bind_eq_bind, Option.bind_some]
    split
    · exact ⟨_, rfl⟩
    · obtain ⟨items, e⟩ := ih _ (fun c hc => hl c (by simp [hc]))
      rw [e]
      exact ⟨_, rfl⟩

/-- the next child: its field is found by name, or it has no name, or its name is wrong -/
theorem assign_cons {fields : List Fd} {a : Nat} {cur : Option Nat} {c : Nat} {l : List Nat} {items : List Item} (h : assign E fields a cur (c :: l) = some items) :
    ∃ dc, E.data[c]? = some dc ∧ ∃ k, (items = [none] ∨ ∃ g rest, fields[k]? = some g ∧ items = some (c, a + g.offset, g) :: rest ∧ assign E fields a (some k) l = some rest) ∧
      ((∃ n g, dc.name = some n ∧ fields[k]? = some g ∧ g.name = n) ∨ (k = nextField cur ∧ ∀ n, dc.name = some n → ∀ g ∈ fields, g.name ≠ n)) := by
  unfold assign at h
  obtain ⟨dc, hdc, h⟩ := Option.bind_eq_some_iff.1 h
  refine ⟨dc, hdc, ?_⟩
  cases hf : dc.name.bind fun n => fields.findIdx? fun g => g.name == n with
  | none =>
    rw [hf] at h
    refine ⟨nextField cur, ?_, .inr ⟨rfl, fun n hn g hg e => ?_⟩⟩
    · cases hk : fields[nextField cur]? with
      | none =>
        simp only [hk] at h
        injection h with h
        exact .inl h.symm
      | some g =>
        simp only [hk] at h
        obtain ⟨rest, hr, h⟩ := Option.bind_eq_some_iff.1 h
        injection h with h
        exact .inr ⟨g, rest, rfl, h.symm, hr⟩
    · rw [hn, Option.bind_some, List.findIdx?_eq_none_iff] at hf
      have := hf g hg
      rw [e] at this
      simp at this
  | some k =>
    rw [hf] at h
    obtain ⟨n, hn, hk⟩ := Option.bind_eq_some_iff.1 hf
    obtain ⟨g, hg1, hg2⟩ := findIdx?_name hk
    refine ⟨k, ?_, .inl ⟨n, g, hn, hg1, hg2⟩⟩
    simp only [hg1] at h
    obtain ⟨rest, hr, h⟩ := Option.bind_eq_some_iff.1 h
    injection h with h
    exact .inr ⟨g, rest, hg1, h.symm, hr⟩

/-- fields of a structure -/
theorem row_assign (S : Setup E dst ext live0) {cur : Nat} {s : LSt} {i a : Nat} {t : Nat} {d : Td} (ht : E.tds[t]? = some d) (hd : d.ty = .struct)
    (F : Frame (E := E) (dst := dst) (ext := ext) (live0 := live0) cur s i a d.size True) :
    ∀ (l : List Nat) (last : Option Nat) (items : List Item), l.Nodup → (∀ c ∈ l, i < c ∧ ∃ pc : Pd, E.ra[c]? = some pc ∧ pc.parent = i) →
      ((∀ n ∈ Names E.data l, n = none) ∨ ((∀ n ∈ Names E.data l, n ≠ none) ∧ (Names E.data l).Nodup)) →
      assign E d.fields a last l = some items →
      Row E dst ext live0 cur s i a d.size items ∧
      ∀ j k g, (∃ pj : Pd, E.ra[j]? = some pj ∧ pj.parent = i) → i < j → j ∉ l → d.fields[k]? = some g →
        (((∀ n ∈ Names E.data l, n = none) ∧ k < nextField last) ∨ ((∀ n ∈ Names E.data l, n ≠ none) ∧ some g.name ∉ Names E.data l)) →
        Clear E j (a + g.offset) g items := by
  intro l
  induction l with
  | nil =>
    intro last items _ _ _ h
    simp only [assign, Option.some.injEq] at h
    subst h
    exact ⟨trivial, fun _ _ _ _ _ _ _ _ => trivial⟩
  | cons c l ih =>
    intro last items hnd hl hnames h
    rw [List.nodup_cons] at hnd
    obtain ⟨hic, pc, hpc, hpp⟩ := hl c (by simp)
    obtain ⟨dc, hdc, k, hcase, hfield⟩ := assign_cons h
    rcases hcase with rfl | ⟨g, rest, hg, rfl, hrest⟩
    · exact ⟨trivial, fun _ _ _ _ _ _ _ _ => trivial⟩
    have hgm : g ∈ d.fields := List.mem_of_getElem? hg
    have hnm : Names E.data (c :: l) = dc.name :: Names E.data l := by simp [Names, hdc]
    rw [hnm] at hnames
    have hnames' : (∀ n ∈ Names E.data l, n = none) ∨ ((∀ n ∈ Names E.data l, n ≠ none) ∧ (Names E.data l).Nodup) := by
      rcases hnames with h1 | ⟨h1, h2⟩
      · exact .inl fun n hn => h1 n (by simp [hn])
      · exact .inr ⟨fun n hn => h1 n (by simp [hn]), (List.nodup_cons.1 h2).2⟩
    obtain ⟨ih1, ih2⟩ := ih (some k) rest hnd.2 (fun c hc => hl c (by simp [hc])) hnames' hrest
    have hnamed := S.known.fields.named t d g ht hd hgm
    -- doomed, found by name, or next
    have hthree : Doomed E c g ∨ (dc.name = some g.name) ∨ (dc.name = none ∧ k = nextField last) := by
      rcases hfield with ⟨n, g', e1, e2, e3⟩ | ⟨e1, e2⟩
      · rw [hg] at e2; cases e2
        exact .inr (.inl (by rw [e1, e3]))
      · cases hn : dc.name with
        | none => exact .inr (.inr ⟨rfl, e1⟩)
        | some n => exact .inl ⟨dc, n, hdc, hn, hnamed.1, hnamed.2, fun e => e2 n hn g hgm e.symm⟩
    obtain ⟨hgood, hroom, hin⟩ := good_field S.known ht hd hgm
    refine ⟨?_, fun j k' g' hj hij hjl hg' hcl => ?_⟩
    · rcases hthree with h1 | h1
      · exact .inl h1
      · refine .inr ⟨frame_slot F hpc hpp hic hgood (by omega) (by omega) (fun _ => trivial), hic, desc_kid hpc hpp, ⟨by omega, by omega⟩, ih1, ?_⟩
        refine ih2 c k g ⟨pc, hpc, hpp⟩ hic hnd.1 hg ?_
        rcases h1 with h1 | ⟨h1, h2⟩
        · rcases hnames with h3 | ⟨h3, h4⟩
          · have := h3 dc.name (by simp); rw [h1] at this; cases this
          · rw [h1] at h4
            exact .inr ⟨fun n hn => h3 n (by simp [hn]), (List.nodup_cons.1 h4).1⟩
        · rcases hnames with h3 | ⟨h3, h4⟩
          · exact .inl ⟨fun n hn => h3 n (by simp [hn]), by simp [nextField]⟩
          · exact absurd h1 (h3 dc.name (by simp))
    · rw [hnm] at hcl
      rcases hthree with h1 | h1
      · exact .inl h1
      · obtain ⟨pj, hpj, hjp⟩ := hj
        have hkk : k' ≠ k ∧ (((∀ n ∈ Names E.data l, n = none) ∧ k' < nextField (some k)) ∨ ((∀ n ∈ Names E.data l, n ≠ none) ∧ some g'.name ∉ Names E.data l)) := by
          rcases hcl with ⟨h2, h3⟩ | ⟨h2, h3⟩
          · rcases h1 with h1 | ⟨h1, h1'⟩
            · have := h2 dc.name (by simp); rw [h1] at this; cases this
            · exact ⟨by omega, .inl ⟨fun n hn => h2 n (by simp [hn]), by simp [nextField]; omega⟩⟩
          · rcases h1 with h1 | ⟨h1, _⟩
            · refine ⟨fun e => ?_, .inr ⟨fun n hn => h2 n (by simp [hn]), fun hm => h3 (by simp [hm])⟩⟩
              subst e
              rw [hg] at hg'; cases hg'
              exact h3 (by rw [h1]; simp)
            · exact absurd h1 (h2 dc.name (by simp))
        refine .inr ⟨?_, desc_sibling S.tree hpj hjp hij hpc hpp (fun e => hjl (by simp [e])), ih2 j k' g' ⟨pj, hpj, hjp⟩ hij (fun hm => hjl (by simp [hm])) hg' hkk.2⟩
        obtain ⟨_, hroom', _⟩ := good_field S.known ht hd (List.mem_of_getElem? hg')
        rcases S.known.layout.apart t d k' k g' g ht hd hg' hg hkk.1 with h2 | h2
        · refine .inl ⟨h2.1, h2.2, fun hB => ?_⟩
          have := hB t d k' k g' g ht hd hg' hg hkk.1 h2.1 h2.2
          unfold Apart at *
          omega
        · refine .inr ?_
          unfold Apart at *
          omega

end
end Verif.Lemmas.LoadRow
