import Verif.Model.Names
import Verif.Spec.Names
import Verif.Props.Sort
/-!
# C79: names are compared consistently; C80: fields of a structure are sorted by their places
-/
namespace Verif.Props.Names
open Verif.Model.Names Verif.Spec.Names

theorem strcmp_says : ∀ a b : List Nat, Says (strcmp a b) (a < b) (a = b) (b < a)
  | [], [] => by simp [strcmp, Says]
  | [], b :: y => by simp [strcmp, Says]
  | a :: x, [] => by simp [strcmp, Says]
  | a :: x, b :: y => by
    obtain ⟨h1, h2, h3⟩ := strcmp_says x y
    simp only [strcmp]
    by_cases hab : a = b
    · subst hab
      simp only [if_true, Says, List.cons_lt_cons_iff, Nat.lt_irrefl, false_or, true_and, List.cons.injEq]
      exact ⟨h1, h2, h3⟩
    · rw [if_neg hab]
      have hba : b ≠ a := fun h => hab h.symm
      by_cases hl : a < b
      · simp [hl, Says, List.cons_lt_cons_iff, hab, hba]; omega
      · simp [hl, Says, List.cons_lt_cons_iff, hab, hba]; omega

theorem textCmp_says (a b : Str) : Says (textCmp a b) (TextBefore a b) (a = b) (TextBefore b a) := by
  cases a <;> cases b
  · simp [textCmp, Says, TextBefore]
  · simp [textCmp, Says, TextBefore]
  · simp [textCmp, Says, TextBefore]
  · simpa [textCmp, TextBefore] using strcmp_says _ _

theorem getHash_spec {H : Str → Nat} {x : Hashed} (h : Cached H x) :
    (getHash H x).1 = H x.str ∧ (getHash H x).2.str = x.str ∧ Cached H (getHash H x).2 := by
  unfold getHash
  split
  · exact ⟨rfl, rfl, Or.inr rfl⟩
  · rename_i h0
    exact ⟨h.resolve_left h0, rfl, h⟩

theorem hashedCmp_spec {H : Str → Nat} {x y : Hashed} (hx : Cached H x) (hy : Cached H y) :
    Says (hashedCmp H x y).1 (Before H x.str y.str) (x.str = y.str) (Before H y.str x.str) ∧
    ((hashedCmp H x y).2.1.str = x.str ∧ Cached H (hashedCmp H x y).2.1) ∧
    ((hashedCmp H x y).2.2.str = y.str ∧ Cached H (hashedCmp H x y).2.2) := by
  obtain ⟨a1, a2, a3⟩ := getHash_spec hx
  obtain ⟨b1, b2, b3⟩ := getHash_spec hy
  obtain ⟨t1, t2, t3⟩ := textCmp_says x.str y.str
  have hne : H x.str ≠ H y.str → x.str ≠ y.str := fun h e => h (by rw [e])
  unfold hashedCmp
  simp only [a1, b1]
  split
  · rename_i h
    refine ⟨?_, ⟨a2, a3⟩, b2, b3⟩
    have he : H x.str ≠ H y.str := by omega
    have he' : H y.str ≠ H x.str := by omega
    have := hne he
    simp only [Says, Before, this, he, he', false_and, or_false, iff_false]
    omega
  · split
    · rename_i h
      refine ⟨?_, ⟨a2, a3⟩, b2, b3⟩
      have he : H x.str ≠ H y.str := by omega
      have he' : H y.str ≠ H x.str := by omega
      have := hne he
      simp only [Says, Before, this, he, he', false_and, or_false, iff_false]
      omega
    · refine ⟨?_, ⟨a2, a3⟩, b2, b3⟩
      have he : H x.str = H y.str := by omega
      simp only [a2, b2, Says, Before, he, Nat.lt_irrefl, false_or, true_and]
      exact ⟨t1, t2, t3⟩

theorem entryHash_spec {H : Str → Nat} {x : Entry} (h : Cached H x.name ∧ Cached H x.type) :
    (entryHash H x).1 = (H x.name.str + H x.type.str) % 2 ^ 32 ∧ texts (entryHash H x).2 = texts x ∧
    (Cached H (entryHash H x).2.name ∧ Cached H (entryHash H x).2.type) := by
  obtain ⟨a1, a2, a3⟩ := getHash_spec h.1
  obtain ⟨b1, b2, b3⟩ := getHash_spec h.2
  exact ⟨by simp only [entryHash, a1, b1], by simp only [entryHash, texts, a2, b2], a3, b3⟩

theorem before_irrefl (H : Str → Nat) (a : Str) : ¬ Before H a a := by
  rintro (h | ⟨-, h⟩)
  · omega
  · cases a with
    | none => exact h
    | some l => exact List.lt_irrefl l h

theorem entryCmp_spec {H : Str → Nat} {x y : Entry} (hx : Cached H x.name ∧ Cached H x.type)
    (hy : Cached H y.name ∧ Cached H y.type) :
    Says (entryCmp H x y).1 (Before H x.name.str y.name.str ∨ (x.name.str = y.name.str ∧ Before H x.type.str y.type.str))
      (texts x = texts y) (Before H y.name.str x.name.str ∨ (y.name.str = x.name.str ∧ Before H y.type.str x.type.str)) ∧
    (texts (entryCmp H x y).2.1 = texts x ∧ (Cached H (entryCmp H x y).2.1.name ∧ Cached H (entryCmp H x y).2.1.type)) ∧
    (texts (entryCmp H x y).2.2 = texts y ∧ (Cached H (entryCmp H x y).2.2.name ∧ Cached H (entryCmp H x y).2.2.type)) := by
  obtain ⟨⟨n1, n2, n3⟩, ⟨nx, nxc⟩, ny, nyc⟩ := hashedCmp_spec hx.1 hy.1
  obtain ⟨⟨t1, t2, t3⟩, ⟨tx, txc⟩, ty, tyc⟩ := hashedCmp_spec hx.2 hy.2
  unfold entryCmp
  simp only [texts, Prod.mk.injEq]
  split
  · rename_i h
    refine ⟨?_, ⟨⟨nx, rfl⟩, nxc, hx.2⟩, ⟨ny, rfl⟩, nyc, hy.2⟩
    have hne : x.name.str ≠ y.name.str := fun e => h (n2.2 e)
    have hne' : y.name.str ≠ x.name.str := fun e => hne e.symm
    simp only [Says, hne, hne', false_and, or_false, iff_false]
    exact ⟨n1, h, n3⟩
  · rename_i h
    refine ⟨?_, ⟨⟨nx, tx⟩, nxc, txc⟩, ⟨ny, ty⟩, nyc, tyc⟩
    have he : x.name.str = y.name.str := n2.1 (by omega)
    have hb := before_irrefl H y.name.str
    simp only [Says, he, hb, false_or, true_and]
    exact ⟨t1, t2, t3⟩

theorem set_good {H : Str → Nat} {es : List Entry} (hg : Good H es) {e : Entry} (i : Nat)
    (he : Cached H e.name ∧ Cached H e.type) : Good H (es.set i e) := by
  intro x hx
  rcases List.mem_or_eq_of_mem_set hx with hx | rfl
  · exact hg x hx
  · exact he

theorem set_texts {es : List Entry} {i : Nat} {x e : Entry} (h : es[i]? = some x) (ht : texts e = texts x) :
    (es.set i e).map texts = es.map texts := by
  rw [List.map_set, ht]
  apply List.ext_getElem?
  intro k
  rw [List.getElem?_set]
  split
  · rename_i hk
    subst hk
    obtain ⟨hi, -⟩ := List.getElem?_eq_some_iff.1 h
    have hx : es[i] = x := by simpa [hi] using h
    simp [hi, hx]
  · rfl

theorem set_texts' {es es' : List Entry} (hes : es'.map texts = es.map texts) {i : Nat} {x e : Entry} (h : es[i]? = some x)
    (ht : texts e = texts x) : (es'.set i e).map texts = es.map texts := by
  rw [List.map_set, hes, ← List.map_set]
  exact set_texts h ht

theorem step_ok {H : Str → Nat} {es : List Entry} (hg : Good H es) (op : Op) (hu : ∀ i ∈ used op, i < es.length) :
    ∃ r es', step H es op = some (r, es') ∧ Good H es' ∧ es'.map texts = es.map texts ∧ Right H (es.map texts) r op := by
  cases op with
  | hashName i =>
    have hi : i < es.length := hu i (by simp [used])
    have hx : es[i]? = some es[i] := List.getElem?_eq_getElem hi
    have hc := hg es[i] (List.getElem_mem hi)
    obtain ⟨a1, a2, a3⟩ := getHash_spec hc.1
    refine ⟨_, es.set i ⟨(getHash H es[i].name).2, es[i].type⟩, by simp only [step, hx]; rfl, set_good hg i ⟨a3, hc.2⟩,
      set_texts hx (by simp [texts, a2]), texts es[i], by simp [hx], ?_⟩
    rw [a1]; rfl
  | hashBoth i =>
    have hi : i < es.length := hu i (by simp [used])
    have hx : es[i]? = some es[i] := List.getElem?_eq_getElem hi
    have hc := hg es[i] (List.getElem_mem hi)
    obtain ⟨a1, a2, a3⟩ := entryHash_spec hc
    refine ⟨_, _, by simp only [step, hx]; rfl, set_good hg i a3, set_texts hx a2, texts es[i], by simp [hx], ?_⟩
    rw [a1]; rfl
  | cmpName i j =>
    have hi : i < es.length := hu i (by simp [used])
    have hj : j < es.length := hu j (by simp [used])
    have hx : es[i]? = some es[i] := List.getElem?_eq_getElem hi
    have hy : es[j]? = some es[j] := List.getElem?_eq_getElem hj
    have hc := hg es[i] (List.getElem_mem hi)
    have hd := hg es[j] (List.getElem_mem hj)
    obtain ⟨hs, ⟨a2, a3⟩, b2, b3⟩ := hashedCmp_spec hc.1 hd.1
    refine ⟨_, (es.set i ⟨(hashedCmp H es[i].name es[j].name).2.1, es[i].type⟩).set j
      ⟨(hashedCmp H es[i].name es[j].name).2.2, es[j].type⟩, by simp only [step, hx, hy]; rfl, 
      set_good (e := ⟨_, es[j].type⟩) (set_good (e := ⟨_, es[i].type⟩) hg i ⟨a3, hc.2⟩) j ⟨b3, hd.2⟩,
      set_texts' (set_texts hx (by simp [texts, a2])) hy (by simp [texts, b2]), texts es[i], texts es[j], by simp [hx], by simp [hy], hs⟩
  | cmpBoth i j =>
    have hi : i < es.length := hu i (by simp [used])
    have hj : j < es.length := hu j (by simp [used])
    have hx : es[i]? = some es[i] := List.getElem?_eq_getElem hi
    have hy : es[j]? = some es[j] := List.getElem?_eq_getElem hj
    have hc := hg es[i] (List.getElem_mem hi)
    have hd := hg es[j] (List.getElem_mem hj)
    obtain ⟨hs, ⟨a2, a3⟩, b2, b3⟩ := entryCmp_spec hc hd
    exact ⟨_, _, by simp only [step, hx, hy]; rfl, set_good (set_good hg i a3) j b3,
      set_texts' (set_texts hx a2) hy b2, texts es[i], texts es[j], by simp [hx], by simp [hy], hs⟩

/-- **C79**: in every sequence of calls of the hash functions and comparators, from entries whose hash values are missing or right, every
hash value is the one of the text, every comparison by name, or by name and type, gives its place in one order that depends on the
texts only, and the texts stay as they are. -/
theorem C79_history (H : Str → Nat) : ∀ (ops : List Op) (es : List Entry), Good H es →
    (∀ op ∈ ops, ∀ i ∈ used op, i < es.length) →
    ∃ rs es', run H es ops = some (rs, es') ∧ Good H es' ∧ es'.map texts = es.map texts ∧ rs.length = ops.length ∧
      ∀ (k : Nat) (op : Op) (r : Int), ops[k]? = some op → rs[k]? = some r → Right H (es.map texts) r op := by
  intro ops
  induction ops with
  | nil => intro es hg _; exact ⟨[], es, rfl, hg, rfl, rfl, by simp⟩
  | cons op ops ih =>
    intro es hg hu
    obtain ⟨r, es1, h1, g1, t1, r1⟩ := step_ok hg op (hu op (by simp))
    have hlen : es1.length = es.length := by simpa using congrArg List.length t1
    obtain ⟨rs, es2, h2, g2, t2, l2, r2⟩ := ih es1 g1 (fun o ho i hi => by rw [hlen]; exact hu o (by simp [ho]) i hi)
    refine ⟨r :: rs, es2, by simp [run, h1, h2], g2, t2.trans t1, by simp [l2], ?_⟩
    intro k o s ho hs
    cases k with
    | zero =>
      simp at ho hs
      subst ho; subst hs
      exact r1
    | succ k =>
      rw [← t1]
      exact r2 k o s (by simpa using ho) (by simpa using hs)

/-- **C79**: the order of names is a strict total order: tables by name find a name if and only if it is there (C12–C17) -/
theorem C79_total_order (H : Str → Nat) :
    (∀ a, ¬ Before H a a) ∧ (∀ a b c, Before H a b → Before H b c → Before H a c) ∧
    (∀ a b, Before H a b ∨ a = b ∨ Before H b a) := by
  refine ⟨before_irrefl H, ?_, ?_⟩
  · rintro a b c (h1 | ⟨h1, t1⟩) (h2 | ⟨h2, t2⟩)
    · exact Or.inl (by omega)
    · exact Or.inl (by omega)
    · exact Or.inl (by omega)
    · refine Or.inr ⟨by omega, ?_⟩
      cases a <;> cases b <;> cases c <;> simp_all [TextBefore]
      exact List.lt_trans t1 t2
  · intro a b
    obtain ⟨h1, h2, h3⟩ := textCmp_says a b
    rcases Nat.lt_trichotomy (H a) (H b) with h | h | h
    · exact Or.inl (Or.inl h)
    · rcases Int.lt_trichotomy (textCmp a b) 0 with t | t | t
      · exact Or.inl (Or.inr ⟨h, h1.1 t⟩)
      · exact Or.inr (Or.inl (h2.1 t))
      · exact Or.inr (Or.inr (Or.inr ⟨h.symm, h3.1 t⟩))
    · exact Or.inr (Or.inr (Or.inl h))

/-- **C79**: what compares as equal has the same hash value -/
theorem C79_equal_hash {H : Str → Nat} {x y : Entry} (hx : Cached H x.name ∧ Cached H x.type)
    (hy : Cached H y.name ∧ Cached H y.type) (h : (entryCmp H x y).1 = 0) : (entryHash H x).1 = (entryHash H y).1 := by
  have := (entryCmp_spec hx hy).1.2.1.1 h
  simp only [texts, Prod.mk.injEq] at this
  rw [(entryHash_spec hx).1, (entryHash_spec hy).1, this.1, this.2]

/-- three entries, two of them with the same name; one hash value is known, the others are not -/
def exEntries : List Entry :=
  [⟨⟨some [97], 7⟩, ⟨some [105], 0⟩⟩, ⟨⟨some [98], 0⟩, ⟨some [105], 0⟩⟩, ⟨⟨some [97], 0⟩, ⟨none, 0⟩⟩]

example : Good (fun _ => 7) exEntries ∧ (run (fun _ => 7) exEntries [.cmpName 0 1, .cmpName 0 2, .cmpBoth 0 2, .hashBoth 1]).map
    (·.1) = some [-1, 0, 1, 14] := by
  refine ⟨?_, by decide⟩
  intro e he
  simp [exEntries] at he
  rcases he with rfl | rfl | rfl <;> simp [Cached]

theorem sign_says (a b : Nat) : Says (sign a b) (a < b) (a = b) (a > b) := by
  unfold sign Says
  split <;> split <;> omega

theorem pair_says {α : Type} [LT α] (hirr : ∀ a : α, ¬ a < a) {c : α → α → Int} (hc : ∀ a b, Says (c a b) (a < b) (a = b) (b < a))
    (x y : α × α) : Says (if c x.1 y.1 ≠ 0 then c x.1 y.1 else c x.2 y.2) (PairBefore x y) (x = y) (PairBefore y x) := by
  obtain ⟨a1, a2, a3⟩ := hc x.1 y.1
  obtain ⟨b1, b2, b3⟩ := hc x.2 y.2
  obtain ⟨x1, x2⟩ := x
  obtain ⟨y1, y2⟩ := y
  simp only at *
  split
  · rename_i h
    have hne : x1 ≠ y1 := fun e => h (a2.2 e)
    have hne' : y1 ≠ x1 := fun e => hne e.symm
    simp only [Says, PairBefore, hne, hne', Prod.mk.injEq, false_and, or_false, iff_false]
    exact ⟨a1, h, a3⟩
  · rename_i h
    have he : x1 = y1 := a2.1 (by omega)
    subst he
    simp only [Says, PairBefore, hirr, Prod.mk.injEq, true_and, false_or]
    exact ⟨b1, b2, b3⟩

/-- **C79**: variables are compared by file and name: 0 exactly for the same variable, and the hash values of one variable agree -/
theorem C79_variables (H : Str → Nat) (x y : List Nat × List Nat) :
    Says (varCmp x y) (PairBefore x y) (x = y) (PairBefore y x) ∧ (varCmp x y = 0 → varHash H x = varHash H y) := by
  have h := pair_says (c := strcmp) List.lt_irrefl strcmp_says x y
  exact ⟨h, fun e => by rw [h.2.1.1 e]⟩

/-- **C79**: the results for unions are compared by field and member -/
theorem C79_unions (x y : Nat × Nat) :
    Says (udsCmp x y) (PairBefore x y) (x = y) (PairBefore y x) ∧ (udsCmp x y = 0 → udsHash x = udsHash y) := by
  have h := pair_says (c := sign) Nat.lt_irrefl sign_says x y
  exact ⟨h, fun e => by rw [h.2.1.1 e]⟩

example : varCmp ([97], [98]) ([97], [98, 99]) = -1 ∧ udsCmp (16, 8) (16, 4) = 1 := by decide

/-- the order of the fields without signs -/
theorem offsetCmp_le (x y : Field) : offsetCmp x y ≤ 0 ↔
    x.offset < y.offset ∨ (x.offset = y.offset ∧
      if x.bits = true ∧ y.bits = true then
        x.shift < y.shift ∨ (x.shift = y.shift ∧ (x.width < y.width ∨ (x.width = y.width ∧ x.size ≤ y.size)))
      else x.size ≤ y.size) := by
  obtain ⟨o1, o2, o3⟩ := sign_says x.offset y.offset
  obtain ⟨s1, s2, s3⟩ := sign_says x.shift y.shift
  obtain ⟨w1, w2, w3⟩ := sign_says x.width y.width
  obtain ⟨z1, z2, z3⟩ := sign_says x.size y.size
  unfold offsetCmp
  by_cases hb : x.bits = true ∧ y.bits = true
  · simp only [hb.1, hb.2, Bool.and_self, Bool.true_and, decide_eq_true_eq, and_self, if_true]
    split
    · omega
    · split
      · omega
      · split <;> omega
  · have hb' : (x.bits && y.bits) = false := by
      cases hx : x.bits <;> cases hy : y.bits <;> simp_all
    simp only [hb', Bool.false_and, Bool.false_eq_true, if_false, hb]
    split <;> omega

theorem offset_preorder (bitBytes : Nat → Bool) :
    Spec.TotalPreorder (α := {f : Field // Fits bitBytes f}) (fun x y => offsetCmp x.1 y.1) := by
  constructor
  · rintro ⟨x, hx⟩ ⟨y, hy⟩ h
    have h' : ¬ offsetCmp x y ≤ 0 := by simpa using h
    show offsetCmp y x ≤ 0
    rw [offsetCmp_le] at h' ⊢
    by_cases hb : x.bits = true ∧ y.bits = true
    · simp only [hb.1, hb.2, and_self, if_true] at h' ⊢; omega
    · have hb' : ¬ (y.bits = true ∧ x.bits = true) := fun h => hb h.symm
      simp only [hb, hb', if_false] at h' ⊢; omega
  · rintro ⟨x, hx⟩ ⟨y, hy⟩ ⟨z, hz⟩ h1 h2
    have h1' : offsetCmp x y ≤ 0 := h1
    have h2' : offsetCmp y z ≤ 0 := h2
    show offsetCmp x z ≤ 0
    rw [offsetCmp_le] at h1' h2' ⊢
    rcases h1' with h1' | ⟨e1, h1'⟩
    · exact Or.inl (by rcases h2' with h | ⟨h, -⟩ <;> omega)
    rcases h2' with h2' | ⟨e2, h2'⟩
    · exact Or.inl (by omega)
    refine Or.inr ⟨by omega, ?_⟩
    unfold Fits at hx hy hz
    rw [← e1] at hy
    rw [← e2, ← e1] at hz
    clear h1 h2 e1 e2
    generalize bitBytes x.offset = bb at hx hy hz
    cases hxb : x.bits <;> cases hyb : y.bits <;> cases hzb : z.bits <;> cases bb <;>
      simp [hxb, hyb, hzb] at hx hy hz h1' h2' ⊢ <;> omega

/-- **C80**: sorting the fields of a structure gives the same fields by increasing offset; among fields at the same place those of size 0
come before the others, and bit-fields are in the order of their bits. -/
theorem C80_sorted {bitBytes : Nat → Bool} (fs : List {f : Field // Fits bitBytes f}) (hlen : fs.length ≤ 2 ^ 31) :
    ∃ l, Model.Hsort.hsort (fun x y => offsetCmp x.1 y.1) fs = some l ∧ l.Perm fs ∧
      l.Pairwise fun x y => x.1.offset < y.1.offset ∨ (x.1.offset = y.1.offset ∧
        (y.1.size = 0 → x.1.size = 0) ∧ (x.1.bits = true → y.1.bits = true → x.1.shift ≤ y.1.shift)) := by
  obtain ⟨l, h1, h2, h3⟩ := Sort.C01_sorted_permutation _ fs (offset_preorder bitBytes) hlen
  refine ⟨l, h1, h2, h3.imp ?_⟩
  rintro ⟨x, hx⟩ ⟨y, hy⟩ h
  have h' : offsetCmp x y ≤ 0 := h
  rw [offsetCmp_le] at h'
  show x.offset < y.offset ∨ _
  rcases h' with h' | ⟨e, h'⟩
  · exact Or.inl h'
  refine Or.inr ⟨e, ?_, ?_⟩
  · intro hz
    show x.size = 0
    have hz : y.size = 0 := hz
    by_cases hb : x.bits = true ∧ y.bits = true
    · unfold Fits at hy
      rw [if_pos hb.2] at hy
      omega
    · rw [if_neg hb] at h'
      omega
  · intro hxb hyb
    show x.shift ≤ y.shift
    rw [if_pos ⟨hxb, hyb⟩] at h'
    omega

example : ∃ l, Model.Hsort.hsort (fun x y : {f : Field // Fits (· == 4) f} => offsetCmp x.1 y.1)
    [⟨⟨4, 4, true, 3, 2⟩, by simp [Fits]⟩, ⟨⟨4, 0, false, 0, 0⟩, by simp [Fits]⟩, ⟨⟨4, 8, true, 0, 3⟩, by simp [Fits]⟩,
      ⟨⟨0, 4, false, 0, 0⟩, by simp [Fits]⟩] = some l ∧ l.map (·.1.size) = [4, 0, 8, 4] :=
  ⟨_, rfl, by decide⟩

/-- if fields overlap (a union, or wrong offsets) the comparator has no order: two bit-fields and a field of 6 bytes at the same place -/
theorem C80_deviation_overlap :
    offsetCmp ⟨0, 8, true, 0, 1⟩ ⟨0, 4, true, 0, 2⟩ < 0 ∧ offsetCmp ⟨0, 4, true, 0, 2⟩ ⟨0, 6, false, 0, 0⟩ < 0 ∧
    offsetCmp ⟨0, 6, false, 0, 0⟩ ⟨0, 8, true, 0, 1⟩ < 0 := by decide

end Verif.Props.Names
