import Verif.Lemmas.LoadPtr
import Verif.Lemmas.Dfs
import Verif.Spec.LoadFits
/-!
Loading a document that fits the type: no step fails if there is enough memory.
-/
namespace Verif.Lemmas.LoadFits
open Verif.Model Verif.Model.Ptrs Verif.Model.Save Verif.Model.Copy Verif.Model.Load Verif.Spec Verif.Spec.Save Verif.Spec.Load Verif.Spec.LoadSays Verif.Spec.LoadFits
  Verif.Lemmas.XdrMem Verif.Lemmas.CopyMem Verif.Lemmas.LoadSafe Verif.Lemmas.LoadInv Verif.Lemmas.LoadStep Verif.Lemmas.LoadRow Verif.Lemmas.LoadOpen Verif.Lemmas.LoadEnd
open Verif.Model.XdrGraph (put peek bytesAt bitBytes toBits ofBits bytesWord tdAt tdType wordBytes)
open Verif.Spec.Copy (Apart Layout span Allocator Grown)
open Verif.Lemmas.XdrSafe (home home_mono home_live not_home)

/-- every object was read as a type that fits, and no block is too large -/
structure Going (live0 : Blocks) (size : Nat) (R : Nat → Fd → Prop) (s : LSt) : Prop where
  small : ∀ b ∈ s.live.drop live0.length, b.2 ≤ size
  typed : ∀ (j : Nat) (x : Node), s.nodes[j]? = some x → x.addr ≠ 0 → R j x.fd ∧ x.ty = x.fd.ty ∧ x.aux = x.fd.aux ∧ x.td = x.fd.td

/-- items that can be loaded -/
def Ready (R : Nat → Fd → Prop) (items : List Item) : Prop := ∀ it ∈ items, ∃ c b g, it = some (c, b, g) ∧ R c g ∧ b ≠ 0

section
variable {E : Env} {dst ext : Nat} {live0 : Blocks} {m0 : Bytes} (S : Setup E dst ext live0)
include S

/-- there are less blocks than nodes, if a node has no block -/
theorem count {cur : Nat} {s : LSt} (h : Inv E dst ext live0 m0 cur s) {i : Nat} {x : Node} (hx : s.nodes[i]? = some x) (h0 : word s.m x.addr = 0) :
    (s.live.drop live0.length).length < E.ra.length := by
  have hapart := (grown_apart S.alloc h.grown).imp_of_mem (S := fun b c : Nat × Nat => b.1 ≠ c.1) (by
    intro b c hb hc h2 h3
    have := h.size b hb
    have := h.size c hc
    unfold Apart at h2
    omega)
  have hpos := grown_pos h.grown
  have hheld := h.held
  revert hapart hpos hheld
  generalize s.live.drop live0.length = news
  intro hapart hpos hheld
  have key : ∀ L : Blocks, (∀ b ∈ L, b ∈ news) → L.Pairwise (fun b c => b.1 ≠ c.1) →
      ∃ hs : List Nat, hs.length = L.length ∧ hs.Nodup ∧ ∀ j ∈ hs, j < s.nodes.length ∧ j ≠ i ∧ ∃ b ∈ L, ∃ y : Node, s.nodes[j]? = some y ∧ word s.m y.addr = b.1 := by
    intro L
    induction L with
    | nil => intro _ _; exact ⟨[], rfl, List.nodup_nil, fun j hj => by cases hj⟩
    | cons b L ih =>
      intro hsub hp
      obtain ⟨hs, l1, l2, l3⟩ := ih (fun c hc => hsub c (List.mem_cons_of_mem _ hc)) (List.pairwise_cons.1 hp).2
      obtain ⟨j, y, hy, _, hw⟩ := hheld b (hsub b (List.mem_cons_self ..))
      refine ⟨j :: hs, by simp [l1], List.nodup_cons.2 ⟨fun hj => ?_, l2⟩, fun k hk => ?_⟩
      · obtain ⟨_, _, c, hc, z, hz, hwz⟩ := l3 j hj
        rw [hy] at hz; cases hz
        exact (List.pairwise_cons.1 hp).1 c hc (hw.symm.trans hwz)
      · rcases List.mem_cons.1 hk with rfl | hk
        · refine ⟨(List.getElem?_eq_some_iff.1 hy).1, fun e => ?_, b, List.mem_cons_self .., y, hy, hw⟩
          subst e
          rw [hx] at hy; cases hy
          exact hpos b (hsub b (List.mem_cons_self ..)) (hw.symm.trans h0)
        · obtain ⟨k1, k2, c, hc, k3⟩ := l3 k hk
          exact ⟨k1, k2, c, List.mem_cons_of_mem _ hc, k3⟩
  obtain ⟨hs, l1, l2, l3⟩ := key news (fun _ h => h) hapart
  have := Lemmas.Dfs.nodup_len (l := i :: hs) (n := s.nodes.length) (List.nodup_cons.2 ⟨fun hi => (l3 i hi).2.1 rfl, l2⟩) (fun j hj => by
    rcases List.mem_cons.1 hj with rfl | hj
    · exact (List.getElem?_eq_some_iff.1 hx).1
    · exact (l3 j hj).1)
  rw [List.length_cons, h.len] at this
  omega

variable {size : Nat} {R : Nat → Fd → Prop} (hM : Plenty E.alloc live0 E.ra.length size) (F : Fits E size R)
include hM

/-- a block can be allocated -/
theorem allocated {cur : Nat} {s : LSt} (h : Inv E dst ext live0 m0 cur s) (G : Going live0 size R s) {i : Nat} {x : Node} (hx : s.nodes[i]? = some x) (h0 : word s.m x.addr = 0)
    {n : Nat} (hn : 0 < n) (hs : n ≤ size) : E.alloc s.live n ≠ 0 := by
  have := hM (s.live.drop live0.length) n h.grown (count S h hx h0) G.small hn hs
  obtain ⟨l, e⟩ := h.live
  rw [← e, List.drop_left] at this
  rw [← e]
  exact this

omit S hM
theorem going_same {s s' : LSt} (G : Going live0 size R s) (h1 : s'.live = s.live) (h2 : s'.nodes = s.nodes) : Going live0 size R s' :=
  ⟨by rw [h1]; exact G.small, by rw [h2]; exact G.typed⟩

theorem going_alloc {cur : Nat} {s : LSt} {m : Bytes} {a n : Nat} (h : Inv E dst ext live0 m0 cur s) (G : Going live0 size R s) (hn : n ≤ size) :
    Going live0 size R { m := m, live := s.live ++ [(a, n)], nodes := s.nodes } := by
  refine ⟨fun b hb => ?_, G.typed⟩
  have hle : live0.length ≤ s.live.length := by obtain ⟨l, e⟩ := h.live; rw [← e]; simp
  rw [List.drop_append_of_le_length hle] at hb
  rcases List.mem_append.1 hb with hb | hb
  · exact G.small b hb
  · rw [List.mem_singleton.1 hb]; exact hn

theorem going_poke {s s' : LSt} {b : Nat} {bs : List Nat} (G : Going live0 size R s) (h : s.poke b bs = some s') : Going live0 size R s' := by
  unfold LSt.poke at h
  split at h
  · injection h with h; subst h; exact going_same G rfl rfl
  · cases h

theorem going_store {s s' : LSt} {b v : Nat} (G : Going live0 size R s) (h : s.store b v = some s') : Going live0 size R s' := by
  unfold LSt.store at h
  split at h
  · injection h with h; subst h; exact going_same G rfl rfl
  · cases h

theorem going_node {s s' : LSt} {i : Nat} {H : Node → Node} (G : Going live0 size R s) (h : s.setNode i H = some s')
    (hH : ∀ x, s.nodes[i]? = some x → (H x).addr ≠ 0 → R i (H x).fd ∧ (H x).ty = (H x).fd.ty ∧ (H x).aux = (H x).fd.aux ∧ (H x).td = (H x).fd.td) : Going live0 size R s' := by
  obtain ⟨x, hx, _, el, hi, hj, _⟩ := setNode_get h
  refine ⟨by rw [el]; exact G.small, fun j y hy hy0 => ?_⟩
  by_cases e : j = i
  · subst e
    rw [hi] at hy; cases hy
    exact hH x hx hy0
  · rw [hj j e] at hy
    exact G.typed j y hy hy0

theorem going_reference {s s' : LSt} {i : Nat} {v : BitVec 128} (G : Going live0 size R s) (h : reference s i v = some s') : Going live0 size R s' := by
  unfold reference at h
  split at h
  · exact going_node G h fun x hx h0 => G.typed i x hx h0
  · split at h
    · cases h
    · exact going_node G h fun x hx h0 => G.typed i x hx h0

theorem scalar_goes {s s' : LSt} {i a : Nat} {f : Fd} {ok : Bool} {items : List Item} (G : Going live0 size R s) (hc : E.conv f i ≠ .fail) (e : loadScalar E s i a f = some (ok, s', items)) :
    ok = true ∧ Going live0 size R s' ∧ items = [] := by
  unfold loadScalar at e
  split at e
  · next h => exact absurd h hc
  · simp only [finished, Option.some.injEq, Prod.mk.injEq] at e
    obtain ⟨rfl, rfl, rfl⟩ := e
    exact ⟨rfl, G, rfl⟩
  · obtain ⟨s1, e1, e⟩ := Option.bind_eq_some_iff.1 e
    simp only [finished, Option.some.injEq, Prod.mk.injEq] at e
    obtain ⟨rfl, rfl, rfl⟩ := e
    exact ⟨rfl, going_poke G e1, rfl⟩

theorem elements_ready {a : Nat} {g : Fd} {count : Nat} (ha : a ≠ 0) : ∀ (l : List Nat) (k : Nat), k + l.length ≤ count → (∀ c ∈ l, R c g) → Ready R (elements a g count k l) := by
  intro l
  induction l with
  | nil => intro k _ _ it hit; cases hit
  | cons c l ih =>
    intro k hk hl it hit
    rw [List.length_cons] at hk
    unfold elements at hit
    rw [if_neg (by omega)] at hit
    rcases List.mem_cons.1 hit with rfl | hit
    · exact ⟨c, a + k * g.size, g, rfl, hl c (List.mem_cons_self ..), by omega⟩
    · exact ih (k + 1) (by omega) (fun c hc => hl c (List.mem_cons_of_mem _ hc)) it hit

theorem assign_ready {fields : List Fd} (hnd : (fields.map Fd.name).Nodup) {a : Nat} (ha : a ≠ 0) : ∀ (l : List Nat) (last : Option Nat) (items : List Item),
    ((∀ n ∈ Names E.data l, n = none) ∨ ∀ n ∈ Names E.data l, n ≠ none) →
    (∀ (q c : Nat), l[q]? = some c → ∃ k g d, fields[k]? = some g ∧ E.data[c]? = some d ∧ (∀ n, d.name = some n → g.name = n) ∧ (d.name = none → k = nextField last + q) ∧ R c g) →
    assign E fields a last l = some items → Ready R items := by
  intro l
  induction l with
  | nil =>
    intro last items _ _ e
    simp only [assign, Option.some.injEq] at e
    subst e
    intro it hit; cases hit
  | cons c l ih =>
    intro last items hn hl e
    obtain ⟨dc, hdc, k, hcase, hfield⟩ := assign_cons e
    obtain ⟨k', g', d', g1, g2, g3, g4, g5⟩ := hl 0 c rfl
    rw [hdc] at g2; cases g2
    have hkk : k = k' := by
      rcases hfield with ⟨n, g, n1, n2, n3⟩ | ⟨n1, n2⟩
      · have e1 := g3 n n1
        have h1 : (fields.map Fd.name)[k]? = some n := by rw [List.getElem?_map, n2]; simp [n3]
        have h2 : (fields.map Fd.name)[k']? = some n := by rw [List.getElem?_map, g1]; simp [e1]
        exact (List.getElem?_inj (List.getElem?_eq_some_iff.1 h1).1 hnd).1 (h1.trans h2.symm)
      · cases hnm : dc.name with
        | none => rw [n1, g4 hnm]; rfl
        | some n => exact absurd (g3 n hnm) (n2 n hnm g' (List.mem_of_getElem? g1))
    subst hkk
    have hnm : Names E.data (c :: l) = dc.name :: Names E.data l := by simp [Names, hdc]
    rw [hnm] at hn
    rcases hcase with rfl | ⟨g, rest, h1, rfl, h2⟩
    · exfalso
      unfold assign at e
      rw [hdc] at e
      simp only [Option.bind_eq_bind, Option.bind_some] at e
      cases hf : dc.name.bind fun n => fields.findIdx? fun g => g.name == n with
      | none =>
        rw [hf] at e
        have hkn : k = nextField last := by
          cases hnm : dc.name with
          | none => exact g4 hnm
          | some n =>
            rw [hnm, Option.bind_some, List.findIdx?_eq_none_iff] at hf
            have := hf g' (List.mem_of_getElem? g1)
            rw [g3 n hnm] at this
            simp at this
        simp only [← hkn, g1] at e
        obtain ⟨_, _, e⟩ := Option.bind_eq_some_iff.1 e
        simp at e
      | some k2 =>
        rw [hf] at e
        obtain ⟨n, hn', hk2⟩ := Option.bind_eq_some_iff.1 hf
        obtain ⟨g2, hg1, hg2⟩ := findIdx?_name hk2
        simp only [hg1] at e
        obtain ⟨_, _, e⟩ := Option.bind_eq_some_iff.1 e
        simp at e
    · rw [h1] at g1; cases g1
      intro it hit
      rcases List.mem_cons.1 hit with rfl | hit
      · exact ⟨c, a + g'.offset, g', rfl, g5, by omega⟩
      · refine ih (some k) rest ?_ (fun q c' hq => ?_) h2 it hit
        · rcases hn with hn | hn
          · exact .inl fun n h => hn n (List.mem_cons_of_mem _ h)
          · exact .inr fun n h => hn n (List.mem_cons_of_mem _ h)
        · obtain ⟨k2, g2, d2, j1, j2, j3, j4, j5⟩ := hl (q + 1) c' hq
          refine ⟨k2, g2, d2, j1, j2, j3, fun h => ?_, j5⟩
          rcases hn with hn | hn
          · have e1 := g4 (hn _ (List.mem_cons_self ..))
            have e2 := j4 h
            show k2 = k + 1 + q
            omega
          · exfalso
            refine hn none (List.mem_cons_of_mem _ ?_) rfl
            unfold Names
            rw [← h]
            exact List.mem_map.2 ⟨c', List.mem_of_getElem? hq, by rw [j2]; rfl⟩

include S hM F

theorem open_goes {cur : Nat} {s s' : LSt} {i a : Nat} {f : Fd} {d : Doc} {ok : Bool} {items : List Item} (h : Inv E dst ext live0 m0 cur s)
    (H : Entered (E := E) (dst := dst) (ext := ext) (live0 := live0) cur s i a f) (G : Going live0 size R s) (hR : R i f) (hd : E.data[i]? = some d)
    (e : openNode E s i a f d = some (ok, s', items)) : ok = true ∧ Going live0 size R s' ∧ Ready R items := by
  have hnil : Ready R [] := fun it hit => by cases hit
  have ha : a ≠ 0 := by obtain ⟨x, _, _, h, _⟩ := H.node; exact h
  have conv : ∀ b, converted E f i = some b → E.conv f i ≠ .fail := by
    intro b hb h
    unfold converted at hb
    rw [h] at hb; cases hb
  have val := F.value i f d hR
  obtain ⟨pd, l, h1, h2, h3, h4, h5⟩ := kids_ok S.tree H.index
  have scalar : valueType f.ty = true → f.ty ≠ .charArray → f.ty ≠ .func → f.ty ≠ .funcType → loadScalar E s i a f = some (ok, s', items) → ok = true ∧ Going live0 size R s' ∧ Ready R items := by
    intro hv t1 t2 t3 e
    have hb := val hv hd
    obtain ⟨b, hb⟩ := Option.ne_none_iff_exists'.1 hb
    have hb' : converted E f i = some b := by
      unfold valueBytes at hb
      split at hb
      · next t => exact absurd t t1
      · next t => exact absurd t t2
      · next t => exact absurd t t3
      · exact hb
    obtain ⟨r1, r2, r3⟩ := scalar_goes G (conv b hb') e
    exact ⟨r1, r2, by rw [r3]; exact hnil⟩
  have func : f.ty = .func ∨ f.ty = .funcType → loadFunc E s i a f d = some (ok, s', items) → ok = true ∧ Going live0 size R s' ∧ Ready R items := by
    intro ht e
    unfold loadFunc at e
    obtain ⟨s1, e1, e⟩ := Option.bind_eq_some_iff.1 e
    have G1 := going_store G e1
    by_cases hn : d.null = true
    · rw [if_pos hn] at e
      simp only [finished, Option.some.injEq, Prod.mk.injEq] at e
      obtain ⟨rfl, rfl, rfl⟩ := e
      exact ⟨rfl, G1, hnil⟩
    · rw [if_neg hn] at e
      have hb := val (by rcases ht with ht | ht <;> rw [ht] <;> rfl) hd
      obtain ⟨b, hb⟩ := Option.ne_none_iff_exists'.1 hb
      have hb' : converted E f i = some b := by
        unfold valueBytes at hb
        rcases ht with ht | ht <;> rw [ht] at hb <;> simp only [hn] at hb <;> exact hb
      obtain ⟨r1, r2, r3⟩ := scalar_goes G1 (conv b hb') e
      exact ⟨r1, r2, by rw [r3]; exact hnil⟩
  have fin : finished s = some (ok, s', items) → ok = true ∧ Going live0 size R s' ∧ Ready R items := by
    intro e
    simp only [finished, Option.some.injEq, Prod.mk.injEq] at e
    obtain ⟨rfl, rfl, rfl⟩ := e
    exact ⟨rfl, G, hnil⟩
  unfold openNode at e
  split at e
  · exact fin e
  · exact fin e
  · exact fin e
  · next ht =>
    obtain ⟨x, hx, hxa, _, hxt⟩ := H.node
    have hr : room E.tds f = 8 := by unfold room; rw [ht]; simp [elementSize, typeSize]
    have hw : word s.m x.addr = 0 := by rw [hxa]; exact zero_word fun k hk => H.zero (by rw [ht]; simp) k (by omega)
    have hcov : covered s.live a 8 = true := by have := cell_live S h H.sits; rw [hr] at this; exact this
    unfold loadString at e
    rw [hx] at e
    simp only [Option.bind_eq_bind, Option.bind_some, store_zero hcov (by rw [← hxa]; exact hw)] at e
    by_cases hn : (d.null || x.ref || x.cref) = true
    · rw [if_pos hn] at e; exact fin e
    rw [if_neg hn] at e
    simp only [Bool.or_eq_true, not_or, Bool.not_eq_true] at hn
    split at e
    · next t et =>
      have hlt : t.length < size := by
        rcases F.text i f d hR ht hd with g | ⟨v, g⟩ | ⟨t', g, g'⟩
        · rw [hn.1.1] at g; cases g
        · rw [et] at g; cases g
        · rw [et] at g; cases g; exact g'
      have h0 := allocated S hM h G hx hw (n := t.length + 1) (by omega) (by omega)
      unfold LSt.calloc at e
      simp only [h0, if_false] at e
      obtain ⟨s1, e1, e⟩ := Option.bind_eq_some_iff.1 e
      obtain ⟨s2, e2, e⟩ := Option.bind_eq_some_iff.1 e
      simp only [finished, Option.some.injEq, Prod.mk.injEq] at e
      obtain ⟨rfl, rfl, rfl⟩ := e
      exact ⟨rfl, going_poke (going_store (going_alloc h G hlt) e1) e2, hnil⟩
    · obtain ⟨s1, e1, e⟩ := Option.bind_eq_some_iff.1 e
      simp only [finished, Option.some.injEq, Prod.mk.injEq] at e
      obtain ⟨rfl, rfl, rfl⟩ := e
      exact ⟨rfl, going_reference G e1, hnil⟩
    · next t1 t2 =>
      rcases F.text i f d hR ht hd with g | ⟨v, g⟩ | ⟨t', g, g'⟩
      · rw [hn.1.1] at g; cases g
      · exact absurd g (t2 v)
      · exact absurd g (t1 t')
  · next ht =>
    unfold loadChars at e
    obtain ⟨s1, e1, e⟩ := Option.bind_eq_some_iff.1 e
    have G1 : Going live0 size R s1 := by
      unfold LSt.emptied at e1
      split at e1
      · exact going_poke G e1
      · injection e1 with e1; subst e1; exact G
    split at e
    · obtain ⟨pd, _, e⟩ := Option.bind_eq_some_iff.1 e
      obtain ⟨p, _, e⟩ := Option.bind_eq_some_iff.1 e
      split at e
      · cases e
      · obtain ⟨s2, e2, e⟩ := Option.bind_eq_some_iff.1 e
        have G2 := going_poke G1 e2
        split at e
        · obtain ⟨s3, e3, e⟩ := Option.bind_eq_some_iff.1 e
          simp only [finished, Option.some.injEq, Prod.mk.injEq] at e
          obtain ⟨rfl, rfl, rfl⟩ := e
          exact ⟨rfl, going_poke G2 e3, hnil⟩
        · simp only [finished, Option.some.injEq, Prod.mk.injEq] at e
          obtain ⟨rfl, rfl, rfl⟩ := e
          exact ⟨rfl, G2, hnil⟩
    · next hno =>
      exfalso
      have hb := val (by rw [ht]; rfl) hd
      apply hb
      unfold valueBytes
      rw [ht]
      cases hv : d.val with
      | text t => exact absurd hv (hno t)
      | int v => rfl
      | none => rfl
      | other => rfl
  · next ht =>
    unfold loadBits at e
    split at e
    · next hc => exact absurd hc (F.bits i f hR ht)
    · exact fin e
    · obtain ⟨_, _, e⟩ := Option.bind_eq_some_iff.1 e
      obtain ⟨_, _, e⟩ := Option.bind_eq_some_iff.1 e
      obtain ⟨s1, e1, e⟩ := Option.bind_eq_some_iff.1 e
      simp only [finished, Option.some.injEq, Prod.mk.injEq] at e
      obtain ⟨rfl, rfl, rfl⟩ := e
      exact ⟨rfl, going_poke G e1, hnil⟩
  · next ht =>
    have hg := H.good.2.2
    rw [ht] at hg
    obtain ⟨t, dd, e1, e2, e3, e4⟩ := XdrSafe.hasTd_at hg
    unfold loadStruct at e
    rw [e4, h3] at e
    simp only [Option.bind_eq_bind, Option.bind_some] at e
    obtain ⟨its, ea, e⟩ := Option.bind_eq_some_iff.1 e
    simp only [Option.some.injEq, Prod.mk.injEq] at e
    obtain ⟨rfl, rfl, rfl⟩ := e
    refine ⟨rfl, G, assign_ready (S.known.fields.names t dd e2 e3) ha l none its ?_ (fun q c hq => ?_) ea⟩
    · rcases S.names i pd l h1 h2 with g | g
      · exact .inl g
      · exact .inr g.1
    · obtain ⟨k, g, d', m1, m2, m3, m4, m5⟩ := F.members i f pd l hR ht h1 h2 dd e4 q c hq
      exact ⟨k, g, d', m1, m2, m3, fun hn => by rw [m4 hn]; simp [nextField], m5⟩
  · next ht =>
    have hg := H.good.2.2
    rw [ht] at hg
    obtain ⟨b, c, g1, g2, g3, g4⟩ := hg
    obtain ⟨f1, f2, f3⟩ := F.elements i f pd l hR ht h1 h2
    unfold loadArray at e
    rw [h3] at e
    unfold element at f3
    rw [g3] at f1 f2 f3
    simp only [Option.bind_eq_bind, Option.bind_some, g3, List.headD_cons, List.length_cons, List.length_nil, Nat.zero_add, if_true] at e f1 f2 f3
    by_cases hc0 : c = 0
    · rw [if_pos hc0] at e
      rw [if_pos (List.eq_nil_of_length_eq_zero (by omega))] at e
      exact fin e
    rw [if_neg hc0, if_neg (f1 hc0)] at e
    simp only [Option.some.injEq, Prod.mk.injEq] at e
    obtain ⟨rfl, rfl, rfl⟩ := e
    refine ⟨rfl, G, elements_ready ha l 0 (by omega) f3⟩
  · next ht => exact func (.inl ht) e
  · next ht => exact func (.inr ht) e
  · cases e
  · cases e
  · cases e
  · next ht => exact absurd ht (F.kind i f hR).1
  · next ht => exact absurd ht (F.kind i f hR).2
  · next n1 n2 n3 n4 n5 n6 n7 n8 n9 n10 n11 n12 n13 n14 n15 =>
    refine scalar ?_ (by assumption) (by assumption) (by assumption) e
    revert n1 n2 n3 n4 n5 n6 n7 n8 n9 n10 n11 n12 n13 n14 n15
    cases f.ty <;> simp [valueType]

omit hM in
theorem loadAll_goes {cur i0 a0 n0 : Nat} {inner : LSt → Nat × Nat × Fd → Option (Bool × LSt)} (hw : Works E dst ext live0 m0 cur i0 inner)
    (hg : ∀ s j b g, Inv E dst ext live0 m0 cur s → i0 < j → Slot (E := E) (dst := dst) (ext := ext) (live0 := live0) cur s j b g → Going live0 size R s → R j g → b ≠ 0 →
      ∀ ok s', inner s (j, b, g) = some (ok, s') → ok = true ∧ Going live0 size R s') :
    ∀ (l : List Item) (s : LSt), Inv E dst ext live0 m0 cur s → Row E dst ext live0 cur s i0 a0 n0 l → Going live0 size R s → Ready R l →
      ∃ s', loadAll inner s l = some (true, s') ∧ Going live0 size R s' ∧ Inv E dst ext live0 m0 cur s' := by
  intro l
  induction l with
  | nil => intro s h _ G _; exact ⟨s, rfl, G, h⟩
  | cons y l ih =>
    intro s h hr G hre
    obtain ⟨c, b, g, rfl, r1, r2⟩ := hre y (List.mem_cons_self ..)
    rcases hr with ⟨d, n, k1, k2, k3, k4, k5⟩ | ⟨h1, h2, h3, h4, h5, h6⟩
    · exact absurd ((F.named c g d r1 k1).1 n k2 k3 k4) k5
    · obtain ⟨ok, s', e, hs⟩ := hw.1 s c b g h h2 h1
      obtain ⟨rfl, G'⟩ := hg s c b g h h2 h1 G r1 r2 ok s' e
      obtain ⟨s'', e', G'', h''⟩ := ih s' hs.inv (row_step S h hs h5 h6) G' fun it hit => hre it (List.mem_cons_of_mem _ hit)
      exact ⟨s'', by simp [loadAll, e, e'], G'', h''⟩

theorem load_goes : ∀ (fuel cur i0 : Nat), i0 < E.ra.length → E.ra.length < fuel + (i0 + 1) →
    ∀ s i a f, Inv E dst ext live0 m0 cur s → i0 < i → Slot (E := E) (dst := dst) (ext := ext) (live0 := live0) cur s i a f → Going live0 size R s → R i f → a ≠ 0 →
      ∀ ok s', mrLoad E fuel s (i, a, f) = some (ok, s') → ok = true ∧ Going live0 size R s' := by
  intro fuel
  induction fuel with
  | zero => intro cur i0 h1 h2; omega
  | succ fuel ih =>
    intro cur i0 h1 h2 s i a f h hi0 hsl G hR ha ok s' e
    have hil : i < s.nodes.length := by rw [h.len]; exact hsl.index
    have hid : i < E.data.length := by rw [S.data]; exact hsl.index
    have hdat : E.data[i]? = some (E.data[i]'hid) := List.getElem?_eq_getElem hid
    unfold mrLoad at e
    rw [if_neg (by omega)] at e
    simp only [hdat, Option.bind_eq_bind, Option.bind_some] at e
    have hrf : refused s i a f (E.data[i]'hid) = false := by
      obtain ⟨n1, n2⟩ := F.named i f _ hR hdat
      unfold refused
      simp only [Bool.or_eq_false_iff]
      refine ⟨⟨⟨⟨by simpa using ha, by simp; omega⟩, by simp; omega⟩, ?_⟩, ?_⟩
      · cases ht : (E.data[i]'hid).typed with
        | none => rfl
        | some t => simp [n2 t ht]
      · cases hu : f.unnamed with
        | true => rfl
        | false =>
          cases hn : (E.data[i]'hid).name with
          | none => rfl
          | some n =>
            by_cases hf : f.name = []
            · simp [hf]
            · simp [n1 n hn hu hf]
    rw [hrf] at e
    simp only [Bool.false_eq_true, if_false] at e
    obtain ⟨s1, e1⟩ := setNode_ok (F := fun x => { x with addr := a, ty := f.ty, aux := f.aux, td := f.td, sized := f.sizeField.isSome, fd := f }) hil
    rw [e1] at e
    simp only [Option.bind_some] at e
    have hst := (enter h hsl ha (by omega) e1).1
    have H := entered S h hsl ha (by omega) e1
    have G1 : Going live0 size R s1 := going_node G e1 fun x hx _ => ⟨hR, rfl, rfl, rfl⟩
    obtain ⟨ok2, s2, items, e2, hs2, hrow⟩ := open_ok S hst.inv H (List.getElem_mem hid)
    obtain ⟨rfl, G2, hre⟩ := open_goes S hM F hst.inv H G1 hR hdat e2
    rw [e2] at e
    simp only [Option.bind_some, if_true] at e
    obtain ⟨s3, e3, G3, _⟩ := loadAll_goes S F (a0 := a) (n0 := room E.tds f) (load_works S fuel cur i hsl.index (by omega)) (ih cur i hsl.index (by omega)) items s2 hs2.inv hrow G2 hre
    rw [e3] at e
    simp only [Option.some.injEq, Prod.mk.injEq] at e
    obtain ⟨rfl, rfl⟩ := e
    exact ⟨rfl, G3⟩

theorem pointer_goes {i : Nat} {s s' : LSt} {x : Node} {ok : Bool} {items : List Item} (h : Inv E dst ext live0 m0 i s) (hx : s.nodes[i]? = some x) (ht : x.ty = .pointer) (G : Going live0 size R s)
    (e : openPointer E s i = some (ok, s', items)) : ok = true ∧ Going live0 size R s' ∧ Ready R items := by
  have hnil : Ready R [] := fun it hit => by cases hit
  have hc : isCell x := .inl ht
  have hx0 := cell_addr h hx hc
  have hw : word s.m x.addr = 0 := h.fresh i x hx ht (Nat.le_refl _)
  have hcov : covered s.live x.addr 8 = true := cell_live S h (h.cell i x hx hc)
  have hil : i < E.ra.length := by rw [← h.len]; exact (List.getElem?_eq_some_iff.1 hx).1
  have hid : i < E.data.length := by rw [S.data]; exact hil
  have hdat : E.data[i]? = some (E.data[i]'hid) := List.getElem?_eq_getElem hid
  obtain ⟨hR, t1, t2, t3⟩ := G.typed i x hx hx0
  obtain ⟨hsz, _⟩ := h.good i x hx ht
  have fin : finished s = some (ok, s', items) → ok = true ∧ Going live0 size R s' ∧ Ready R items := by
    intro e
    simp only [finished, Option.some.injEq, Prod.mk.injEq] at e
    obtain ⟨rfl, rfl, rfl⟩ := e
    exact ⟨rfl, G, hnil⟩
  unfold openPointer at e
  rw [hx, hdat] at e
  simp only [Option.bind_eq_bind, Option.bind_some, if_neg hx0, store_zero hcov hw] at e
  by_cases hn : (E.data[i]'hid).null = true
  · rw [if_pos hn] at e; exact fin e
  rw [if_neg hn] at e
  have hval : (∃ v, (E.data[i]'hid).val = .int v) ∨ ∀ v, (E.data[i]'hid).val ≠ .int v := by
    cases (E.data[i]'hid).val <;> simp
  rcases hval with ⟨v, hv⟩ | hv
  · simp only [hv, numbered] at e
    obtain ⟨s1, e1, e⟩ := Option.bind_eq_some_iff.1 e
    have hne : v ≠ BitVec.ofNat 128 (2 ^ 127) := fun e => S.least _ (List.getElem_mem hid) (by rw [hv, e])
    obtain ⟨s2, e2, _, _, _, _, g1⟩ := reference_ok (i := i) (a := 0) (n := 0) (bit := false) (inv_mono (Nat.le_succ i) h) hx (fun _ => hw) hx0
      (fun _ => Nat.lt_succ_self i) (h.early i x hx ht (Nat.le_refl _)).2 .self (List.getElem_mem hid) hv hne
    rw [e1] at e2; cases e2
    rw [g1] at e
    simp only [Option.bind_some, if_pos flagged_set] at e
    simp only [finished, Option.some.injEq, Prod.mk.injEq] at e
    obtain ⟨rfl, rfl, rfl⟩ := e
    exact ⟨rfl, going_reference G e1, hnil⟩
  · have hmatch : numbered s i (E.data[i]'hid).val = some s := by
      unfold numbered
      cases e : (E.data[i]'hid).val with
      | int v => exact absurd e (hv v)
      | none => rfl
      | text => rfl
      | other => rfl
    rw [hmatch] at e
    simp only [Option.bind_some, hx] at e
    by_cases hr : (x.ref || x.cref) = true
    · rw [if_pos hr] at e; exact fin e
    rw [if_neg hr] at e
    obtain ⟨pd, l, k1, k2, k3, k4, k5⟩ := kids_ok S.tree hil
    rw [k3] at e
    simp only [Option.bind_some] at e
    by_cases hl : l = []
    · rw [if_pos hl] at e; exact fin e
    rw [if_neg hl] at e
    have hpt : pointee E x = LoadSays.target E.tds x.fd := by unfold pointee LoadSays.target; rw [t2, t3]
    rw [hpt] at e
    obtain ⟨f1, f2, f3⟩ := F.targets i x.fd _ pd l hR (t1.symm.trans ht) hdat k1 k2 (by simpa using hn) hv hl
    generalize LoadSays.target E.tds x.fd = g at *
    rw [if_neg f1, hsz] at e
    simp only [Bool.false_eq_true, if_false] at e
    have hn0 : 0 < l.length * g.size := Nat.mul_pos (by cases l; exact absurd rfl hl; simp) (by omega)
    have h0 := allocated S hM h G hx hw hn0 f2
    unfold LSt.calloc at e
    simp only [h0, if_false] at e
    obtain ⟨s1, e1, e⟩ := Option.bind_eq_some_iff.1 e
    simp only [Option.some.injEq, Prod.mk.injEq] at e
    obtain ⟨rfl, rfl, rfl⟩ := e
    exact ⟨rfl, going_store (going_alloc h G f2) e1, elements_ready h0 l 0 (by omega) f3⟩

theorem postponed_goes : ∀ (n i : Nat) (s : LSt), i + n = E.ra.length → Inv E dst ext live0 m0 i s → Going live0 size R s →
    ∃ s', postponed E (List.range' i n) s = some (true, s') ∧ Going live0 size R s' := by
  intro n
  induction n with
  | zero => intro i s _ _ G; exact ⟨s, rfl, G⟩
  | succ n ih =>
    intro i s hn h G
    have hil : i < s.nodes.length := by rw [h.len]; omega
    rw [List.range'_succ]
    unfold postponed
    have hx := List.getElem?_eq_getElem hil
    rw [hx]
    simp only [Option.bind_eq_bind, Option.bind_some]
    generalize s.nodes[i] = x at hx
    by_cases ht : x.ty = .pointer
    · rw [if_pos ht]
      obtain ⟨ok, s1, items, a, k, e1, hinv, hrow, _⟩ := pointer_ok S h hx ht
      obtain ⟨rfl, G1, hre⟩ := pointer_goes S hM F h hx ht G e1
      rw [e1]
      simp only [Option.bind_some, if_true]
      obtain ⟨s2, e2, G2, h2⟩ := loadAll_goes S F (load_works S E.ra.length (i + 1) i (by omega) (by omega))
        (load_goes S hM F E.ra.length (i + 1) i (by omega) (by omega)) items s1 hinv hrow G1 hre
      rw [e2]
      simp only [Option.bind_some, if_true]
      exact ih (i + 1) s2 (by omega) h2 G2
    · rw [if_neg ht]
      exact ih (i + 1) s (by omega) (inv_mono (by omega) h) G

end
end Verif.Lemmas.LoadFits
