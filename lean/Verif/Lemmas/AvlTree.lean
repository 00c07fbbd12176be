import Verif.Lemmas.RbTree
namespace Verif.Lemmas.Tree
open Verif.Model Verif.Model.Ic Verif.Model.Tree Verif.Spec Verif.Lemmas.Collection Verif.Lemmas.IcArray
open T

variable {p : Pool} {b b' l l' : Nat → Bool}

/-- the flags of a node describe the heights of its subtrees; `ha` is on side `d` -/
def Flags (d : Dir) (bal lng : Bool) (ha hb : Nat) : Prop :=
  if bal then ha = hb else if lng = d then ha = hb + 1 else hb = ha + 1

/-- AVL tree with correct flags -/
def AVL (b l : Nat → Bool) : T → Prop
  | nil => True
  | node x i y => AVL b l x ∧ AVL b l y ∧ Flags false (b i) (l i) x.height y.height

/-- context for an AVL tree of height `h` -/
def AVLF (b l : Nat → Bool) : List Frame → Nat → Prop
  | [], _ => True
  | f :: fs, h => AVL b l f.s ∧ Flags f.d (b f.i) (l f.i) h f.s.height ∧ AVLF b l fs (max h f.s.height + 1)

@[simp] theorem height_mk (d : Dir) (x : T) (i : Nat) (y : T) :
    (mk d x i y).height = max x.height y.height + 1 := by
  cases d <;> simp [mk, height, Nat.max_comm]

theorem avl_mk {d : Dir} {x y : T} {i : Nat} : AVL b l (mk d x i y) ↔
    AVL b l x ∧ AVL b l y ∧ Flags d (b i) (l i) x.height y.height := by
  cases d
  · rfl
  · simp only [mk, if_true, AVL, Flags]
    cases b i <;> cases l i <;> simp <;> grind

theorem avl_congr {t : T} (hb : ∀ i ∈ t.ids, b' i = b i) (hl : ∀ i ∈ t.ids, l' i = l i) :
    AVL b l t → AVL b' l' t := by
  induction t with
  | nil => intro h; exact h
  | node x i y ihx ihy =>
    intro ⟨h1, h2, h3⟩
    refine ⟨ihx (fun j hj => hb j (by simp [ids, hj])) (fun j hj => hl j (by simp [ids, hj])) h1,
      ihy (fun j hj => hb j (by simp [ids, hj])) (fun j hj => hl j (by simp [ids, hj])) h2, ?_⟩
    rw [hb i (by simp [ids]), hl i (by simp [ids])]; exact h3

theorem avlf_congr {fs : List Frame} : ∀ {h}, (∀ i ∈ fids fs, b' i = b i) → (∀ i ∈ fids fs, l' i = l i) →
    AVLF b l fs h → AVLF b' l' fs h := by
  induction fs with
  | nil => intro _ _ _ _; trivial
  | cons f fs ih =>
    intro h hb hl ⟨h1, h2, h3⟩
    refine ⟨avl_congr (fun j hj => hb j (by simp [fids, hj])) (fun j hj => hl j (by simp [fids, hj])) h1, ?_,
      ih (fun j hj => hb j (by simp [fids, hj])) (fun j hj => hl j (by simp [fids, hj])) h3⟩
    rw [hb f.i (by simp [fids]), hl f.i (by simp [fids])]; exact h2

theorem avl_plug {fs : List Frame} : ∀ {t : T}, AVL b l (plug fs t) ↔ AVL b l t ∧ AVLF b l fs t.height := by
  induction fs with
  | nil => intro t; simp [plug, AVLF]
  | cons f fs ih =>
    intro t
    simp only [plug]
    rw [ih, avl_mk, height_mk]
    simp only [AVLF]
    grind

/-- fewest nodes of an AVL tree of a given height -/
def minNodes : Nat → Nat
  | 0 => 0
  | 1 => 1
  | h + 2 => minNodes (h + 1) + minNodes h + 1

theorem minNodes_mono (h : Nat) : minNodes h ≤ minNodes (h + 1) := by
  cases h with
  | zero => simp [minNodes]
  | succ h => simp only [minNodes]; omega

theorem minNodes_le {g h : Nat} (hh : g ≤ h) : minNodes g ≤ minNodes h := by
  induction h with
  | zero => have : g = 0 := by omega
            subst this; exact Nat.le_refl _
  | succ h ih =>
    by_cases e : g = h + 1
    · subst e; exact Nat.le_refl _
    · exact Nat.le_trans (ih (by omega)) (minNodes_mono h)

theorem avl_nodes {t : T} : AVL b l t → minNodes t.height ≤ t.ids.length := by
  induction t with
  | nil => intro _; simp [height, minNodes, ids]
  | node x i y ihx ihy =>
    intro ⟨h1, h2, h3⟩
    have h1 := ihx h1
    have h2 := ihy h2
    simp only [height, ids, List.length_append, List.length_cons]
    have hd : x.height = y.height ∨ x.height = y.height + 1 ∨ y.height = x.height + 1 := by
      unfold Flags at h3; split at h3
      · exact .inl h3
      · split at h3
        · exact .inr (.inl h3)
        · exact .inr (.inr h3)
    rcases hd with h | h | h
    · rw [h, Nat.max_self]
      rw [h] at h1
      cases hy : y.height with
      | zero => simp only [minNodes]; omega
      | succ k =>
        rw [hy] at h1 h2
        have := minNodes_mono k
        simp only [minNodes] at h1 h2 ⊢; omega
    · rw [Nat.max_eq_left (by omega), h]
      rw [h] at h1
      simp only [minNodes]; omega
    · rw [Nat.max_eq_right (by omega), h]
      rw [h] at h2
      simp only [minNodes]; omega

/-- the state of an AVL tree between two calls -/
def AvlInv (p : Pool) (t : T) : Prop := AVL (B p) (R p) t

theorem height_map (f : Nat → Nat) (t : T) : (t.map f).height = t.height := by
  induction t with
  | nil => rfl
  | node x i y h1 h2 => simp [T.map, height, h1, h2]

theorem avl_map {f : Nat → Nat} {t : T} (hb : ∀ i ∈ t.ids, b' (f i) = b i) (hl : ∀ i ∈ t.ids, l' (f i) = l i) :
    AVL b l t → AVL b' l' (t.map f) := by
  induction t with
  | nil => intro h; exact h
  | node x i y ihx ihy =>
    intro ⟨h1, h2, h3⟩
    refine ⟨ihx (fun j hj => hb j (by simp [ids, hj])) (fun j hj => hl j (by simp [ids, hj])) h1,
      ihy (fun j hj => hb j (by simp [ids, hj])) (fun j hj => hl j (by simp [ids, hj])) h2, ?_⟩
    rw [hb i (by simp [ids]), hl i (by simp [ids]), height_map, height_map]; exact h3

theorem minNodes_45 : 2 ^ 31 < minNodes 45 := by decide

theorem avl_scheme : Scheme AvlInv where
  height := by
    intro p t h hn
    have h1 := avl_nodes h
    apply Classical.byContradiction
    intro h2
    have := minNodes_le (show 45 ≤ t.height by omega)
    have := minNodes_45
    omega
  empty := trivial
  map := by
    intro p p' t f h _ hi
    exact avl_map (fun i hi => (h i hi).2) (fun i hi => (h i hi).1) hi

theorem links_updB {q : Pool} {v : Bool} {j : Nat} {t : T} (h : Links q t) : Links (updB q j v) t :=
  links_congr (by simp) (fun _ _ _ => by simp) h

structure DoneA (p p' : Pool) (t t' : T) : Prop where
  links : Links p' (node t' 0 nil)
  idseq : t'.ids = t.ids
  avl : AVL (B p') (R p') t'
  len : p'.length = p.length
  key : ∀ i, K p' i = K p i

theorem DoneA.trans {p q p' : Pool} {t u t' : T} (h : DoneA q p' u t') (hl : q.length = p.length)
    (hk : ∀ i, K q i = K p i) (hi : u.ids = t.ids) : DoneA p p' t t' :=
  ⟨h.links, h.idseq.trans hi, h.avl, h.len.trans hl, fun i => (h.key i).trans (hk i)⟩

/-- the bits set before a double rotation, and the rotation -/
theorem avlGrand_ok {path : Path} {k x c u : Nat} {d du dx : Dir} {A Bt C s : T} {fs : List Frame} {h : Nat}
    (hlen : p.length ≤ 2 ^ 31)
    (hl : Links p (plug (⟨du, u, s⟩ :: fs) (mk d (mk d A c Bt) x C)))
    (hn : (plug (⟨du, u, s⟩ :: fs) (mk d (mk d A c Bt) x C)).ids.Nodup)
    (hk : path[k + 1]? = some (x, dx)) (hu : path[k]? = some (u, du))
    (hbx : B p x = false) (hrx : R p x = d) (hbc : B p c = false) (hrc : R p c = !d)
    (hA : AVL (B p) (R p) A) (hB : AVL (B p) (R p) Bt) (hC : AVL (B p) (R p) C)
    (ha : A.height = h) (hb : Bt.height = h + 1) (hc : C.height = h) :
    ∃ p' t', (do
        let g ← getNx p c !d
        let p ← avlGrandBits p x c g
        grandRotate p path (k + 1) d) = some p' ∧
      Links p' (plug (⟨du, u, s⟩ :: fs) t') ∧ t'.ids = (mk d (mk d A c Bt) x C).ids ∧
      AVL (B p') (R p') t' ∧ t'.height = h + 2 ∧ p'.length = p.length ∧ (∀ i, K p' i = K p i) ∧
      ∀ i, i ∉ (mk d (mk d A c Bt) x C).ids → B p' i = B p i ∧ R p' i = R p i := by
  obtain ⟨g, G1, G2, rfl⟩ : ∃ g G1 G2, Bt = mk d G1 g G2 := by
    cases Bt with
    | nil => simp [height] at hb
    | node x i y => obtain ⟨a, b, h⟩ := eq_mk d x i y; exact ⟨i, a, b, h⟩
  rw [avl_mk] at hB
  obtain ⟨hG1, hG2, hG⟩ := hB
  rw [height_mk] at hb
  have hlt := (links_plug.mp hl).2
  rw [links_mk, links_mk, links_mk] at hlt
  obtain ⟨hxl, hxd, hxc, ⟨hcl, hcd, hcb, hLA, hgl, hgd, hgb, hL1, hL2⟩, hLC⟩ := hlt
  simp only [rt_mk] at hcb
  have hnn := (nodup_plug.mp hn)
  have hnn := ((ids_mk_perm d _ x C).append_right _).nodup_iff.mp hnn
  have hnn := (((((ids_mk_perm d A c _).append_right _).cons x).append_right _)).nodup_iff.mp hnn
  have hnn := ((((((((ids_mk_perm d G1 g G2).append_left A.ids)).cons c).append_right _).cons x).append_right _)).nodup_iff.mp hnn
  simp only [fids, List.nodup_append, List.nodup_cons, List.cons_append, List.mem_append, List.mem_cons,
    not_or] at hnn
  have hxc' : x ≠ c := by grind
  have hxg : x ≠ g := by grind
  have hcg : c ≠ g := by grind
  simp only [getNx_eq hcl, hcb, Option.bind_eq_bind, Option.bind_some]
  -- the new bits
  have hbits : ∃ q, avlGrandBits p x c g = some q ∧ q.length = p.length ∧ (∀ i, K q i = K p i) ∧
      (∀ i d, N q i d = N p i d) ∧ (∀ i, i ≠ x → i ≠ c → i ≠ g → B q i = B p i ∧ R q i = R p i) ∧
      Flags d (B q g) (R q g) (max A.height G1.height + 1) (max G2.height C.height + 1) ∧
      Flags d (B q c) (R q c) A.height G1.height ∧ Flags d (B q x) (R q x) G2.height C.height := by
    simp only [avlGrandBits, Option.bind_eq_bind, getB_eq hgl, getR_eq hcl, getR_eq hgl, Option.bind_some]
    unfold Flags at hG
    cases hbg : B p g
    · rw [hbg] at hG
      simp only [Bool.false_eq_true, if_false] at hG ⊢
      by_cases hrg : R p g = d
      · rw [if_pos hrg] at hG
        rw [if_neg (by rw [hrc, hrg]; cases d <;> simp), getR_eq hxl]
        simp only [Option.bind_some]
        rw [setR_eq hxl]
        simp only [Option.bind_some]
        rw [setB_eq (by simpa using hcl)]
        simp only [Option.bind_some]
        rw [setB_eq (by simpa using hgl)]
        generalize hq : updB (updB (updR p x !R p x) c true) g true = q
        have hB : ∀ j, B q j = if j = g then true else if j = c then true else B p j := by
          intro j; rw [← hq, B_updB (by simpa using hgl), B_updB (by simpa using hcl)]; simp
        have hR : ∀ j, R q j = if j = x then !R p x else R p j := by
          intro j; rw [← hq]; simp only [R_updB]; rw [R_updR hxl]
        refine ⟨q, rfl, by rw [← hq]; simp, by intro j; rw [← hq]; simp, by intro j e; rw [← hq]; simp, ?_, ?_, ?_, ?_⟩
        · intro j h1 h2 h3; rw [hB, hR]; simp [h1, h2, h3]
        · simp only [Flags, hB, if_true]; omega
        · simp only [Flags, hB, if_neg hcg, if_true]; omega
        · simp only [Flags, hB, hR, if_neg hxg, if_neg hxc', if_true, hbx, hrx, Bool.false_eq_true, if_false]
          rw [if_neg (by cases d <;> simp)]; omega
      · rw [if_neg hrg] at hG
        rw [if_pos (by rw [hrc]; revert hrg; cases R p g <;> cases d <;> simp)]
        rw [setB_eq hxl]
        simp only [Option.bind_some]
        rw [getR_eq (by simpa using hcl)]
        simp only [Option.bind_some]
        rw [setR_eq (by simpa using hcl)]
        simp only [Option.bind_some]
        rw [setB_eq (by simpa using hgl)]
        simp only [R_updB]
        generalize hq : updB (updR (updB p x true) c !R p c) g true = q
        have hB : ∀ j, B q j = if j = g then true else if j = x then true else B p j := by
          intro j; rw [← hq, B_updB (by simpa using hgl)]; simp only [B_updR]; rw [B_updB hxl]
        have hR : ∀ j, R q j = if j = c then !R p c else R p j := by
          intro j; rw [← hq]; simp only [R_updB]; rw [R_updR (by simpa using hcl)]; simp
        refine ⟨q, rfl, by rw [← hq]; simp, by intro j; rw [← hq]; simp, by intro j e; rw [← hq]; simp, ?_, ?_, ?_, ?_⟩
        · intro j h1 h2 h3; rw [hB, hR]; simp [h1, h2, h3]
        · simp only [Flags, hB, if_true]; omega
        · simp only [Flags, hB, hR, if_neg hcg, if_neg hxc'.symm, if_true, hbc, hrc, Bool.false_eq_true, if_false, Bool.not_not]
          omega
        · simp only [Flags, hB, if_neg hxg, if_true]; omega
    · rw [hbg] at hG
      simp only [if_true] at hG ⊢
      rw [setB_eq hxl]
      simp only [Option.bind_some]
      rw [setB_eq (by simpa using hcl)]
      generalize hq : updB (updB p x true) c true = q
      have hB : ∀ j, B q j = if j = c then true else if j = x then true else B p j := by
        intro j; rw [← hq, B_updB (by simpa using hcl), B_updB hxl]
      have hR : ∀ j, R q j = R p j := by
        intro j; rw [← hq]; simp
      refine ⟨q, rfl, by rw [← hq]; simp, by intro j; rw [← hq]; simp, by intro j e; rw [← hq]; simp, ?_, ?_, ?_, ?_⟩
      · intro j h1 h2 h3; rw [hB, hR]; simp [h1, h2]
      · simp only [Flags, hB, if_neg hcg.symm, if_neg hxg.symm, hbg, if_true]; omega
      · simp only [Flags, hB, if_true]; omega
      · simp only [Flags, hB, if_neg hxc', if_true]; omega
  obtain ⟨q, q1, q2, q3, q4, q5, q6, q7, q8⟩ := hbits
  rw [q1]
  simp only [Option.bind_some]
  obtain ⟨p', r1, r2, r3⟩ := grandRotate_ok (p := q) (path := path) (k := k) (dx := dx) (by omega)
    (links_congr q2 (fun j _ e => q4 j e) hl) hn hk hu
  have hBp : B p' = B q := funext r2.bal
  have hRp : R p' = R q := funext r2.red
  refine ⟨p', _, r1, r3, (ids_grand d A c G1 g G2 x C).symm, ?_, by simp only [height_mk]; omega, by rw [r2.len, q2],
    fun i => by rw [r2.key, q3], ?_⟩
  · rw [hBp, hRp, avl_mk, avl_mk, avl_mk, height_mk, height_mk]
    have hcong : ∀ v : T, x ∉ v.ids → c ∉ v.ids → g ∉ v.ids → AVL (B p) (R p) v → AVL (B q) (R q) v := by
      intro v h1 h2 h3
      have hne : ∀ i ∈ v.ids, i ≠ x ∧ i ≠ c ∧ i ≠ g := by
        intro i hi; refine ⟨?_, ?_, ?_⟩ <;> (intro h; subst h; contradiction)
      exact avl_congr (fun i hi => (q5 i (hne i hi).1 (hne i hi).2.1 (hne i hi).2.2).1)
        (fun i hi => (q5 i (hne i hi).1 (hne i hi).2.1 (hne i hi).2.2).2)
    exact ⟨⟨hcong A (by grind) (by grind) (by grind) hA, hcong G1 (by grind) (by grind) (by grind) hG1, q7⟩,
      ⟨hcong G2 (by grind) (by grind) (by grind) hG2, hcong C (by grind) (by grind) (by grind) hC, q8⟩, q6⟩
  · intro i hi
    simp only [mem_mk, not_or] at hi
    rw [hBp, hRp]
    exact q5 i (by grind) (by grind) (by grind)

/-- a single rotation after which both nodes are balanced -/
theorem avlSingle_ok {path : Path} {k x c u : Nat} {d du dx : Dir} {A Bt C s : T} {fs : List Frame} {h : Nat}
    (hlen : p.length ≤ 2 ^ 31)
    (hl : Links p (plug (⟨du, u, s⟩ :: fs) (mk d (mk d A c Bt) x C)))
    (hn : (plug (⟨du, u, s⟩ :: fs) (mk d (mk d A c Bt) x C)).ids.Nodup)
    (hk : path[k + 1]? = some (x, dx)) (hu : path[k]? = some (u, du))
    (hA : AVL (B p) (R p) A) (hB : AVL (B p) (R p) Bt) (hC : AVL (B p) (R p) C)
    (ha : A.height = h + 1) (hb : Bt.height = h) (hc : C.height = h) :
    ∃ p' t', (do
        let p ← setB p x true
        let p ← setB p c true
        rotate p path (k + 1) d) = some p' ∧
      Links p' (plug (⟨du, u, s⟩ :: fs) t') ∧ t'.ids = (mk d (mk d A c Bt) x C).ids ∧
      AVL (B p') (R p') t' ∧ t'.height = h + 2 ∧ p'.length = p.length ∧ (∀ i, K p' i = K p i) ∧
      ∀ i, i ∉ (mk d (mk d A c Bt) x C).ids → B p' i = B p i ∧ R p' i = R p i := by
  have hlt := (links_plug.mp hl).2
  rw [links_mk, links_mk] at hlt
  obtain ⟨hxl, hxd, hxc, ⟨hcl, hcd, hcb, hLA, hLB⟩, hLC⟩ := hlt
  have hnn := (nodup_plug.mp hn)
  have hnn := ((ids_mk_perm d _ x C).append_right _).nodup_iff.mp hnn
  have hnn := (((((ids_mk_perm d A c _).append_right _).cons x).append_right _)).nodup_iff.mp hnn
  simp only [fids, List.nodup_append, List.nodup_cons, List.cons_append, List.mem_append, List.mem_cons,
    not_or] at hnn
  have hxc' : x ≠ c := by grind
  simp only [Option.bind_eq_bind, setB_eq hxl, Option.bind_some]
  rw [setB_eq (by simpa using hcl)]
  simp only [Option.bind_some]
  generalize hq : updB (updB p x true) c true = q
  have hBq : ∀ j, B q j = if j = c then true else if j = x then true else B p j := by
    intro j; rw [← hq, B_updB (by simpa using hcl), B_updB hxl]
  have hRq : ∀ j, R q j = R p j := by
    intro j; rw [← hq]; simp
  have hqlen : q.length = p.length := by rw [← hq]; simp
  obtain ⟨p', r1, r2, r3⟩ := rotate_ok (p := q) (path := path) (k := k) (dx := dx) (by omega)
    (by rw [← hq]; exact links_updB (links_updB hl)) hn hk hu
  have hBp : B p' = B q := funext r2.bal
  have hRp : R p' = R q := funext r2.red
  refine ⟨p', _, r1, r3, (ids_rotate d A c Bt x C).symm, ?_, by simp only [height_mk]; omega, by rw [r2.len, hqlen],
    fun i => by rw [r2.key, ← hq]; simp, ?_⟩
  · rw [hBp, hRp, avl_mk, avl_mk, height_mk]
    have hcong : ∀ v : T, x ∉ v.ids → c ∉ v.ids → AVL (B p) (R p) v → AVL (B q) (R q) v := by
      intro v h1 h2
      refine avl_congr (fun i hi => ?_) (fun i hi => hRq i)
      rw [hBq, if_neg, if_neg] <;> (intro h; subst h; contradiction)
    refine ⟨hcong A (by grind) (by grind) hA, ⟨hcong Bt (by grind) (by grind) hB, hcong C (by grind) (by grind) hC, ?_⟩, ?_⟩
    · simp only [Flags, hBq, if_neg hxc', if_true]; omega
    · simp only [Flags, hBq, if_true]; omega
  · intro i hi
    simp only [mem_mk, not_or] at hi
    rw [hBp, hRp, hBq, hRq]
    exact ⟨by rw [if_neg (by grind), if_neg (by grind)], rfl⟩

def rootBal (b : Nat → Bool) : T → Bool
  | nil => true
  | node _ i _ => b i

theorem avlAddLoop_ok {path : Path} : ∀ (gs : List Frame) (p : Pool) (t : T) (h : Nat),
    p.length ≤ 2 ^ 31 → Links p (plug (gs ++ [hdr]) t) → (plug (gs ++ [hdr]) t).ids.Nodup →
    AVL (B p) (R p) t → t.height = h + 1 → (rootBal (B p) t = true → h = 0) →
    AVLF (B p) (R p) gs h → PathOK path (gs ++ [hdr]) →
    ∃ p' t', avlAddLoop gs.length p path = some p' ∧ DoneA p p' (plug gs t) t' := by
  intro gs
  induction gs with
  | nil =>
    intro p t h hlen hl hn ha hh hr hctx hp
    exact ⟨p, t, rfl, ⟨hl, rfl, ha, rfl, fun _ => rfl⟩⟩
  | cons f fs ih =>
    intro p t h hlen hl hn ha hh hr hctx hp
    obtain ⟨d, x, s⟩ := f
    obtain ⟨hs, hfl, hctx⟩ := hctx
    simp only at hs hfl hctx
    have hl' : Links p (plug (fs ++ [hdr]) (mk d t x s)) := hl
    have hn' : (plug (fs ++ [hdr]) (mk d t x s)).ids.Nodup := hn
    have hlt := (links_plug.mp hl').2
    rw [links_mk] at hlt
    obtain ⟨hxl, hxd, hxs, hLt, hLs⟩ := hlt
    have hpx : path[fs.length + 1]? = some (x, d) := by have := hp.1; simpa using this
    obtain ⟨u, us, hus, hul⟩ := gs_hdr fs
    have hpu : path[fs.length]? = some (u.i, u.d) := by
      have := hp.2; simp only [List.append_eq] at this; rw [hus] at this; have := this.1; rwa [hul] at this
    have hnn := (nodup_hdr hn').1
    rw [((ids_mk_perm d t x s).append_right _).nodup_iff] at hnn
    simp only [List.nodup_append, List.nodup_cons, List.cons_append, List.mem_append, List.mem_cons, not_or] at hnn
    simp only [List.length_cons, avlAddLoop, hpx, Option.bind_eq_bind, Option.bind_some, getB_eq hxl]
    cases hbx : B p x
    · simp only [Bool.false_eq_true, if_false, getR_eq hxl, Option.bind_some]
      by_cases hrx : R p x = d
      · -- too high on this side
        simp only [ne_eq, hrx, not_true_eq_false, if_false, getNx_eq hxl, hxd, Option.bind_some]
        simp only [Flags, hbx, Bool.false_eq_true, if_false, if_pos hrx] at hfl
        obtain ⟨c, A, Bt, rfl⟩ : ∃ c A Bt, t = mk d A c Bt := by
          cases t with
          | nil => simp [height] at hh
          | node x i y => obtain ⟨a, b, h⟩ := eq_mk d x i y; exact ⟨i, a, b, h⟩
        have hbc : B p c = false := by
          cases hb : B p c
          · rfl
          · have : rootBal (B p) (mk d A c Bt) = true := by cases d <;> exact hb
            have := hr this; omega
        rw [avl_mk] at ha
        obtain ⟨hA, hB, hF⟩ := ha
        have hcl : c < p.length := by rw [links_mk] at hLt; exact hLt.1
        simp only [rt_mk, getR_eq hcl, Option.bind_some]
        rw [height_mk] at hh
        simp only [Flags, hbc, Bool.false_eq_true, if_false] at hF
        rw [hus] at hl' hn'
        have fin : ∀ p' t', Links p' (plug (u :: us) t') → t'.ids = (mk d (mk d A c Bt) x s).ids → AVL (B p') (R p') t' →
            t'.height = s.height + 2 → p'.length = p.length → (∀ i, K p' i = K p i) → (∀ i, i ∉ (mk d (mk d A c Bt) x s).ids → B p' i = B p i ∧ R p' i = R p i) →
            DoneA p p' (plug (⟨d, x, s⟩ :: fs) (mk d A c Bt)) (plug fs t') := by
          intro p' t' z1 z2 z3 z4 z5 z6 z7
          rw [← hus, plug_hdr] at z1
          refine ⟨z1, ?_, ?_, z5, z6⟩
          · simp only [plug, ids_plug, z2]
          · rw [avl_plug]
            refine ⟨z3, ?_⟩
            rw [z4]
            have e : max h s.height + 1 = s.height + 2 := by omega
            rw [e] at hctx
            have hne : ∀ i ∈ fids fs, i ∉ (mk d (mk d A c Bt) x s).ids := by
              intro i hi h
              rw [mem_mk] at h
              grind
            exact avlf_congr (fun i hi => (z7 i (hne i hi)).1) (fun i hi => (z7 i (hne i hi)).2) hctx
        by_cases hrc : R p c = d
        · rw [if_pos hrc.symm]
          rw [if_pos hrc] at hF
          obtain ⟨p', t', z1, z2, z3, z4, z5, z6, z7, z8⟩ := avlSingle_ok (h := s.height) hlen hl' hn' hpx hpu hA hB hs
            (by omega) (by omega) rfl
          exact ⟨p', plug fs t', z1, fin p' t' z2 z3 z4 z5 z6 z7 z8⟩
        · rw [if_neg (fun h => hrc h.symm)]
          rw [if_neg hrc] at hF
          obtain ⟨p', t', z1, z2, z3, z4, z5, z6, z7, z8⟩ := avlGrand_ok (h := s.height) hlen hl' hn' hpx hpu hbx hrx hbc
            (by revert hrc; cases R p c <;> cases d <;> simp) hA hB hs
            (by omega) (by omega) rfl
          simp only [Option.bind_eq_bind] at z1
          exact ⟨p', plug fs t', z1, fin p' t' z2 z3 z4 z5 z6 z7 z8⟩
      · -- becomes balanced
        simp only [ne_eq, hrx, not_false_eq_true, if_true]
        simp only [Flags, hbx, Bool.false_eq_true, if_false, if_neg hrx] at hfl
        rw [setB_eq hxl]
        have hB : ∀ j, B (updB p x true) j = if j = x then true else B p j := fun j => B_updB hxl
        refine ⟨_, _, rfl, ⟨by rw [← plug_hdr]; exact links_updB hl, rfl, ?_, by simp, by simp⟩⟩
        rw [avl_plug]
        have hcong : ∀ i, i ≠ x → B (updB p x true) i = B p i := by intro i hi; rw [hB, if_neg hi]
        refine ⟨avl_congr (fun i hi => hcong i (by grind)) (fun i _ => by simp) ha,
          avl_congr (fun i hi => hcong i (by grind)) (fun i _ => by simp) hs, ?_, ?_⟩
        · simp only [Flags, hB, if_true]; omega
        · have e : max h s.height + 1 = max t.height s.height + 1 := by omega
          rw [e] at hctx
          exact avlf_congr (fun i hi => hcong i (by grind)) (fun i _ => by simp) hctx
    · -- was balanced, gets higher
      simp only [if_true]
      simp only [Flags, hbx, if_true] at hfl
      rw [setB_eq hxl]
      simp only [Option.bind_some]
      rw [setR_eq (by simpa using hxl)]
      simp only [Option.bind_some]
      generalize hq : updR (updB p x false) x d = q
      have hB : ∀ j, B q j = if j = x then false else B p j := by intro j; rw [← hq]; simp only [B_updR]; exact B_updB hxl
      have hR : ∀ j, R q j = if j = x then d else R p j := by
        intro j; rw [← hq, R_updR (by simpa using hxl)]; simp
      have hqlen : q.length = p.length := by rw [← hq]; simp
      have hcB : ∀ i, i ≠ x → B q i = B p i := by intro i hi; rw [hB, if_neg hi]
      have hcR : ∀ i, i ≠ x → R q i = R p i := by intro i hi; rw [hR, if_neg hi]
      have e : max h s.height + 1 = h + 1 := by omega
      rw [e] at hctx
      obtain ⟨p', t', z1, z2⟩ := ih q (mk d t x s) (h + 1) (by omega)
        (by rw [← hq]; exact links_updR (links_updB hl')) hn'
        (by
          rw [avl_mk]
          refine ⟨avl_congr (fun i hi => hcB i (by grind)) (fun i hi => hcR i (by grind)) ha,
            avl_congr (fun i hi => hcB i (by grind)) (fun i hi => hcR i (by grind)) hs, ?_⟩
          simp only [Flags, hB, hR, if_true, Bool.false_eq_true, if_false]; omega)
        (by rw [height_mk]; omega)
        (by
          intro h1
          have : B q x = true := by revert h1; cases d <;> exact id
          rw [hB, if_pos rfl] at this; exact absurd this (by simp))
        (avlf_congr (fun i hi => hcB i (by grind)) (fun i hi => hcR i (by grind)) hctx) hp.2
      exact ⟨p', t', z1, z2.trans hqlen (fun i => by rw [← hq]; simp) rfl⟩

theorem avl_add_contract : AddContract AvlInv avlRebalanceAdd := by
  intro p gs x path dx hlen hl hn hi hp hx hpl
  unfold AvlInv at hi
  rw [avl_plug] at hi
  have hnn := nodup_hdr hn
  simp only [ids, List.nil_append, List.cons_append, List.nodup_cons, List.mem_singleton] at hnn
  have hxl : x < p.length := (links_plug.mp hl).2.1
  simp only [avlRebalanceAdd, hx, Option.bind_eq_bind, Option.bind_some, setB_eq hxl, Nat.add_sub_cancel]
  have hB : ∀ j, B (updB p x true) j = if j = x then true else B p j := fun j => B_updB hxl
  obtain ⟨p', t', r1, r2⟩ := avlAddLoop_ok (path := path) gs (updB p x true) (node nil x nil) 0
    (by simpa using hlen) (links_updB hl) hn
    (by simp [AVL, Flags, hB]) rfl (fun _ => rfl)
    (avlf_congr (fun i hi => by rw [hB, if_neg]; intro h; subst h; exact hnn.1.1 hi) (fun i _ => by simp) hi.2) hp
  exact ⟨p', t', r1, r2.links, r2.idseq, r2.avl, by rw [r2.len]; simp, fun i => by rw [r2.key]; simp⟩

theorem avlDelLoop_ok {path : Path} : ∀ (gs : List Frame) (p : Pool) (t : T) (h : Nat),
    p.length ≤ 2 ^ 31 → Links p (plug (gs ++ [hdr]) t) → (plug (gs ++ [hdr]) t).ids.Nodup →
    AVL (B p) (R p) t → t.height = h →
    AVLF (B p) (R p) gs (h + 1) → PathOK path (gs ++ [hdr]) →
    ∃ p' t', avlDelLoop gs.length p path = some p' ∧ DoneA p p' (plug gs t) t' := by
  intro gs
  induction gs with
  | nil =>
    intro p t h hlen hl hn ha hh hctx hp
    exact ⟨p, t, rfl, ⟨hl, rfl, ha, rfl, fun _ => rfl⟩⟩
  | cons f fs ih =>
    intro p t h hlen hl hn ha hh hctx hp
    obtain ⟨d, x, s⟩ := f
    obtain ⟨hs, hfl, hctx⟩ := hctx
    simp only at hs hfl hctx
    have hl' : Links p (plug (fs ++ [hdr]) (mk d t x s)) := hl
    have hn' : (plug (fs ++ [hdr]) (mk d t x s)).ids.Nodup := hn
    have hlt := (links_plug.mp hl').2
    rw [links_mk] at hlt
    obtain ⟨hxl, hxd, hxs, hLt, hLs⟩ := hlt
    have hpx : path[fs.length + 1]? = some (x, d) := by have := hp.1; simpa using this
    obtain ⟨u, us, hus, hul⟩ := gs_hdr fs
    have hpu : path[fs.length]? = some (u.i, u.d) := by
      have := hp.2; simp only [List.append_eq] at this; rw [hus] at this; have := this.1; rwa [hul] at this
    have hnn := (nodup_hdr hn').1
    rw [((ids_mk_perm d t x s).append_right _).nodup_iff] at hnn
    simp only [List.nodup_append, List.nodup_cons, List.cons_append, List.mem_append, List.mem_cons, not_or] at hnn
    simp only [List.length_cons, avlDelLoop, hpx, Option.bind_eq_bind, Option.bind_some, getB_eq hxl]
    cases hbx : B p x
    · simp only [Bool.false_eq_true, if_false, getR_eq hxl, Option.bind_some]
      by_cases hrx : R p x = d
      · -- becomes balanced and lower
        rw [if_pos hrx]
        simp only [Flags, hbx, Bool.false_eq_true, if_false, if_pos hrx] at hfl
        rw [setB_eq hxl]
        simp only [Option.bind_some]
        generalize hq : updB p x true = q
        have hB : ∀ j, B q j = if j = x then true else B p j := by intro j; rw [← hq]; exact B_updB hxl
        have hR : ∀ j, R q j = R p j := by intro j; rw [← hq]; simp
        have hqlen : q.length = p.length := by rw [← hq]; simp
        have hcB : ∀ i, i ≠ x → B q i = B p i := by intro i hi; rw [hB, if_neg hi]
        have e : max (h + 1) s.height + 1 = (h + 1) + 1 := by omega
        rw [e] at hctx
        obtain ⟨p', t', z1, z2⟩ := ih q (mk d t x s) (h + 1) (by omega)
          (by rw [← hq]; exact links_updB hl') hn'
          (by
            rw [avl_mk]
            refine ⟨avl_congr (fun i hi => hcB i (by grind)) (fun i hi => hR i) ha,
              avl_congr (fun i hi => hcB i (by grind)) (fun i hi => hR i) hs, ?_⟩
            simp only [Flags, hB, if_true]; omega)
          (by rw [height_mk]; omega)
          (avlf_congr (fun i hi => hcB i (by grind)) (fun i hi => hR i) hctx) hp.2
        exact ⟨p', t', z1, z2.trans hqlen (fun i => by rw [← hq]; simp) rfl⟩
      · -- the brother is too high
        rw [if_neg hrx]
        simp only [Flags, hbx, Bool.false_eq_true, if_false, if_neg hrx] at hfl
        simp only [getNx_eq hxl, hxs, Option.bind_some]
        obtain ⟨c, A, Bt, rfl⟩ : ∃ c A Bt, s = mk (!d) A c Bt := by
          cases s with
          | nil => simp [height] at hfl
          | node x i y => obtain ⟨a, b, h⟩ := eq_mk (!d) x i y; exact ⟨i, a, b, h⟩
        have hrx' : R p x = !d := by revert hrx; cases R p x <;> cases d <;> simp
        rw [avl_mk] at hs
        obtain ⟨hA, hB, hF⟩ := hs
        have hcl : c < p.length := by rw [links_mk] at hLs; exact hLs.1
        rw [height_mk] at hfl hctx
        have hsw : mk d t x (mk (!d) A c Bt) = mk (!d) (mk (!d) A c Bt) x t := (mk_not d _ _ _).symm
        rw [hsw, hus] at hl' hn'
        have hidsT : (mk d t x (mk (!d) A c Bt)).ids = (mk (!d) (mk (!d) A c Bt) x t).ids := by rw [hsw]
        have hne : ∀ i ∈ fids fs, i ∉ (mk (!d) (mk (!d) A c Bt) x t).ids := by
          intro i hi h
          rw [mem_mk] at h
          grind
        have e : max (h + 1) (max A.height Bt.height + 1) + 1 = (h + 2) + 1 := by omega
        rw [e] at hctx
        have fin : ∀ p' t', Links p' (plug (u :: us) t') → t'.ids = (mk (!d) (mk (!d) A c Bt) x t).ids → AVL (B p') (R p') t' →
            t'.height = h + 2 → p'.length = p.length → (∀ i, K p' i = K p i) → (∀ i, i ∉ (mk (!d) (mk (!d) A c Bt) x t).ids → B p' i = B p i ∧ R p' i = R p i) →
            ∃ p'' t'', avlDelLoop fs.length p' path = some p'' ∧ DoneA p p'' (plug (⟨d, x, mk (!d) A c Bt⟩ :: fs) t) t'' := by
          intro p' t' z1 z2 z3 z4 z5 z6 z7
          rw [← hus] at z1
          obtain ⟨p'', t'', y1, y2⟩ := ih p' t' (h + 2) (by omega) z1
            (by rw [ids_plug, z2, ← ids_plug, hus]; exact hn') z3 z4
            (avlf_congr (fun i hi => (z7 i (hne i hi)).1) (fun i hi => (z7 i (hne i hi)).2) hctx) hp.2
          refine ⟨p'', t'', y1, y2.trans z5 z6 ?_⟩
          simp only [plug, ids_plug, z2, hidsT]
        simp only [rt_mk, getB_eq hcl, Option.bind_some]
        cases hbc : B p c
        · simp only [Bool.false_eq_true, if_false, getR_eq hcl, Option.bind_some]
          simp only [Flags, hbc, Bool.false_eq_true, if_false] at hF
          by_cases hrc : R p c = !d
          · rw [if_pos (by rw [hrx', hrc])]
            rw [if_pos hrc] at hF
            obtain ⟨p', t', z1, z2, z3, z4, z5, z6, z7, z8⟩ := avlSingle_ok (h := h) hlen hl' hn' hpx hpu hA hB ha
              (by omega) (by omega) hh
            obtain ⟨p'', t'', y1, y2⟩ := fin p' t' z2 z3 z4 z5 z6 z7 z8
            refine ⟨p'', t'', ?_, y2⟩
            rw [← y1]
            simp only [Option.bind_eq_bind] at z1 ⊢
            rw [← Option.bind_some (a := p') (f := fun p => avlDelLoop fs.length p path), ← z1]
            simp only [Option.bind_assoc]
          · rw [if_neg (by rw [hrx']; exact fun h => hrc h.symm)]
            rw [if_neg hrc] at hF
            obtain ⟨p', t', z1, z2, z3, z4, z5, z6, z7, z8⟩ := avlGrand_ok (h := h) hlen hl' hn' hpx hpu hbx hrx' hbc
              (by revert hrc; cases R p c <;> cases d <;> simp) hA hB ha (by omega) (by omega) hh
            obtain ⟨p'', t'', y1, y2⟩ := fin p' t' z2 z3 z4 z5 z6 z7 z8
            refine ⟨p'', t'', ?_, y2⟩
            rw [← y1]
            simp only [Option.bind_eq_bind, Bool.not_not] at z1 ⊢
            rw [← Option.bind_some (a := p') (f := fun p => avlDelLoop fs.length p path), ← z1]
            simp only [Option.bind_assoc]
        · -- single rotation that keeps the height
          simp only [if_true]
          simp only [Flags, hbc, if_true] at hF
          rw [setB_eq hcl]
          simp only [Option.bind_some]
          rw [setR_eq (by simpa using hcl)]
          simp only [Option.bind_some]
          generalize hq : updR (updB p c false) c d = q
          have hBq : ∀ j, B q j = if j = c then false else B p j := by intro j; rw [← hq]; simp only [B_updR]; exact B_updB hcl
          have hRq : ∀ j, R q j = if j = c then d else R p j := by
            intro j; rw [← hq, R_updR (by simpa using hcl)]; simp
          have hqlen : q.length = p.length := by rw [← hq]; simp
          have hcB : ∀ i, i ≠ c → B q i = B p i := by intro i hi; rw [hBq, if_neg hi]
          have hcR : ∀ i, i ≠ c → R q i = R p i := by intro i hi; rw [hRq, if_neg hi]
          obtain ⟨p', r1, r2, r3⟩ := rotate_ok (p := q) (path := path) (k := fs.length) (dx := d) (by omega)
            (by rw [← hq]; exact links_updR (links_updB hl')) hn' hpx hpu
          have r3 : Links p' (plug (u :: us) (mk (!d) A c (mk (!d) Bt x t))) := r3
          rw [← hus, plug_hdr] at r3
          have hnn2 := hnn
          simp only [mem_mk, (ids_mk_perm (!d) A c Bt).nodup_iff, List.nodup_append, List.nodup_cons, List.cons_append, List.mem_append, List.mem_cons, not_or] at hnn2
          refine ⟨p', _, r1, ⟨r3, ?_, ?_, by rw [r2.len, hqlen], fun i => by rw [r2.key, ← hq]; simp⟩⟩
          · simp only [plug, ids_plug]; rw [hidsT, ids_rotate]
          · have hBp : B p' = B q := funext r2.bal
            have hRp : R p' = R q := funext r2.red
            have hxc : x ≠ c := by grind
            rw [hBp, hRp, avl_plug, avl_mk, avl_mk, height_mk, height_mk]
            refine ⟨⟨avl_congr (fun i hi => hcB i (by grind)) (fun i hi => hcR i (by grind)) hA,
              ⟨avl_congr (fun i hi => hcB i (by grind)) (fun i hi => hcR i (by grind)) hB,
               avl_congr (fun i hi => hcB i (by grind)) (fun i hi => hcR i (by grind)) ha, ?_⟩, ?_⟩, ?_⟩
            · simp only [Flags, hcB x hxc, hcR x hxc, hbx, hrx', Bool.false_eq_true, if_false, if_true]; omega
            · simp only [Flags, hBq, hRq, if_true, Bool.false_eq_true, if_false]
              rw [if_neg (by cases d <;> simp)]; omega
            · have e : max A.height (max Bt.height t.height + 1) + 1 = h + 2 + 1 := by omega
              rw [height_mk, e]
              exact avlf_congr (fun i hi => hcB i (by grind)) (fun i hi => hcR i (by grind)) hctx
    · -- was balanced
      simp only [if_true]
      simp only [Flags, hbx, if_true] at hfl
      rw [setB_eq hxl]
      simp only [Option.bind_some]
      rw [setR_eq (by simpa using hxl)]
      generalize hq : updR (updB p x false) x (!d) = q
      have hB : ∀ j, B q j = if j = x then false else B p j := by intro j; rw [← hq]; simp only [B_updR]; exact B_updB hxl
      have hR : ∀ j, R q j = if j = x then !d else R p j := by
        intro j; rw [← hq, R_updR (by simpa using hxl)]; simp
      have hqlen : q.length = p.length := by rw [← hq]; simp
      have hcB : ∀ i, i ≠ x → B q i = B p i := by intro i hi; rw [hB, if_neg hi]
      have hcR : ∀ i, i ≠ x → R q i = R p i := by intro i hi; rw [hR, if_neg hi]
      refine ⟨_, _, rfl, ⟨by rw [← plug_hdr, ← hq]; exact links_updR (links_updB hl), rfl, ?_, hqlen, fun i => by rw [← hq]; simp⟩⟩
      rw [avl_plug]
      refine ⟨avl_congr (fun i hi => hcB i (by grind)) (fun i hi => hcR i (by grind)) ha,
        avl_congr (fun i hi => hcB i (by grind)) (fun i hi => hcR i (by grind)) hs, ?_, ?_⟩
      · simp only [Flags, hB, hR, if_true, Bool.false_eq_true, if_false]
        rw [if_neg (by cases d <;> simp)]; omega
      · have e : max (h + 1) s.height + 1 = max t.height s.height + 1 := by omega
        rw [e] at hctx
        exact avlf_congr (fun i hi => hcB i (by grind)) (fun i hi => hcR i (by grind)) hctx

theorem avl_del_contract : DelContract AvlInv avlRebalanceDel := by
  intro p gs c x path dx d hlen hl hn hxl hi hp hx hpl hg
  unfold AvlInv at hi
  rw [avl_plug, avl_mk, height_mk] at hi
  have hnc : (plug (gs ++ [hdr]) c).ids.Nodup := by
    rw [nodup_plug] at hn ⊢
    rw [((ids_mk_perm d c x nil).append_right _).nodup_iff] at hn
    simp only [ids, List.append_nil, List.cons_append, List.nodup_cons] at hn
    exact hn.2
  simp only [avlRebalanceDel, Nat.add_sub_cancel]
  obtain ⟨p', t', r1, r2⟩ := avlDelLoop_ok (path := path) gs p c c.height hlen hl hnc hi.1.1 rfl
    (by have := hi.2; simpa [height] using this) hp
  exact ⟨p', t', r1, r2.links, r2.idseq, r2.avl, r2.len, r2.key⟩

end Verif.Lemmas.Tree
