import Verif.Lemmas.TreeDel

namespace Verif.Lemmas.Tree
open Verif.Model Verif.Model.Ic Verif.Model.Tree Verif.Spec Verif.Lemmas.Collection Verif.Lemmas.IcArray
open T

variable {p : Pool} {c c' : Nat → Bool} {n : Nat}

def isRed (c : Nat → Bool) : T → Bool
  | nil => false
  | node _ i _ => c i

/-- red-black tree with `n` black nodes on every path -/
def RB (c : Nat → Bool) : T → Nat → Prop
  | nil, n => n = 0
  | node l i r, n => if c i then isRed c l = false ∧ isRed c r = false ∧ RB c l n ∧ RB c r n
      else ∃ m, n = m + 1 ∧ RB c l m ∧ RB c r m

/-- the place of a missing subtree must not be red when the frame above is -/
def topRed (c : Nat → Bool) : List Frame → Bool
  | [] => true
  | f :: _ => c f.i

/-- red-black context for a subtree with `n` black nodes on every path -/
def RBF (c : Nat → Bool) : List Frame → Nat → Prop
  | [], _ => True
  | f :: fs, n => RB c f.s n ∧ if c f.i then isRed c f.s = false ∧ topRed c fs = false ∧ RBF c fs n
      else RBF c fs (n + 1)

theorem isRed_congr {t : T} (h : ∀ i ∈ t.ids, c' i = c i) : isRed c' t = isRed c t := by
  cases t with
  | nil => rfl
  | node l i r => simp [isRed, h i (by simp [ids])]

theorem rb_congr {t : T} : ∀ {n}, (∀ i ∈ t.ids, c' i = c i) → RB c t n → RB c' t n := by
  induction t with
  | nil => intro n _ h; exact h
  | node l i r ihl ihr =>
    intro n h h1
    have hl : ∀ j ∈ l.ids, c' j = c j := fun j hj => h j (by simp [ids, hj])
    have hr : ∀ j ∈ r.ids, c' j = c j := fun j hj => h j (by simp [ids, hj])
    simp only [RB, h i (by simp [ids]), isRed_congr hl, isRed_congr hr] at h1 ⊢
    split at h1
    · next hc => rw [if_pos hc]; exact ⟨h1.1, h1.2.1, ihl hl h1.2.2.1, ihr hr h1.2.2.2⟩
    · next hc =>
      rw [if_neg hc]
      obtain ⟨m, e, h2, h3⟩ := h1
      exact ⟨m, e, ihl hl h2, ihr hr h3⟩

theorem topRed_congr {fs : List Frame} (h : ∀ i ∈ fids fs, c' i = c i) : topRed c' fs = topRed c fs := by
  cases fs with
  | nil => rfl
  | cons f fs => simp [topRed, h f.i (by simp [fids])]

theorem rbf_congr {fs : List Frame} : ∀ {n}, (∀ i ∈ fids fs, c' i = c i) → RBF c fs n → RBF c' fs n := by
  induction fs with
  | nil => intro _ _ _; trivial
  | cons f fs ih =>
    intro n h h1
    have hs : ∀ j ∈ f.s.ids, c' j = c j := fun j hj => h j (by simp [fids, hj])
    have hf : ∀ j ∈ fids fs, c' j = c j := fun j hj => h j (by simp [fids, hj])
    simp only [RBF, h f.i (by simp [fids]), isRed_congr hs, topRed_congr hf] at h1 ⊢
    refine ⟨rb_congr hs h1.1, ?_⟩
    have h2 := h1.2
    split at h2
    · next hc => rw [if_pos hc]; exact ⟨h2.1, h2.2.1, ih hf h2.2.2⟩
    · next hc => rw [if_neg hc]; exact ih hf h2

@[simp] theorem isRed_mk (d : Dir) (a : T) (i : Nat) (b : T) : isRed c (mk d a i b) = c i := by
  cases d <;> rfl

theorem rb_mk {d : Dir} {a b : T} {i : Nat} : RB c (mk d a i b) n ↔
    if c i then isRed c a = false ∧ isRed c b = false ∧ RB c a n ∧ RB c b n
      else ∃ m, n = m + 1 ∧ RB c a m ∧ RB c b m := by
  cases d
  · rfl
  · simp only [mk, RB, if_true]
    split
    · exact ⟨fun h => ⟨h.2.1, h.1, h.2.2.2, h.2.2.1⟩, fun h => ⟨h.2.1, h.1, h.2.2.2, h.2.2.1⟩⟩
    · exact ⟨fun ⟨m, h⟩ => ⟨m, h.1, h.2.2, h.2.1⟩, fun ⟨m, h⟩ => ⟨m, h.1, h.2.2, h.2.1⟩⟩

theorem rb_black {d : Dir} {a b : T} {i : Nat} (hc : c i = false) (ha : RB c a n) (hb : RB c b n) :
    RB c (mk d a i b) (n + 1) := by
  rw [rb_mk, if_neg (by simp [hc])]; exact ⟨n, rfl, ha, hb⟩

theorem rb_red {d : Dir} {a b : T} {i : Nat} (hc : c i = true) (ra : isRed c a = false)
    (rb : isRed c b = false) (ha : RB c a n) (hb : RB c b n) : RB c (mk d a i b) n := by
  rw [rb_mk, if_pos hc]; exact ⟨ra, rb, ha, hb⟩

/-- filling a red-black context -/
theorem rb_plug {fs : List Frame} : ∀ {t : T} {n}, RB c t n → RBF c fs n →
    (isRed c t = true → topRed c fs = false) →
    ∃ m, RB c (plug fs t) m ∧ isRed c (plug fs t) = false := by
  induction fs with
  | nil =>
    intro t n h1 _ h3
    refine ⟨n, h1, ?_⟩
    simp only [topRed, Bool.true_eq_false] at h3
    simpa [plug] using h3
  | cons f fs ih =>
    intro t n h1 h2 h3
    simp only [plug]
    obtain ⟨hs, h2⟩ := h2
    simp only [topRed] at h3
    split at h2
    · next hc =>
      refine ih (rb_red hc ?_ h2.1 h1 hs) h2.2.2 (fun _ => h2.2.1)
      simp only [hc, Bool.true_eq_false] at h3
      simpa using h3
    · next hc =>
      refine ih (rb_black (by simpa using hc) h1 hs) h2 ?_
      intro h; rw [isRed_mk] at h; exact absurd h hc

theorem rb_unplug {fs : List Frame} : ∀ {t : T} {m}, RB c (plug fs t) m → isRed c (plug fs t) = false →
    ∃ n, RB c t n ∧ RBF c fs n ∧ (isRed c t = true → topRed c fs = false) := by
  induction fs with
  | nil =>
    intro t m h1 h2
    exact ⟨m, h1, trivial, fun h => by simp only [plug] at h2; rw [h] at h2; exact absurd h2 (by simp)⟩
  | cons f fs ih =>
    intro t m h1 h2
    obtain ⟨n, h3, h4, h5⟩ := ih h1 h2
    rw [rb_mk] at h3
    rw [isRed_mk] at h5
    split at h3
    · next hc =>
      exact ⟨n, h3.2.2.1, ⟨h3.2.2.2, by rw [if_pos hc]; exact ⟨h3.2.1, h5 hc, h4⟩⟩,
        fun h => by rw [h] at h3; exact absurd h3.1 (by simp)⟩
    · next hc =>
      obtain ⟨k, e, h6, h7⟩ := h3
      exact ⟨k, h6, ⟨h7, by rw [if_neg hc, ← e]; exact h4⟩, fun _ => by simpa [topRed] using hc⟩

/-! ### height -/

theorem rb_height {t : T} : ∀ {n}, RB c t n →
    n ≤ t.height ∧ (isRed c t = false → t.height ≤ 2 * n) ∧ t.height ≤ 2 * n + 1 ∧
    (isRed c t = false → 2 ^ n + 2 ^ (t.height - n) ≤ t.ids.length + 2) ∧
    (isRed c t = true → 2 ^ (n + 1) + 2 ^ (t.height - 1 - n) ≤ t.ids.length + 2) := by
  induction t with
  | nil => intro n h; simp only [RB] at h; subst h; simp [height, isRed, ids]
  | node l i r ihl ihr =>
    intro n h
    simp only [RB] at h
    split at h
    · next hc =>
      obtain ⟨h1, h2, h3, h4⟩ := h
      obtain ⟨a1, a2, a3, a4, _⟩ := ihl h3
      obtain ⟨b1, b2, b3, b4, _⟩ := ihr h4
      have a2 := a2 h1; have b2 := b2 h2; have a4 := a4 h1; have b4 := b4 h2
      refine ⟨by simp only [height]; omega, by simp [isRed, hc], by simp only [height]; omega, by simp [isRed, hc], fun _ => ?_⟩
      simp only [height, ids, List.length_append, List.length_cons, Nat.add_sub_cancel]
      have e : 2 ^ (n + 1) = 2 ^ n + 2 ^ n := by omega
      rcases Nat.le_total l.height r.height with h | h
      · rw [Nat.max_eq_right h]
        have : 2 ^ n ≤ l.ids.length + 1 := by
          have : 1 ≤ 2 ^ (l.height - n) := Nat.one_le_two_pow
          omega
        omega
      · rw [Nat.max_eq_left h]
        have : 2 ^ n ≤ r.ids.length + 1 := by
          have : 1 ≤ 2 ^ (r.height - n) := Nat.one_le_two_pow
          omega
        omega
    · next hc =>
      obtain ⟨m, rfl, h3, h4⟩ := h
      obtain ⟨a1, a2, a3, a4, a5⟩ := ihl h3
      obtain ⟨b1, b2, b3, b4, b5⟩ := ihr h4
      refine ⟨by simp only [height]; omega, fun _ => by simp only [height]; omega, by simp only [height]; omega, fun _ => ?_, by simp [isRed, hc]⟩
      have key : ∀ u : T, m ≤ u.height → 
          (isRed c u = false → 2 ^ m + 2 ^ (u.height - m) ≤ u.ids.length + 2) →
          (isRed c u = true → 2 ^ (m + 1) + 2 ^ (u.height - 1 - m) ≤ u.ids.length + 2) →
          u.height ≤ 2 * m + 1 → 2 ^ m + 2 ^ (u.height - m) ≤ u.ids.length + 2 := by
        intro u h1 h2 h3 h4
        cases hu : isRed c u
        · exact h2 hu
        · have h3 := h3 hu
          by_cases h5 : u.height = m
          · rw [h5, Nat.sub_self]
            have : 1 ≤ 2 ^ m := Nat.one_le_two_pow
            have : 1 ≤ 2 ^ (u.height - 1 - m) := Nat.one_le_two_pow
            have : 2 ^ (m + 1) = 2 ^ m + 2 ^ m := by omega
            omega
          · obtain ⟨k, hk⟩ : ∃ k, u.height - m = k + 1 := ⟨u.height - m - 1, by omega⟩
            have e : u.height - 1 - m = k := by omega
            rw [e] at h3
            rw [hk]
            have : 2 ^ k ≤ 2 ^ m := Nat.pow_le_pow_right (by omega) (by omega)
            have : 2 ^ (m + 1) = 2 ^ m + 2 ^ m := by omega
            have : 2 ^ (k + 1) = 2 ^ k + 2 ^ k := by omega
            omega
      have ka := key l a1 a4 a5 a3
      have kb := key r b1 b4 b5 b3
      simp only [height, ids, List.length_append, List.length_cons]
      have e : 2 ^ (m + 1) = 2 ^ m + 2 ^ m := by omega
      rcases Nat.le_total l.height r.height with h | h
      · rw [Nat.max_eq_right h]
        have : 1 ≤ 2 ^ (l.height - m) := Nat.one_le_two_pow
        have : r.height + 1 - (m + 1) = r.height - m := by omega
        rw [this]
        omega
      · rw [Nat.max_eq_left h]
        have : 1 ≤ 2 ^ (r.height - m) := Nat.one_le_two_pow
        have : l.height + 1 - (m + 1) = l.height - m := by omega
        rw [this]
        omega

/-- the state of a red-black tree between two calls -/
def RbInv (p : Pool) (t : T) : Prop := ∃ n, RB (R p) t n ∧ isRed (R p) t = false ∧ R p 0 = false

theorem isRed_map {f : Nat → Nat} {t : T} (h : ∀ i ∈ t.ids, c' (f i) = c i) : isRed c' (t.map f) = isRed c t := by
  cases t with
  | nil => rfl
  | node l i r => simp [isRed, T.map, h i (by simp [ids])]

theorem rb_map {f : Nat → Nat} {t : T} : ∀ {n}, (∀ i ∈ t.ids, c' (f i) = c i) → RB c t n → RB c' (t.map f) n := by
  induction t with
  | nil => intro n _ h; exact h
  | node l i r ihl ihr =>
    intro n h h1
    have hl : ∀ j ∈ l.ids, c' (f j) = c j := fun j hj => h j (by simp [ids, hj])
    have hr : ∀ j ∈ r.ids, c' (f j) = c j := fun j hj => h j (by simp [ids, hj])
    simp only [RB, T.map, h i (by simp [ids]), isRed_map hl, isRed_map hr] at h1 ⊢
    split at h1
    · next hc => rw [if_pos hc]; exact ⟨h1.1, h1.2.1, ihl hl h1.2.2.1, ihr hr h1.2.2.2⟩
    · next hc =>
      rw [if_neg hc]
      obtain ⟨m, e, h2, h3⟩ := h1
      exact ⟨m, e, ihl hl h2, ihr hr h3⟩

theorem rb_scheme : Scheme RbInv where
  height := by
    intro p t ⟨n, h1, h2, _⟩ hn
    obtain ⟨a1, a2, _, a4, _⟩ := rb_height h1
    have a2 := a2 h2
    have a4 := a4 h2
    apply Classical.byContradiction
    intro h
    have hn31 : 30 < n ∨ n ≤ 30 := by omega
    rcases hn31 with h5 | h5
    · by_cases h6 : n = 31
      · subst h6
        have : 2 ^ 30 ≤ 2 ^ (t.height - 31) := Nat.pow_le_pow_right (by omega) (by omega)
        omega
      · have : 2 ^ 32 ≤ 2 ^ n := Nat.pow_le_pow_right (by omega) (by omega)
        have : 1 ≤ 2 ^ (t.height - n) := Nat.one_le_two_pow
        omega
    · omega
  empty := ⟨0, rfl, rfl, rfl⟩
  map := by
    intro p p' t f h h0 ⟨n, h1, h2, h3⟩
    exact ⟨n, rb_map (fun i hi => (h i hi).1) h1, by rw [isRed_map (fun i hi => (h i hi).1)]; exact h2, by rw [h0]; exact h3⟩

theorem mk_congr (d e : Dir) (h : e ≠ d) (a : T) (i : Nat) (b : T) : mk e a i b = mk d b i a := by
  cases d <;> cases e <;> first | rfl | exact absurd rfl h

theorem isRed_rt (h0 : c 0 = false) (t : T) : c t.rt = isRed c t := by
  cases t with
  | nil => exact h0
  | node l i r => rfl

/-- nodes of a tree below the header -/
theorem nodup_hdr {gs : List Frame} {t : T} (h : (plug (gs ++ [hdr]) t).ids.Nodup) :
    (t.ids ++ fids gs).Nodup ∧ 0 ∉ t.ids ∧ 0 ∉ fids gs := by
  rw [nodup_plug, fids_append] at h
  simp only [fids, hdr, ids] at h
  rw [← List.append_assoc, List.nodup_append] at h
  refine ⟨h.1, ?_, ?_⟩
  · intro h0; exact h.2.2 0 (List.mem_append_left _ h0) 0 (by simp) rfl
  · intro h0; exact h.2.2 0 (List.mem_append_right _ h0) 0 (by simp) rfl

theorem links_updR {q : Pool} {b : Bool} {j : Nat} {t : T} (h : Links q t) : Links (updR q j b) t :=
  links_congr (by simp) (fun _ _ _ => by simp) h

theorem SameData.rfun {p p' : Pool} (h : SameData p p') : R p' = R p := funext h.red

/-- what a rebalancing leaves behind -/
structure Done (p p' : Pool) (t t' : T) : Prop where
  links : Links p' (node t' 0 nil)
  idseq : t'.ids = t.ids
  rb : ∃ m, RB (R p') t' m
  len : p'.length = p.length
  key : ∀ i, K p' i = K p i

theorem rbAddLoop_ok {path : Path} : ∀ (fuel : Nat) (gs : List Frame) (p : Pool) (t : T) (n : Nat) (dx : Dir),
    p.length ≤ 2 ^ 31 → Links p (plug (gs ++ [hdr]) t) → (plug (gs ++ [hdr]) t).ids.Nodup →
    R p 0 = false → RB (R p) t n → isRed (R p) t = true → RBF (R p) gs n → PathOK path (gs ++ [hdr]) →
    path[gs.length + 1]? = some (t.rt, dx) → gs.length < fuel →
    ∃ p' t', rbAddLoop fuel p path (gs.length + 1) = some p' ∧ Done p p' (plug gs t) t' ∧ R p' 0 = false := by
  intro fuel
  induction fuel with
  | zero => intro gs p t n dx _ _ _ _ _ _ _ _ _ h; omega
  | succ fuel ih =>
    intro gs p t n dx hlen hl hn h0 hrb hred hctx hp hx hf
    have hnn := nodup_hdr hn
    match gs with
    | [] =>
      have hp0 : path[0]? = some (0, false) := hp.1
      have h0l : 0 < p.length := (links_plug.mp hl).1.1
      simp only [rbAddLoop, List.length_nil, Nat.zero_add, Nat.sub_self, hp0, Option.bind_eq_bind, Option.bind_some, getR_eq h0l, h0]
      exact ⟨p, t, by simp, ⟨hl, rfl, ⟨n, hrb⟩, rfl, fun _ => rfl⟩, h0⟩
    | f :: fs =>
      have hpf : path[fs.length + 1]? = some (f.i, f.d) := by have := hp.1; simpa using this
      have hfl : f.i < p.length := links_lt hl f.i (by rw [ids_plug]; rcases f with ⟨d, i, s⟩; cases d <;> simp [bef, aft])
      simp only [rbAddLoop, List.length_cons, Nat.add_sub_cancel, hpf, Option.bind_eq_bind, Option.bind_some, getR_eq hfl]
      by_cases hfr : R p f.i = true
      case neg =>
        have hfr' : R p f.i = false := by simpa using hfr
        simp only [hfr', Bool.false_eq_true, and_false, if_false]
        obtain ⟨m, hm, _⟩ := rb_plug hrb hctx (fun _ => by simpa [topRed] using hfr')
        exact ⟨p, plug (f :: fs) t, rfl, ⟨by rw [← plug_hdr]; exact hl, rfl, ⟨m, hm⟩, rfl, fun _ => rfl⟩, h0⟩
      case pos =>
        obtain ⟨hfs, hctx⟩ := hctx
        rw [if_pos hfr] at hctx
        obtain ⟨hfsr, htop, hctx⟩ := hctx
        match fs with
        | [] => simp [topRed] at htop
        | g :: fs =>
          simp only [topRed] at htop
          obtain ⟨hgs, hctx⟩ := hctx
          rw [if_neg (by simp [htop])] at hctx
          have hpg : path[fs.length + 1]? = some (g.i, g.d) := by have := hp.2.1; simpa using this
          obtain ⟨u, us, hus, hul⟩ := gs_hdr fs
          have hpu : path[fs.length]? = some (u.i, u.d) := by
            have := hp.2.2; simp only [List.append_eq] at this; rw [hus] at this; have := this.1; rwa [hul] at this
          -- the three nodes
          obtain ⟨tl, x, tr, rfl⟩ : ∃ tl x tr, t = node tl x tr := by
            cases t with
            | nil => simp [isRed] at hred
            | node l i r => exact ⟨l, i, r, rfl⟩
          have hl' : Links p (plug (fs ++ [hdr]) (mk g.d (mk f.d (node tl x tr) f.i f.s) g.i g.s)) := hl
          have hn' : (plug (fs ++ [hdr]) (mk g.d (mk f.d (node tl x tr) f.i f.s) g.i g.s)).ids.Nodup := hn
          have hlt := (links_plug.mp hl').2
          rw [links_mk, links_mk] at hlt
          obtain ⟨hgl, hgd, hgb, ⟨_, hfd, hfb, hLt, hLfs⟩, hLgs⟩ := hlt
          have hxl : x < p.length := hLt.1
          simp only [rt_mk] at hgd
          have hgsl : g.s.rt < p.length := links_rt_lt (by omega) hLgs
          simp only [fids, ids, List.nodup_append, List.nodup_cons, List.cons_append, List.mem_append, List.mem_cons,
            not_or] at hnn
          simp only [isRed] at hred
          have e1 : fs.length + 1 + 1 + 1 - 2 = fs.length + 1 := by omega
          have e2 : fs.length + 1 + 1 + 1 > 2 := by omega
          simp only [List.length_cons, rt] at hx
          simp only [hfr, and_self, if_true, e1, e2, hx, hpg, Option.bind_some, getNx_eq hgl, List.length_cons]
          rw [hgb, getR_eq hgsl]
          simp only [Option.bind_some]
          rw [isRed_rt h0]
          by_cases hur : isRed (R p) g.s = true
          · -- recolour and go on
            simp only [hur, Bool.not_true, Bool.false_eq_true, if_false]
            rw [setR_eq hfl]
            simp only [Option.bind_some]
            rw [setR_eq (by simpa using hgsl)]
            simp only [Option.bind_some]
            rw [setR_eq (by simpa using hgl)]
            simp only [Option.bind_some]
            generalize hq : updR (updR (updR p f.i false) g.s.rt false) g.i true = q
            have hR : ∀ j, R q j = if j = g.i then true else if j = g.s.rt then false else if j = f.i then false else R p j := by
              intro j; rw [← hq, R_updR (by simpa using hgl), R_updR (by simpa using hgsl), R_updR hfl]
            have hqlen : q.length = p.length := by rw [← hq]; simp
            have hK : ∀ j, K q j = K p j := by intro j; rw [← hq]; simp
            obtain ⟨sl, y, sr, hgse⟩ : ∃ sl y sr, g.s = node sl y sr := by
              cases hg : g.s with
              | nil => simp [hg, isRed] at hur
              | node l i r => exact ⟨l, i, r, rfl⟩
            rw [hgse] at hgs hnn hR hur
            simp only [ids, rt, List.nodup_append, List.nodup_cons, List.mem_append, List.mem_cons, not_or] at hnn hR
            simp only [isRed] at hur
            simp only [RB, hur, if_true] at hgs
            simp only [RB, hred, if_true] at hrb
            have hA : ∀ v : T, (∀ i ∈ v.ids, i ≠ g.i ∧ i ≠ y ∧ i ≠ f.i) → ∀ i ∈ v.ids, R q i = R p i := by
              intro v hv i hi; rw [hR]; have := hv i hi; simp [this]
            have hB : ∀ i ∈ fids fs, R q i = R p i := by
              intro i hi; rw [hR]; grind
            have htl := hA tl (by grind)
            have htr := hA tr (by grind)
            have hsl := hA sl (by grind)
            have hsr := hA sr (by grind)
            have hfs' := hA f.s (by grind)
            have := ih fs q (mk g.d (mk f.d (node tl x tr) f.i f.s) g.i g.s) (n + 1) g.d (by omega)
              (links_congr (p := p) hqlen (fun j _ d => by rw [← hq]; simp) hl') hn'
              (by rw [hR]; grind)
              (by
                rw [hgse]
                refine rb_red (by rw [hR, if_pos rfl]) ?_ ?_ ?_ ?_
                · rw [isRed_mk, hR]; grind
                · simp only [isRed, hR]; grind
                · refine rb_black (by rw [hR]; grind) ?_ (rb_congr hfs' hfs)
                  simp only [RB]
                  rw [if_pos (by rw [hR]; grind), isRed_congr htl, isRed_congr htr]
                  exact ⟨hrb.1, hrb.2.1, rb_congr htl hrb.2.2.1, rb_congr htr hrb.2.2.2⟩
                · exact rb_black (d := false) (by rw [hR]; grind) (rb_congr hsl hgs.2.2.1) (rb_congr hsr hgs.2.2.2))
              (by rw [isRed_mk, hR, if_pos rfl]) (rbf_congr hB hctx) hp.2.2 (by rw [rt_mk]; exact hpg) (by simp at hf; omega)
            obtain ⟨p', t', r1, r2, r3⟩ := this
            exact ⟨p', t', r1, ⟨r2.links, r2.idseq, r2.rb, by rw [r2.len, hqlen], fun i => by rw [r2.key, hK]⟩, r3⟩
          · -- rotations
            have hur' : isRed (R p) g.s = false := by simpa using hur
            simp only [hur', Bool.not_false, if_true, rbAddRotate, Option.bind_eq_bind]
            rw [getNx_eq hfl]
            simp only [Option.bind_some]
            have hrb' := hrb
            simp only [RB, hred, if_true] at hrb'
            by_cases hfg : f.d = g.d
            · rw [hfg] at hfb
              rw [hfb]
              have hne : x ≠ f.s.rt := by
                intro h; cases hh : f.s with
                | nil => rw [hh] at h; simp only [rt] at h; grind
                | node l i r => rw [hh] at h hnn; simp only [rt, ids] at h hnn; grind
              simp only [ne_eq, hne, not_false_eq_true, if_true]
              rw [setR_eq hfl]
              simp only [Option.bind_some]
              rw [hus, hfg] at hl' hn'
              obtain ⟨p2, q1, q2, q3⟩ := rotate_ok (p := updR p f.i false) (path := path) (k := fs.length) (dx := g.d)
                (by simpa using hlen) (links_updR hl') hn' hpg hpu
              have q3 : Links p2 (plug (u :: us) _) := q3
              rw [q1]
              simp only [Option.bind_some]
              rw [setR_eq (by rw [q2.len]; simpa using hgl)]
              have hR : ∀ j, R (updR p2 g.i true) j = if j = g.i then true else if j = f.i then false else R p j := by
                intro j; rw [R_updR (by rw [q2.len]; simpa using hgl), q2.red, R_updR hfl]
              have hA : ∀ v : T, (∀ i ∈ v.ids, i ≠ g.i ∧ i ≠ f.i) → ∀ i ∈ v.ids, R (updR p2 g.i true) i = R p i := by
                intro v hv i hi; rw [hR]; have := hv i hi; simp [this]
              have hB : ∀ i ∈ fids fs, R (updR p2 g.i true) i = R p i := by
                intro i hi; rw [hR]; grind
              have hLL : Links (updR p2 g.i true) (plug (u :: us) (mk g.d (node tl x tr) f.i (mk g.d f.s g.i g.s))) := links_updR q3
              rw [← hus, plug_hdr] at hLL
              have htt := hA (node tl x tr) (by simp only [ids, List.mem_append, List.mem_cons]; grind)
              have hfss := hA f.s (by grind)
              have hgss := hA g.s (by grind)
              have hRB : RB (R (updR p2 g.i true)) (mk g.d (node tl x tr) f.i (mk g.d f.s g.i g.s)) (n + 1) := by
                refine rb_black (by rw [hR]; grind) (rb_congr htt hrb) ?_
                refine rb_red (by rw [hR]; grind) ?_ ?_ (rb_congr hfss hfs) (rb_congr hgss hgs)
                · rw [isRed_congr hfss]; exact hfsr
                · rw [isRed_congr hgss]; exact hur'
              obtain ⟨m, hm, _⟩ := rb_plug hRB (rbf_congr hB hctx) (fun h => by
                rw [isRed_mk, hR] at h; grind)
              refine ⟨_, _, rfl, ⟨hLL, ?_, ⟨m, hm⟩, by simp [q2.len], fun i => by simp [q2.key]⟩, by rw [hR]; grind⟩
              simp only [plug, ids_plug]
              rw [hfg, ids_rotate]
            · have hgf : (!g.d) = f.d := by revert hfg; cases f.d <;> cases g.d <;> simp
              rw [hgf, hfd]
              simp only [rt, ne_eq, not_true_eq_false, if_false]
              obtain ⟨A, Bt, hAB⟩ := eq_mk f.d tl x tr
              have hAr : isRed (R p) A = false ∧ isRed (R p) Bt = false ∧ RB (R p) A n ∧ RB (R p) Bt n := by
                have := hrb; rw [hAB, rb_mk, if_pos hred] at this; exact this
              have hnA : ∀ i, i ∈ tl.ids ++ x :: tr.ids ↔ i ∈ A.ids ∨ i = x ∨ i ∈ Bt.ids := by
                intro i
                have : i ∈ (node tl x tr).ids ↔ i ∈ A.ids ∨ i = x ∨ i ∈ Bt.ids := by rw [hAB, mem_mk]; grind
                simpa [ids] using this
              have hxA : x ∉ A.ids ∧ x ∉ Bt.ids := by
                have h1 : (node tl x tr).ids.Nodup := by
                  have := (nodup_hdr hn).1
                  exact (List.nodup_append.mp this).1
                rw [hAB, (ids_mk_perm f.d A x Bt).nodup_iff] at h1
                simp at h1; grind
              simp only [List.mem_append, List.mem_cons] at hnA
              have hl1 : Links p (plug (g :: fs ++ [hdr]) (mk f.d (mk f.d A x Bt) f.i f.s)) := by
                rw [← hAB]; exact hl
              have hn1 : (plug (g :: fs ++ [hdr]) (mk f.d (mk f.d A x Bt) f.i f.s)).ids.Nodup := by
                rw [← hAB]; exact hn
              obtain ⟨p1, q1, q2, q3⟩ := rotate_ok (p := p) (path := path) (k := fs.length + 1) (dx := f.d) (du := g.d) (u := g.i) (s := g.s) (fs := fs ++ [hdr])
                hlen hl1 hn1 (by simpa using hpf) hpg
              rw [q1]
              simp only [Option.bind_some]
              rw [setR_eq (by rw [q2.len]; exact hxl)]
              simp only [Option.bind_some]
              have hsw : plug (⟨g.d, g.i, g.s⟩ :: (fs ++ [hdr])) (mk f.d A x (mk f.d Bt f.i f.s)) =
                  plug (u :: us) (mk g.d (mk g.d (mk f.d Bt f.i f.s) x A) g.i g.s) := by
                simp only [plug]; rw [hus, mk_congr g.d f.d hfg A]; rfl
              have hids : (mk g.d (mk f.d (mk f.d A x Bt) f.i f.s) g.i g.s).ids = (mk g.d (mk g.d (mk f.d Bt f.i f.s) x A) g.i g.s).ids := by
                rw [← mk_congr g.d f.d hfg A]
                have := ids_rotate f.d A x Bt f.i f.s
                revert this; generalize mk f.d (mk f.d A x Bt) f.i f.s = U; generalize mk f.d A x (mk f.d Bt f.i f.s) = V
                intro h; cases g.d <;> simp [mk, ids, h]
              rw [hsw] at q3
              have hn2 : (plug (u :: us) (mk g.d (mk g.d (mk f.d Bt f.i f.s) x A) g.i g.s)).ids.Nodup := by
                rw [ids_plug, ← hids, ← ids_plug, ← hus, ← hAB]; exact hn'
              obtain ⟨p2, s1, s2, s3⟩ := rotate_ok (p := updR p1 x false) (path := path) (k := fs.length) (dx := g.d)
                (by rw [length_updR, q2.len]; exact hlen) (links_updR q3) hn2 hpg hpu
              have s3 : Links p2 (plug (u :: us) _) := s3
              rw [s1]
              simp only [Option.bind_some]
              have hgl2 : g.i < p2.length := by rw [s2.len, length_updR, q2.len]; exact hgl
              rw [setR_eq hgl2]
              have hR : ∀ j, R (updR p2 g.i true) j = if j = g.i then true else if j = x then false else R p j := by
                intro j; rw [R_updR hgl2, s2.red, R_updR (by rw [q2.len]; exact hxl), q2.red]
              have hA : ∀ v : T, (∀ i ∈ v.ids, i ≠ g.i ∧ i ≠ x) → ∀ i ∈ v.ids, R (updR p2 g.i true) i = R p i := by
                intro v hv i hi; rw [hR]; have := hv i hi; simp [this]
              have hB : ∀ i ∈ fids fs, R (updR p2 g.i true) i = R p i := by
                intro i hi; rw [hR]; grind
              have hLL : Links (updR p2 g.i true) (plug (u :: us) (mk g.d (mk f.d Bt f.i f.s) x (mk g.d A g.i g.s))) := links_updR s3
              rw [← hus, plug_hdr] at hLL
              have hAA := hA A (by grind)
              have hBB := hA Bt (by grind)
              have hfss := hA f.s (by grind)
              have hgss := hA g.s (by grind)
              have hRB : RB (R (updR p2 g.i true)) (mk g.d (mk f.d Bt f.i f.s) x (mk g.d A g.i g.s)) (n + 1) := by
                refine rb_black (by rw [hR]; grind) ?_ ?_
                · refine rb_red (by rw [hR]; grind) ?_ ?_ (rb_congr hBB hAr.2.2.2) (rb_congr hfss hfs)
                  · rw [isRed_congr hBB]; exact hAr.2.1
                  · rw [isRed_congr hfss]; exact hfsr
                · refine rb_red (by rw [hR]; grind) ?_ ?_ (rb_congr hAA hAr.2.2.1) (rb_congr hgss hgs)
                  · rw [isRed_congr hAA]; exact hAr.1
                  · rw [isRed_congr hgss]; exact hur'
              obtain ⟨m, hm, _⟩ := rb_plug hRB (rbf_congr hB hctx) (fun h => by
                rw [isRed_mk, hR] at h; grind)
              refine ⟨_, _, rfl, ⟨hLL, ?_, ⟨m, hm⟩, by simp [s2.len, q2.len], fun i => by simp [s2.key, q2.key]⟩, by rw [hR]; grind⟩
              simp only [plug, ids_plug]
              rw [hAB, hids, ids_rotate]

/-- the last statement of both rebalancings paints the root black -/
theorem blacken {q : Pool} {t : T} (hl : Links q (node t 0 nil)) (hn : (node t 0 nil).ids.Nodup)
    (hrb : ∃ m, RB (R q) t m) (h0 : R q 0 = false) :
    ∃ q', (do let r ← getNx q 0 false; setR q r false) = some q' ∧ Links q' (node t 0 nil) ∧ RbInv q' t ∧
      q'.length = q.length ∧ ∀ i, K q' i = K q i := by
  obtain ⟨h0l, ht, _, hLt, _⟩ := id hl
  obtain ⟨m, hrb⟩ := hrb
  have hrl : t.rt < q.length := links_rt_lt h0l hLt
  simp only [Option.bind_eq_bind, getNx_eq h0l, ht, Option.bind_some, setR_eq hrl]
  refine ⟨_, rfl, links_updR hl, ?_, by simp, by simp⟩
  cases t with
  | nil => exact ⟨m, by simpa [RB] using hrb, rfl, by rw [R_updR hrl]; split <;> first | rfl | exact h0⟩
  | node l x r =>
    simp only [ids, List.nodup_append, List.nodup_cons, List.mem_append, List.mem_cons, rt] at hn hrl ⊢
    have hA : ∀ v : T, x ∉ v.ids → ∀ i ∈ v.ids, R (updR q x false) i = R q i := by
      intro v hv i hi; rw [R_updR hrl, if_neg]; intro h; subst h; exact hv hi
    have h1 := hA l (by grind)
    have h2 := hA r (by grind)
    have hx : R (updR q x false) x = false := by rw [R_updR hrl, if_pos rfl]
    have hz : R (updR q x false) 0 = false := by rw [R_updR hrl]; split <;> first | rfl | exact h0
    simp only [RB] at hrb
    split at hrb
    · exact ⟨m + 1, rb_black (d := false) hx (rb_congr h1 hrb.2.2.1) (rb_congr h2 hrb.2.2.2), hx, hz⟩
    · obtain ⟨k, rfl, h3, h4⟩ := hrb
      exact ⟨k + 1, rb_black (d := false) hx (rb_congr h1 h3) (rb_congr h2 h4), hx, hz⟩

theorem rb_add_contract : AddContract RbInv rbRebalanceAdd := by
  intro p gs x path dx hlen hl hn hi hp hx hpl
  obtain ⟨m, h1, h2, h0⟩ := hi
  obtain ⟨n, h3, h4, _⟩ := rb_unplug h1 h2
  simp only [RB] at h3
  subst h3
  have hnn := nodup_hdr hn
  simp only [ids, List.nil_append, List.cons_append, List.nodup_cons, List.mem_singleton] at hnn
  have hxl : x < p.length := (links_plug.mp hl).2.1
  have hgs : gs.length < pathSize + 1 := by
    have := (List.getElem?_eq_some_iff.mp hx).1; omega
  simp only [rbRebalanceAdd, hx, Option.bind_eq_bind, Option.bind_some, setR_eq hxl]
  have hR : ∀ j, R (updR p x true) j = if j = x then true else R p j := fun j => R_updR hxl
  obtain ⟨p', t', r1, r2, r3⟩ := rbAddLoop_ok (path := path) (pathSize + 1) gs (updR p x true) (node nil x nil) 0 dx
    (by simpa using hlen) (links_updR hl) hn (by rw [hR, if_neg hnn.2.1]; exact h0)
    (by simp [RB, hR, isRed]) (by simp [isRed, hR])
    (rbf_congr (fun i hi => by rw [hR, if_neg]; intro h; subst h; exact hnn.1.1 hi) h4) hp hx hgs
  rw [r1]
  simp only [Option.bind_some]
  have hids := r2.idseq
  obtain ⟨q, s1, s2, s3, s4, s5⟩ := blacken r2.links (by
    have := hn
    rw [plug_hdr] at this
    simp only [ids, hids] at this ⊢; exact this) r2.rb r3
  refine ⟨q, t', s1, s2, hids, s3, by rw [s4, r2.len]; simp, fun i => by rw [s5, r2.key]; simp⟩

/-! ### deletion -/

/-- a subtree one black node short: painting a red root black repairs it -/
def Short (c : Nat → Bool) : T → Nat → Prop
  | nil, n => n = 0
  | node l i r, n => if c i then RB c l n ∧ RB c r n else RB c (node l i r) n

theorem Short.of_rb {t : T} (h : RB c t n) : Short c t n := by
  cases t with
  | nil => exact h
  | node l i r =>
    simp only [Short]
    split
    · next hc => simp only [RB, hc, if_true] at h; exact h.2.2
    · exact h

theorem Short.black {t : T} (h : Short c t n) (hr : isRed c t = false) : RB c t n := by
  cases t with
  | nil => exact h
  | node l i r => simp only [isRed] at hr; simpa only [Short, hr, Bool.false_eq_true, if_false] using h

theorem blackBrother_ok {path : Path} {f : Frame} {fs : List Frame} {t : T} (hlen : p.length ≤ 2 ^ 31)
    (hl : Links p (plug (f :: fs ++ [hdr]) t)) (hn : (plug (f :: fs ++ [hdr]) t).ids.Nodup)
    (h0 : R p 0 = false) (ht : RB (R p) t n) (htr : isRed (R p) t = false)
    (hctx : RBF (R p) (f :: fs) (n + 1)) (hsr : isRed (R p) f.s = false)
    (hp : PathOK path (f :: fs ++ [hdr])) (hpl : path.length = pathSize) (hsz : fs.length + 2 < pathSize) :
    ∃ p' stop, rbDelBlackBrother p path (fs.length + 2) f.i f.s.rt f.d = some (p', stop) ∧
      p'.length = p.length ∧ (∀ i, K p' i = K p i) ∧ R p' 0 = false ∧
      (stop = true → ∃ t', Done p p' (plug (f :: fs) t) t') ∧
      (stop = false → Links p' (plug (fs ++ [hdr]) (mk f.d t f.i f.s)) ∧ R p' f.i = R p f.i ∧
        ∃ m, Short (R p') (mk f.d t f.i f.s) m ∧ RBF (R p') fs (m + 1)) := by
  obtain ⟨d, x, s⟩ := f
  simp only at *
  obtain ⟨hs, hctx⟩ := hctx
  simp only at hs hctx
  obtain ⟨b, Near, Far, rfl⟩ : ∃ b Near Far, s = mk d Near b Far := by
    cases s with
    | nil => simp [RB] at hs
    | node l i r => obtain ⟨a, b, h⟩ := eq_mk d l i r; exact ⟨i, a, b, h⟩
  rw [isRed_mk] at hsr
  rw [rb_mk, if_neg (by simp [hsr])] at hs
  obtain ⟨m, hm, hNear, hFar⟩ := hs
  have hm : m = n := by omega
  subst hm
  have hl' : Links p (plug (fs ++ [hdr]) (mk d t x (mk d Near b Far))) := hl
  have hn' : (plug (fs ++ [hdr]) (mk d t x (mk d Near b Far))).ids.Nodup := hn
  have hlt := (links_plug.mp hl').2
  rw [links_mk, links_mk] at hlt
  obtain ⟨hxl, hxd, hxb, hLt, hbl, hbd, hbb, hLn, hLf⟩ := hlt
  have hnl : Near.rt < p.length := links_rt_lt (by omega) hLn
  have hfl : Far.rt < p.length := links_rt_lt (by omega) hLf
  have hpx : path[fs.length + 1]? = some (x, d) := by have := hp.1; simpa using this
  obtain ⟨u, us, hus, hul⟩ := gs_hdr fs
  have hpu : path[fs.length]? = some (u.i, u.d) := by
    have := hp.2; simp only [List.append_eq] at this; rw [hus] at this; have := this.1; rwa [hul] at this
  have hnn := nodup_hdr hn'
  have hnn1 := hnn.1
  rw [((ids_mk_perm d t x _).append_right _).nodup_iff] at hnn1
  have hnn1 := (((((ids_mk_perm d Near b Far).append_left t.ids)).cons x).append_right _).nodup_iff.mp hnn1
  have hz := hnn.2
  simp only [mem_mk, not_or] at hz
  simp only [List.nodup_append, List.nodup_cons, List.cons_append, List.mem_append, List.mem_cons, not_or] at hnn1
  -- the test on the nephews
  have hN : ∃ rl rr, getNx p b false = some rl ∧ getNx p b true = some rr ∧
      rl < p.length ∧ rr < p.length ∧ (R p rl || R p rr) = (isRed (R p) Near || isRed (R p) Far) := by
    refine ⟨N p b false, N p b true, getNx_eq hbl, getNx_eq hbl, ?_, ?_, ?_⟩
    · cases d
      · rw [hbd]; exact hnl
      · simp only [Bool.not_true] at hbb; rw [hbb]; exact hfl
    · cases d
      · simp only [Bool.not_false] at hbb; rw [hbb]; exact hfl
      · rw [hbd]; exact hnl
    · cases d
      · simp only [Bool.not_false] at hbb; rw [hbd, hbb, isRed_rt h0, isRed_rt h0]
      · simp only [Bool.not_true] at hbb; rw [hbd, hbb, isRed_rt h0, isRed_rt h0, Bool.or_comm]
  obtain ⟨rl, rr, hrl, hrr, hrll, hrrl, hor⟩ := hN
  simp only [rbDelBlackBrother, rt_mk, hrl, hrr, Option.bind_eq_bind, Option.bind_some, getR_eq hrll, getR_eq hrrl, hor]
  by_cases hneph : (isRed (R p) Near || isRed (R p) Far) = true
  case neg =>
    have hneph' : isRed (R p) Near = false ∧ isRed (R p) Far = false := by simpa using hneph
    rw [if_neg hneph, setR_eq hbl]
    have hR : ∀ j, R (updR p b true) j = if j = b then true else R p j := fun j => R_updR hbl
    refine ⟨_, false, rfl, by simp, by simp, by rw [hR]; grind, by simp, fun _ => ⟨links_updR hl', by rw [hR]; grind, ?_⟩⟩
    have hA : ∀ v : T, b ∉ v.ids → ∀ i ∈ v.ids, R (updR p b true) i = R p i := by
      intro v hv i hi; rw [hR, if_neg]; intro h; subst h; exact hv hi
    have h1 := hA t (by grind)
    have h2 := hA Near (by grind)
    have h3 := hA Far (by grind)
    have hB : ∀ i ∈ fids fs, R (updR p b true) i = R p i := by
      intro i hi; rw [hR]; grind
    have hs' : RB (R (updR p b true)) (mk d Near b Far) m :=
      rb_red (by rw [hR, if_pos rfl]) (by rw [isRed_congr h2]; exact hneph'.1) (by rw [isRed_congr h3]; exact hneph'.2)
        (rb_congr h2 hNear) (rb_congr h3 hFar)
    have hxc : R (updR p b true) x = R p x := by rw [hR]; grind
    cases hxr : R p x
    · rw [hxr] at hctx hxc
      rw [if_neg (by simp)] at hctx
      exact ⟨m + 1, Short.of_rb (rb_black hxc (rb_congr h1 ht) hs'), rbf_congr hB hctx⟩
    · rw [hxr] at hctx hxc
      rw [if_pos rfl] at hctx
      refine ⟨m, ?_, rbf_congr hB hctx.2.2⟩
      cases d
      · simp only [mk, Bool.false_eq_true, if_false, Short, hxc, if_true]
        exact ⟨rb_congr h1 ht, hs'⟩
      · simp only [mk, if_true, Short, hxc]
        exact ⟨hs', rb_congr h1 ht⟩
  case pos =>
    rw [if_pos hneph, getNx_eq hbl, hbd]
    simp only [Option.bind_some]
    rw [getR_eq hnl, isRed_rt h0]
    simp only [Option.bind_some]
    by_cases hnr : isRed (R p) Near = true
    · -- the near nephew is red: two rotations
      rw [if_pos hnr]
      obtain ⟨mm, M1, M2, rfl⟩ : ∃ mm M1 M2, Near = mk d M1 mm M2 := by
        cases Near with
        | nil => simp [isRed] at hnr
        | node l i r => obtain ⟨a, b, h⟩ := eq_mk d l i r; exact ⟨i, a, b, h⟩
      have hnn2 := hnn1
      simp only [mem_mk, (ids_mk_perm d M1 mm M2).nodup_iff, List.nodup_append, List.nodup_cons, List.cons_append, List.mem_append, List.mem_cons, not_or] at hnn2
      simp only [mem_mk, not_or] at hz
      rw [isRed_mk] at hnr
      rw [rb_mk, if_pos hnr] at hNear
      simp only [rt_mk] at hnl ⊢
      rw [setR_eq hnl]
      simp only [Option.bind_some]
      rw [setR_eq (by simpa using hbl)]
      simp only [Option.bind_some]
      obtain ⟨old, hold⟩ : ∃ old, path[fs.length + 2]? = some old := ⟨_, List.getElem?_eq_getElem (by omega)⟩
      rw [hold]
      simp only [Option.bind_some]
      rw [wr, if_pos (by omega)]
      simp only [Option.bind_some]
      have e1 : fs.length + 2 - 1 = fs.length + 1 := by omega
      rw [e1, List.getElem?_set_ne (by omega), hpx]
      simp only [Option.bind_some]
      rw [wr, if_pos (by rw [List.length_set]; omega)]
      simp only [Option.bind_some]
      -- first rotation
      have hsw : mk d t x (mk d (mk d M1 mm M2) b Far) = mk (!d) (mk d (mk d M1 mm M2) b Far) x t := (mk_not d _ _ _).symm
      rw [hsw] at hl' hn'
      obtain ⟨p1, q1, q2, q3⟩ := rotate_ok (p := updR (updR p mm false) b true) (k := fs.length + 1) (dx := old.2) (du := !d) (u := x) (s := t) (fs := fs ++ [hdr])
        (path := (path.set (fs.length + 2) (b, old.2)).set (fs.length + 1) (x, !d))
        (A := M1) (c := mm) (Bt := M2) (x := b) (C := Far) (d := d)
        (by simpa using hlen) (links_updR (links_updR hl')) hn'
        (by rw [List.getElem?_set_ne (by omega), List.getElem?_set_self (by omega)])
        (by rw [List.getElem?_set_self (by rw [List.length_set]; omega)])
      rw [q1]
      simp only [Option.bind_some]
      have hp1 : p1.length = p.length := by rw [q2.len]; simp
      have hR1 : ∀ j, R p1 j = if j = b then true else if j = mm then false else R p j := by
        intro j; rw [q2.red, R_updR (by simpa using hbl), R_updR hnl]
      rw [getR_eq (by omega)]
      simp only [Option.bind_some]
      rw [setR_eq (by omega)]
      simp only [Option.bind_some]
      rw [setR_eq (by simp; omega)]
      simp only [Option.bind_some]
      rw [getNx_eq (by simp; omega)]
      simp only [Option.bind_some, N_updR]
      have hb1 : N p1 mm (!d) = b := by
        have h := (links_plug.mp q3).2
        rw [links_mk] at h
        have h := h.2.2.1
        rwa [rt_mk] at h
      rw [hb1, setR_eq (by simp; omega)]
      simp only [Option.bind_some]
      generalize hq : updR (updR (updR p1 mm (R p1 x)) x false) b false = q
      have hR : ∀ j, R q j = if j = b then false else if j = x then false else if j = mm then R p x else R p j := by
        intro j
        rw [← hq, R_updR (by simp; omega), R_updR (by simp; omega), R_updR (by omega), hR1, hR1]
        grind
      have hqlen : q.length = p.length := by rw [← hq]; simp [hp1]
      have hqK : ∀ j, K q j = K p j := by intro j; rw [← hq]; simp [q2.key]
      have hsw2 : plug (⟨!d, x, t⟩ :: (fs ++ [hdr])) (mk d M1 mm (mk d M2 b Far)) =
          plug (u :: us) (mk (!d) (mk (!d) (mk d M2 b Far) mm M1) x t) := by
        simp only [plug]; rw [hus, mk_not d (mk d M2 b Far) mm M1]; rfl
      rw [hsw2] at q3
      have q3' : Links q (plug (u :: us) (mk (!d) (mk (!d) (mk d M2 b Far) mm M1) x t)) := by
        rw [← hq]; exact links_updR (links_updR (links_updR q3))
      have hids : (mk (!d) (mk (!d) (mk d M2 b Far) mm M1) x t).ids = (mk (!d) (mk d (mk d M1 mm M2) b Far) x t).ids := by
        rw [mk_not d (mk d M2 b Far) mm M1]
        have := ids_rotate d M1 mm M2 b Far
        revert this; generalize mk d (mk d M1 mm M2) b Far = U; generalize mk d M1 mm (mk d M2 b Far) = V
        intro h; cases d <;> simp [mk, ids, h]
      obtain ⟨p2, s1, s2, s3⟩ := rotate_ok (p := q) (path := path) (k := fs.length) (dx := d)
        (by omega) q3' (by rw [ids_plug, hids, ← ids_plug, ← hus]; exact hn') hpx hpu
      rw [s1]
      simp only [Option.bind_some]
      have s3 : Links p2 (plug (u :: us) (mk (!d) (mk d M2 b Far) mm (mk (!d) M1 x t))) := s3
      rw [← hus, plug_hdr] at s3
      rw [s2.rfun.symm] at hR
      have hA : ∀ v : T, b ∉ v.ids → x ∉ v.ids → mm ∉ v.ids → ∀ i ∈ v.ids, R p2 i = R p i := by
        intro v hv1 hv2 hv3 i hi; rw [hR, if_neg, if_neg, if_neg] <;> (intro h; subst h; first | exact hv1 hi | exact hv2 hi | exact hv3 hi)
      have h1 := hA t (by grind) (by grind) (by grind)
      have h2 := hA M1 (by grind) (by grind) (by grind)
      have h3 := hA M2 (by grind) (by grind) (by grind)
      have h4 := hA Far (by grind) (by grind) (by grind)
      have hB : ∀ i ∈ fids fs, R p2 i = R p i := by
        intro i hi; rw [hR]; grind
      have hmm : R p2 mm = R p x := by rw [hR]; grind
      have hY : RB (R p2) (mk d M2 b Far) (m + 1) := rb_black (by rw [hR]; grind) (rb_congr h3 hNear.2.2.2) (rb_congr h4 hFar)
      have hX : RB (R p2) (mk (!d) M1 x t) (m + 1) := rb_black (by rw [hR]; grind) (rb_congr h2 hNear.2.2.1) (rb_congr h1 ht)
      have hfin : ∃ k, RB (R p2) (plug fs (mk (!d) (mk d M2 b Far) mm (mk (!d) M1 x t))) k := by
        cases hxr : R p x
        · rw [hxr, if_neg (by simp)] at hctx
          obtain ⟨k, hk, _⟩ := rb_plug (rb_black (d := !d) (hmm.trans hxr) hY hX) (rbf_congr hB hctx) (fun h => by
            rw [isRed_mk, hmm, hxr] at h; exact absurd h (by simp))
          exact ⟨k, hk⟩
        · rw [hxr, if_pos rfl] at hctx
          obtain ⟨k, hk, _⟩ := rb_plug (rb_red (d := !d) (hmm.trans hxr) (by rw [isRed_mk, hR]; grind) (by rw [isRed_mk, hR]; grind) hY hX)
            (rbf_congr hB hctx.2.2) (fun _ => by rw [topRed_congr hB]; exact hctx.2.1)
          exact ⟨k, hk⟩
      have hidsF : (plug fs (mk (!d) (mk d M2 b Far) mm (mk (!d) M1 x t))).ids = (plug (⟨d, x, mk d (mk d M1 mm M2) b Far⟩ :: fs) t).ids := by
        simp only [plug]
        rw [hsw, ids_plug, ids_plug, ← hids, ids_rotate]
      exact ⟨p2, true, rfl, by rw [s2.len, hqlen], fun i => by rw [s2.key, hqK], by rw [hR]; grind,
        fun _ => ⟨_, s3, hidsF, hfin, by rw [s2.len, hqlen], fun i => by rw [s2.key, hqK]⟩, by simp⟩
    · -- only the far nephew is red: one rotation
      rw [if_neg hnr]
      simp only [Option.bind_some]
      have hfr : isRed (R p) Far = true := by revert hneph; simp [hnr]
      have hnr' : isRed (R p) Near = false := by simpa using hnr
      obtain ⟨F1, ff, F2, rfl⟩ : ∃ F1 ff F2, Far = node F1 ff F2 := by
        cases Far with
        | nil => simp [isRed] at hfr
        | node l i r => exact ⟨l, i, r, rfl⟩
      simp only [isRed] at hfr
      simp only [RB, hfr, if_true] at hFar
      simp only [ids, List.nodup_append, List.nodup_cons, List.cons_append, List.mem_append, List.mem_cons, not_or] at hnn1 hz
      simp only [rt] at hfl hbb
      have e1 : fs.length + 2 - 1 = fs.length + 1 := by omega
      rw [getR_eq hxl]
      simp only [Option.bind_some]
      rw [setR_eq hbl]
      simp only [Option.bind_some]
      rw [setR_eq (by simpa using hxl)]
      simp only [Option.bind_some]
      rw [getNx_eq (by simpa using hbl)]
      simp only [Option.bind_some, N_updR]
      rw [hbb, setR_eq (by simpa using hfl)]
      simp only [Option.bind_some, e1]
      generalize hq : updR (updR (updR p b (R p x)) x false) ff false = q
      have hR : ∀ j, R q j = if j = ff then false else if j = x then false else if j = b then R p x else R p j := by
        intro j
        rw [← hq, R_updR (by simp; omega), R_updR (by simp; omega), R_updR (by omega)]
      have hqlen : q.length = p.length := by rw [← hq]; simp
      have hqK : ∀ j, K q j = K p j := by intro j; rw [← hq]; simp
      have hsw : mk d t x (mk d Near b (node F1 ff F2)) = mk (!d) (mk (!d) (node F1 ff F2) b Near) x t := by
        rw [mk_not d, mk_not d]
      rw [hsw, hus] at hl' hn'
      have hlq : Links q (plug (u :: us) (mk (!d) (mk (!d) (node F1 ff F2) b Near) x t)) := by
        rw [← hq]; exact links_updR (links_updR (links_updR hl'))
      obtain ⟨p2, s1, s2, s3⟩ := rotate_ok (p := q) (path := path) (k := fs.length) (dx := d)
        (by omega) hlq hn' hpx hpu
      rw [s1]
      simp only [Option.bind_some]
      have s3 : Links p2 (plug (u :: us) (mk (!d) (node F1 ff F2) b (mk (!d) Near x t))) := s3
      rw [← hus, plug_hdr] at s3
      rw [s2.rfun.symm] at hR
      have hA : ∀ v : T, ff ∉ v.ids → x ∉ v.ids → b ∉ v.ids → ∀ i ∈ v.ids, R p2 i = R p i := by
        intro v hv1 hv2 hv3 i hi; rw [hR, if_neg, if_neg, if_neg] <;> (intro h; subst h; first | exact hv1 hi | exact hv2 hi | exact hv3 hi)
      have h1 := hA t (by grind) (by grind) (by grind)
      have h2 := hA F1 (by grind) (by grind) (by grind)
      have h3 := hA F2 (by grind) (by grind) (by grind)
      have h4 := hA Near (by grind) (by grind) (by grind)
      have hB : ∀ i ∈ fids fs, R p2 i = R p i := by
        intro i hi; rw [hR]; grind
      have hbc : R p2 b = R p x := by rw [hR]; grind
      have hff : R p2 ff = false := by rw [hR]; grind
      have hY : RB (R p2) (node F1 ff F2) (m + 1) := rb_black (d := false) hff (rb_congr h2 hFar.2.2.1) (rb_congr h3 hFar.2.2.2)
      have hX : RB (R p2) (mk (!d) Near x t) (m + 1) := rb_black (by rw [hR]; grind) (rb_congr h4 hNear) (rb_congr h1 ht)
      have hfin : ∃ k, RB (R p2) (plug fs (mk (!d) (node F1 ff F2) b (mk (!d) Near x t))) k := by
        cases hxr : R p x
        · rw [hxr, if_neg (by simp)] at hctx
          obtain ⟨k, hk, _⟩ := rb_plug (rb_black (d := !d) (hbc.trans hxr) hY hX) (rbf_congr hB hctx) (fun h => by
            rw [isRed_mk, hbc, hxr] at h; exact absurd h (by simp))
          exact ⟨k, hk⟩
        · rw [hxr, if_pos rfl] at hctx
          obtain ⟨k, hk, _⟩ := rb_plug (rb_red (d := !d) (hbc.trans hxr) (by simpa [isRed] using hff) (by rw [isRed_mk, hR]; grind) hY hX)
            (rbf_congr hB hctx.2.2) (fun _ => by rw [topRed_congr hB]; exact hctx.2.1)
          exact ⟨k, hk⟩
      have hidsF : (plug fs (mk (!d) (node F1 ff F2) b (mk (!d) Near x t))).ids = (plug (⟨d, x, mk d Near b (node F1 ff F2)⟩ :: fs) t).ids := by
        simp only [plug]
        rw [hsw, ids_plug, ids_plug, ids_rotate]
      exact ⟨p2, true, rfl, by rw [s2.len, hqlen], fun i => by rw [s2.key, hqK], by rw [hR]; grind,
        fun _ => ⟨_, s3, hidsF, hfin, by rw [s2.len, hqlen], fun i => by rw [s2.key, hqK]⟩, by simp⟩

theorem Done.trans {p q p' : Pool} {t u t' : T} (h : Done q p' u t') (hl : q.length = p.length)
    (hk : ∀ i, K q i = K p i) (hi : u.ids = t.ids) : Done p p' t t' :=
  ⟨h.links, h.idseq.trans hi, h.rb, h.len.trans hl, fun i => (h.key i).trans (hk i)⟩

theorem rbDelLoop_ok : ∀ (fuel : Nat) (gs : List Frame) (p : Pool) (t : T) (n : Nat) (path : Path),
    p.length ≤ 2 ^ 31 → Links p (plug (gs ++ [hdr]) t) → (plug (gs ++ [hdr]) t).ids.Nodup →
    R p 0 = false → Short (R p) t n → RBF (R p) gs (n + 1) → PathOK path (gs ++ [hdr]) →
    path.length = pathSize → gs.length + 2 < pathSize →
    (if isRed (R p) t = true then 1 else gs.length + 2) ≤ fuel →
    ∃ p' t', rbDelLoop fuel p path (gs.length + 1) = some p' ∧ Done p p' (plug gs t) t' := by
  intro fuel
  induction fuel with
  | zero => intro gs p t n path _ _ _ _ _ _ _ _ _ h; split at h <;> omega
  | succ fuel ih =>
    intro gs p t n path hlen hl hn h0 hsh hctx hp hpl hsz hf
    have hnn := nodup_hdr hn
    obtain ⟨f, fs, hfs, hfl⟩ := gs_hdr gs
    have hpf : path[gs.length]? = some (f.i, f.d) := by
      have := hp; rw [hfs] at this; have := this.1; rwa [hfl] at this
    have hlf := hl
    rw [hfs, plug, links_plug, links_mk] at hlf
    obtain ⟨_, hfil, hfd, hfb, hLt, hLs⟩ := hlf
    have htl : t.rt < p.length := links_rt_lt (by omega) hLt
    have hsl : f.s.rt < p.length := links_rt_lt (by omega) hLs
    rw [rbDelLoop, if_pos (by omega)]
    simp only [Nat.add_sub_cancel, hpf, Option.bind_eq_bind, Option.bind_some, getNx_eq hfil, hfd, hfb, getR_eq htl]
    rw [isRed_rt h0]
    by_cases htr : isRed (R p) t = true
    · -- the child is red
      rw [if_pos htr, setR_eq htl]
      obtain ⟨l, x, r, rfl⟩ : ∃ l x r, t = node l x r := by
        cases t with
        | nil => simp [isRed] at htr
        | node l i r => exact ⟨l, i, r, rfl⟩
      simp only [isRed] at htr
      simp only [Short, htr, if_true] at hsh
      simp only [rt] at htl ⊢
      simp only [ids, List.nodup_append, List.nodup_cons, List.mem_append, List.mem_cons] at hnn
      have hR : ∀ j, R (updR p x false) j = if j = x then false else R p j := fun j => R_updR htl
      have hA : ∀ v : T, x ∉ v.ids → ∀ i ∈ v.ids, R (updR p x false) i = R p i := by
        intro v hv i hi; rw [hR, if_neg]; intro h; subst h; exact hv hi
      have h1 := hA l (by grind)
      have h2 := hA r (by grind)
      have hB : ∀ i ∈ fids gs, R (updR p x false) i = R p i := by
        intro i hi; rw [hR]; grind
      have hrb : RB (R (updR p x false)) (node l x r) (n + 1) :=
        rb_black (d := false) (by rw [hR, if_pos rfl]) (rb_congr h1 hsh.1) (rb_congr h2 hsh.2)
      obtain ⟨m, hm, _⟩ := rb_plug hrb (rbf_congr hB hctx) (fun h => by simp [isRed, hR] at h)
      refine ⟨_, _, rfl, ⟨?_, rfl, ⟨m, hm⟩, by simp, by simp⟩⟩
      rw [← plug_hdr]; exact links_updR hl
    · have htr' : isRed (R p) t = false := by simpa using htr
      rw [if_neg htr] at hf
      rw [if_neg htr, getR_eq hsl]
      simp only [Option.bind_some]
      rw [isRed_rt h0]
      have ht := hsh.black htr'
      match gs with
      | [] =>
        -- the header: its own sibling
        have hfe : f = hdr ∧ fs = [] := by simpa [eq_comm] using hfs
        obtain ⟨rfl, rfl⟩ := hfe
        have h0l : 0 < p.length := by omega
        simp only [hdr, isRed, Bool.false_eq_true, if_false, rt, List.length_nil, Nat.zero_add]
        have hb : N p 0 true = 0 := hfb
        have ha : N p 0 false = t.rt := hfd
        simp only [rbDelBlackBrother, Option.bind_eq_bind, getNx_eq h0l, ha, hb, Option.bind_some, getR_eq htl, getR_eq h0l, h0,
          isRed_rt h0 t, htr', Bool.or_false, Bool.false_eq_true, if_false, setR_eq h0l]
        cases fuel with
        | zero => simp at hf
        | succ fuel =>
          simp only [rbDelLoop, Nat.sub_self, Nat.lt_irrefl, gt_iff_lt, if_false]
          have hR : ∀ j, R (updR p 0 true) j = if j = 0 then true else R p j := fun j => R_updR h0l
          refine ⟨_, t, rfl, ⟨links_updR hl, rfl, ⟨n, rb_congr (fun i hi => ?_) ht⟩, by simp, by simp⟩⟩
          rw [hR, if_neg]; intro h; subst h; exact hnn.2.1 hi
      | g :: gs =>
        have hfe : f = g ∧ fs = gs ++ [hdr] := by simpa [eq_comm] using hfs
        obtain ⟨rfl, rfl⟩ := hfe
        simp only [List.length_cons] at hf hpf hsz ⊢
        by_cases hsr : isRed (R p) f.s = true
        · -- the brother is red
          rw [if_pos hsr]
          obtain ⟨b, Far, Near, hs⟩ : ∃ b Far Near, f.s = mk (!f.d) Far b Near := by
            cases hq : f.s with
            | nil => rw [hq] at hsr; simp [isRed] at hsr
            | node l i r => obtain ⟨a, b, h⟩ := eq_mk (!f.d) l i r; exact ⟨i, a, b, h⟩
          obtain ⟨hRBs, hctx⟩ := hctx
          have hfb' : R p f.i = false := by
            cases h : R p f.i
            · rfl
            · rw [h, if_pos rfl, hsr] at hctx; exact absurd hctx.1 (by simp)
          rw [hfb', if_neg (by simp)] at hctx
          rw [hs] at hsr hRBs hsl ⊢
          rw [isRed_mk] at hsr
          rw [rb_mk, if_pos hsr] at hRBs
          simp only [rt_mk] at hsl ⊢
          rw [setR_eq hsl]
          simp only [Option.bind_some]
          rw [setR_eq (by simpa using hfil)]
          simp only [Option.bind_some]
          have hsw : mk f.d t f.i f.s = mk (!f.d) (mk (!f.d) Far b Near) f.i t := by
            rw [hs, mk_not f.d (mk (!f.d) Far b Near) f.i t]
          obtain ⟨u, us, hus, hul⟩ := gs_hdr gs
          have hpu : path[gs.length]? = some (u.i, u.d) := by
            have := hp.2; simp only [List.append_eq] at this; rw [hus] at this; have := this.1; rwa [hul] at this
          have hl' : Links p (plug (gs ++ [hdr]) (mk f.d t f.i f.s)) := hl
          have hn' : (plug (gs ++ [hdr]) (mk f.d t f.i f.s)).ids.Nodup := hn
          have hnn1 := (nodup_hdr hn').1
          have hz := (nodup_hdr hn').2
          rw [hsw] at hl' hn' hnn1 hz
          rw [((ids_mk_perm (!f.d) _ f.i t).append_right _).nodup_iff] at hnn1
          have hnn1 := (((((ids_mk_perm (!f.d) Far b Near).append_right t.ids)).cons f.i).append_right _).nodup_iff.mp hnn1
          simp only [mem_mk, not_or] at hz
          simp only [List.nodup_append, List.nodup_cons, List.cons_append, List.mem_append, List.mem_cons, not_or] at hnn1
          rw [hus] at hl' hn'
          obtain ⟨p1, q1, q2, q3⟩ := rotate_ok (p := updR (updR p b false) f.i true) (path := path) (k := gs.length) (dx := f.d)
            (by simpa using hlen) (links_updR (links_updR hl')) hn' hpf hpu
          have q3 : Links p1 (plug (u :: us) (mk (!f.d) Far b (mk (!f.d) Near f.i t))) := q3
          rw [q1]
          simp only [Option.bind_some]
          rw [wr, if_pos (by omega)]
          simp only [Option.bind_some]
          rw [wr, if_pos (by rw [List.length_set]; omega)]
          simp only [Option.bind_some]
          have hp1 : p1.length = p.length := by rw [q2.len]; simp
          have hK1 : ∀ j, K p1 j = K p j := by intro j; rw [q2.key]; simp
          have hR1 : ∀ j, R p1 j = if j = f.i then true else if j = b then false else R p j := by
            intro j; rw [q2.red, R_updR (by simpa using hfil), R_updR hsl]
          rw [getNx_eq (by omega)]
          simp only [Option.bind_some]
          have hshape : plug (u :: us) (mk (!f.d) Far b (mk (!f.d) Near f.i t)) =
              plug (⟨f.d, f.i, Near⟩ :: (⟨f.d, b, Far⟩ :: gs) ++ [hdr]) t := by
            rw [← hus]
            show _ = plug (gs ++ [hdr]) (mk f.d (mk f.d t f.i Near) b Far)
            rw [mk_not, mk_not]
          have hb1 : N p1 f.i (!f.d) = Near.rt := by
            have h := (links_plug.mp q3).2
            rw [links_mk, links_mk] at h
            exact h.2.2.2.2.2.1
          rw [hb1]
          have hids : (plug (⟨f.d, f.i, Near⟩ :: (⟨f.d, b, Far⟩ :: gs) ++ [hdr]) t).ids = (plug (f :: gs ++ [hdr]) t).ids := by
            rw [← hshape, ← hus]
            show _ = (plug (gs ++ [hdr]) (mk f.d t f.i f.s)).ids
            rw [ids_plug, ids_plug, hsw, ids_rotate]
          rw [hshape] at q3
          have hA : ∀ v : T, f.i ∉ v.ids → b ∉ v.ids → ∀ i ∈ v.ids, R p1 i = R p i := by
            intro v hv1 hv2 i hi; rw [hR1, if_neg, if_neg] <;> (intro h; subst h; first | exact hv1 hi | exact hv2 hi)
          have h1 := hA t (by grind) (by grind)
          have h2 := hA Near (by grind) (by grind)
          have h3 := hA Far (by grind) (by grind)
          have hB : ∀ i ∈ fids gs, R p1 i = R p i := by
            intro i hi; rw [hR1]; grind
          have hbc : R p1 b = false := by rw [hR1]; grind
          have hfc : R p1 f.i = true := by rw [hR1, if_pos rfl]
          obtain ⟨p2, stop, r1, r2, r3, r4, r5, r6⟩ := blackBrother_ok (p := p1) (n := n) (f := ⟨f.d, f.i, Near⟩) (fs := ⟨f.d, b, Far⟩ :: gs) (t := t)
            (path := (path.set (gs.length + 1) (b, f.d)).set (gs.length + 1 + 1) (f.i, f.d)) (by omega) q3
            (by rw [hids]; exact hn) (by rw [hR1]; grind) (rb_congr h1 ht) (by rw [isRed_congr h1]; exact htr')
            (by
              refine ⟨rb_congr h2 hRBs.2.2.2, ?_⟩
              rw [if_pos hfc]
              refine ⟨by rw [isRed_congr h2]; exact hRBs.2.1, by simpa [topRed] using hbc, ?_⟩
              refine ⟨rb_congr h3 hRBs.2.2.1, ?_⟩
              rw [if_neg (by simp [hbc])]
              exact rbf_congr hB hctx)
            (by rw [isRed_congr h2]; exact hRBs.2.1)
            (by
              refine ⟨?_, ?_, ?_⟩
              · have : ((⟨f.d, b, Far⟩ :: gs).append [hdr]).length = gs.length + 1 + 1 := by simp
                rw [this, List.getElem?_set_self (by rw [List.length_set]; omega)]
              · have : (gs.append [hdr]).length = gs.length + 1 := by simp
                rw [this, List.getElem?_set_ne (by omega), List.getElem?_set_self (by omega)]
              · exact pathOK_set (by simp) (pathOK_set (by simp) hp.2))
            (by simp [hpl]) (by simp; omega)
          simp only [List.length_cons] at r1
          rw [r1]
          simp only [Option.bind_some]
          cases stop
          case true =>
            obtain ⟨t', ht'⟩ := r5 rfl
            have hids' : (plug (⟨f.d, f.i, Near⟩ :: (⟨f.d, b, Far⟩ :: gs)) t).ids = (plug (f :: gs) t).ids := by
              have := hids
              rw [plug_hdr, plug_hdr] at this
              simpa [ids] using this
            exact ⟨p2, t', rfl, ht'.trans hp1 hK1 hids'⟩
          case false =>
            obtain ⟨s1, s2, k, s3, s4⟩ := r6 rfl
            simp only [Bool.false_eq_true, if_false]
            simp only at s1 s2 s3
            have hred2 : isRed (R p2) (mk f.d t f.i Near) = true := by rw [isRed_mk, s2, hfc]
            obtain ⟨p', t', z1, z2⟩ := ih (⟨f.d, b, Far⟩ :: gs) p2 (mk f.d t f.i Near) k
              ((path.set (gs.length + 1) (b, f.d)).set (gs.length + 1 + 1) (f.i, f.d)) (by omega) s1
              (by
                have : (plug ((⟨f.d, b, Far⟩ :: gs) ++ [hdr]) (mk f.d t f.i Near)).ids = (plug (f :: gs ++ [hdr]) t).ids := hids
                rw [this]; exact hn)
              r4 s3 s4
              (by
                refine ⟨?_, pathOK_set (by simp) (pathOK_set (by simp) hp.2)⟩
                have : (gs.append [hdr]).length = gs.length + 1 := by simp
                rw [this, List.getElem?_set_ne (by omega), List.getElem?_set_self (by omega)])
              (by simp [hpl]) (by simp; omega) (by rw [if_pos hred2]; omega)
            refine ⟨p', t', z1, z2.trans (by omega) (fun i => by rw [r3, hK1]) ?_⟩
            have := hids
            rw [plug_hdr, plug_hdr] at this
            have : (plug (⟨f.d, f.i, Near⟩ :: (⟨f.d, b, Far⟩ :: gs)) t).ids = (plug (f :: gs) t).ids := by
              simpa [ids] using this
            exact this
        · -- the brother is black
          have hsr' : isRed (R p) f.s = false := by simpa using hsr
          rw [if_neg hsr]
          obtain ⟨p2, stop, r1, r2, r3, r4, r5, r6⟩ := blackBrother_ok (n := n) hlen hl hn h0 ht htr' hctx hsr' hp hpl (by omega)
          rw [r1]
          simp only [Option.bind_some]
          cases stop
          case true =>
            obtain ⟨t', ht'⟩ := r5 rfl
            exact ⟨p2, t', rfl, ht'⟩
          case false =>
            obtain ⟨s1, s2, k, s3, s4⟩ := r6 rfl
            simp only [Bool.false_eq_true, if_false]
            obtain ⟨p', t', z1, z2⟩ := ih gs p2 (mk f.d t f.i f.s) k path (by omega) s1 hn r4 s3 s4 hp.2 hpl (by omega)
              (by split <;> omega)
            exact ⟨p', t', z1, z2.trans r2 r3 rfl⟩

theorem rb_del_contract : DelContract RbInv rbRebalanceDel := by
  intro p gs c x path dx d hlen hl hn hxl hi hp hx hpl hg
  obtain ⟨m, h1, h2, h0⟩ := hi
  obtain ⟨n, h3, h4, h5⟩ := rb_unplug h1 h2
  have hnn := nodup_hdr hn
  have hnc : (plug (gs ++ [hdr]) c).ids.Nodup := by
    rw [nodup_plug] at hn ⊢
    rw [((ids_mk_perm d c x nil).append_right _).nodup_iff] at hn
    simp only [ids, List.append_nil, List.cons_append, List.nodup_cons] at hn
    exact hn.2
  have h0l : 0 < p.length := by omega
  simp only [rbRebalanceDel, hx, Option.bind_eq_bind, Option.bind_some, getR_eq hxl]
  have hstep : ∃ p' t', (if (!R p x) = true then rbDelLoop (pathSize + 2) p path (gs.length + 1) else some p) = some p' ∧
      Done p p' (plug gs c) t' := by
    rw [rb_mk] at h3
    cases hxr : R p x
    · rw [hxr, if_neg (by simp)] at h3
      obtain ⟨k, rfl, h6, _⟩ := h3
      simp only [Bool.not_false, if_true]
      exact rbDelLoop_ok (pathSize + 2) gs p c k path hlen hl hnc h0 (Short.of_rb h6) h4 hp hpl (by unfold pathSize; omega)
        (by unfold pathSize; split <;> omega)
    · rw [hxr, if_pos rfl] at h3
      simp only [Bool.not_true, Bool.false_eq_true, if_false]
      obtain ⟨k, hk, _⟩ := rb_plug h3.2.2.1 h4 (fun h => by rw [h3.1] at h; exact absurd h (by simp))
      exact ⟨p, _, rfl, ⟨by rw [← plug_hdr]; exact hl, rfl, ⟨k, hk⟩, rfl, fun _ => rfl⟩⟩
  obtain ⟨q, t', s1, s2⟩ := hstep
  rw [s1]
  simp only [Option.bind_some]
  have hql : 0 < q.length := by rw [s2.len]; exact h0l
  rw [setR_eq hql]
  simp only [Option.bind_some]
  have hnt : (node t' 0 nil).ids.Nodup := by
    have := hnc; rw [plug_hdr] at this; simp only [ids, s2.idseq] at this ⊢; exact this
  have h0t : 0 ∉ t'.ids := by
    intro h; simp only [ids, List.nodup_append, List.mem_cons] at hnt; grind
  obtain ⟨k, hk⟩ := s2.rb
  obtain ⟨q', z1, z2, z3, z4, z5⟩ := blacken (q := updR q 0 false) (links_updR s2.links) hnt
    ⟨k, rb_congr (fun i hi => by rw [R_updR hql, if_neg]; intro h; subst h; exact h0t hi) hk⟩ (by rw [R_updR hql, if_pos rfl])
  exact ⟨q', t', z1, z2, s2.idseq, z3, by rw [z4]; simp [s2.len], fun i => by rw [z5]; simp [s2.key]⟩

end Verif.Lemmas.Tree
