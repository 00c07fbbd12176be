import Verif.Model.Tree
namespace Verif.Lemmas.Tree
open Verif.Model Verif.Model.Ic Verif.Model.Tree

/-! ### views of the pool -/

def N (p : Pool) (i : Nat) (d : Dir) : Nat := (p.getD i default).nx d
def K (p : Pool) (i : Nat) : Key := (p.getD i default).key
def R (p : Pool) (i : Nat) : Bool := (p.getD i default).rbit
def B (p : Pool) (i : Nat) : Bool := (p.getD i default).lbit

def updN (p : Pool) (i : Nat) (d : Dir) (v : Nat) : Pool := p.set i ((p.getD i default).setNx d v)
def updR (p : Pool) (i : Nat) (b : Bool) : Pool := p.set i { p.getD i default with rbit := b }
def updB (p : Pool) (i : Nat) (b : Bool) : Pool := p.set i { p.getD i default with lbit := b }
def updK (p : Pool) (i : Nat) (k : Key) : Pool := p.set i { p.getD i default with key := k }

variable {p : Pool} {i j : Nat} {d e : Dir} {v : Nat} {b : Bool} {k : Key}

theorem get_eq (h : i < p.length) : p[i]? = some (p.getD i default) := by
  simp [List.getD_eq_getElem?_getD, List.getElem?_eq_getElem h]

theorem getNx_eq (h : i < p.length) : getNx p i d = some (N p i d) := by
  simp only [getNx, get_eq h, Option.map_some, N]
theorem getR_eq (h : i < p.length) : getR p i = some (R p i) := by
  simp only [getR, get_eq h, Option.map_some, R]
theorem getB_eq (h : i < p.length) : getB p i = some (B p i) := by
  simp only [getB, get_eq h, Option.map_some, B]
theorem getKey_eq (h : i < p.length) : getKey p i = some (K p i) := by
  simp only [getKey, get_eq h, Option.map_some, K]

theorem setNx_eq (h : i < p.length) : setNx p i d v = some (updN p i d v) := by
  simp only [setNx, get_eq h, Option.bind_eq_bind, Option.bind_some, wr, h, if_true, updN]
theorem setR_eq (h : i < p.length) : setR p i b = some (updR p i b) := by
  simp only [setR, get_eq h, Option.bind_eq_bind, Option.bind_some, wr, h, if_true, updR]
theorem setB_eq (h : i < p.length) : setB p i b = some (updB p i b) := by
  simp only [setB, get_eq h, Option.bind_eq_bind, Option.bind_some, wr, h, if_true, updB]
theorem setKey_eq (h : i < p.length) : setKey p i k = some (updK p i k) := by
  simp only [setKey, get_eq h, Option.bind_eq_bind, Option.bind_some, wr, h, if_true, updK]

@[simp] theorem length_updN : (updN p i d v).length = p.length := by simp [updN]
@[simp] theorem length_updR : (updR p i b).length = p.length := by simp [updR]
@[simp] theorem length_updB : (updB p i b).length = p.length := by simp [updB]
@[simp] theorem length_updK : (updK p i k).length = p.length := by simp [updK]

theorem getD_set (h : i < p.length) (n : Node) :
    (p.set i n).getD j default = if j = i then n else p.getD j default := by
  simp only [List.getD_eq_getElem?_getD, List.getElem?_set, h, if_true]
  by_cases hij : i = j
  · subst hij; simp
  · have : j ≠ i := fun h => hij h.symm
    simp [hij, this]

theorem getD_set_any {α : Type} (f : Node → α) (p : Pool) (i j : Nat) (n : Node)
    (h : f n = f (p.getD i default)) : f ((p.set i n).getD j default) = f (p.getD j default) := by
  by_cases hi : i < p.length
  · rw [getD_set hi]; split
    · next h1 => rw [h, h1]
    · rfl
  · rw [List.set_eq_of_length_le (by omega)]

theorem N_updN (h : i < p.length) (hv : v < 2 ^ 31) :
    N (updN p i d v) j e = if j = i ∧ e = d then v else N p j e := by
  have : v % 2147483648 = v := Nat.mod_eq_of_lt (by omega)
  unfold N updN
  rw [getD_set h]
  by_cases hj : j = i
  · subst hj
    cases d <;> cases e <;> simp [Node.nx, Node.setNx, this]
  · simp [hj]

@[simp] theorem K_updN : K (updN p i d v) j = K p j := by
  apply getD_set_any (·.key); cases d <;> simp [Node.setNx]
@[simp] theorem R_updN : R (updN p i d v) j = R p j := by
  apply getD_set_any (·.rbit); cases d <;> simp [Node.setNx]
@[simp] theorem B_updN : B (updN p i d v) j = B p j := by
  apply getD_set_any (·.lbit); cases d <;> simp [Node.setNx]
@[simp] theorem N_updR : N (updR p i b) j d = N p j d := by
  apply getD_set_any (·.nx d); cases d <;> simp [Node.nx]
@[simp] theorem K_updR : K (updR p i b) j = K p j := by apply getD_set_any (·.key); rfl
@[simp] theorem B_updR : B (updR p i b) j = B p j := by apply getD_set_any (·.lbit); rfl
@[simp] theorem N_updB : N (updB p i b) j d = N p j d := by
  apply getD_set_any (·.nx d); cases d <;> simp [Node.nx]
@[simp] theorem K_updB : K (updB p i b) j = K p j := by apply getD_set_any (·.key); rfl
@[simp] theorem R_updB : R (updB p i b) j = R p j := by apply getD_set_any (·.rbit); rfl
@[simp] theorem N_updK : N (updK p i k) j d = N p j d := by
  apply getD_set_any (·.nx d); cases d <;> simp [Node.nx]
@[simp] theorem R_updK : R (updK p i k) j = R p j := by apply getD_set_any (·.rbit); rfl
@[simp] theorem B_updK : B (updK p i k) j = B p j := by apply getD_set_any (·.lbit); rfl

theorem R_updR (h : i < p.length) : R (updR p i b) j = if j = i then b else R p j := by
  unfold R updR; rw [getD_set h]; split <;> rfl
theorem B_updB (h : i < p.length) : B (updB p i b) j = if j = i then b else B p j := by
  unfold B updB; rw [getD_set h]; split <;> rfl
theorem K_updK (h : i < p.length) : K (updK p i k) j = if j = i then k else K p j := by
  unfold K updK; rw [getD_set h]; split <;> rfl

/-! ### trees of pool indices -/

inductive T where
  | nil
  | node (l : T) (i : Nat) (r : T)

namespace T
/-- index of the root, 0 for the empty tree -/
def rt : T → Nat
  | nil => 0
  | node _ i _ => i
/-- indices in key order -/
def ids : T → List Nat
  | nil => []
  | node l i r => l.ids ++ i :: r.ids
def height : T → Nat
  | nil => 0
  | node l _ r => max l.height r.height + 1
/-- node with `a` on side `d` and `b` on the other -/
def mk (d : Dir) (a : T) (i : Nat) (b : T) : T := if d then node b i a else node a i b
@[simp] theorem rt_nil : nil.rt = 0 := rfl
@[simp] theorem rt_mk (d : Dir) (a : T) (i : Nat) (b : T) : (mk d a i b).rt = i := by
  unfold mk; split <;> rfl
theorem mk_not (d : Dir) (a : T) (i : Nat) (b : T) : mk (!d) a i b = mk d b i a := by
  cases d <;> rfl
theorem eq_mk (d : Dir) (l : T) (i : Nat) (r : T) : ∃ a b, node l i r = mk d a i b := by
  cases d
  · exact ⟨l, r, rfl⟩
  · exact ⟨r, l, rfl⟩
theorem ids_mk_perm (d : Dir) (a : T) (i : Nat) (b : T) :
    (mk d a i b).ids.Perm (i :: (a.ids ++ b.ids)) := by
  cases d
  · exact List.perm_middle
  · exact List.perm_middle.trans (List.Perm.cons _ List.perm_append_comm)
@[simp] theorem mem_mk {d : Dir} {a : T} {i : Nat} {b : T} {x : Nat} :
    x ∈ (mk d a i b).ids ↔ x = i ∨ x ∈ a.ids ∨ x ∈ b.ids := by
  rw [(ids_mk_perm d a i b).mem_iff]; simp
theorem ids_rotate (d : Dir) (a : T) (c : Nat) (b : T) (x : Nat) (e : T) :
    (mk d (mk d a c b) x e).ids = (mk d a c (mk d b x e)).ids := by
  cases d <;> simp [mk, ids]
theorem rt_mem {t : T} (h : t ≠ nil) : t.rt ∈ t.ids := by
  cases t with
  | nil => exact absurd rfl h
  | node l i r => simp [rt, ids]
end T

open T

/-- one step of a path: direction taken, node, the subtree not taken -/
structure Frame where
  d : Dir
  i : Nat
  s : T

/-- put `t` into the hole of the context; innermost frame first -/
def plug : List Frame → T → T
  | [], t => t
  | f :: fs, t => plug fs (mk f.d t f.i f.s)

/-- indices of a context -/
def fids : List Frame → List Nat
  | [] => []
  | f :: fs => f.i :: (f.s.ids ++ fids fs)

/-- indices before / after the hole in key order -/
def bef : List Frame → List Nat
  | [] => []
  | f :: fs => bef fs ++ (if f.d then f.s.ids ++ [f.i] else [])
def aft : List Frame → List Nat
  | [] => []
  | f :: fs => (if f.d then [] else f.i :: f.s.ids) ++ aft fs

theorem ids_plug (fs : List Frame) : ∀ t, (plug fs t).ids = bef fs ++ t.ids ++ aft fs := by
  induction fs with
  | nil => intro t; simp [plug, bef, aft]
  | cons f fs ih =>
    intro t
    obtain ⟨d, i, s⟩ := f
    rw [plug, ih]
    cases d <;> simp [bef, aft, mk, ids]

theorem fids_perm (fs : List Frame) : (fids fs).Perm (bef fs ++ aft fs) := by
  induction fs with
  | nil => exact .refl _
  | cons f fs ih =>
    obtain ⟨d, i, s⟩ := f
    cases d
    · simp only [fids, bef, aft, Bool.false_eq_true, if_false, List.append_nil]
      have : (bef fs ++ (i :: s.ids ++ aft fs)).Perm (i :: (s.ids ++ (bef fs ++ aft fs))) := by
        refine List.perm_middle.trans (List.Perm.cons _ ?_)
        show (bef fs ++ (s.ids ++ aft fs)).Perm _
        rw [← List.append_assoc, ← List.append_assoc]
        exact List.perm_append_comm.append_right _
      exact (List.Perm.cons _ (ih.append_left _)).trans this.symm
    · simp only [fids, bef, aft, if_true, List.nil_append]
      have : (bef fs ++ (s.ids ++ [i]) ++ aft fs).Perm (i :: (s.ids ++ (bef fs ++ aft fs))) := by
        have h1 : bef fs ++ (s.ids ++ [i]) ++ aft fs = (bef fs ++ s.ids) ++ i :: aft fs := by simp
        rw [h1]
        refine List.perm_middle.trans (List.Perm.cons _ ?_)
        rw [← List.append_assoc]
        exact List.perm_append_comm.append_right _
      exact (List.Perm.cons _ (ih.append_left _)).trans this.symm

theorem nodup_plug {fs : List Frame} {t : T} :
    (plug fs t).ids.Nodup ↔ (t.ids ++ fids fs).Nodup := by
  rw [ids_plug]
  apply List.Perm.nodup_iff
  have h1 : (bef fs ++ t.ids ++ aft fs).Perm (t.ids ++ (bef fs ++ aft fs)) := by
    rw [← List.append_assoc]
    exact List.perm_append_comm.append_right _
  exact h1.trans ((fids_perm fs).symm.append_left _)

/-- the pool links the nodes as the tree says -/
def Links (p : Pool) : T → Prop
  | nil => True
  | node l i r => i < p.length ∧ N p i false = l.rt ∧ N p i true = r.rt ∧ Links p l ∧ Links p r

/-- the pool links the nodes of the context, whose hole has root `a` -/
def LinksF (p : Pool) : List Frame → Nat → Prop
  | [], _ => True
  | f :: fs, a => f.i < p.length ∧ N p f.i f.d = a ∧ N p f.i (!f.d) = f.s.rt ∧ Links p f.s ∧
      LinksF p fs f.i

theorem links_mk {d : Dir} {a : T} {i : Nat} {b : T} : Links p (mk d a i b) ↔
    i < p.length ∧ N p i d = a.rt ∧ N p i (!d) = b.rt ∧ Links p a ∧ Links p b := by
  cases d <;> simp only [mk, Links, if_true, Bool.false_eq_true, if_false, Bool.not_true, Bool.not_false]
  constructor
  · rintro ⟨h1, h2, h3, h4, h5⟩; exact ⟨h1, h3, h2, h5, h4⟩
  · rintro ⟨h1, h2, h3, h4, h5⟩; exact ⟨h1, h3, h2, h5, h4⟩

theorem links_plug {fs : List Frame} : ∀ {t}, Links p (plug fs t) ↔ LinksF p fs t.rt ∧ Links p t := by
  induction fs with
  | nil => intro t; simp [plug, LinksF]
  | cons f fs ih =>
    intro t
    rw [plug, ih, LinksF, links_mk, rt_mk]
    constructor
    · rintro ⟨h1, h2, h3, h4, h5, h6⟩; exact ⟨⟨h2, h3, h4, h6, h1⟩, h5⟩
    · rintro ⟨⟨h1, h2, h3, h4, h5⟩, h6⟩; exact ⟨h5, h1, h2, h3, h6, h4⟩

theorem links_congr {p' : Pool} (hl : p'.length = p.length) {t : T} :
    (∀ i ∈ t.ids, ∀ d, N p' i d = N p i d) → Links p t → Links p' t := by
  induction t with
  | nil => intro _ _; trivial
  | node l i r ihl ihr =>
    intro h ⟨h1, h2, h3, h4, h5⟩
    have hi : ∀ d, N p' i d = N p i d := h i (by simp [ids])
    exact ⟨by omega, by rw [hi]; exact h2, by rw [hi]; exact h3,
      ihl (fun j hj => h j (by simp [ids, hj])) h4, ihr (fun j hj => h j (by simp [ids, hj])) h5⟩

theorem linksF_congr {p' : Pool} (hl : p'.length = p.length) {fs : List Frame} : ∀ {a},
    (∀ i ∈ fids fs, ∀ d, N p' i d = N p i d) → LinksF p fs a → LinksF p' fs a := by
  induction fs with
  | nil => intro _ _ _; trivial
  | cons f fs ih =>
    intro a h ⟨h1, h2, h3, h4, h5⟩
    have hi : ∀ d, N p' f.i d = N p f.i d := h f.i (by simp [fids])
    exact ⟨by omega, by rw [hi]; exact h2, by rw [hi]; exact h3,
      links_congr hl (fun j hj => h j (by simp [fids, hj])) h4,
      ih (fun j hj => h j (by simp [fids, hj])) h5⟩

theorem links_lt {t : T} (h : Links p t) : ∀ i ∈ t.ids, i < p.length := by
  induction t with
  | nil => intro i hi; simp [ids] at hi
  | node l x r ihl ihr =>
    obtain ⟨h1, _, _, h4, h5⟩ := h
    intro i hi
    simp only [ids, List.mem_append, List.mem_cons] at hi
    rcases hi with hi | rfl | hi
    · exact ihl h4 i hi
    · exact h1
    · exact ihr h5 i hi

theorem links_rt_lt {t : T} (hp : 0 < p.length) (h : Links p t) : t.rt < p.length := by
  cases t with
  | nil => exact hp
  | node l x r => exact h.1

/-! ### paths -/

/-- the path array records the context -/
def PathOK (path : Path) : List Frame → Prop
  | [] => True
  | f :: fs => path[fs.length]? = some (f.i, f.d) ∧ PathOK path fs

theorem pathOK_set {path : Path} {fs : List Frame} {k : Nat} {x : Nat × Dir} (hk : fs.length ≤ k) :
    PathOK path fs → PathOK (path.set k x) fs := by
  induction fs with
  | nil => intro _; trivial
  | cons f fs ih =>
    intro ⟨h1, h2⟩
    simp only [List.length_cons] at hk
    refine ⟨?_, ih (by omega) h2⟩
    rw [List.getElem?_set_ne (by omega)]; exact h1

/-- pools that differ only in the links -/
structure SameData (p p' : Pool) : Prop where
  len : p'.length = p.length
  key : ∀ i, K p' i = K p i
  red : ∀ i, R p' i = R p i
  bal : ∀ i, B p' i = B p i

theorem rotate_ok {path : Path} {k x c u : Nat} {d du dx : Dir} {A Bt C s : T} {fs : List Frame}
    (hlen : p.length ≤ 2 ^ 31)
    (hl : Links p (plug (⟨du, u, s⟩ :: fs) (mk d (mk d A c Bt) x C)))
    (hn : (plug (⟨du, u, s⟩ :: fs) (mk d (mk d A c Bt) x C)).ids.Nodup)
    (hk : path[k + 1]? = some (x, dx)) (hu : path[k]? = some (u, du)) :
    ∃ p', rotate p path (k + 1) d = some p' ∧ SameData p p' ∧
      Links p' (plug (⟨du, u, s⟩ :: fs) (mk d A c (mk d Bt x C))) := by
  rw [links_plug] at hl
  obtain ⟨⟨hul, hud, hus, hs, hfs⟩, hl⟩ := hl
  simp only [links_mk, rt_mk] at hl hud hfs
  obtain ⟨hxl, hxd, hxc, ⟨hcl, hcd, hcb, hA, hB⟩, hC⟩ := hl
  rw [nodup_plug] at hn
  have hn := ((ids_mk_perm d _ x C).append_right _).nodup_iff.mp hn
  have hn := (((((ids_mk_perm d A c Bt).append_right _).cons x).append_right _)).nodup_iff.mp hn
  simp only [fids, List.nodup_append, List.nodup_cons, List.cons_append, List.mem_append, List.mem_cons,
    not_or] at hn
  have hbl : N p c (!d) < p.length := by rw [hcb]; exact links_rt_lt (by omega) hB
  simp only [rotate, hk, hu, hxd, hcb, Option.bind_eq_bind, Option.bind_some, getNx_eq hxl,
    getNx_eq hcl, setNx_eq hxl, Nat.add_one_ne_zero, if_false, Nat.add_sub_cancel]
  rw [setNx_eq (by simpa using hcl)]
  simp only [Option.bind_some]
  rw [setNx_eq (by simpa using hul)]
  refine ⟨_, rfl, ⟨by simp, by simp, by simp, by simp⟩, ?_⟩
  have hN : ∀ j e, N (updN (updN (updN p x d Bt.rt) c (!d) x) u du c) j e =
      if j = u ∧ e = du then c else if j = c ∧ e = !d then x else if j = x ∧ e = d then Bt.rt
      else N p j e := by
    intro j e
    rw [N_updN (by simpa using hul) (by omega), N_updN (by simpa using hcl) (by omega),
      N_updN hxl (by omega)]
  have hcong : ∀ j, j ≠ u → j ≠ c → j ≠ x → ∀ e, N (updN (updN (updN p x d Bt.rt) c (!d) x) u du c) j e = N p j e := by
    intro j h1 h2 h3 e; rw [hN]; simp [h1, h2, h3]
  have hxu : x ≠ u := by grind
  have hcu : c ≠ u := by grind
  have hxc' : x ≠ c := by grind
  rw [links_plug]
  simp only [links_mk, rt_mk, LinksF, hN]
  have hlen' : (updN (updN (updN p x d Bt.rt) c (!d) x) u du c).length = p.length := by simp
  refine ⟨⟨by simpa using hul, by simp, ?_, links_congr hlen' ?_ hs, linksF_congr hlen' ?_ hfs⟩,
    by simpa using hcl, ?_, ?_, links_congr hlen' ?_ hA, by simpa using hxl, ?_, ?_,
    links_congr hlen' ?_ hB, links_congr hlen' ?_ hC⟩
  all_goals first
    | (intro j hj; apply hcong j <;> grind)
    | (simp [*] <;> grind)

theorem T.ids_grand (d : Dir) (A : T) (c : Nat) (G1 : T) (g : Nat) (G2 : T) (x : Nat) (C : T) :
    (mk d (mk d A c (mk d G1 g G2)) x C).ids = (mk d (mk d A c G1) g (mk d G2 x C)).ids := by
  cases d <;> simp [mk, ids]

theorem grandRotate_ok {path : Path} {k x c g u : Nat} {d du dx : Dir} {A G1 G2 C s : T}
    {fs : List Frame} (hlen : p.length ≤ 2 ^ 31)
    (hl : Links p (plug (⟨du, u, s⟩ :: fs) (mk d (mk d A c (mk d G1 g G2)) x C)))
    (hn : (plug (⟨du, u, s⟩ :: fs) (mk d (mk d A c (mk d G1 g G2)) x C)).ids.Nodup)
    (hk : path[k + 1]? = some (x, dx)) (hu : path[k]? = some (u, du)) :
    ∃ p', grandRotate p path (k + 1) d = some p' ∧ SameData p p' ∧
      Links p' (plug (⟨du, u, s⟩ :: fs) (mk d (mk d A c G1) g (mk d G2 x C))) := by
  rw [links_plug] at hl
  obtain ⟨⟨hul, hud, hus, hs, hfs⟩, hl⟩ := hl
  simp only [links_mk, rt_mk] at hl hud hfs
  obtain ⟨hxl, hxd, hxc, ⟨hcl, hcd, hcb, hA, hgl, hgd, hgb, hG1, hG2⟩, hC⟩ := hl
  rw [nodup_plug] at hn
  have hn := ((ids_mk_perm d _ x C).append_right _).nodup_iff.mp hn
  have hn := (((((ids_mk_perm d A c _).append_right _).cons x).append_right _)).nodup_iff.mp hn
  have hn := ((((((((ids_mk_perm d G1 g G2).append_left A.ids)).cons c).append_right _).cons x).append_right _)).nodup_iff.mp hn
  simp only [fids, List.nodup_append, List.nodup_cons, List.cons_append, List.mem_append, List.mem_cons,
    not_or] at hn
  have h1l : G1.rt < p.length := links_rt_lt (by omega) hG1
  have h2l : G2.rt < p.length := links_rt_lt (by omega) hG2
  have hxu : x ≠ u := by grind
  have hcu : c ≠ u := by grind
  have hgu : g ≠ u := by grind
  have hxc' : x ≠ c := by grind
  have hxg : x ≠ g := by grind
  have hcg : c ≠ g := by grind
  simp only [grandRotate, hk, hu, hxd, hcb, hgb, Option.bind_eq_bind, Option.bind_some, getNx_eq hxl,
    getNx_eq hcl, getNx_eq hgl, setNx_eq hxl, Nat.add_one_ne_zero, if_false, Nat.add_sub_cancel]
  rw [getNx_eq (by simpa using hgl)]
  simp only [Option.bind_some]
  rw [setNx_eq (by simpa using hcl)]
  simp only [Option.bind_some]
  rw [setNx_eq (by simpa using hgl)]
  simp only [Option.bind_some]
  rw [setNx_eq (by simpa using hgl)]
  simp only [Option.bind_some]
  rw [setNx_eq (by simpa using hul)]
  have h1 : N (updN p x d G2.rt) g d = G1.rt := by
    rw [N_updN hxl (by omega), ← hgd]; simp [hxg.symm]
  rw [h1]
  refine ⟨_, rfl, ⟨by simp, by simp, by simp, by simp⟩, ?_⟩
  generalize hq : updN (updN (updN (updN (updN p x d G2.rt) c (!d) G1.rt) g (!d) x) g d c) u du g = q
  have hN : ∀ j e, N q j e =
      if j = u ∧ e = du then g else if j = g ∧ e = d then c else if j = g ∧ e = !d then x
      else if j = c ∧ e = !d then G1.rt else if j = x ∧ e = d then G2.rt else N p j e := by
    intro j e
    rw [← hq, N_updN (by simpa using hul) (by omega), N_updN (by simpa using hgl) (by omega),
      N_updN (by simpa using hgl) (by omega), N_updN (by simpa using hcl) (by omega),
      N_updN hxl (by omega)]
  have hlen' : q.length = p.length := by rw [← hq]; simp
  have hcong : ∀ j, j ≠ u → j ≠ c → j ≠ x → j ≠ g → ∀ e, N q j e = N p j e := by
    intro j h1 h2 h3 h4 e; rw [hN]; simp [h1, h2, h3, h4]
  rw [links_plug]
  simp only [links_mk, rt_mk, LinksF, hN, hlen']
  refine ⟨⟨hul, by simp, ?_, links_congr hlen' ?_ hs, linksF_congr hlen' ?_ hfs⟩,
    hgl, ?_, ?_, ⟨hcl, ?_, ?_, links_congr hlen' ?_ hA, links_congr hlen' ?_ hG1⟩, hxl, ?_, ?_,
    links_congr hlen' ?_ hG2, links_congr hlen' ?_ hC⟩
  all_goals first
    | (intro j hj; apply hcong j <;> grind)
    | (simp [*] <;> grind)

end Verif.Lemmas.Tree
