import Verif.Lemmas.TreeOps
namespace Verif.Lemmas.Tree
open Verif.Model Verif.Model.Ic Verif.Model.Tree Verif.Spec Verif.Lemmas.Collection Verif.Lemmas.IcArray
open T

variable {p : Pool} {cmp : Cmp} {i : Nat}

theorem getD_take {n : Nat} (h : i < n) : (p.take n).getD i default = p.getD i default := by
  simp [List.getD_eq_getElem?_getD, h]

theorem links_take {n : Nat} {t : T} (hn : n ≤ p.length) (hlt : ∀ i ∈ t.ids, i < n) (h : Links p t) :
    Links (p.take n) t := by
  induction t with
  | nil => trivial
  | node l i r ihl ihr =>
    obtain ⟨h1, h2, h3, h4, h5⟩ := h
    have hi := hlt i (by simp [ids])
    refine ⟨by rw [List.length_take]; omega, ?_, ?_, ihl (fun j hj => hlt j (by simp [ids, hj])) h4,
      ihr (fun j hj => hlt j (by simp [ids, hj])) h5⟩
    · unfold N at *; rw [getD_take hi]; exact h2
    · unfold N at *; rw [getD_take hi]; exact h3

theorem strict_idx {l : List Nat} (hc : Comparator cmp) (hs : Strict cmp (l.map (K p))) {x y : Nat} (hx : x ∈ l)
    (hy : y ∈ l) (h : cmp (K p x) (K p y) = 0) : x = y := by
  unfold Strict at hs
  rw [List.pairwise_map] at hs
  induction l with
  | nil => cases hx
  | cons a l ih =>
    rw [List.pairwise_cons] at hs
    rw [List.mem_cons] at hx hy
    rcases hx with rfl | hx <;> rcases hy with rfl | hy
    · rfl
    · have := hs.1 y hy; omega
    · have := hs.1 x hx; have := cmp_symm hc h; omega
    · exact ih hs.2 hx hy

theorem T.ids_map (f : Nat → Nat) (t : T) : (t.map f).ids = t.ids.map f := by
  induction t with
  | nil => rfl
  | node l i r ihl ihr => simp only [T.map, ids, ihl, ihr, List.map_append, List.map_cons]

theorem T.map_mk (f : Nat → Nat) (d : Dir) (a : T) (x : Nat) (b : T) :
    (mk d a x b).map f = mk d (a.map f) (f x) (b.map f) := by
  cases d <;> rfl

theorem map_plug {f : Nat → Nat} : ∀ {gs : List Frame} (t : T), (∀ i ∈ fids gs, f i = i) →
    (plug gs t).map f = plug gs (t.map f) := by
  intro gs
  induction gs with
  | nil => intro t _; rfl
  | cons g gs ih =>
    intro t h
    simp only [plug]
    rw [ih _ (fun j hj => h j (by simp [fids, hj])), T.map_mk, h g.i (by simp [fids]),
      T.map_id f g.s (fun j hj => h j (by simp [fids, hj]))]

theorem fids_append (gs hs : List Frame) : fids (gs ++ hs) = fids gs ++ fids hs := by
  induction gs with
  | nil => rfl
  | cons g gs ih => simp [fids, ih]

theorem compact_ok (hc : Comparator cmp) {Inv : Pool → T → Prop} (hS : Scheme Inv) {t : T} {del : Nat}
    (hlen : p.length ≤ 2 ^ 31) (hl : Links p (node t 0 nil))
    (hperm : (del :: (node t 0 nil).ids).Perm (List.range p.length)) (hi : Inv p t)
    (hs : Strict cmp (keys p t)) :
    ∃ p' t', compact cmp p del = some (p', true) ∧ Wf p' t' ∧ Inv p' t' ∧ keys p' t' = keys p t ∧
      p'.length = p.length - 1 := by
  have hnd := hperm.nodup_iff.mpr List.nodup_range
  have hmem : ∀ x, x ∈ del :: (node t 0 nil).ids ↔ x < p.length := by
    intro x; rw [hperm.mem_iff, List.mem_range]
  have hcount := hperm.length_eq
  simp only [List.length_cons, List.length_range] at hcount
  have hdel : del < p.length := (hmem del).mp (by simp)
  have hd0 : del ≠ 0 := by
    intro h; subst h; simp [ids] at hnd
  have hz : 0 ∉ t.ids := by
    intro h; simp only [ids, List.nodup_cons, List.nodup_append] at hnd
    exact hnd.2.2.2 0 h 0 (by simp) rfl
  have hdt : del ∉ (node t 0 nil).ids := (List.nodup_cons.mp hnd).1
  obtain ⟨last, hlast⟩ : ∃ last, p.length = last + 1 := ⟨p.length - 1, by omega⟩
  have hl1 : p.length - 1 = last := by omega
  unfold compact
  simp only [hl1]
  have hheight := hS.height hi (by simp [ids] at hcount; omega)
  by_cases hdl : del = last
  · subst hdl
    simp only [ne_eq, not_true_eq_false, if_false]
    have hlt : ∀ i ∈ (node t 0 nil).ids, i < del := by
      intro x hx
      have h1 := (hmem x).mp (List.mem_cons_of_mem _ hx)
      have h2 : x ≠ del := by intro h; subst h; exact hdt hx
      omega
    refine ⟨_, t, rfl, ⟨by rw [List.length_take]; omega, links_take (by omega) hlt hl, ?_⟩, ?_, ?_, by rw [List.length_take]; omega⟩
    · have : (p.take del).length = del := by rw [List.length_take]; omega
      rw [this]
      rw [hlast, List.range_succ] at hperm
      exact (List.Perm.cons_inv (hperm.trans (List.perm_append_comm (l₂ := [del]))))
    · refine hS.congr (fun j hj => ?_) ?_ hi
      · have := hlt j (by simp [ids, hj])
        unfold R B; rw [getD_take this]; exact ⟨rfl, rfl⟩
      · unfold R; rw [getD_take (by omega)]
    · unfold keys
      apply List.map_congr_left
      intro j hj
      unfold K; rw [getD_take (hlt j (by simp [ids, hj]))]
  · rw [if_pos hdl]
    have hlmem : last ∈ (node t 0 nil).ids := by
      have := (hmem last).mpr (by omega)
      rw [List.mem_cons] at this
      exact this.resolve_left (fun h => hdl h.symm)
    have hlt : last ∈ t.ids := by
      simp only [ids, List.mem_append, List.mem_cons, List.not_mem_nil, or_false] at hlmem
      exact hlmem.resolve_right (by omega)
    have hllen : last < p.length := by omega
    rw [getKey_eq hllen]
    simp only [Option.bind_eq_bind, Option.bind_some]
    obtain ⟨path, hpl, h | h⟩ := find_size (cmp := cmp) hl hz last (fun _ => by omega) (K p last) (by unfold pathSize; omega)
    · obtain ⟨gs, h1, rfl, h3, h4⟩ := h
      have := notfound_lookup hc hs h4
      rw [lookup_none] at this
      exact absurd (cmp_self hc _) (this (K p last) (List.mem_map_of_mem hlt))
    · obtain ⟨gs, l, i, r, h1, rfl, h3, h4, h5, h6⟩ := h
      have hil : last = i := strict_idx hc hs hlt (by rw [ids_plug]; simp [ids]) h5
      subst hil
      simp only [h1, Option.bind_some, Bool.not_true, Bool.false_eq_true, if_false, get_eq hllen]
      rw [wr, if_pos hdel]
      simp only [Option.bind_some, Nat.add_sub_cancel]
      obtain ⟨f, fs, hfs, hfl⟩ := gs_hdr gs
      have hpar := h3
      rw [hfs] at hpar
      have hpar := hpar.1
      rw [hfl] at hpar
      rw [hpar]
      simp only [Option.bind_some]
      rw [← plug_hdr, hfs] at hl hdt hperm
      have hfi : f.i < p.length := by have := hl; rw [links_plug] at this; exact this.1.1
      have hn : (plug (f :: fs) (node l last r)).ids.Nodup := by
        rw [← plug_hdr, hfs] at hnd; exact (List.nodup_cons.mp hnd).2
      rw [setNx_eq (by simpa using hfi)]
      -- the pool with the copied slot
      have hget : ∀ j, (p.set del (p.getD last default)).getD j default =
          if j = del then p.getD last default else p.getD j default := fun j => getD_set hdel _
      have hplen : (p.set del (p.getD last default)).length = p.length := by simp
      generalize hq : p.set del (p.getD last default) = q at *
      have hNq : ∀ j, j ≠ del → ∀ e, N q j e = N p j e := by
        intro j hj e; unfold N; rw [hget]; simp [hj]
      have hlq : Links q (plug (f :: fs) (node l last r)) :=
        links_congr hplen (fun j hj e => hNq j (fun h => hdt (h ▸ hj)) e) hl
      have hln : Links q (node l last r) := (links_plug.mp hlq).2
      have hlp : Links p (node l last r) := (links_plug.mp hl).2
      have hld : Links q (node l del r) := by
        refine ⟨by omega, ?_, ?_, hln.2.2.2.1, hln.2.2.2.2⟩
        · unfold N; rw [hget, if_pos rfl]; exact hlp.2.1
        · unfold N; rw [hget, if_pos rfl]; exact hlp.2.2.1
      have hfnot : f.i ∉ (node l del r).ids := by
        have h7 := hn
        rw [nodup_plug] at h7
        simp only [fids, List.nodup_append, List.mem_cons, List.mem_append] at h7
        intro h8
        simp only [ids, List.mem_append, List.mem_cons] at h8 h7
        have h9 : f.i ≠ del := by
          intro h; apply hdt; rw [← h, ids_plug]
          have : f.i ∈ fids (f :: fs) := by simp [fids]
          rw [(fids_perm _).mem_iff] at this
          simp only [List.mem_append] at this ⊢
          rcases this with h | h
          · exact .inl (.inl h)
          · exact .inr h
        rcases h8 with h8 | h8 | h8
        · exact h7.2.2 f.i (.inl h8) f.i (.inl rfl) rfl
        · exact h9 h8
        · exact h7.2.2 f.i (.inr (.inr h8)) f.i (.inl rfl) rfl
      have hl2 : Links (updN q f.i f.d del) (plug (f :: fs) (node l del r)) := by
        refine links_relink hlq hn (by simp) ?_ hld hfnot
        intro j e; rw [N_updN (by omega) (by omega)]; rfl
      rw [← hfs, plug_hdr] at hl2
      have hKR : ∀ j, (K (updN q f.i f.d del) j = if j = del then K p last else K p j) ∧
          (R (updN q f.i f.d del) j = if j = del then R p last else R p j) ∧
          (B (updN q f.i f.d del) j = if j = del then B p last else B p j) := by
        intro j
        rw [K_updN, R_updN, B_updN]
        unfold K R B
        rw [hget]
        by_cases h : j = del <;> simp [h]
      have hl2len : (updN q f.i f.d del).length = last + 1 := by simp; omega
      generalize updN q f.i f.d del = q2 at *
      have hids : (node (plug gs (node l del r)) 0 nil).ids.Perm (List.range last) := by
        rw [hlast, List.range_succ, ids_plug] at hperm
        rw [← plug_hdr, hfs, ids_plug]
        simp only [ids] at hperm ⊢
        have e1 : ∀ x, (bef (f :: fs) ++ (l.ids ++ x :: r.ids) ++ aft (f :: fs)).Perm
            (x :: (bef (f :: fs) ++ (l.ids ++ r.ids) ++ aft (f :: fs))) := by
          intro x
          have : bef (f :: fs) ++ (l.ids ++ x :: r.ids) ++ aft (f :: fs) =
            (bef (f :: fs) ++ l.ids) ++ x :: (r.ids ++ aft (f :: fs)) := by simp
          rw [this]
          refine List.perm_middle.trans (List.Perm.cons _ ?_)
          simp
        refine (e1 del).trans ?_
        have e2 := ((List.Perm.cons del (e1 last)).symm.trans hperm).trans (List.perm_append_comm (l₂ := [last]))
        exact List.Perm.cons_inv ((List.Perm.swap _ _ _).trans e2)
      have hlt2 : ∀ j ∈ (node (plug gs (node l del r)) 0 nil).ids, j < last := by
        intro j hj; rw [hids.mem_iff, List.mem_range] at hj; exact hj
      have hfix : ∀ j ∈ fids gs, (if j = last then del else j) = j := by
        intro j hj
        rw [← hfs, nodup_plug] at hn
        simp only [List.nodup_append] at hn
        have : last ≠ j := by
          apply hn.2.2 last (by simp [ids]) j
          rw [fids_append]; simp [hj]
        rw [if_neg (fun h => this h.symm)]
      have hmap : (plug gs (node l last r)).map (fun j => if j = last then del else j) =
          plug gs (node l del r) := by
        rw [map_plug _ hfix]
        congr 1
        rw [← hfs, nodup_plug] at hn
        have hn2 := (List.nodup_append.mp hn).1
        simp only [ids, List.nodup_append, List.nodup_cons] at hn2
        simp only [T.map, if_true]
        congr 1
        · apply T.map_id; intro j hj
          rw [if_neg]; intro h; subst h; exact hn2.2.2 j hj j (by simp) rfl
        · apply T.map_id; intro j hj
          rw [if_neg]; intro h; subst h; exact hn2.2.1.1 hj
      have hmain : ∀ j ∈ (plug gs (node l last r)).ids,
          K (q2.take last) (if j = last then del else j) = K p j ∧
          R (q2.take last) (if j = last then del else j) = R p j ∧
          B (q2.take last) (if j = last then del else j) = B p j := by
        intro j hj
        have hjd : j ≠ del := by
          intro h; apply hdt; rw [← hfs, plug_hdr]; simp only [ids, List.mem_append]; exact .inl (h ▸ hj)
        have hjl : (if j = last then del else j) < last := by
          apply hlt2
          simp only [ids, List.mem_append]
          left
          rw [← hmap, T.ids_map]
          exact List.mem_map.mpr ⟨j, hj, rfl⟩
        have hq2 := hKR (if j = last then del else j)
        unfold K R B at *
        rw [getD_take hjl]
        refine ⟨hq2.1.trans ?_, hq2.2.1.trans ?_, hq2.2.2.trans ?_⟩ <;>
        · by_cases h : j = last
          · simp [h]
          · simp [h, hjd]
      refine ⟨q2.take last, plug gs (node l del r), rfl, ⟨by rw [List.length_take]; omega,
        links_take (by omega) hlt2 hl2, ?_⟩, ?_, ?_, by rw [List.length_take]; omega⟩
      · have : (q2.take last).length = last := by rw [List.length_take]; omega
        rw [this]; exact hids
      · rw [← hmap]
        refine hS.map _ (fun j hj => (hmain j hj).2) ?_ hi
        have := (hKR 0).2.1
        rw [if_neg (fun h => hd0 h.symm)] at this
        rw [← this]
        unfold R; rw [getD_take (by omega)]
      · unfold keys
        rw [← hmap, T.ids_map, List.map_map]
        apply List.map_congr_left
        intro j hj
        exact (hmain j hj).1

theorem succLoop_ok (fs : List Frame) : ∀ (r : T) (hs : List Frame) (path : Path) (fuel : Nat),
    r ≠ nil → Links p r → 0 ∉ r.ids → PathOK path (hs ++ fs) → path.length = pathSize →
    (hs ++ fs).length + r.height ≤ pathSize → r.height < fuel → bef hs = [] →
    ∃ path' ls del c dx, succLoop p fuel path (hs ++ fs).length r.rt =
        some (path', (ls ++ fs).length, del) ∧
      plug ls (node nil del c) = plug hs r ∧ PathOK path' (ls ++ fs) ∧ path'.length = pathSize ∧
      path'[(ls ++ fs).length]? = some (del, dx) ∧ bef ls = [] := by
  intro r
  induction r with
  | nil => intro _ _ _ h; exact absurd rfl h
  | node l x r ihl _ =>
    intro hs path fuel _ h1 h2 h3 h4 h5 h6 h7
    cases fuel with
    | zero => omega
    | succ fuel =>
      obtain ⟨hx, hl, hr, hL, hR⟩ := h1
      simp only [height] at h5 h6
      simp only [rt, succLoop, getNx_eq hx, hl, Option.bind_eq_bind, Option.bind_some]
      cases l with
      | nil =>
        simp only [rt, ne_eq, not_true_eq_false, if_false]
        obtain ⟨old, hold⟩ : ∃ old, path[(hs ++ fs).length]? = some old :=
          ⟨_, List.getElem?_eq_getElem (by omega)⟩
        rw [hold]
        simp only [Option.bind_some]
        rw [wr, if_pos (by omega)]
        refine ⟨_, hs, x, r, old.2, rfl, rfl, pathOK_set (Nat.le_refl _) h3, by rw [List.length_set]; exact h4, ?_, h7⟩
        rw [List.getElem?_set_self (by omega)]
      | node ll y lr =>
        have hy0 : y ≠ 0 := by intro h; apply h2; simp [ids, h]
        simp only [rt, ne_eq, hy0, not_false_eq_true, if_true]
        rw [wr, if_pos (by omega)]
        simp only [Option.bind_some]
        have := ihl (⟨false, x, r⟩ :: hs) (path.set (hs ++ fs).length (x, false)) fuel (by simp) hL
          (fun h => h2 (by rw [ids]; exact List.mem_append_left _ h)) ⟨List.getElem?_set_self (by omega), pathOK_set (Nat.le_refl _) h3⟩
          (by rw [List.length_set]; exact h4) (by simp only [List.cons_append, List.length_cons]; omega) (by omega)
          (by simp [bef, h7])
        exact this

theorem rt_zero {t : T} (h : 0 ∉ t.ids) : t.rt = 0 ↔ t = nil := by
  cases t with
  | nil => simp
  | node l i r =>
    simp only [rt, reduceCtorEq, iff_false]
    intro h0; apply h; simp [ids, h0]

theorem filter_mid (hc : Comparator cmp) {a b : List Key} {v key : Key} (hs : Strict cmp (a ++ v :: b))
    (hv : cmp key v = 0) : (a ++ v :: b).filter (fun x => decide (cmp key x ≠ 0)) = a ++ b := by
  unfold Strict at hs
  rw [List.pairwise_append, List.pairwise_cons] at hs
  have e : ∀ x, cmp key x = 0 ↔ cmp v x = 0 := fun x => cmp_eq_congr hc hv
  rw [List.filter_append, List.filter_cons]
  simp only [hv, ne_eq, not_true_eq_false, decide_false, Bool.false_eq_true, if_false]
  rw [List.filter_eq_self.mpr, List.filter_eq_self.mpr]
  · intro x hx
    have := hs.2.1.1 x hx
    simp only [decide_eq_true_eq, e]; omega
  · intro x hx
    have := hs.2.2 x hx v (by simp)
    simp only [decide_eq_true_eq, e]
    intro h; have := cmp_symm hc h; omega

/-- unlink `x`, whose only subtree is `c`, rebalance and compact -/
theorem unlink_ok (hc : Comparator cmp) {Inv : Pool → T → Prop} (hS : Scheme Inv)
    {reb : Pool → Path → Nat → Option Pool} (hD : DelContract Inv reb) {gs : List Frame} {c : T}
    {x nd : Nat} {d dx : Dir} {path : Path} (hw : Wf p (plug gs (mk d c x nil)))
    (hi : Inv p (plug gs (mk d c x nil))) (hp : PathOK path (gs ++ [hdr]))
    (hx : path[gs.length + 1]? = some (x, dx)) (hpl : path.length = pathSize) (hnd : nd < p.length)
    (hs : ∀ q, (∀ j, K q j = if j = nd then K p x else K p j) → Strict cmp (keys q (plug gs c))) :
    ∃ p' t', (do
        let parent ← path[gs.length + 1 - 1]?
        let p ← setNx p parent.1 parent.2 c.rt
        let p ← setKey p nd (← getKey p x)
        let p ← reb p path (gs.length + 1)
        compact cmp p x) = some (p', true) ∧ Wf p' t' ∧ Inv p' t' ∧
      (∃ q, (∀ j, K q j = if j = nd then K p x else K p j) ∧ keys p' t' = keys q (plug gs c)) ∧
      p'.length = p.length - 1 := by
  obtain ⟨f, fs, hfs, hfl⟩ := gs_hdr gs
  have hpar := hp
  rw [hfs] at hpar
  have hpar := hpar.1
  rw [hfl] at hpar
  have hL := hw.links
  have hn := hw.nodup
  rw [← plug_hdr] at hL hn
  have hxl : x < p.length := links_lt hL x (by rw [ids_plug]; simp)
  have hfi : f.i < p.length := by have := hL; rw [hfs, links_plug] at this; exact this.1.1
  have hLc : Links p c := by rw [links_plug, links_mk] at hL; exact hL.2.2.2.2.1
  have hcl : c.rt < p.length := links_rt_lt (by omega) hLc
  have hlen := hw.len
  simp only [Nat.add_sub_cancel, hpar, Option.bind_eq_bind, Option.bind_some, setNx_eq hfi]
  rw [getKey_eq (by simpa using hxl)]
  simp only [Option.bind_some]
  rw [setKey_eq (by simpa using hnd)]
  simp only [Option.bind_some, K_updN]
  have hq : ∀ j, (K (updK (updN p f.i f.d c.rt) nd (K p x)) j = if j = nd then K p x else K p j) ∧
      R (updK (updN p f.i f.d c.rt) nd (K p x)) j = R p j ∧
      B (updK (updN p f.i f.d c.rt) nd (K p x)) j = B p j := by
    intro j; rw [K_updK (by simpa using hnd)]; simp
  have hfc : f.i ∉ c.ids := by
    have h1 := hn
    rw [hfs, nodup_plug] at h1
    have h2 := List.nodup_append.mp h1
    intro h; exact h2.2.2 f.i (by simp [h]) f.i (by simp [fids]) rfl
  have hL1 : Links (updK (updN p f.i f.d c.rt) nd (K p x)) (plug (gs ++ [hdr]) c) := by
    rw [hfs] at hL hn ⊢
    refine links_relink hL hn (by simp) ?_ hLc hfc
    intro j e; rw [N_updK, N_updN hfi (by omega)]
  have hqlen : (updK (updN p f.i f.d c.rt) nd (K p x)).length = p.length := by simp
  generalize updK (updN p f.i f.d c.rt) nd (K p x) = q at *
  have hiq : Inv q (plug gs (mk d c x nil)) := hS.congr (fun j _ => (hq j).2) (hq 0).2.1 hi
  have hh := hS.height hi (by have := hw.count; omega)
  have hhg := height_plug gs (mk d c x nil)
  have hh1 : 1 ≤ (mk d c x nil).height := by cases d <;> simp [mk, height]
  obtain ⟨q', t', g1, g2, g3, g4, g5, g6⟩ := hD (p := q) (gs := gs) (c := c) (x := x) (path := path) (dx := dx) (d := d)
    (by omega) hL1 hn (by omega) hiq hp hx hpl (by omega)
  have hkeys : keys q' t' = keys q (plug gs c) := by
    unfold keys; rw [g3]; exact List.map_congr_left fun j _ => g6 j
  have hperm : (x :: (node t' 0 nil).ids).Perm (List.range q'.length) := by
    rw [g5, hqlen]
    refine List.Perm.trans ?_ hw.perm
    simp only [ids, g3, ids_plug]
    have : ∀ y : List Nat, (bef gs ++ y ++ aft gs ++ [0]).Perm (y ++ (bef gs ++ aft gs ++ [0])) := by
      intro y
      have h1 : (bef gs ++ y).Perm (y ++ bef gs) := List.perm_append_comm
      have := (h1.append_right (aft gs)).append_right [0]
      simpa using this
    have h2 : (mk d c x nil).ids.Perm (x :: c.ids) := by simpa [ids] using ids_mk_perm d c x nil
    exact ((this c.ids).cons x).trans ((this _).trans (h2.append_right _)).symm
  obtain ⟨p', t'', e1, e2, e3, e4, e5⟩ := compact_ok hc hS (by omega) g2 hperm g4 (by rw [hkeys]; exact hs q fun j => (hq j).1)
  refine ⟨p', t'', by rw [g1]; exact e1, e2, e3, ⟨q, fun j => (hq j).1, e4.trans hkeys⟩, by omega⟩

theorem treeDel_ok (hc : Comparator cmp) {Inv : Pool → T → Prop} (hS : Scheme Inv)
    {reb : Pool → Path → Nat → Option Pool} (hD : DelContract Inv reb) {t : T} (hw : Wf p t)
    (hi : Inv p t) (hs : Strict cmp (keys p t)) (key : Key) :
    ∃ p' r, treeDel reb cmp p key = some (p', r) ∧
      ((p' = p ∧ r = false ∧ lookup cmp (keys p t) key = none) ∨
       (r = true ∧ lookup cmp (keys p t) key ≠ none ∧ ∃ t', Wf p' t' ∧ Inv p' t' ∧
          keys p' t' = (keys p t).filter (fun x => decide (cmp key x ≠ 0)) ∧ p'.length = p.length - 1)) := by
  have hheight := hS.height hi (by have := hw.count; have := hw.len; omega)
  unfold treeDel
  obtain ⟨path, hpl, h | h⟩ := find_ok (cmp := cmp) hw key (by unfold pathSize; omega)
  · obtain ⟨gs, h1, rfl, h3, h4⟩ := h
    simp only [h1, Option.bind_eq_bind, Option.bind_some, Bool.not_false, if_true]
    exact ⟨p, false, rfl, .inl ⟨rfl, rfl, notfound_lookup hc hs h4⟩⟩
  · obtain ⟨gs, l, i, r, h1, rfl, h3, h4, h5, h6⟩ := h
    simp only [h1, Option.bind_eq_bind, Option.bind_some, Bool.not_true, Bool.false_eq_true, if_false]
    have hsz : gs.length + 2 - 1 = gs.length + 1 := by omega
    rw [hsz, h4]
    simp only [Option.bind_some]
    have hL := hw.links
    have hn := hw.nodup
    rw [← plug_hdr] at hL hn
    have hLn := (links_plug.mp hL).2
    obtain ⟨hil, hl, hr, hLl, hLr⟩ := hLn
    rw [getNx_eq hil, getNx_eq hil, hl, hr]
    simp only [Option.bind_some]
    have hlk : lookup cmp (keys p (plug gs (node l i r))) key ≠ none := by
      rw [(lookup_eq_some_iff hc (strict_distinct hs) (r := K p i)).mpr ⟨List.mem_map_of_mem (by rw [ids_plug]; simp [ids]), h5⟩]
      simp
    have hz := hw.zero
    have hzl : 0 ∉ l.ids := fun h => hz (by rw [ids_plug]; simp [ids, h])
    have hzr : 0 ∉ r.ids := fun h => hz (by rw [ids_plug]; simp [ids, h])
    have hkeys0 : keys p (plug gs (node l i r)) = ((bef gs).map (K p) ++ l.ids.map (K p)) ++ K p i :: (r.ids.map (K p) ++ (aft gs).map (K p)) := by
      unfold keys; rw [ids_plug]; simp [ids]
    have hnn := hn
    rw [nodup_plug, fids_append, List.nodup_append] at hnn
    have hperm0 := fids_perm gs
    by_cases hone : l.rt = 0 ∨ r.rt = 0
    · rw [if_pos hone]
      simp only [Option.bind_some]
      rw [rt_zero hzl, rt_zero hzr] at hone
      -- the node is `mk d c i nil`
      obtain ⟨d, c, hnode, hc1, hd⟩ : ∃ d c, node l i r = mk d c i nil ∧ l.ids ++ r.ids = c.ids ∧
          N p i (decide (r.rt ≠ 0)) = c.rt := by
        by_cases hrn : r = nil
        · subst hrn
          exact ⟨false, l, rfl, by simp [ids], by simpa using hl⟩
        · have hln : l = nil := hone.resolve_right hrn
          subst hln
          have : r.rt ≠ 0 := fun h => hrn ((rt_zero hzr).mp h)
          exact ⟨true, r, rfl, by simp [ids], by simp [this, hr]⟩
      rw [getNx_eq hil, hr]
      simp only [Option.bind_some]
      rw [getNx_eq hil, hd]
      simp only [Option.bind_some]
      rw [hnode] at hw hi
      have hKsame : ∀ q, (∀ j, K q j = if j = i then K p i else K p j) → keys q (plug gs c) =
          ((bef gs).map (K p) ++ l.ids.map (K p)) ++ (r.ids.map (K p) ++ (aft gs).map (K p)) := by
        intro q hq
        have : keys q (plug gs c) = keys p (plug gs c) := by
          unfold keys; apply List.map_congr_left; intro j _; rw [hq]; split
          · next h => rw [h]
          · rfl
        rw [this]; unfold keys; rw [ids_plug, ← hc1]; simp
      have hstrict : ∀ q, (∀ j, K q j = if j = i then K p i else K p j) → Strict cmp (keys q (plug gs c)) := by
        intro q hq
        rw [hKsame q hq]
        rw [hkeys0] at hs
        exact hs.sublist (List.Sublist.append (List.Sublist.refl _) (List.sublist_cons_self _ _))
      obtain ⟨p', t', g1, g2, g3, ⟨q, hq, g4⟩, g5⟩ := unlink_ok hc hS hD hw hi h3 h4 hpl hil hstrict
      refine ⟨p', true, g1, .inr ⟨rfl, hlk, t', g2, g3, ?_, g5⟩⟩
      rw [g4, hKsame q hq, hkeys0]
      rw [hkeys0] at hs
      exact (filter_mid hc hs h5).symm
    · rw [if_neg hone]
      rw [rt_zero hzl, rt_zero hzr, not_or] at hone
      rw [wr, if_pos (by
        have := (List.getElem?_eq_some_iff.mp h4).1; exact this)]
      simp only [Option.bind_some]
      have hhg := height_plug gs (node l i r)
      simp only [height] at hhg
      have hpath1 : PathOK (path.set (gs.length + 1) (i, true)) ([] ++ (⟨true, i, l⟩ :: gs ++ [hdr])) := by
        refine ⟨?_, pathOK_set (by simp) h3⟩
        have : (gs ++ [hdr]).length = gs.length + 1 := by simp
        show (path.set (gs.length + 1) (i, true))[(gs ++ [hdr]).length]? = some (i, true)
        rw [this, List.getElem?_set_self (by have := (List.getElem?_eq_some_iff.mp h4).1; exact this)]
      obtain ⟨path', ls, del, c, dx, s1, s2, s3, s4, s5, s6⟩ := succLoop_ok (p := p) (⟨true, i, l⟩ :: gs ++ [hdr]) r []
        (path.set (gs.length + 1) (i, true)) (pathSize + 1) hone.2 hLr hzr hpath1 (by rw [List.length_set]; exact hpl)
        (by simp [pathSize]; omega) (by simp [pathSize]; omega) rfl
      simp only [List.nil_append, plug] at s1 s2
      have hlen1 : (⟨true, i, l⟩ :: gs ++ [hdr]).length = gs.length + 2 := by simp
      rw [hlen1] at s1
      rw [s1]
      simp only [Option.bind_some]
      have hgs' : ls ++ (⟨true, i, l⟩ :: gs ++ [hdr]) = (ls ++ ⟨true, i, l⟩ :: gs) ++ [hdr] := by simp
      have hlen2 : (ls ++ (⟨true, i, l⟩ :: gs ++ [hdr])).length = (ls ++ ⟨true, i, l⟩ :: gs).length + 1 := by
        rw [hgs', List.length_append]; rfl
      rw [hlen2] at s5 ⊢
      rw [hgs'] at s3
      -- links of the successor
      have hLd : Links p (node nil del c) := by rw [← s2, links_plug] at hLr; exact hLr.2
      obtain ⟨hdl, hd1, hd2, _, hLc⟩ := hLd
      have hdmem : del ∈ r.ids := by rw [← s2, ids_plug]; simp [ids]
      have hzc : 0 ∉ c.ids := fun h => hzr (by rw [← s2, ids_plug]; simp [ids, h])
      rw [getNx_eq hdl, hd2]
      simp only [Option.bind_some]
      have hcn : N p del (decide (c.rt ≠ 0)) = c.rt := by
        by_cases h0 : c.rt = 0
        · simp [h0, hd1]
        · simp [h0, hd2]
      rw [getNx_eq hdl, hcn]
      simp only [Option.bind_some]
      have hplug : plug (ls ++ ⟨true, i, l⟩ :: gs) (mk true c del nil) = plug gs (node l i r) := by
        rw [plug_append]
        show plug gs (mk true (plug ls (node nil del c)) i l) = _
        rw [s2]; rfl
      have hids' : (plug (ls ++ ⟨true, i, l⟩ :: gs) c).ids = bef gs ++ l.ids ++ i :: (c.ids ++ aft ls ++ aft gs) := by
        rw [plug_append, plug, ids_plug]
        simp only [mk, if_true, ids, ids_plug, s6]
        simp
      have hrids : r.ids = del :: (c.ids ++ aft ls) := by
        rw [← s2, ids_plug, s6]; simp [ids]
      rw [← hplug] at hw hi
      have hnd2 : (bef gs ++ l.ids ++ i :: (r.ids ++ aft gs)).Nodup := by
        have h7 := hw.nodup
        rw [hplug] at h7
        simp only [ids] at h7
        have h8 := (List.nodup_append.mp h7).1
        rw [ids_plug] at h8
        simpa [ids] using h8
      rw [hrids] at hnd2
      have hKsame : ∀ q, (∀ j, K q j = if j = i then K p del else K p j) → keys q (plug (ls ++ ⟨true, i, l⟩ :: gs) c) =
          ((bef gs).map (K p) ++ l.ids.map (K p)) ++ (r.ids.map (K p) ++ (aft gs).map (K p)) := by
        intro q hq
        have hne : ∀ j, j ≠ i → K q j = K p j := by intro j hj; rw [hq, if_neg hj]
        rw [List.nodup_append] at hnd2
        obtain ⟨_, m2, m3⟩ := hnd2
        rw [List.nodup_cons] at m2
        have mb : ∀ j ∈ bef gs ++ l.ids, K q j = K p j := by
          intro j hj; apply hne; exact m3 j hj i (by simp)
        have mc : ∀ j ∈ c.ids ++ aft ls ++ aft gs, K q j = K p j := by
          intro j hj; apply hne; intro h; subst h; apply m2.1
          simp only [List.cons_append, List.mem_cons]; exact .inr hj
        unfold keys
        rw [hids', List.map_append, List.map_cons, List.map_congr_left mb, List.map_congr_left mc, hq, if_pos rfl, hrids]
        simp
      have hstrict : ∀ q, (∀ j, K q j = if j = i then K p del else K p j) →
          Strict cmp (keys q (plug (ls ++ ⟨true, i, l⟩ :: gs) c)) := by
        intro q hq
        rw [hKsame q hq]
        rw [hkeys0] at hs
        exact hs.sublist (List.Sublist.append (List.Sublist.refl _) (List.sublist_cons_self _ _))
      obtain ⟨p', t', g1, g2, g3, ⟨q, hq, g4⟩, g5⟩ := unlink_ok hc hS hD hw hi s3 s5 s4 hil hstrict
      refine ⟨p', true, g1, .inr ⟨rfl, hlk, t', g2, g3, ?_, g5⟩⟩
      rw [g4, hKsame q hq, hkeys0]
      rw [hkeys0] at hs
      exact (filter_mid hc hs h5).symm

end Verif.Lemmas.Tree
