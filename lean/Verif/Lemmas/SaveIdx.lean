import Verif.Lemmas.SaveTree
/-!
`mr_save` does not number the nodes and makes no references to contents before the post-processing.
-/
namespace Verif.Lemmas.SaveIdx
open Verif.Model Verif.Model.Ptrs Verif.Model.Save

/-- no node has an id or refers to a content -/
def Z (ra : List Pd) : Prop := ∀ pd ∈ ra, pd.idx = 0 ∧ pd.cref = false

theorem upd_z {ra ra' : List Pd} {i : Nat} {f : Pd → Pd} (h : upd ra i f = some ra') (hf : ∀ pd, (f pd).idx = pd.idx ∧ (f pd).cref = pd.cref) (hz : Z ra) : Z ra' := by
  unfold upd at h
  cases hi : ra[i]? with
  | none => rw [hi] at h; cases h
  | some pd =>
    rw [hi] at h
    simp only [Option.bind_eq_bind, Option.bind_some] at h
    unfold wr at h
    split at h
    · cases h
      intro q hq
      rcases List.mem_or_eq_of_mem_set hq with hq | rfl
      · exact hz q hq
      · rw [(hf pd).1, (hf pd).2]; exact hz pd (List.mem_of_getElem? hi)
    · cases h

theorem updPd_z {st st' : St} {i : Nat} {f : Pd → Pd} (h : updPd st i f = some st') (hf : ∀ pd, (f pd).idx = pd.idx ∧ (f pd).cref = pd.cref) (hz : Z st.ptrs.ra) : Z st'.ptrs.ra := by
  unfold updPd at h
  cases hu : upd st.ptrs.ra i f with
  | none => rw [hu] at h; cases h
  | some ra => rw [hu] at h; cases h; exact upd_z hu hf hz

theorem updInfo_z {st st' : St} {i : Nat} {f : Info → Info} (h : updInfo st i f = some st') : st'.ptrs = st.ptrs := by
  unfold updInfo at h
  cases hi : st.info[i]? with
  | none => rw [hi] at h; cases h
  | some x =>
    rw [hi] at h
    simp only [Option.bind_eq_bind, Option.bind_some] at h
    cases hw : wr st.info i (f x) with
    | none => rw [hw] at h; cases h
    | some l => rw [hw] at h; cases h; rfl

theorem last_z {s s' : Ptrs} {p lc : Nat} (h : lastChildForParent s p = some (s', lc)) : s'.ra = s.ra := by
  unfold lastChildForParent at h
  split at h
  · cases h; rfl
  · simp only [Option.bind_eq_bind, Option.bind_eq_some_iff] at h
    obtain ⟨pp, _, h⟩ := h
    split at h
    · cases h; rfl
    · simp only [Option.bind_eq_some_iff] at h
      obtain ⟨a, _, h⟩ := h
      split at h
      · simp only [Option.bind_eq_some_iff] at h
        obtain ⟨b, _, h⟩ := h
        cases h; rfl
      · cases h; rfl

theorem addChild_z {s s' : Ptrs} {p c : Nat} (h : addChild s p c = some s') (hz : Z s.ra) : Z s'.ra := by
  unfold addChild at h
  simp only [Option.bind_eq_bind, Option.bind_eq_some_iff] at h
  obtain ⟨⟨s1, lc⟩, h1, ra1, h2, h⟩ := h
  have hz1 : Z ra1 := upd_z h2 (fun _ => ⟨rfl, rfl⟩) (by rw [last_z h1]; exact hz)
  split at h
  · cases h; exact hz1
  · simp only [Option.bind_eq_some_iff] at h
    obtain ⟨pp, _, h⟩ := h
    split at h
    · simp only [Option.bind_eq_some_iff] at h
      obtain ⟨ra2, h3, h⟩ := h
      cases h; exact upd_z h3 (fun _ => ⟨rfl, rfl⟩) hz1
    · split at h
      · simp only [Option.bind_eq_some_iff] at h
        obtain ⟨ra2, h3, h⟩ := h
        cases h; exact upd_z h3 (fun _ => ⟨rfl, rfl⟩) hz1
      · cases h; exact hz1

theorem link_z {st st' : St} {p c : Nat} (h : link st p c = some st') (hz : Z st.ptrs.ra) : Z st'.ptrs.ra := by
  unfold link at h
  simp only [Option.bind_eq_bind, Option.bind_eq_some_iff] at h
  obtain ⟨s, h1, h⟩ := h
  cases h; exact addChild_z h1 hz

theorem setReference_z {st st' : St} {p r : Nat} (h : setReference st p r = some st') (hz : Z st.ptrs.ra) : Z st'.ptrs.ra := by
  unfold setReference at h
  simp only [Option.bind_eq_bind, Option.bind_eq_some_iff] at h
  obtain ⟨s, h1, h2⟩ := h
  exact updPd_z h2 (fun _ => ⟨rfl, rfl⟩) (updPd_z h1 (fun _ => ⟨rfl, rfl⟩) hz)

theorem moveLoop_z {tds : List Td} {cur : Cur} (fuel : Nat) : ∀ {st st' : St} {r c m : Nat}, moveLoop tds cur fuel st r c = some (st', m) → Z st.ptrs.ra → Z st'.ptrs.ra := by
  induction fuel with
  | zero => intro st st' r c m h; cases h
  | succ fuel ih =>
    intro st st' r c m h hz
    unfold moveLoop at h
    split at h
    · cases h; exact hz
    · simp only [Option.bind_eq_bind, Option.bind_eq_some_iff] at h
      obtain ⟨pd, _, fd, _, s1, h1, s2, h2, s3, h3, h⟩ := h
      exact ih h (link_z h3 (updPd_z h2 (fun _ => ⟨rfl, rfl⟩) (by rw [updInfo_z h1]; exact hz)))

theorem moveNodes_z {tds : List Td} {cur : Cur} {st st' : St} {q m : Nat} (h : moveNodes tds st cur q = some (st', m)) (hz : Z st.ptrs.ra) : Z st'.ptrs.ra := by
  unfold moveNodes at h
  simp only [Option.bind_eq_bind, Option.bind_eq_some_iff] at h
  obtain ⟨rp, _, s1, h1, h⟩ := h
  exact moveLoop_z _ h (setReference_z h1 hz)

theorem growSizes_z {e c : Nat} (fuel : Nat) : ∀ {st st' : St} {node i m : Nat}, growSizes e c fuel st node i = some (st', m) → st'.ptrs = st.ptrs := by
  induction fuel with
  | zero => intro st st' node i m h; cases h
  | succ fuel ih =>
    intro st st' node i m h
    unfold growSizes at h
    split at h
    · cases h; rfl
    · simp only [Option.bind_eq_bind, Option.bind_eq_some_iff] at h
      obtain ⟨pd, _, s1, h1, h⟩ := h
      split at h
      · cases h; exact updInfo_z h1
      · rw [ih h, updInfo_z h1]

theorem addSizes_z {d : Nat} (fuel : Nat) : ∀ {st st' : St} {node : Nat}, addSizes d fuel st node = some st' → st'.ptrs = st.ptrs := by
  induction fuel with
  | zero => intro st st' node h; cases h
  | succ fuel ih =>
    intro st st' node h
    unfold addSizes at h
    split at h
    · cases h; rfl
    · simp only [Option.bind_eq_bind, Option.bind_eq_some_iff] at h
      obtain ⟨pd, _, s1, h1, h⟩ := h
      rw [ih h, updInfo_z h1]

/-- `inner` leaves the ids alone -/
def Good (inner : St → Nat → Fd → Nat → Nat → Option (St × Nat)) : Prop :=
  ∀ {st st' : St} {d : Nat} {f : Fd} {c p m : Nat}, inner st d f c p = some (st', m) → Z st.ptrs.ra → Z st'.ptrs.ra

variable {inner : St → Nat → Fd → Nat → Nat → Option (St × Nat)} {mem : Mem} {tds : List Td}

theorem saveElements_z (hg : Good inner) {data : Nat} {fd : Fd} {count parent : Nat} (fuel : Nat) :
    ∀ {st st' : St} {i m : Nat}, saveElements inner data fd count parent fuel st i = some (st', m) → Z st.ptrs.ra → Z st'.ptrs.ra := by
  induction fuel with
  | zero => intro st st' i m h; cases h
  | succ fuel ih =>
    intro st st' i m h hz
    unfold saveElements at h
    split at h
    · simp only [Option.bind_eq_bind, Option.bind_eq_some_iff] at h
      obtain ⟨⟨s1, a⟩, h1, h⟩ := h
      split at h
      · cases h; exact hg h1 hz
      · exact ih h (hg h1 hz)
    · cases h; exact hz

theorem content_z (hg : Good inner) {st st' : St} {idx m : Nat} (h : savePointerContent mem tds inner st idx = some (st', m)) (hz : Z st.ptrs.ra) : Z st'.ptrs.ra := by
  unfold savePointerContent at h
  simp only [Option.bind_eq_bind, Option.bind_eq_some_iff] at h
  obtain ⟨n, _, pd, _, h⟩ := h
  split at h
  · cases h; exact hz
  · simp only [Option.bind_eq_some_iff] at h
    obtain ⟨⟨s1, i⟩, h1, h⟩ := h
    exact saveElements_z hg _ h (by rw [growSizes_z _ h1]; exact hz)

theorem resolvePointer_z {content : St → Nat → Option (St × Nat)} (hg : ∀ {st st' : St} {i m : Nat}, content st i = some (st', m) → Z st.ptrs.ra → Z st'.ptrs.ra)
    {st st' : St} {cur : Cur} {r m : Nat} {b : Bool} (h : resolvePointer tds content st cur r = some (st', b, m)) (hz : Z st.ptrs.ra) : Z st'.ptrs.ra := by
  unfold resolvePointer at h
  simp only [Option.bind_eq_bind, Option.bind_eq_some_iff] at h
  obtain ⟨pp, _, rpd, _, rinfo, _, rparent, _, h⟩ := h
  split at h
  · cases h; exact hz
  split at h
  · split at h
    · simp only [Option.bind_eq_some_iff] at h
      obtain ⟨s1, h1, h⟩ := h
      cases h; exact setReference_z h1 hz
    · split at h
      · simp only [Option.bind_eq_some_iff] at h
        obtain ⟨fc, _, h⟩ := h
        split at h
        · simp only [Option.bind_eq_some_iff] at h
          obtain ⟨⟨s1, a⟩, h1, h⟩ := h
          cases h; exact moveNodes_z h1 hz
        · simp only [Option.bind_eq_some_iff] at h
          obtain ⟨s1, h1, s2, h2, ⟨s3, a⟩, h3, h⟩ := h
          cases h
          exact hg h3 (setReference_z h2 (by rw [updInfo_z h1]; exact hz))
      · cases h; exact hz
  · split at h
    · split at h
      · simp only [Option.bind_eq_some_iff] at h
        obtain ⟨s1, h1, s2, h2, ⟨s3, a⟩, h3, h⟩ := h
        cases h
        exact moveNodes_z h3 (by rw [updInfo_z h2, addSizes_z _ h1]; exact hz)
      · simp only [Option.bind_eq_some_iff] at h
        obtain ⟨⟨s1, a⟩, h1, h⟩ := h
        cases h; exact moveNodes_z h1 hz
    · cases h; exact hz

theorem resolveMatched_z {content : St → Nat → Option (St × Nat)} (hg : ∀ {st st' : St} {i m : Nat}, content st i = some (st', m) → Z st.ptrs.ra → Z st'.ptrs.ra)
    {st : St} {cur : Cur} (fuel : Nat) : ∀ {st' : St} {r m : Nat} {b : Bool}, resolveMatched tds content st cur fuel r = some (st', b, m) → Z st.ptrs.ra → Z st'.ptrs.ra := by
  induction fuel with
  | zero => intro st' r m b h; cases h
  | succ fuel ih =>
    intro st' r m b h hz
    unfold resolveMatched at h
    split at h
    · cases h; exact hz
    · simp only [Option.bind_eq_bind, Option.bind_eq_some_iff] at h
      obtain ⟨rpd, _, rinfo, _, h⟩ := h
      split at h
      · simp only [Option.bind_eq_some_iff] at h
        obtain ⟨pp, _, h⟩ := h
        split at h
        · simp only [Option.bind_eq_some_iff] at h
          obtain ⟨s1, h1, h⟩ := h
          cases h; exact setReference_z h1 hz
        · exact resolvePointer_z hg h hz
        · simp only [Option.bind_eq_some_iff] at h
          obtain ⟨mv, _, h⟩ := h
          split at h
          · simp only [Option.bind_eq_some_iff] at h
            obtain ⟨⟨s1, a⟩, h1, h⟩ := h
            cases h; exact moveNodes_z h1 hz
          · exact ih h hz
      · exact ih h hz

theorem saveFields_z (hg : Good inner) {addr idx : Nat} (fs : List Fd) : ∀ {st st' : St} {m : Nat}, saveFields inner addr idx fs st = some (st', m) → Z st.ptrs.ra → Z st'.ptrs.ra := by
  induction fs with
  | nil => intro st st' m h hz; cases h; exact hz
  | cons f fs ih =>
    intro st st' m h hz
    unfold saveFields at h
    simp only [Option.bind_eq_bind, Option.bind_eq_some_iff] at h
    obtain ⟨⟨s1, a⟩, h1, h⟩ := h
    split at h
    · cases h; exact hg h1 hz
    · exact ih h (hg h1 hz)

theorem saveArray_z (hg : Good inner) {st st' : St} {idx addr parent m : Nat} {fd : Fd} (h : saveArray mem inner st idx addr parent fd = some (st', m)) (hz : Z st.ptrs.ra) : Z st'.ptrs.ra := by
  unfold saveArray at h
  simp only [Option.bind_eq_bind, Option.bind_eq_some_iff] at h
  obtain ⟨c, _, h⟩ := h
  split at h
  · cases h; exact hz
  split at h
  · cases h; exact hz
  simp only [Option.bind_eq_some_iff] at h
  obtain ⟨n, _, s1, h1, ⟨s2, i⟩, h2, h⟩ := h
  cases h
  refine saveElements_z hg _ h2 ?_
  split at h1
  · rw [updInfo_z h1]; exact hz
  · cases h1; exact hz

theorem savePointer_z {st st' : St} {idx addr parent m : Nat} {fd : Fd} (h : savePointer mem tds st idx addr parent fd = some (st', m)) (hz : Z st.ptrs.ra) : Z st'.ptrs.ra := by
  unfold savePointer at h
  split at h
  · simp only [Option.bind_eq_bind, Option.bind_eq_some_iff] at h
    obtain ⟨s1, h1, h⟩ := h
    cases h; rw [updInfo_z h1]; exact hz
  · simp only [Option.bind_eq_bind, Option.bind_eq_some_iff] at h
    obtain ⟨sz, _, s1, h1, h⟩ := h
    cases h; rw [updInfo_z h1]; exact hz

theorem handler_z (hg : Good inner) {st st' : St} {idx addr parent m : Nat} {fd : Fd} (h : handler mem tds inner st idx addr parent fd = some (st', m)) (hz : Z st.ptrs.ra) : Z st'.ptrs.ra := by
  unfold handler at h
  split at h
  · simp only [Option.bind_eq_bind, Option.bind_eq_some_iff] at h
    obtain ⟨s1, h1, h⟩ := h
    cases h
    split at h1
    · rw [updInfo_z h1]; exact hz
    · cases h1; exact hz
  · simp only [Option.bind_eq_bind, Option.bind_eq_some_iff] at h
    obtain ⟨s1, h1, h⟩ := h
    cases h
    split at h1
    · rw [updInfo_z h1]; exact hz
    · cases h1; exact hz
  · split at h
    · simp only [Option.bind_eq_bind, Option.bind_eq_some_iff] at h
      obtain ⟨s1, h1, h⟩ := h
      cases h; rw [updInfo_z h1]; exact hz
    · exact hg h hz
  · unfold saveEnum at h
    simp only [Option.bind_eq_bind, Option.bind_eq_some_iff] at h
    obtain ⟨s1, h1, h⟩ := h
    cases h; rw [updInfo_z h1]; exact hz
  · simp only [Option.bind_eq_bind, Option.bind_eq_some_iff] at h
    obtain ⟨t, _, d, _, h⟩ := h
    exact saveFields_z hg _ h hz
  · exact saveArray_z hg h hz
  · exact savePointer_z h hz
  · cases h
  · cases h
  · cases h
  · cases h; exact hz

theorem saveInner_z (fuel : Nat) : Good (saveInner mem tds fuel) := by
  induction fuel with
  | zero => intro st st' d f c p m h; cases h
  | succ fuel ih =>
    intro st st' d f c p m h hz
    unfold saveInner at h
    simp only [Option.bind_eq_bind, Option.bind_eq_some_iff] at h
    obtain ⟨⟨s1, b, mt⟩, h1, h⟩ := h
    have hz1 := resolveMatched_z (fun h hz => content_z ih h hz) _ h1 hz
    split at h
    · cases h; exact hz1
    · simp only [Option.bind_eq_some_iff] at h
      obtain ⟨s2, h2, ⟨s3, a⟩, h3, pfd, _, s4, h4, h⟩ := h
      cases h
      rw [updInfo_z h4]
      refine handler_z ih h3 (link_z h2 ?_)
      intro q hq
      rcases List.mem_append.1 hq with hq | hq
      · exact hz1 q hq
      · rw [List.mem_singleton.1 hq]; exact ⟨rfl, rfl⟩

theorem saveContents_z {depth : Nat} (fuel : Nat) : ∀ {st st' : St} {i m : Nat}, saveContents mem tds depth fuel st i = some (st', m) → Z st.ptrs.ra → Z st'.ptrs.ra := by
  induction fuel with
  | zero => intro st st' i m h; cases h
  | succ fuel ih =>
    intro st st' i m h hz
    unfold saveContents at h
    split at h
    · simp only [Option.bind_eq_bind, Option.bind_eq_some_iff] at h
      obtain ⟨pd, _, n, _, h⟩ := h
      split at h
      · simp only [Option.bind_eq_some_iff] at h
        obtain ⟨⟨s1, a⟩, h1, h⟩ := h
        have hz1 := content_z (saveInner_z _) h1 hz
        split at h
        · cases h; exact hz1
        · exact ih h hz1
      · exact ih h hz
    · cases h; exact hz

theorem saveGraph_z {fuel data m : Nat} {fd : Fd} {st : St} (h : saveGraph mem tds fuel data fd = some (st, m)) : Z st.ptrs.ra := by
  unfold saveGraph at h
  simp only [Option.bind_eq_bind, Option.bind_eq_some_iff] at h
  obtain ⟨⟨s1, a⟩, h1, h⟩ := h
  have hz : Z start.ptrs.ra := by intro q hq; simp [start] at hq; rw [hq]; exact ⟨rfl, rfl⟩
  have hz1 := saveInner_z _ h1 hz
  split at h
  · cases h; exact hz1
  · exact saveContents_z _ h hz1

end Verif.Lemmas.SaveIdx
