import Verif.Lemmas.Xdr
import Verif.Spec.XdrUnion
namespace Verif.Lemmas.XdrUnion
open Verif.Model.Xdr Verif.Model.XdrUnion Verif.Spec Verif.Spec.XdrUnion Verif.Lemmas.Xdr

theorem cstr_append {s : List Nat} (h : 0 ∉ s) : cstr (s ++ [0]) = s := by
  induction s with
  | nil => rfl
  | cons a s ih =>
    simp only [List.mem_cons, not_or] at h
    have ha : a ≠ 0 := fun e => h.1 e.symm
    simp only [cstr, List.cons_append, List.takeWhile_cons, ne_eq, ha, not_false_eq_true, decide_true, if_true]
    congr 1
    exact ih h.2

theorem loadName_dec {s : List Nat} (h : 0 ∉ s) (hl : s.length < 2 ^ 32 - 1) : Decodes loadName (saveString 0 0 s) s := by
  refine decodes_map (d := loadString) (loadString_text (flags := 0) (refIdx := 0) (by omega) (by decide) (by decide) hl) ?_
  intro pos
  simp only [cstr_append h]

theorem loadMember_some {name : List Nat} {off : Nat} {t : Ty} : ∀ (ms : Mems), member name ms = some (off, t) → ∀ mem buf pos,
    loadMember ms name mem buf pos = (load t (mem.drop off) buf pos).andThen fun m pos => some (some (mem.take off ++ m, pos))
  | .nil => by intro h; simp [member] at h
  | .cons n off' t' rest => by
    intro h mem buf pos
    rw [member] at h
    rw [loadMember]
    by_cases e : n = name
    · rw [if_pos e] at h ⊢
      cases h
      rfl
    · rw [if_neg e] at h ⊢
      exact loadMember_some rest h mem buf pos

theorem loadMember_none {name : List Nat} : ∀ (ms : Mems), member name ms = none → ∀ mem buf pos,
    loadMember ms name mem buf pos = some none
  | .nil => by intro _ mem buf pos; rw [loadMember]
  | .cons n off' t' rest => by
    intro h mem buf pos
    rw [member] at h
    rw [loadMember]
    by_cases e : n = name
    · rw [if_pos e] at h; cases h
    · rw [if_neg e] at h ⊢
      exact loadMember_none rest h mem buf pos

theorem member_fits {name : List Nat} {off : Nat} {t : Ty} {n : Nat} : ∀ (ms : Mems), FitAll ms n → member name ms = some (off, t) →
    off ≤ n ∧ Fits t (n - off)
  | .nil => by intro _ h; simp [member] at h
  | .cons m off' t' rest => by
    intro hf h
    rw [member] at h
    rw [FitAll] at hf
    by_cases e : m = name
    · rw [if_pos e] at h; cases h; exact ⟨hf.1, hf.2.1⟩
    · rw [if_neg e] at h; exact member_fits rest hf.2.2 h

/-- an object inside a larger one -/
theorem copied_at {mem mem0 m : List Nat} {off : Nat} {h : Nat → Bool} (ho : off ≤ mem0.length)
    (hc : Copied (mem.drop off) (mem0.drop off) m h) :
    Copied mem mem0 (mem0.take off ++ m) (fun i => decide (off ≤ i) && h (i - off)) := by
  obtain ⟨h1, h2⟩ := hc
  have hl : (mem0.take off).length = off := by rw [List.length_take]; omega
  refine ⟨by rw [List.length_append, hl, h1, List.length_drop]; omega, ?_⟩
  intro i
  by_cases hi : off ≤ i
  · rw [List.getElem?_append_right (by omega), hl, h2, List.getElem?_drop, List.getElem?_drop]
    have : off + (i - off) = i := by omega
    simp only [hi, decide_true, Bool.true_and, this]
  · rw [List.getElem?_append_left (by omega), List.getElem?_take_of_lt (by omega)]
    simp [hi]

theorem copied_bytes {mem mem0 m : List Nat} {h : Nat → Bool} (hm : ∀ b ∈ mem, b < 256) (hm0 : ∀ b ∈ mem0, b < 256)
    (hc : Copied mem mem0 m h) : ∀ b ∈ m, b < 256 := by
  intro b hb
  obtain ⟨i, hi⟩ := List.mem_iff_getElem?.mp hb
  rw [hc.2] at hi
  split at hi
  · exact hm b (List.mem_of_getElem? hi)
  · exact hm0 b (List.mem_of_getElem? hi)

theorem copied_trans {mem mem0 m m' : List Nat} {h h' : Nat → Bool} (hc : Copied mem mem0 m h) (hc' : Copied mem m m' h') :
    Copied mem mem0 m' (fun i => h i || h' i) := by
  refine ⟨hc'.1.trans hc.1, ?_⟩
  intro i
  rw [hc'.2, hc.2]
  cases e : h i <;> cases e' : h' i <;> simp [e, e']

mutual
theorem round : ∀ (t d : Ty) (s : Sel) (mem mem0 : List Nat), Readable t d → Fits t mem.length → Fits d mem0.length → Chosen t s →
    (∀ b ∈ mem, b < 256) → (∀ b ∈ mem0, b < 256) →
    ∃ out mem', save t s mem = some out ∧ Decodes (load d mem0) out mem' ∧ Copied mem mem0 mem' (held t s)
  | .sc k, d, s, mem, mem0 => by
    intro hr hf hd hs hm hm0
    rw [Readable] at hr
    rw [Chosen] at hs
    subst hr hs
    rw [Fits] at hf hd
    obtain ⟨out, h⟩ := enc_ok k hf.1 hm hf.2
    obtain ⟨mem', h1, _, h3, h4⟩ := h.dec mem0 hm0 hd.2
    refine ⟨out, mem', by rw [save]; exact h.enc, decodes_congr h3 (by intro buf pos; rw [load]), h1, ?_⟩
    intro i
    rw [held]
    exact h4 i
  | .st ms, .st ds, s, mem, mem0 => by
    intro hr hf hd hs hm hm0
    rw [Readable] at hr
    rw [Chosen] at hs
    rw [Fits] at hf hd
    obtain ⟨out, mem', h1, h2, h3⟩ := roundAll ms ds s mem mem0 hr hf hd hs hm hm0
    refine ⟨out, mem', by rw [save]; exact h1, decodes_congr h2 (by intro buf pos; rw [load]), h3.1, ?_⟩
    intro i
    rw [held]
    exact h3.2 i
  | .un .nil, .un ds, s, mem, mem0 => by
    intro hr hf hd hs hm hm0
    rw [Readable] at hr
    have hs : s = .leaf := by
      cases s <;> simp [Chosen, ChosenAt] at hs ⊢
    subst hs
    have hds : ds = .nil := by
      have := hr.1 rfl
      cases ds with
      | nil => rfl
      | cons => simp [names] at this
    subst hds
    refine ⟨_, mem0, by rw [save], ?_, rfl, ?_⟩
    · refine decodes_congr (decodes_map (b := mem0) (g := fun _ pos => some (some (mem0, pos)))
        (loadName_dec (s := []) (by simp) (by simp)) (by intro _; rfl)) ?_
      intro buf pos
      rw [load]
      rfl
    · intro i
      simp [held]
  | .un (.cons n off t rest), .un ds, s, mem, mem0 => by
    intro hr hf hd hs hm hm0
    rw [Readable] at hr
    rw [Fits] at hf hd
    cases s with
    | leaf => simp [Chosen] at hs
    | nil => simp [Chosen] at hs
    | cons => simp [Chosen] at hs
    | pick i s =>
      rw [Chosen] at hs
      obtain ⟨name, out, mem', h1, hn, h2, h3⟩ := roundAt (.cons n off t rest) ds i s mem mem0 hr.2 hf.2.2 hd.2.2 hs hm hm0
      obtain ⟨hz, hl⟩ := hf.2.1 name hn
      refine ⟨_, mem', by rw [save]; exact h1, ?_, h3.1, ?_⟩
      · refine decodes_congr (decodes_andThen (f := fun name buf pos => loadMember ds name mem0 buf pos)
          (loadName_dec hz hl) h2) ?_
        intro buf pos
        rw [load]
        have hnil : ds.isNil = false := by
          cases ds with
          | cons => rfl
          | nil =>
            have := hr.2
            rw [ReadableEach] at this
            obtain ⟨⟨_, e, _⟩, _⟩ := this
            simp [member] at e
        simp only [hnil, Bool.false_eq_true, if_false]
      · intro j
        rw [held]
        exact h3.2 j
  | .st _, .sc _, _, _, _ => by intro hr; simp [Readable] at hr
  | .st _, .un _, _, _, _ => by intro hr; simp [Readable] at hr
  | .un _, .sc _, _, _, _ => by intro hr; simp [Readable] at hr
  | .un _, .st _, _, _, _ => by intro hr; simp [Readable] at hr
theorem roundAll : ∀ (ms ds : Mems) (s : Sel) (mem mem0 : List Nat), ReadableAll ms ds → FitAll ms mem.length → FitAll ds mem0.length →
    ChosenAll ms s → (∀ b ∈ mem, b < 256) → (∀ b ∈ mem0, b < 256) →
    ∃ out mem', saveFields ms s mem = some out ∧ Decodes (loadFields ds mem0) out mem' ∧ Copied mem mem0 mem' (heldAll ms s)
  | .nil, ds, s, mem, mem0 => by
    intro hr hf hd hs hm hm0
    rw [ReadableAll] at hr
    rw [ChosenAll] at hs
    subst hr hs
    refine ⟨[], mem0, by rw [saveFields], decodes_congr (decodes_pure mem0) (by intro buf pos; rw [loadFields]), rfl, ?_⟩
    intro i
    simp [heldAll]
  | .cons n off t rest, .nil, s, mem, mem0 => by intro hr; simp [ReadableAll] at hr
  | .cons n off t rest, .cons n' off' t' rest', s, mem, mem0 => by
    intro hr hf hd hs hm hm0
    rw [ReadableAll] at hr
    rw [FitAll] at hf hd
    obtain ⟨rfl, hr1, hr2⟩ := hr
    cases s with
    | leaf => simp [ChosenAll] at hs
    | nil => simp [ChosenAll] at hs
    | pick => simp [ChosenAll] at hs
    | cons s ss =>
      rw [ChosenAll] at hs
      obtain ⟨out, m, h1, h2, h3⟩ := round t t' s (mem.drop off) (mem0.drop off) hr1 (by rw [List.length_drop]; exact hf.2.1)
        (by rw [List.length_drop]; exact hd.2.1) hs.1 (fun b hb => hm b (List.mem_of_mem_drop hb)) (fun b hb => hm0 b (List.mem_of_mem_drop hb))
      have hc := copied_at hd.1 h3
      obtain ⟨out', m', g1, g2, g3⟩ := roundAll rest rest' ss mem (mem0.take off ++ m) hr2 hf.2.2 (by rw [hc.1]; exact hd.2.2) hs.2 hm
        (copied_bytes hm hm0 hc)
      refine ⟨out ++ out', m', by rw [saveFields]; simp [h1, g1], ?_, ?_⟩
      · refine decodes_congr (decodes_andThen (f := fun m buf pos => loadFields rest' (mem0.take off ++ m) buf pos) h2 g2) ?_
        intro buf pos
        rw [loadFields]
      · have := copied_trans hc g3
        refine ⟨this.1, ?_⟩
        intro i
        rw [heldAll]
        exact this.2 i
theorem roundAt : ∀ (ms ds : Mems) (i : Nat) (s : Sel) (mem mem0 : List Nat), ReadableEach ms ds → FitAll ms mem.length →
    FitAll ds mem0.length → ChosenAt ms i s → (∀ b ∈ mem, b < 256) → (∀ b ∈ mem0, b < 256) →
    ∃ name out mem', saveMember ms i s mem = some (saveString 0 0 name ++ out) ∧ name ∈ names ms ∧
      Decodes (loadMember ds name mem0) out mem' ∧ Copied mem mem0 mem' (heldAt ms i s)
  | .nil, ds, i, s, mem, mem0 => by intro _ _ _ hs; simp [ChosenAt] at hs
  | .cons n off t rest, ds, 0, s, mem, mem0 => by
    intro hr hf hd hs hm hm0
    rw [ReadableEach] at hr
    rw [FitAll] at hf
    rw [ChosenAt] at hs
    obtain ⟨t', e, hr1⟩ := hr.1
    obtain ⟨ho, hft⟩ := member_fits ds hd e
    obtain ⟨out, m, h1, h2, h3⟩ := round t t' s (mem.drop off) (mem0.drop off) hr1 (by rw [List.length_drop]; exact hf.2.1)
      (by rw [List.length_drop]; exact hft) hs (fun b hb => hm b (List.mem_of_mem_drop hb)) (fun b hb => hm0 b (List.mem_of_mem_drop hb))
    have hc := copied_at ho h3
    refine ⟨n, out, mem0.take off ++ m, by rw [saveMember]; simp [h1], by simp [names], ?_, hc.1, ?_⟩
    · refine decodes_congr (decodes_map (b := mem0.take off ++ m) (g := fun m pos => some (some (mem0.take off ++ m, pos))) h2 (by intro _; rfl)) ?_
      intro buf pos
      exact loadMember_some ds e mem0 buf pos
    · intro i
      rw [heldAt]
      exact hc.2 i
  | .cons n off t rest, ds, i + 1, s, mem, mem0 => by
    intro hr hf hd hs hm hm0
    rw [ReadableEach] at hr
    rw [FitAll] at hf
    rw [ChosenAt] at hs
    obtain ⟨name, out, m, h1, hn, h2, h3⟩ := roundAt rest ds i s mem mem0 hr.2 hf.2.2 hd hs hm hm0
    refine ⟨name, out, m, by rw [saveMember]; exact h1, by simp [names, hn], h2, h3.1, ?_⟩
    intro j
    rw [heldAt]
    exact h3.2 j
end

theorem safe_congr {α : Type} {d d' : List Nat → Nat → Dec α} {buf : List Nat} (h : Safe d buf) (he : ∀ pos, d' buf pos = d buf pos) :
    Safe d' buf := by
  intro pos hp
  obtain ⟨r, e, hr⟩ := h pos hp
  exact ⟨r, (he pos).trans e, hr⟩

theorem safe_fail {α : Type} {buf : List Nat} : Safe (fun _ _ => (some none : Dec α)) buf :=
  fun _ _ => ⟨none, rfl, by intro _ _ h; cases h⟩

theorem loadName_safe {buf : List Nat} (hb : ∀ b ∈ buf, b < 256) (h : buf.length < 2 ^ 32 - 1) : Safe loadName buf := by
  refine safe_andThen (d := loadString) (f := fun r _ pos => match r.2 with | .block b => some (some (cstr b, pos)) | _ => some none)
    (loadString_safe hb h) ?_
  intro r _ _ _
  obtain ⟨_, r⟩ := r
  cases r with
  | ref => exact safe_fail
  | null => exact safe_fail
  | block b => exact safe_some _

/-- the memory keeps its size -/
def Keeps (d : List Nat → Nat → Dec (List Nat)) (buf mem : List Nat) : Prop :=
  ∀ pos m pos', d buf pos = some (some (m, pos')) → m.length = mem.length

theorem andThen_eq {α β : Type} {x : Dec α} {f : α → Nat → Dec β} {b : β} {p : Nat} (h : x.andThen f = some (some (b, p))) :
    ∃ a q, x = some (some (a, q)) ∧ f a q = some (some (b, p)) := by
  cases x with
  | none => cases h
  | some r =>
    cases r with
    | none => cases h
    | some y => exact ⟨y.1, y.2, rfl, h⟩

theorem inner_safe {t : Ty} {buf mem : List Nat} {off : Nat} (ho : off ≤ mem.length)
    (h : Safe (load t (mem.drop off)) buf ∧ Keeps (load t (mem.drop off)) buf (mem.drop off)) :
    Safe (fun buf pos => (load t (mem.drop off) buf pos).andThen fun m pos => some (some (mem.take off ++ m, pos))) buf ∧
    Keeps (fun buf pos => (load t (mem.drop off) buf pos).andThen fun m pos => some (some (mem.take off ++ m, pos))) buf mem := by
  constructor
  · exact safe_andThen (f := fun m _ pos => some (some (mem.take off ++ m, pos))) h.1 (fun _ _ _ _ => safe_some _)
  · intro pos m pos' e
    obtain ⟨a, q, e1, e2⟩ := andThen_eq e
    have := h.2 _ _ _ e1
    simp only [Option.some.injEq, Prod.mk.injEq] at e2
    rw [← e2.1, List.length_append, this, List.length_take, List.length_drop]
    omega

mutual
theorem safe {buf : List Nat} (hb : ∀ b ∈ buf, b < 256) (h : buf.length < 2 ^ 32 - 1) : ∀ (t : Ty) (mem : List Nat), Fits t mem.length →
    Safe (load t mem) buf ∧ Keeps (load t mem) buf mem
  | .sc k, mem => by
    intro hf
    rw [Fits] at hf
    have := dec_safe (buf := buf) (by omega) k mem hf.2 hf.1
    refine ⟨safe_congr this.1 (by intro pos; rw [load]), ?_⟩
    intro pos m pos' e
    rw [load] at e
    exact this.2 _ _ _ e
  | .st ms, mem => by
    intro hf
    rw [Fits] at hf
    have := safeAll hb h ms mem hf
    refine ⟨safe_congr this.1 (by intro pos; rw [load]), ?_⟩
    intro pos m pos' e
    rw [load] at e
    exact this.2 _ _ _ e
  | .un ms, mem => by
    intro hf
    rw [Fits] at hf
    have hm := safeMember hb h ms mem hf.2.2
    constructor
    · refine safe_congr (safe_andThen (f := fun name buf pos => if ms.isNil then some (some (mem, pos)) else loadMember ms name mem buf pos)
        (loadName_safe hb h) ?_) (by intro pos; rw [load])
      intro name _ _ _
      cases ms.isNil
      · exact (hm name).1
      · exact safe_some mem
    · intro pos m pos' e
      rw [load] at e
      obtain ⟨name, q, _, e⟩ := andThen_eq e
      split at e
      · simp only [Option.some.injEq, Prod.mk.injEq] at e
        rw [e.1]
      · exact (hm name).2 _ _ _ e
theorem safeAll {buf : List Nat} (hb : ∀ b ∈ buf, b < 256) (h : buf.length < 2 ^ 32 - 1) : ∀ (ms : Mems) (mem : List Nat), FitAll ms mem.length →
    Safe (loadFields ms mem) buf ∧ Keeps (loadFields ms mem) buf mem
  | .nil, mem => by
    intro _
    refine ⟨safe_congr (safe_some mem) (by intro pos; rw [loadFields]), ?_⟩
    intro pos m pos' e
    rw [loadFields] at e
    simp only [Option.some.injEq, Prod.mk.injEq] at e
    rw [e.1]
  | .cons n off t rest, mem => by
    intro hf
    rw [FitAll] at hf
    have h1 := safe hb h t (mem.drop off) (by rw [List.length_drop]; exact hf.2.1)
    have hlen : ∀ {pos m pos'}, load t (mem.drop off) buf pos = some (some (m, pos')) → (mem.take off ++ m).length = mem.length := by
      intro pos m pos' e
      have := h1.2 _ _ _ e
      rw [List.length_append, this, List.length_take, List.length_drop]
      have := hf.1
      omega
    constructor
    · refine safe_congr (safe_andThen (f := fun m buf pos => loadFields rest (mem.take off ++ m) buf pos) h1.1 ?_) (by intro pos; rw [loadFields])
      intro m _ _ e
      exact (safeAll hb h rest (mem.take off ++ m) (by rw [hlen e]; exact hf.2.2)).1
    · intro pos m pos' e
      rw [loadFields] at e
      obtain ⟨a, q, e1, e2⟩ := andThen_eq e
      rw [(safeAll hb h rest (mem.take off ++ a) (by rw [hlen e1]; exact hf.2.2)).2 _ _ _ e2, hlen e1]
theorem safeMember {buf : List Nat} (hb : ∀ b ∈ buf, b < 256) (h : buf.length < 2 ^ 32 - 1) : ∀ (ms : Mems) (mem : List Nat), FitAll ms mem.length →
    ∀ name, Safe (loadMember ms name mem) buf ∧ Keeps (loadMember ms name mem) buf mem
  | .nil, mem => by
    intro _ name
    refine ⟨safe_congr safe_fail (by intro pos; rw [loadMember]), ?_⟩
    intro pos m pos' e
    rw [loadMember] at e
    cases e
  | .cons n off t rest, mem => by
    intro hf name
    rw [FitAll] at hf
    by_cases e : n = name
    · have := inner_safe hf.1 (safe hb h t (mem.drop off) (by rw [List.length_drop]; exact hf.2.1))
      refine ⟨safe_congr this.1 (by intro pos; rw [loadMember, if_pos e]), ?_⟩
      intro pos m pos' e'
      rw [loadMember, if_pos e] at e'
      exact this.2 _ _ _ e'
    · have := safeMember hb h rest mem hf.2.2 name
      refine ⟨safe_congr this.1 (by intro pos; rw [loadMember, if_neg e]), ?_⟩
      intro pos m pos' e'
      rw [loadMember, if_neg e] at e'
      exact this.2 _ _ _ e'
end

end Verif.Lemmas.XdrUnion
