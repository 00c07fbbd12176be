import Verif.Lemmas.XmlDoc
import Verif.Spec.Numeral

/-
C37: reading one XML document from a stream.
-/
namespace Verif.Props.XmlDoc
open Verif.Model Verif.Model.XmlDoc Verif.Spec.XmlDoc Verif.Lemmas.XmlDoc
open Verif.Spec (ascii)

/-- The state in which the reader starts. -/
theorem start_at : At ⟨List.replicate 2048 0, 0, 0, 0, -1, 2⟩ [] 0 0 (-1) 2 := by
  refine ⟨⟨List.take_zero, rfl, ?_, by simp⟩, rfl, rfl, rfl, rfl, by simp⟩
  show 0 < (List.replicate 2048 0).length
  rw [List.length_replicate]; omega

/-- C37: on a stream that starts with a document, whatever comes behind it, the reader
returns that document and leaves the stream right behind it. -/
theorem C37_document (alloc : Nat → Bool) (ha : ∀ n, alloc n = true) (doc rest : List Nat)
    (hdoc : Document doc) (hlen : doc.length < 1073741824) :
    readXmlDoc alloc (doc ++ rest) = some (some doc, rest) := by
  unfold readXmlDoc
  rw [if_pos (ha _)]
  have hstart := start_at
  generalize (⟨List.replicate 2048 0, 0, 0, 0, -1, 2⟩ : St) = st at hstart ⊢
  -- the prolog
  have prolog : ∀ (w p v : List Nat), White w → TextBytes p → White v →
      w.length + p.length + v.length + 4 < 1073741824 →
      ∃ st', Reads alloc st
          (w ++ [60, 63] ++ p ++ [63, 62] ++ v) st' ∧
        At st' (w ++ [60, 63] ++ p ++ [63, 62] ++ v) 62 0 (-1) 1 := by
    intro w p v hw hp hv hl
    obtain ⟨st1, r1, a1⟩ := read_white ha w hstart hw (by simp; omega)
    obtain ⟨st2, d2, r2, a2, hd2, _⟩ := read_opening ha a1 (63 :: p)
      (by
        intro c hc
        rcases List.mem_cons.1 hc with rfl | hc
        · omega
        · exact hp c hc)
      ⟨63, rfl, by omega⟩ (by simp; omega) (by omega)
    obtain ⟨st3, r3, a3⟩ := read_plain ha a2 63 (by omega) (by omega) (by omega) (by simp; omega)
      (Or.inl (by omega)) (fun q => hd2 q.1)
    rw [show (if blank 63 = true then d2 else 63) = 63 from rfl] at a3
    obtain ⟨st4, r4, a4⟩ := read_prolog_end (n := 0) ha a3 (by simp; omega) (by omega) rfl
    obtain ⟨st5, r5, a5⟩ := read_white ha v a4 hv (by simp; omega)
    refine ⟨st5, ?_, by simpa using a5⟩
    simpa using (((r1.trans r2).trans r3).trans r4).trans r5
  cases hdoc with
  | empty w p v a hw hp hv hleaf =>
    simp only [render, List.length_append, List.length_cons, List.length_nil] at hlen
    obtain ⟨st0, r0, a0⟩ := prolog w p v hw hp hv (by omega)
    obtain ⟨st1, d1, r1, a1, hd1, _⟩ := read_opening ha a0 a hleaf.1 hleaf.2 (by simp; omega) (by omega)
    obtain ⟨st2, r2, a2⟩ := read_plain ha a1 47 (by omega) (by omega) (by omega) (by simp; omega)
      (Or.inl (by omega)) (fun q => hd1 q.1)
    rw [show (if blank 47 = true then d1 else 47) = 47 from rfl] at a2
    have he := read_end ha a2 (by simp; omega) (by omega) rfl rest
    have hr := ((r0.trans r1).trans r2) (62 :: rest)
    rw [he] at hr
    simpa [render] using hr
  | full w p v a b z hw hp hv hta hwb hz =>
    obtain ⟨ht, hf, q, hq, hq1, hq2⟩ := hta
    simp only [render, List.length_append, List.length_cons, List.length_nil] at hlen
    obtain ⟨st0, r0, a0⟩ := prolog w p v hw hp hv (by omega)
    obtain ⟨st1, d1, r1, a1, hd1, hl1⟩ := read_opening ha a0 a ht hf (by simp; omega) (by omega)
    rw [hq] at hl1; cases hl1
    have hl : levels q (-1) = -1 := by simp [levels, hq1, hq2]
    obtain ⟨st2, r2, a2⟩ := read_close ha a1 (by simp; omega) (by omega) (by rw [hl]; omega)
      (by rw [hl]; omega)
    rw [hl] at a2
    obtain ⟨st3, d3, r3, a3, hd3⟩ := read_content ha b a2 hwb (by simp; omega) (by omega) (by omega)
    obtain ⟨st4, d4, r4, a4, hd4, hd4'⟩ := read_closing ha a3 z hz (by simp; omega) (by omega)
    have hl' : levels d4 (-3) = -3 := by simp [levels, hd4, hd4']
    have he := read_end ha a4 (by simp; omega) (by omega) (by rw [hl']; rfl) rest
    have hr := ((((r0.trans r1).trans r2).trans r3).trans r4) (62 :: rest)
    rw [he] at hr
    simpa [render] using hr

theorem grow_length (alloc : Nat → Bool) (str str2 : List Nat) (n : Nat)
    (h : grow alloc str n = some (some str2)) : str.length ≤ str2.length := by
  unfold grow at h
  split at h
  · split at h
    · split at h <;> simp at h
      subst h; simp
    · simp at h
  · simp at h; subst h; exact Nat.le_refl _

/-- One turn never writes outside the buffer, and either ends the reading or keeps the bytes. -/
theorem turn_total (alloc : Nat → Bool) (st : St) (u : List Nat) (c : Nat) (h : Buf st u)
    (ho : st.opened ≤ 2 * st.size) (ht : st.toClose ≤ 0) (hc : c ≠ 0) (hb : st.size + 1 < 1073741824) :
    turn alloc st c = some .fail ∨ (turn alloc st c = some (.done (u ++ [c])) ∧ c = 62) ∨
      ∃ st', turn alloc st c = some (.next st') ∧ Buf st' (u ++ [c]) ∧ st'.opened ≤ 2 * st'.size ∧
        st'.toClose ≤ 0 := by
  obtain ⟨str1, e1, h1 | ⟨str2, e2, h2⟩, _⟩ := grow_eq alloc st u c h hc hb
  · left
    simp only [turn, e1, Option.bind_eq_bind, Option.bind_some, h1]
  · have hov : ¬ (c = ch '<' ∧ 2147483647 < st.opened + 2) := by omega
    have hcl : closing st.c_ c st.toClose ≤ 0 := by
      unfold closing
      simp only
      repeat' split
      all_goals omega
    have hop : (if c = ch '<' then st.opened + 2 else st.opened) ≤ 2 * ((st.size + 1 : Nat) : Int) := by
      split <;> omega
    simp only [turn, e1, Option.bind_eq_bind, Option.bind_some, e2, hov, ↓reduceIte]
    by_cases hf : st.opened = 0 ∧ ¬ (c = ch '<' ∨ isspace c = true)
    · left; rw [if_pos hf]
    · rw [if_neg hf]
      have hB := h2 ⟨str2, st.size + 1, 0, 0, 0, 0⟩ rfl rfl
      have hroom : st.size + 1 < str2.length := hB.room
      have hfin : finish str2 (st.size + 1) = some (.done (u ++ [c])) := by
        have hsplit : str2.set (st.size + 1) 0 = (u ++ [c]) ++ 0 :: str2.drop (st.size + 1 + 1) := by
          rw [List.set_eq_take_append_cons_drop, if_pos hroom]
          rw [show str2.take (st.size + 1) = u ++ [c] from hB.held]
        have htw : (str2.set (st.size + 1) 0).takeWhile (fun c => c != 0) = u ++ [c] := by
          rw [hsplit, List.takeWhile_append_of_pos]
          · simp
          · intro d hd
            simpa using hB.nonzero d hd
        simp only [finish, wr, hroom, ↓reduceIte, Option.bind_eq_bind, Option.bind_some, htw]
      generalize (if c = ch '<' then st.opened + 2 else st.opened) = op at hop ⊢
      generalize closing st.c_ c st.toClose = cl at hcl ⊢
      unfold endTag
      simp only
      split
      · rename_i hgt
        split
        · exact Or.inl rfl
        · split
          · split
            · exact Or.inr (Or.inl ⟨hfin, hgt⟩)
            · exact Or.inr (Or.inr ⟨_, rfl, h2 _ rfl rfl, by show op + cl ≤ 2 * ((st.size + 1 : Nat) : Int); omega, by show (-1 : Int) ≤ 0; omega⟩)
          · exact Or.inr (Or.inr ⟨_, rfl, h2 _ rfl rfl, by show op + cl ≤ 2 * ((st.size + 1 : Nat) : Int); omega, by show (-1 : Int) ≤ 0; omega⟩)
      · exact Or.inr (Or.inr ⟨_, rfl, h2 _ rfl rfl, hop, hcl⟩)

theorem loop_total (alloc : Nat → Bool) : ∀ (cs : List Nat) (st : St) (u : List Nat), Buf st u →
    st.opened ≤ 2 * st.size → st.toClose ≤ 0 → st.size + cs.length < 1073741824 →
    ∃ r rest, loop alloc st cs = some (r, rest) ∧ (∃ v, cs = v ++ rest) ∧
      ∀ p, r = some p → (∀ c ∈ p, c ≠ 0) ∧ ∃ v, cs = v ++ [62] ++ rest ∧ p = u ++ v ++ [62] := by
  intro cs
  induction cs with
  | nil => intro st u _ _ _ _; exact ⟨none, [], rfl, ⟨[], rfl⟩, by simp⟩
  | cons c cs ih =>
    intro st u h ho ht hb
    simp only [List.length_cons] at hb
    by_cases hc : c = 0
    · exact ⟨none, cs, by simp [loop, hc], ⟨[c], rfl⟩, by simp⟩
    · rcases turn_total alloc st u c h ho ht hc (by omega) with e | ⟨e, hgt⟩ | ⟨st', e, h', ho', ht'⟩
      · exact ⟨none, cs, by simp [loop, hc, e], ⟨[c], rfl⟩, by simp⟩
      · refine ⟨some (u ++ [c]), cs, by simp [loop, hc, e], ⟨[c], rfl⟩, ?_⟩
        intro p hp
        cases hp
        subst hgt
        refine ⟨?_, [], rfl, by simp⟩
        intro d hd
        rcases List.mem_append.1 hd with hd | hd
        · exact h.nonzero d hd
        · simp at hd; omega
      · have hs : st'.size = st.size + 1 := by
          have := h'.len
          have := h.len
          simp at *
          omega
        obtain ⟨r, rest, hl, ⟨v, hv⟩, hp⟩ := ih st' (u ++ [c]) h' ho' ht' (by omega)
        refine ⟨r, rest, by simp [loop, hc, e, hl], ⟨c :: v, by simp [hv]⟩, ?_⟩
        intro p hr
        obtain ⟨h1, w, h2, h3⟩ := hp p hr
        exact ⟨h1, c :: w, by simp [h2], by simp [h3]⟩

/-- C37: on any stream, well formed or not, and whatever allocation fails, the reader
stays within its buffer and within the range of its counters; it consumes a prefix of
the stream, and a document it returns is exactly the consumed prefix, holds no NUL and
ends in `>`. -/
theorem C37_total (alloc : Nat → Bool) (stream : List Nat) (hlen : stream.length < 1073741824) :
    ∃ r rest, readXmlDoc alloc stream = some (r, rest) ∧ (∃ v, stream = v ++ rest) ∧
      ∀ p, r = some p → stream = p ++ rest ∧ (∀ c ∈ p, c ≠ 0) ∧ ∃ q, p = q ++ ascii ">" := by
  unfold readXmlDoc
  split
  · obtain ⟨r, rest, h1, h2, h3⟩ := loop_total alloc stream ⟨List.replicate 2048 0, 0, 0, 0, -1, 2⟩ []
      start_at.buf (by simp) (by simp) (by simpa using hlen)
    refine ⟨r, rest, h1, h2, ?_⟩
    intro p hp
    obtain ⟨k1, v, k2, k3⟩ := h3 p hp
    exact ⟨by rw [k2, k3]; simp, k1, v, by rw [k3]; rfl⟩
  · exact ⟨none, stream, rfl, ⟨[], rfl⟩, by simp⟩

theorem loop_prefix (alloc : Nat → Bool) : ∀ (cs : List Nat) (st : St) (p rest : List Nat),
    loop alloc st cs = some (some p, rest) →
    ∃ v, cs = v ++ rest ∧ ∀ other, loop alloc st (v ++ other) = some (some p, other) := by
  intro cs
  induction cs with
  | nil => intro st p rest h; simp [loop] at h
  | cons c cs ih =>
    intro st p rest h
    by_cases hc : c = 0
    · simp [loop, hc] at h
    · simp only [loop, hc, ↓reduceIte, Option.bind_eq_bind] at h
      cases e : turn alloc st c with
      | none => simp [e] at h
      | some s =>
        cases s with
        | fail => simp [e] at h
        | done t =>
          simp [e] at h
          refine ⟨[c], by simp [h.2], ?_⟩
          intro other
          simp [loop, hc, e, h.1]
        | next st' =>
          simp only [e, Option.bind_some] at h
          obtain ⟨v, h1, h2⟩ := ih st' p rest h
          refine ⟨c :: v, by simp [h1], ?_⟩
          intro other
          simp only [List.cons_append, loop, hc, ↓reduceIte, Option.bind_eq_bind, e, Option.bind_some, h2]

/-- C37: what is returned depends on the returned bytes only; the reader never looks
ahead.  Hence no returned document is a proper prefix of another one. -/
theorem C37_no_lookahead (alloc : Nat → Bool) (stream p rest other : List Nat)
    (hlen : stream.length < 1073741824) (h : readXmlDoc alloc stream = some (some p, rest)) :
    readXmlDoc alloc (p ++ other) = some (some p, other) := by
  obtain ⟨r, rest', h1, _, h3⟩ := C37_total alloc stream hlen
  rw [h] at h1
  cases h1
  obtain ⟨hs, _⟩ := h3 p rfl
  unfold readXmlDoc at h ⊢
  split at h
  · rename_i ha
    rw [if_pos ha]
    obtain ⟨v, e, hv⟩ := loop_prefix alloc stream _ p rest h
    have : v = p := List.append_cancel_right (e ▸ hs)
    rw [← this]
    rw [this] at hv ⊢
    exact hv other
  · simp at h

/-! Concrete documents. -/

def sample : List Nat := ascii "<?xml version=\"1.0\"?>\n<a x='1'>text<b/><c>t</c> </a>"

example : Document sample :=
  Document.full [] (ascii "xml version=\"1.0\"") [10] (ascii "a x='1'")
    (.text (ascii "text") (.leaf (ascii "b") (.node (ascii "c") (.text (ascii "t") .nil) (ascii "c")
      (.text (ascii " ") .nil)))) (ascii "a")
    (by simp [White]) (by decide +kernel : ∀ c ∈ _, _) (by simp [White, blank])
    ⟨by unfold TextBytes; decide +kernel, ⟨97, by decide +kernel, by decide⟩, ⟨39, by decide +kernel, by decide⟩⟩
    (by
      refine ⟨?_, ⟨?_, ⟨98, ?_, ?_⟩⟩, ⟨?_, ⟨99, ?_, ?_⟩, ⟨99, ?_, ?_, ?_⟩⟩, ⟨?_, trivial⟩, ⟨?_, ⟨99, ?_, ?_, ?_⟩⟩, ?_, trivial⟩ <;>
      first | decide +kernel | (unfold TextBytes; decide +kernel))
    ⟨by unfold TextBytes; decide +kernel, ⟨97, by decide +kernel, by decide, by decide⟩⟩

/-- A stream of two documents is read one document at a time. -/
example : readXmlDoc (fun _ => true) (sample ++ sample) = some (some sample, sample) := by decide +kernel

/-- Deviation: a comment in front of the element counts as the document's element, the
bracket behind it is not closed, and what is returned is the rest of the stream or nothing. -/
theorem C37_deviation_comment :
    readXmlDoc (fun _ => true) (ascii "<?xml?><!-- c --><a/>") = some (none, []) := by decide +kernel

/-- Deviation: without a prolog an element alone is never returned, and two elements are
returned as one document. -/
theorem C37_deviation_no_prolog :
    readXmlDoc (fun _ => true) (ascii "<a/>") = some (none, []) ∧
    readXmlDoc (fun _ => true) (ascii "<a/><b/>") = some (some (ascii "<a/><b/>"), []) := by
  constructor <;> decide +kernel

end Verif.Props.XmlDoc
