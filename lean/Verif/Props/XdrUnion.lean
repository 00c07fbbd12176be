import Verif.Lemmas.XdrUnion
/-!
# C69, C70: structures and unions in XDR documents

`Decodes`, `Safe`: see `Props/Xdr.lean`.  `Copied mem mem0 mem' h` (`Verif/Spec/XdrUnion.lean`): the bytes `i` with `h i` come from `mem`,
the others are those of `mem0`.  `held t s` are the bytes that belong to the object if `s` tells the members in use.
-/
namespace Verif.Props.XdrUnion
open Verif.Model Verif.Model.Xdr Verif.Model.XdrUnion Verif.Spec Verif.Spec.XdrUnion Verif.Lemmas.Xdr Verif.Lemmas.XdrUnion

/-- **C69.** An object of structures, unions and scalars nested in any way is read back: saved with the members in use, it is
read into an object of the reader's type, which may have further members in its unions and another order of them.  The reader
restores exactly the bytes of the members in use and stops right behind them; a document that ends earlier is refused. -/
theorem C69_round_trip (t d : Ty) (s : Sel) (mem mem0 : List Nat) (hr : Readable t d) (ht : Fits t mem.length)
    (hd : Fits d mem0.length) (hs : Chosen t s) (hm : ∀ b ∈ mem, b < 256) (hm0 : ∀ b ∈ mem0, b < 256) :
    ∃ out mem', save t s mem = some out ∧ Decodes (load d mem0) out mem' ∧ Copied mem mem0 mem' (held t s) :=
  round t d s mem mem0 hr ht hd hs hm hm0

theorem member_mem {name : List Nat} {x : Nat × Ty} : ∀ (ms : Mems), member name ms = some x → name ∈ names ms
  | .nil => by intro h; simp [member] at h
  | .cons n off t rest => by
    intro h
    rw [member] at h
    by_cases e : n = name
    · simp [names, e]
    · rw [if_neg e] at h; simp [names, member_mem rest h]

theorem member_none {name : List Nat} : ∀ (ms : Mems), name ∉ names ms → member name ms = none
  | .nil => by intro _; rfl
  | .cons n off t rest => by
    intro h
    simp only [names, List.mem_cons, not_or] at h
    rw [member, if_neg (fun e => h.1 e.symm)]
    exact member_none rest h.2

mutual
theorem readable_self {n : Nat} : ∀ (t : Ty), Fits t n → Readable t t
  | .sc k => by intro _; rw [Readable]
  | .st ms => by intro h; rw [Fits] at h; rw [Readable]; exact readable_all ms h
  | .un ms => by
    intro h
    rw [Fits] at h
    rw [Readable]
    exact ⟨fun e => e, readable_each ms ms h.2.2 h.1 (fun _ _ e => e)⟩
theorem readable_all {n : Nat} : ∀ (ms : Mems), FitAll ms n → ReadableAll ms ms
  | .nil => by intro _; rw [ReadableAll]
  | .cons _ off t rest => by
    intro h
    rw [FitAll] at h
    rw [ReadableAll]
    exact ⟨rfl, readable_self t h.2.1, readable_all rest h.2.2⟩
theorem readable_each {n : Nat} : ∀ (ms ds : Mems), FitAll ms n → (names ms).Nodup → (∀ m x, member m ms = some x → member m ds = some x) →
    ReadableEach ms ds
  | .nil, _ => by intro _ _ _; rw [ReadableEach]; trivial
  | .cons m off t rest, ds => by
    intro h hn hm
    rw [FitAll] at h
    rw [names, List.nodup_cons] at hn
    rw [ReadableEach]
    refine ⟨⟨t, hm m _ (by rw [member, if_pos rfl]), readable_self t h.2.1⟩, readable_each rest ds h.2.2 hn.2 ?_⟩
    intro m' x e
    refine hm m' x ?_
    rw [member, if_neg, e]
    intro e'
    exact hn.1 (e' ▸ member_mem rest e)
end

/-- **C69.** In particular an object is read back by a program with the same type. -/
theorem C69_same_type (t : Ty) (s : Sel) (mem mem0 : List Nat) (ht : Fits t mem.length) (hl : mem0.length = mem.length) (hs : Chosen t s)
    (hm : ∀ b ∈ mem, b < 256) (hm0 : ∀ b ∈ mem0, b < 256) :
    ∃ out mem', save t s mem = some out ∧ Decodes (load t mem0) out mem' ∧ Copied mem mem0 mem' (held t s) :=
  round t t s mem mem0 (readable_self t ht) ht (hl ▸ ht) hs hm hm0

/-- **C69.** A member that the reader's union does not have is refused, whatever follows; so is a union saved without a member
(the empty name) by a reader that has members but none with the empty name. -/
theorem C69_unknown_member (ds : Mems) (name mem0 pre rest : List Nat) (hd : names ds ≠ []) (hn : name ∉ names ds)
    (hz : 0 ∉ name) (hl : name.length < 2 ^ 32 - 1) (hb : pre.length + (saveString 0 0 name).length + rest.length < 2 ^ 32) :
    load (.un ds) mem0 (pre ++ saveString 0 0 name ++ rest) pre.length = some none := by
  rw [load, (loadName_dec hz hl).reads pre rest hb]
  have : ds.isNil = false := by cases ds <;> first | rfl | exact absurd rfl hd
  simp only [Dec.andThen, this, Bool.false_eq_true, if_false]
  exact loadMember_none ds (member_none ds hn) _ _ _

/-- **C69.** NULL or a reference (bits 0, 1 and 3 of the flags) in place of the name is refused. -/
theorem C69_no_name (ms : Mems) (flags idx : Nat) (mem0 pre rest : List Nat) (hf : flags < 256) (hi : idx < 2 ^ 32)
    (h : flags.testBit 0 = true ∨ flags.testBit 1 = true ∨ flags.testBit 3 = true)
    (hb : pre.length + (saveString flags idx []).length + rest.length < 2 ^ 32) :
    load (.un ms) mem0 (pre ++ saveString flags idx [] ++ rest) pre.length = some none := by
  rw [load, loadName]
  by_cases hr : isRef flags = true
  · rw [(loadString_ref (str := []) hf hr hi).reads pre rest hb]
    rfl
  · have hn : isNull flags = true := by
      rcases h with h | h | h
      · exact h
      · exact absurd (by simp [isRef, h]) hr
      · exact absurd (by simp [isRef, h]) hr
    rw [(loadString_null (refIdx := idx) (str := []) hf (by simpa using hr) hn).reads pre rest hb]
    rfl

/-- **C69.** On any document the reader stays inside the document and inside the object, which keeps its size. -/
theorem C69_loading_is_safe (d : Ty) (buf mem : List Nat) (hb : ∀ b ∈ buf, b < 256) (h : buf.length < 2 ^ 32 - 1) (hd : Fits d mem.length) :
    Safe (load d mem) buf ∧ ∀ pos mem' pos', load d mem buf pos = some (some (mem', pos')) → mem'.length = mem.length :=
  safe hb h d mem hd

/-! The writer has a structure of a number and a union of a 16-bit number `a` and a structure `b`; the union of the reader has
them in the other order and a further member `c`.  The union holds `b`. -/
def exT : Ty := .st (.cons [120] 0 (.sc .w32) (.cons [117] 4 (.un (.cons [97] 0 (.sc .u16) (.cons [98] 0
  (.st (.cons [112] 0 (.sc .w8) (.cons [113] 2 (.sc .u16) .nil))) .nil))) .nil))
def exD : Ty := .st (.cons [120] 0 (.sc .w32) (.cons [117] 4 (.un (.cons [98] 0
  (.st (.cons [112] 0 (.sc .w8) (.cons [113] 2 (.sc .u16) .nil))) (.cons [99] 0 (.sc .w32) (.cons [97] 0 (.sc .u16) .nil)))) .nil))
def exS : Sel := .cons .leaf (.cons (.pick 1 (.cons .leaf (.cons .leaf .nil))) .nil)
def exDoc : List Nat := [4, 3, 2, 1, 0, 0, 0, 0, 0, 0, 0, 1, 98, 0, 0, 0, 0, 0, 0, 5, 0, 0, 8, 7]

example : Readable exT exD := by
  unfold exT exD
  simp only [Readable, ReadableAll, names, true_and, and_true, List.cons_ne_nil, false_implies]
  repeat rw [ReadableEach]
  refine ⟨⟨_, rfl, ?_⟩, ⟨_, rfl, ?_⟩, trivial⟩ <;> simp only [Readable, ReadableAll, and_self, true_and]
example : Fits exT 8 ∧ Fits exD 8 ∧ Chosen exT exS := by
  simp [exT, exD, exS, Fits, FitAll, names, scOk, Chosen, ChosenAll, ChosenAt, Sc.size]
/- byte 5 is not part of `b`: it stays -/
example : save exT exS [1, 2, 3, 4, 5, 6, 7, 8] = some exDoc ∧
    load exD [9, 9, 9, 9, 9, 9, 9, 9] exDoc 0 = some (some ([1, 2, 3, 4, 5, 9, 7, 8], 24)) := by decide +kernel
example : held exT exS 4 = true ∧ held exT exS 5 = false ∧ held exT exS 7 = true := by decide +kernel
/- a reader without `b` -/
example : names (.cons [97] 0 (.sc .u16) .nil) ≠ [] ∧ [98] ∉ names (.cons [97] 0 (.sc .u16) .nil) := by decide
example : load (.un (.cons [97] 0 (.sc .u16) .nil)) [9, 9] (saveString 0 0 [98] ++ [0, 0, 0, 1]) 0 = some none := by decide +kernel

/-! ### C70 -/

/-- **C70**, for documents that do not end inside the name: the block allocated for the name of a union is freed when the
reader returns.  Missing: documents cut off inside the name, see `C70_deviation_truncated_name`. -/
theorem C70_name_is_freed_partial (buf : List Nat) (pos : Nat) (r : Nat × Str) (pos' : Nat)
    (h : loadString buf pos = some (some (r, pos'))) : nameLeaks buf pos = false := by
  obtain ⟨fl, r⟩ := r
  unfold nameLeaks
  rw [h]
  cases r with
  | block b => simp
  | ref i =>
    simp only [Bool.and_true]
    unfold loadString at h
    obtain ⟨w, q, e, h⟩ := andThen_eq h
    unfold allocates
    rw [e]
    simp only at h ⊢
    by_cases hr : isRef (w % 256) = true
    · simp [hr]
    · by_cases hn : isNull (w % 256) = true
      · simp [hn]
      · rw [if_neg hr, if_neg hn] at h
        obtain ⟨_, _, _, h⟩ := andThen_eq h
        obtain ⟨_, _, _, h⟩ := andThen_eq h
        split at h <;> simp at h
  | null =>
    simp only [Bool.and_true]
    unfold loadString at h
    obtain ⟨w, q, e, h⟩ := andThen_eq h
    unfold allocates
    rw [e]
    simp only at h ⊢
    by_cases hr : isRef (w % 256) = true
    · simp [hr]
    · by_cases hn : isNull (w % 256) = true
      · simp [hn]
      · rw [if_neg hr, if_neg hn] at h
        obtain ⟨_, _, _, h⟩ := andThen_eq h
        obtain ⟨_, _, _, h⟩ := andThen_eq h
        split at h <;> simp at h

/-- **C70**, deviation: if a document ends behind the length of the name of a union but before the end of the name (with its
padding), the block allocated for the name is lost. -/
theorem C70_deviation_truncated_name (name pre : List Nat) (k : Nat) (hl : name.length < 2 ^ 32 - 1) (hk : 8 ≤ k)
    (hk' : k < (saveString 0 0 name).length) (hb : pre.length + k < 2 ^ 32) :
    nameLeaks (pre ++ (saveString 0 0 name).take k) pre.length = true := by
  have hd := loadString_text (flags := 0) (refIdx := 0) (str := name) (by omega) (by decide) (by decide) hl
  have hs : saveString 0 0 name = be32 0 ++ (be32 name.length ++ putOpaque name) := by
    have : name.length % 4294967296 = name.length := Nat.mod_eq_of_lt (by omega)
    simp [saveString, isRef, isNull, this, sext32, u32]
  have e : (saveString 0 0 name).take k = be32 0 ++ (be32 name.length ++ (putOpaque name).take (k - 8)) := by
    rw [hs, List.take_append, List.take_of_length_le (by rw [be32_length]; omega), List.take_append,
      List.take_of_length_le (by rw [be32_length, be32_length]; omega), be32_length, be32_length, Nat.sub_sub]
  have hlen : (be32 name.length ++ (putOpaque name).take (k - 8)).length ≤ k - 4 := by
    rw [List.length_append, be32_length, List.length_take]; omega
  have ha : allocates (pre ++ (saveString 0 0 name).take k) pre.length = true := by
    unfold allocates
    have r1 := (getLong_dec (w := 0) (by omega)).reads pre (be32 name.length ++ (putOpaque name).take (k - 8))
      (by rw [be32_length]; omega)
    have r2 := (getLong_dec (w := name.length) (by omega)).reads (pre ++ be32 0) ((putOpaque name).take (k - 8))
      (by rw [List.length_append, be32_length, be32_length, List.length_take]; omega)
    rw [List.append_assoc] at r1
    rw [e, r1]
    rw [List.length_append, List.append_assoc, List.append_assoc] at r2
    simp only [r2]
    decide
  unfold nameLeaks
  rw [ha, hd.refuses pre k hk' hb]
  rfl

/- the name "abcde" cut off after its third byte; the whole name -/
example : nameLeaks [0, 0, 0, 0, 0, 0, 0, 5, 97, 98, 99] 0 = true := by decide +kernel
example : nameLeaks (saveString 0 0 [97, 98, 99, 100, 101]) 0 = false := by decide +kernel
example : (saveString 0 0 [97, 98, 99, 100, 101]).length = 16 := by decide +kernel

end Verif.Props.XdrUnion
