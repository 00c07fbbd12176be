import Verif.Lemmas.Escape
import Verif.Spec.Numeral
/-!
# C07–C10, C45: strings in text documents

A C string is a list of bytes `0 < c < 256` (its bytes before the terminating NUL).
`lexString` is the string rule of the lexer, `unquote fmt doc n` the value the loader stores for the
token occupying the first `n` bytes of `doc`.
-/
namespace Verif.Props.Escape
open Verif.Model Verif.Model.Scanf Verif.Model.Escape Verif.Spec

/-- a C string: non-zero bytes -/
def CString (s : List Nat) : Prop := ∀ c ∈ s, 0 < c ∧ c < 256

/-- What loading a quoted string from a document means: the lexer delimits a token, which the loader
then unquotes; result is the loaded string and the remaining document. -/
def readString (fmt : Fmt) (doc : List Nat) : Option (List Nat × List Nat) := do
  let (body, rest) ← lexString (ch '"') doc
  let value ← unquote fmt (body ++ ch '"' :: rest) body.length
  some (value, rest)

/-- **C07** JSON: reading the text written for a string, followed by any text, returns the string and
leaves exactly the following text. -/
theorem C07_json_string_round_trip (s rest : List Nat) (hs : CString s) :
    readString jsonFmt (quoteString jsonPattern s ++ rest) = some (s, rest) := by
  unfold readString
  rw [Lemmas.Escape.lex_quoteString _ _ _ (fun c hc => (hs c hc).2) Lemmas.Escape.json_lexable]
  have hp : ∀ c, jsonPattern c ≠ [] := by intro c; simp [jsonPattern]
  have hl := Lemmas.Escape.quoteBody_length jsonPattern hp s
  have := Lemmas.Escape.unquote_body jsonFmt jsonPattern Lemmas.Escape.json_quote s (ch '"' :: rest) hs
    (fun p c q h => Lemmas.Escape.json_step c (hs c (by simp [h])).2 _)
    ((quoteBody jsonPattern s).length + 1) (by omega)
  simp [unquote, this]

/-- **C09** Scheme: same. -/
theorem C09_scheme_string_round_trip (s rest : List Nat) (hs : CString s) :
    readString scmFmt (quoteString scmPattern s ++ rest) = some (s, rest) := by
  unfold readString
  rw [Lemmas.Escape.lex_quoteString _ _ _ (fun c hc => (hs c hc).2) Lemmas.Escape.scm_lexable]
  have hp : ∀ c, scmPattern c ≠ [] := by intro c; simp [scmPattern]
  have hl := Lemmas.Escape.quoteBody_length scmPattern hp s
  have := Lemmas.Escape.unquote_body scmFmt scmPattern Lemmas.Escape.scm_quote s (ch '"' :: rest) hs
    (fun p c q h => Lemmas.Escape.scm_step c (hs c (by simp [h])).2 _)
    ((quoteBody scmPattern s).length + 1) (by omega)
  simp [unquote, this]

/-- The full statement of **C08**, which the code does not satisfy (next theorem). -/
def C08_full : Prop := ∀ s rest : List Nat, CString s →
    readString cinitFmt (quoteString cinitPattern s ++ rest) = some (s, rest)

/-- **C08 is false**: the string `"\001" "1"` is written `"\0011"`, and `%o` reads all four digits. -/
theorem C08_cinit_octal_escape_swallows_digit : ¬ C08_full := by
  intro h
  have h1 := h [1, 49] [] (by intro c hc; simp at hc; omega)
  have h2 : readString cinitFmt (quoteString cinitPattern [1, 49] ++ []) = some ([9], []) := by
    decide +kernel
  rw [h2] at h1
  simp at h1

/-- **C08**, for strings in which no byte written as an octal escape (not printable, no mnemonic
escape) is directly followed by one of the characters `0`–`7`.  Missing: exactly the other strings,
for which the property is false in general. -/
theorem C08_cinit_string_round_trip_partial (s rest : List Nat) (hs : CString s)
    (hoct : ∀ p c d q, s = p ++ c :: d :: q → isprint c = false → escMap c = 0 →
      ¬ (48 ≤ d ∧ d ≤ 55)) :
    readString cinitFmt (quoteString cinitPattern s ++ rest) = some (s, rest) := by
  unfold readString
  rw [Lemmas.Escape.lex_quoteString _ _ _ (fun c hc => (hs c hc).2) Lemmas.Escape.cinit_lexable]
  have hp : ∀ c, cinitPattern c ≠ [] := by intro c; simp [cinitPattern]
  have hl := Lemmas.Escape.quoteBody_length cinitPattern hp s
  have := Lemmas.Escape.unquote_body cinitFmt cinitPattern Lemmas.Escape.cinit_quote s (ch '"' :: rest) hs
    (by
      intro p c q h
      intro hpr hesc h34
      refine Lemmas.Escape.cinit_step c (hs c (by simp [h])).2 _ ?_ hpr hesc h34
      intro x d hx hd
      cases q with
      | nil =>
        simp [quoteBody, ch] at hx
        subst hx
        simp [digit, isdigit, islower, isupper] at hd
      | cons e q =>
        have hde := hoct p c e q h hpr hesc
        have he := hs e (by simp [h])
        have hb : quoteBody cinitPattern (e :: q) = quoteByte cinitPattern e ++ quoteBody cinitPattern q := by
          simp [quoteBody]
        rw [hb] at hx
        have key : ∀ e < 256, 0 < e → ¬ (48 ≤ e ∧ e ≤ 55) →
            (((quoteByte cinitPattern e).head?.elim false fun x =>
              (digit x).elim true fun d => decide (8 ≤ d))) = true := by decide +kernel
        have hk := key e he.2 he.1 hde
        cases hq : quoteByte cinitPattern e with
        | nil => rw [hq] at hk; simp at hk
        | cons y t =>
          rw [hq] at hx hk
          simp at hx
          subst hx
          simp [hd] at hk
          exact hk)
    ((quoteBody cinitPattern s).length + 1) (by omega)
  simp [unquote, this]

/-- **C10** XML: the written text contains no `<`, `>` or quote, so the lexer's content rule
(`">"[^<]*`) delimits it exactly, and unquoting it returns the string. -/
theorem C10_xml_string_round_trip (s rest : List Nat) (hs : CString s) :
    (xmlQuoteString s ++ ch '<' :: rest).takeWhile (· ≠ ch '<') = xmlQuoteString s ∧
    xmlUnquote ((xmlQuoteString s).length + 1) (xmlQuoteString s ++ ch '<' :: rest)
      (xmlQuoteString s).length = some s := by
  constructor
  · have hc := Lemmas.Escape.xml_clean s (fun c hc => (hs c hc).2)
    have h60 : ∀ b ∈ xmlQuoteString s, b ≠ 60 := fun b hb => (hc b hb).1
    revert h60
    generalize xmlQuoteString s = t
    induction t with
    | nil => intro _; simp
    | cons a t ih =>
      intro h
      have h1 := h a (by simp)
      have h2 := ih (fun b hb => h b (by simp [hb]))
      have h3 : a ≠ ch '<' := h1
      rw [List.cons_append, List.takeWhile_cons, if_pos (by simpa using h3), h2]
  · have hl : s.length ≤ (xmlQuoteString s).length := by
      clear hs
      induction s with
      | nil => simp
      | cons c s ih =>
        have hb : xmlQuoteString (c :: s) = xmlQuoteByte c ++ xmlQuoteString s := by simp [xmlQuoteString]
        have := Lemmas.Escape.xmlQuoteByte_length c
        rw [hb, List.length_append]; simp; omega
    exact Lemmas.Escape.xml_body s _ (fun c hc => (hs c hc).2) _ (by omega)

/-- **C10** no markup characters in the written text -/
theorem C10_xml_no_markup (s : List Nat) (hs : CString s) :
    ∀ b ∈ xmlQuoteString s, b ≠ ch '<' ∧ b ≠ ch '>' ∧ b ≠ ch '"' :=
  Lemmas.Escape.xml_clean s (fun c hc => (hs c hc).2)

/-- **C45** For every document and token (not only written ones) the C-initializer, JSON and Scheme
unquoting loops stop, read nothing behind the document and store at most `length` bytes: the buffer
of `length + 1` bytes allocated by the parser suffices. -/
theorem C45_unquote_bounded (fmt : Fmt) (doc : List Nat) (length : Nat)
    (hlen : length ≤ doc.length) :
    ∃ out, unquote fmt doc length = some out ∧ out.length ≤ length :=
  Lemmas.Escape.unquoteLoop_total fmt _ doc length (by omega) hlen

/-- The full statement of **C45** for XML, which the code does not satisfy. -/
def C45_xml_full : Prop := ∀ (doc : List Nat) (length : Nat), length ≤ doc.length →
    ∃ fuel out, xmlUnquote fuel doc length = some out ∧ out.length ≤ length

/-- **C45 is false for XML**: on the text `&#x123;` the loop never stops (`sscanf` converts two digits,
does not find the `;`, leaves `size` at 0, and `i` never advances while `dst` is written at every
iteration), so the heap buffer is overrun. -/
theorem C45_xml_unquote_diverges : ¬ C45_xml_full := by
  intro h
  obtain ⟨fuel, out, h1, _⟩ := h (ascii "&#x123;") 7 (by decide)
  have hscan : xmlScan (ascii "&#x123;") = some (18, 0) := by decide +kernel
  have hd : ascii "&#x123;" = 38 :: ascii "#x123;" := by decide +kernel
  have key : ∀ fuel, xmlUnquoteLoop fuel (ascii "&#x123;") 7 = none := by
    intro fuel
    induction fuel with
    | zero => rw [xmlUnquoteLoop.eq_def]
    | succ f ih =>
      rw [hd, Lemmas.Escape.xmlLoop_cons _ _ _ _ (by decide), ← hd, hscan]
      have e : ((ascii "#x123;").head? == some (ch '#')) = true := by decide +kernel
      rw [if_neg (by decide), if_pos e]
      simp only [List.drop_zero, Nat.sub_zero, ih, Option.map_none]
  unfold xmlUnquote at h1
  rw [key fuel] at h1
  simp at h1

/-- **C45** for XML texts in which every `&#x` that starts a number of one or two hexadecimal digits
is terminated by `;`.  Missing: texts with another numeric character reference, on which the loop does
not stop. -/
theorem C45_xml_unquote_bounded_partial (doc : List Nat) (length : Nat) (hlen : length ≤ doc.length)
    (hok : ∀ k v, xmlScan (doc.drop k) ≠ some (v, 0)) :
    ∃ out, xmlUnquote (length + 1) doc length = some out ∧ out.length ≤ length :=
  Lemmas.Escape.xmlLoop_total _ doc length (by omega) hlen hok

/-! Non-vacuity -/

example : CString (ascii "a\"\\\n\x01z") := by
  intro c hc
  have : ∀ x ∈ ascii "a\"\\\n\x01z", 0 < x ∧ x < 256 := by decide +kernel
  exact this c hc
example : quoteString jsonPattern (ascii "a\"\\\n\x01z") = ascii "\"a\\\"\\\\\\n\\u0001z\"" := by decide +kernel
example : readString jsonFmt (ascii "\"a\\\"\\\\\\n\\u0001z\", 5") = some (ascii "a\"\\\n\x01z", ascii ", 5") := by
  decide +kernel
example : quoteString scmPattern [255, 49] = ascii "\"\\xff;1\"" := by decide +kernel
example : quoteString cinitPattern [1, 97, 200] = ascii "\"\\001a\\310\"" := by decide +kernel
example : readString cinitFmt (ascii "\"\\001a\\310\"") = some ([1, 97, 200], []) := by decide +kernel
example : xmlQuoteString (ascii "<a&b>\x01") = ascii "&lt;a&amp;b&gt;&#x01;" := by decide +kernel
/-- hypothesis of `C45_xml_unquote_bounded_partial` on a text with all kinds of references -/
example : ∀ k v, xmlScan ((ascii "&lt;&#x0A;x&#zz&foo").drop k) ≠ some (v, 0) := by
  intro k v h
  have key : ∀ k < 20, ((xmlScan ((ascii "&lt;&#x0A;x&#zz&foo").drop k)).elim true fun p => p.2 != 0) = true := by
    decide +kernel
  by_cases hk : k < 20
  · have := key k hk
    rw [h] at this
    simp at this
  · have hnil : (ascii "&lt;&#x0A;x&#zz&foo").drop k = [] := by
      apply List.drop_eq_nil_of_le
      have : (ascii "&lt;&#x0A;x&#zz&foo").length = 19 := by decide +kernel
      omega
    rw [hnil] at h
    simp [xmlScan] at h

end Verif.Props.Escape
