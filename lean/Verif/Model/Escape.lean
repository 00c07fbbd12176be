import Verif.Model.Scanf
/-!
# Quoting and unquoting of strings

Writer: `mr_ra_printf_quote_string` (`src/mr_stringify.c:399-424`) with the patterns of the
C-initializer, JSON and Scheme writers; reader: the string rule of the three lexers and the
`*_unquote_str` functions.  XML has its own pair of functions in `src/xml_save.c`.
-/
namespace Verif.Model.Escape
open Verif.Model Verif.Model.Scanf

/-- `src/mr_stringify.c:381-391` `mr_esc_char_map`. -/
def escMap (c : Nat) : Nat :=
  if c = 7 then ch 'a' else if c = 8 then ch 'b' else if c = 9 then ch 't' else if c = 10 then ch 'n'
  else if c = 11 then ch 'v' else if c = 12 then ch 'f' else if c = 13 then ch 'r'
  else if c = ch '\\' then ch '\\' else 0

/-- The static `map` of the unquote functions (`src/cinit_load.y:36-43`, `src/json_load.y:35-42`,
`src/scm_load.y:37-44`): `for (i = 0; i < 256; ++i) if (mr_esc_char_map[i]) map[mr_esc_char_map[i]] = i`. -/
def unMap (c : Nat) : Nat :=
  (List.range 256).foldl (fun m i => if escMap i ≠ 0 ∧ escMap i = c then i else m) 0

/-- one byte of `mr_ra_printf_quote_string`, `src/mr_stringify.c:408-420`; `pattern` is the
`printf` of the format's character pattern. -/
def quoteByte (pattern : Nat → List Nat) (c : Nat) : List Nat :=
  let mapped := escMap c
  let mapped := if c = ch '"' then ch '"' else mapped
  if mapped ≠ 0 then [ch '\\', mapped]
  else if isprint c then [c]
  else pattern c

/-- body of the quoted string (between the quotes) -/
def quoteBody (pattern : Nat → List Nat) (s : List Nat) : List Nat :=
  s.flatMap (quoteByte pattern)

/-- `src/mr_stringify.c:399-424` `mr_ra_printf_quote_string` on the NUL-terminated string `s`. -/
def quoteString (pattern : Nat → List Nat) (s : List Nat) : List Nat :=
  ch '"' :: quoteBody pattern s ++ [ch '"']

/-- `src/cinit_save.c:19` `"\\%03o"` -/
def cinitPattern (c : Nat) : List Nat := ch '\\' :: printRadix 8 3 false c
/-- `src/json_save.c:17` `"\\u%04x"` -/
def jsonPattern (c : Nat) : List Nat := ch '\\' :: ch 'u' :: printRadix 16 4 false c
/-- `src/scm_save.c:136,152` `"\\x%02x;"` -/
def scmPattern (c : Nat) : List Nat := ch '\\' :: ch 'x' :: (printRadix 16 2 false c ++ [ch ';'])

/-- The string rule of the lexers, `"\""([^\"\\]|\\.)*"\""` (`src/json_load.l`, `src/cinit_load.l`,
`src/scm_load.l:71`): body of the token and the remaining input; `.` does not match a newline.
Called on the text after the opening quote; `q` is the quote character. -/
def lexBody (q : Nat) : List Nat → Option (List Nat × List Nat)
  | [] => none
  | c :: s =>
    if c = q then some ([], s)
    else if c = ch '\\' then
      match s with
      | [] => none
      | e :: s' => if e = 10 then none else (lexBody q s').map fun (b, r) => (c :: e :: b, r)
    else (lexBody q s).map fun (b, r) => (c :: b, r)

def lexString (q : Nat) : List Nat → Option (List Nat × List Nat)
  | [] => none
  | c :: s => if c = q then lexBody q s else none

/-- How the escape introducer of a format is scanned: `sscanf` result for the text after the
backslash (value, `%n`), and by how much `i` advances from the byte after the backslash to the
first byte after the escape. -/
structure Fmt where
  scan : List Nat → Option (Nat × Nat)
  advance : Nat → Nat

/-- literal character of a `sscanf` format followed by a conversion -/
def lit (c : Nat) (f : List Nat → Option (Nat × Nat)) (s : List Nat) : Option (Nat × Nat) :=
  match s with
  | [] => none
  | d :: s' => if d = c then (f s').map fun (v, n) => (v, n + 1) else none

/-- `src/cinit_load.y:55-59`: `sscanf (.., "%o%n", ..)`; `i += size - 1` and `++i` -/
def cinitFmt : Fmt := ⟨fun s => scanInt 8 (noWidth s) s, fun size => size⟩
/-- `src/json_load.y:54-58`: `sscanf (.., "u%04x%n", ..)`; `i += size - 1` and `++i` -/
def jsonFmt : Fmt := ⟨lit (ch 'u') (scanInt 16 4), fun size => size⟩
/-- `src/scm_load.y:57-61`: `sscanf (.., "x%x%n;", ..)`; `i += size` and `++i` -/
def scmFmt : Fmt := ⟨lit (ch 'x') (fun s => scanInt 16 (noWidth s) s), fun size => size + 1⟩

/-- The loop of `cinit_unquote_str` (`src/cinit_load.y:48-68`), `json_unquote_str`
(`src/json_load.y:47-66`), `scm_unquote_str` (`src/scm_load.y:49-70`).
`s` is the document from `substr->str[i]` on (up to its terminating NUL), `rem` is
`substr->length - i`.  The result is the sequence of bytes stored to `dst` before the terminating
NUL.  `none`: read behind the document or more than `fuel` iterations.
The stored value is converted to `char`, i.e. reduced modulo 256. -/
def unquoteLoop (fmt : Fmt) : Nat → List Nat → Nat → Option (List Nat)
  | 0, _, _ => none
  | fuel + 1, s, rem =>
    if rem = 0 then some []
    else match s with
      | [] => none
      | c :: s' =>
        if c = ch '\\' then
          let c1 := s'.headD 0
          if unMap c1 > 0 then
            (unquoteLoop fmt fuel (s'.drop 1) (rem - 2)).map (unMap c1 :: ·)
          else match fmt.scan s' with
            | some (v, size) =>
              (unquoteLoop fmt fuel (s'.drop (fmt.advance size)) (rem - 1 - fmt.advance size)).map
                (v % 256 :: ·)
            | none => (unquoteLoop fmt fuel (s'.drop 1) (rem - 2)).map (c1 :: ·)
        else (unquoteLoop fmt fuel s' (rem - 1)).map (c :: ·)

/-- `*_unquote_str` on the token `doc[0 .. length)` of the document. -/
def unquote (fmt : Fmt) (doc : List Nat) (length : Nat) : Option (List Nat) :=
  unquoteLoop fmt (length + 1) doc length

/-! ## XML -/

/-- `src/xml_save.c:29-34` `esc_char_map`; `none` is NULL. -/
def xmlEsc (c : Nat) : Option (List Nat) :=
  if c = ch '&' then some ("&amp;".toList.map Char.toNat)
  else if c = ch '<' then some ("&lt;".toList.map Char.toNat)
  else if c = ch '>' then some ("&gt;".toList.map Char.toNat)
  else if c = ch '"' then some ("&quot;".toList.map Char.toNat)
  else none

/-- `src/xml_save.c:27` `"&#x%02X;"` -/
def xmlPattern (c : Nat) : List Nat :=
  ch '&' :: ch '#' :: ch 'x' :: (printRadix 16 2 true c ++ [ch ';'])

/-- `src/xml_save.c:121-134` `xml_ra_printf_quote_char` -/
def xmlQuoteByte (c : Nat) : List Nat :=
  match xmlEsc c with
  | some m => m
  | none => if isprint c then [c] else xmlPattern c

/-- `src/xml_save.c:142-149` `xml_ra_printf_quote_string` -/
def xmlQuoteString (s : List Nat) : List Nat := s.flatMap xmlQuoteByte

def tolower (c : Nat) : Nat := if isupper c then c + 32 else c

/-- `src/xml_save.c:57-67` `esc_seq_hash`: escape sequence and symbol by the first letter. -/
def xmlHash (c : Nat) : Option (List Nat × Nat) :=
  (List.range 256).foldl (fun m i =>
    match xmlEsc i with
    | some e => if e[1]? = some c then some (e, i) else m
    | none => m) none

/-- `0 == strncasecmp (s, t, n)` for a `t` with at least `n` non-NUL bytes -/
def casePrefix (t s : List Nat) : Bool :=
  (s.take t.length).map tolower == t.map tolower

/-- `sscanf (s, "&#x%02X;%n", &code, &size)` with `size` initialised to 0
(`src/xml_save.c:83`): `none` if the conversion fails, otherwise the code and `size`; `size`
stays 0 if the `;` does not follow. -/
def xmlScan (s : List Nat) : Option (Nat × Nat) :=
  match s with
  | a :: h :: x :: t =>
    if a = ch '&' ∧ h = ch '#' ∧ x = ch 'x' then
      match scanInt 16 2 t with
      | some (v, n) => if (t.drop n).head? == some (ch ';') then some (v, n + 4) else some (v, 0)
      | none => none
    else none
  | _ => none

/-- `src/xml_save.c:70-116`, loop of `xml_unquote_string`; `s` is the text from `substr->str[i]` on
up to the terminating NUL, `rem = substr->length - i`.  `i += size - 1; ++i` advances by `size`, which
may be 0.  The diagnostic copy `esc` is not modelled. -/
def xmlUnquoteLoop : Nat → List Nat → Nat → Option (List Nat)
  | 0, _, _ => none
  | fuel + 1, s, rem =>
    if rem = 0 then some []
    else match s with
      | [] => none
      | c :: s' =>
        if c ≠ ch '&' then (xmlUnquoteLoop fuel s' (rem - 1)).map (c :: ·)
        else if s'.head? == some (ch '#') then
          match xmlScan s with
          | none => xmlUnquoteLoop fuel s' (rem - 1)
          | some (code, size) =>
            (xmlUnquoteLoop fuel (s.drop size) (rem - size)).map (code % 256 :: ·)
        else
          match xmlHash (tolower (s'.headD 0)) with
          | some (e, sym) =>
            if casePrefix (e.drop 2) (s'.drop 1) then
              (xmlUnquoteLoop fuel (s.drop e.length) (rem - e.length)).map (sym :: ·)
            else (xmlUnquoteLoop fuel s' (rem - 1)).map (c :: ·)
          | none => (xmlUnquoteLoop fuel s' (rem - 1)).map (c :: ·)

/-- `src/xml_save.c:49-118` `xml_unquote_string`, given `fuel` loop iterations. -/
def xmlUnquote (fuel : Nat) (doc : List Nat) (length : Nat) : Option (List Nat) :=
  xmlUnquoteLoop fuel doc length

end Verif.Model.Escape
