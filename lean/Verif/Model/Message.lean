/-!
# Messages: `mr_message`, `mr_message_format` (`src/mr_message.c`)

* Texts are lists of bytes.  `render` is `vsnprintf` with the arguments of the call (`none`: it fails), `alloc` the answer of
  the allocator.
* The stack trace printed for levels up to MR_LL_DEBUG is not modelled.
* The table `messages` has `last + 1` elements where `last` is MR_MESSAGE_LAST; an access outside is undefined (`none`).
-/
namespace Verif.Model.Message

abbrev Text := List Nat

/-- the bytes of an ASCII string -/
def txt (s : String) : Text := s.toList.map Char.toNat

/-- src/mr_message.c:50–51: the static variables `messages` and `messages_inited` -/
structure St where
  messages : List (Option Text)
  inited : Bool
deriving DecidableEq, Repr

/-- src/mr_message.c:50–51: their initial values -/
def start (last : Nat) : St := { messages := List.replicate (last + 1) none, inited := false }

/-- src/mr_message.c:61–62: the loop over the enumeration; `enums` are values and `meta` -/
def fill : List (Nat × Option Text) → List (Option Text) → Option (List (Option Text))
  | [], table => some table
  | (v, text) :: es, table => if v < table.length then fill es (table.set v text) else none

/-- src/mr_message.c:55–65; `tdp`: the descriptor of `mr_message_id_t` (`none`: types are not registered yet) -/
def prepare (tdp : Option (List (Nat × Option Text))) (s : St) : Option St :=
  if !s.inited then
    match tdp with
    | some enums => do some { messages := ← fill enums s.messages, inited := true }
    | none => some s
  else some s

/-- src/mr_message.c:21–39 `mr_vasprintf`; `none`: NULL -/
def vasprintf (render : Text → Option Text) (alloc : Bool) (format : Text) : Option Text :=
  match render format with
  | none => none
  | some t => if t.length = 0 then none else if alloc then some t else none

/-- src/mr_message.c:67–68: the format of a message -/
def formatOf (s : St) (id : Nat) : Option Text := do
  if id ≤ s.messages.length then do
    let f ← s.messages[id]?
    some (f.getD (txt "Unknown MR_MESSAGE_ID."))
  else some (txt "Unknown MR_MESSAGE_ID.")

/-- src/mr_message.c:47–74 `mr_message_format`; the result may be NULL -/
def messageFormat (tdp : Option (List (Nat × Option Text))) (render : Text → Option Text) (alloc : Bool) (s : St) (id : Nat) :
    Option (St × Option Text) := do
  let s ← prepare tdp s
  let format ← formatOf s id
  some (s, vasprintf render alloc format)

/-- src/mr_message.c:94–96: the table of levels -/
def levels : List Text := ["ALL", "TRACE", "DEBUG", "INFO", "WARN", "ERROR", "FATAL", "OFF"].map txt

/-- src/mr_message.c:93, 98–101; `level` is an unsigned 32-bit number, negative as an `int` from 2^31 on -/
def levelName (level : Nat) : Option Text :=
  if level < 2 ^ 31 ∧ level ≤ levels.length then levels[level]? else some (txt "Unknown")

/-- what a message leads to -/
inductive Out where
  /-- the user's handler is called with level and identifier -/
  | handler (level id : Nat)
  /-- nothing is written -/
  | silent
  /-- a line on stderr: level and text -/
  | line (level text : Text)
  /-- a line with "Out of memory formating error message #id" -/
  | noMemory (level : Text) (id : Nat)
deriving DecidableEq, Repr

/-- src/mr_message.c:84–134 `mr_message`; `handler` and `threshold` are `mr_conf.msg_handler` and `mr_conf.log_level` -/
def message (handler : Bool) (threshold : Nat) (tdp : Option (List (Nat × Option Text))) (render : Text → Option Text) (alloc : Bool)
    (s : St) (level id : Nat) : Option (St × Out) :=
  if handler then some (s, .handler level id)
  else if level ≥ threshold then do
    let l ← levelName level
    let (s, m) ← messageFormat tdp render alloc s id
    match m with
    | none => some (s, .noMemory l id)
    | some t => some (s, .line l t)
  else some (s, .silent)

end Verif.Model.Message
