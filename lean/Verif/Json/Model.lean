import Verif.Events.Model
/-!
# Model of the output meant for programs

Sources: `/repo/libshpool/src/list.rs` 37-41 (`shpool list --json`), `/repo/libshpool/src/var.rs` 25-50 (`shpool var list`, `shpool
var get`), `/repo/shpool-protocol/src/lib.rs` 268-312 (the fields of a list of sessions), `/repo/libshpool/src/events.rs` 18-30
(`shpool events`), `/repo/libshpool/src/daemon/events.rs` 54-66, 479-494 (the text of an event).

The formatter of `serde_json` (version 1.0.149 in `Cargo.lock`) is a third-party crate; it is modelled from its documentation:
two blanks of indentation, `": "` after a key, empty lists and objects in one piece, the characters `"`, `\` and those below U+0020
escaped and nothing else, objects made by `json!({})` sorted by key (the crate is built without `preserve_order`; `Cargo.lock` lists
no `indexmap` for it).  Texts are lists of characters.
-/

namespace Shpool.Json

abbrev Str := List Char

/-- `serde_json::Value`, restricted to what is printed here (there are no fractions and no booleans). -/
inductive Json where
  | null
  | int (i : Int)
  | str (s : Str)
  | arr (l : List Json)
  | obj (l : List (Str × Json))
  deriving Repr

/-- One hexadecimal digit, in lower case. -/
def hexDigit (n : Nat) : Char := if n < 10 then Char.ofNat (48 + n) else Char.ofNat (87 + n)

/-- `format_escaped_str_contents` of `serde_json` for one character. -/
def escChar (c : Char) : Str :=
  if c = '"' then ['\\', '"']
  else if c = '\\' then ['\\', '\\']
  else if c = '\n' then ['\\', 'n']
  else if c = '\r' then ['\\', 'r']
  else if c = '\t' then ['\\', 't']
  else if c = '\x08' then ['\\', 'b']
  else if c = '\x0c' then ['\\', 'f']
  else if c.toNat < 32 then ['\\', 'u', '0', '0', hexDigit (c.toNat / 16), hexDigit (c.toNat % 16)]
  else [c]

/-- A text in quotes. -/
def quote (s : Str) : Str := '"' :: s.flatMap escChar ++ ['"']

/-- The decimal digits of a number (`itoa`); `fuel` bounds their number. -/
def digitsAux : Nat → Nat → Str → Str
  | 0, _, acc => acc
  | f + 1, n, acc =>
    let acc := Char.ofNat (48 + n % 10) :: acc
    if n / 10 = 0 then acc else digitsAux f (n / 10) acc

def showNat (n : Nat) : Str := digitsAux (n + 1) n []

/-- `itoa` for signed numbers. -/
def showInt (i : Int) : Str := if i < 0 then '-' :: showNat i.natAbs else showNat i.natAbs

/-- The layout of a formatter: `nl n` is written before an item at depth `n` and before the closing bracket of something at depth `n`,
`sp` after the colon of a member. -/
structure Layout where
  nl : Nat → Str
  sp : Str

/-- `PrettyFormatter`: a new line, indented by two blanks per level. -/
def prettyLayout : Layout := ⟨fun n => '\n' :: List.replicate (2 * n) ' ', [' ']⟩

/-- `CompactFormatter`: no blanks. -/
def compactLayout : Layout := ⟨fun _ => [], []⟩

mutual
/-- The serializer of `serde_json`, at a depth of `n`. -/
def print (y : Layout) (n : Nat) : Json → Str
  | .null => ['n', 'u', 'l', 'l']
  | .int i => showInt i
  | .str s => quote s
  | .arr [] => ['[', ']']
  | .arr (v :: l) => '[' :: (y.nl (n + 1) ++ print y (n + 1) v ++ printItems y (n + 1) l ++ y.nl n ++ [']'])
  | .obj [] => ['{', '}']
  | .obj ((k, v) :: l) =>
    '{' :: (y.nl (n + 1) ++ quote k ++ ':' :: y.sp ++ print y (n + 1) v ++ printMembers y (n + 1) l ++ y.nl n ++ ['}'])

/-- The items after the first. -/
def printItems (y : Layout) (n : Nat) : List Json → Str
  | [] => []
  | v :: l => ',' :: (y.nl n ++ print y n v ++ printItems y n l)

/-- The members after the first. -/
def printMembers (y : Layout) (n : Nat) : List (Str × Json) → Str
  | [] => []
  | (k, v) :: l => ',' :: (y.nl n ++ quote k ++ ':' :: y.sp ++ print y n v ++ printMembers y n l)
end

/-- `serde_json::to_string_pretty`. -/
def pretty (v : Json) : Str := print prettyLayout 0 v

/-- `serde_json::to_string`. -/
def compact (v : Json) : Str := print compactLayout 0 v

/-! ## `shpool list --json` -/

/-- `Attachment`, lib.rs 294-304. -/
structure Attachment where
  template : Str
  pid : Int
  deriving DecidableEq, Repr

/-- `Session` and `SessionStatus`, lib.rs 274-312. -/
structure Session where
  name : Str
  startedAt : Int
  lastConnectedAt : Option Int
  lastDisconnectedAt : Option Int
  attached : Bool
  attachments : List Attachment
  deriving DecidableEq, Repr

def optInt : Option Int → Json
  | none => .null
  | some i => .int i

/-- The derived `Serialize` of `Attachment`, lib.rs 295-304. -/
def attachmentJson (a : Attachment) : Json :=
  .obj [("session_name_template".toList, .str a.template), ("pid".toList, .int a.pid)]

/-- The derived `Serialize` of `Session` and `SessionStatus`, lib.rs 275-312. -/
def sessionJson (s : Session) : Json :=
  .obj [("name".toList, .str s.name), ("started_at_unix_ms".toList, .int s.startedAt),
    ("last_connected_at_unix_ms".toList, optInt s.lastConnectedAt),
    ("last_disconnected_at_unix_ms".toList, optInt s.lastDisconnectedAt),
    ("status".toList, .str (if s.attached then "Attached".toList else "Disconnected".toList)),
    ("attachments".toList, .arr (s.attachments.map attachmentJson))]

/-- `shpool list --json`, list.rs 40-41; lib.rs 268-272. -/
def listJson (l : List Session) : Str :=
  pretty (.obj [("sessions".toList, .arr (l.map sessionJson))]) ++ ['\n']

/-! ## `shpool var` -/

/-- The order of `String` (by bytes of UTF-8, which is the order by characters). -/
def strLt : Str → Str → Bool
  | [], [] => false
  | [], _ :: _ => true
  | _ :: _, [] => false
  | a :: s, b :: t => if a = b then strLt s t else decide (a.toNat < b.toNat)

/-- `obj[var] = val` on a `serde_json::Map`, a sorted map (var.rs 30). -/
def insertSorted (k : Str) (v : Json) : List (Str × Json) → List (Str × Json)
  | [] => [(k, v)]
  | (k', v') :: m =>
    if k' = k then (k, v) :: m
    else if strLt k' k then (k', v') :: insertSorted k v m
    else (k, v) :: (k', v') :: m

/-- `shpool var list --json`, var.rs 27-32. -/
def varsJson (vars : List (Str × Str)) : Str :=
  pretty (.obj (vars.foldl (fun m p => insertSorted p.1 (.str p.2) m) [])) ++ ['\n']

/-- `shpool var list`, var.rs 33-37. -/
def varsText (vars : List (Str × Str)) : Str := vars.flatMap fun p => p.1 ++ '\t' :: p.2 ++ ['\n']

/-- `shpool var get`, var.rs 39-47. -/
def varGet (var : Str) (vars : List (Str × Str)) : Str := vars.flatMap fun p => if p.1 = var then p.2 ++ ['\n'] else []

/-! ## `shpool events` -/

/-- The serialized event: serde's internally tagged representation (events.rs 54-66). -/
def eventJson (e : Events.Event) : Json := .obj [("type".toList, .str e.name)]

/-- `BufRead::lines`: the text up to and without the next newline, without a carriage return before it; at the end of the stream
what is left, if there is anything.  (Invalid UTF-8 is an error; texts are lists of characters here.) -/
def nextLine : Str → Option (Str × Str)
  | [] => none
  | s =>
    let line := s.takeWhile (· ≠ '\n')
    match s.dropWhile (· ≠ '\n') with
    | [] => some (line, [])
    | _ :: rest => some (if line.getLast? = some '\r' then line.dropLast else line, rest)

/-- `events::run`, events.rs 18-30: what it prints when the connection has delivered `s` and was closed. -/
def eventsOut : Nat → Str → Str
  | 0, _ => []
  | f + 1, s =>
    match nextLine s with
    | none => []
    | some (line, rest) => line ++ '\n' :: eventsOut f rest

def eventsPrint (s : Str) : Str := eventsOut (s.length + 1) s

end Shpool.Json
