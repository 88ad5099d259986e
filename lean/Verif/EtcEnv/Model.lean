import Verif.Util.Str
/-!
# Model of the `/etc/environment` parser

Source: `/repo/libshpool/src/daemon/etc_environment.rs` 13-73.
-/

namespace Shpool.EtcEnv
open Shpool.Str

/-- The contents of the file: characters, and bytes that are not part of valid UTF-8.  (A line feed byte never is part of a longer
UTF-8 sequence, so cutting into lines before decoding, as `read_line` does, is the same as cutting the decoded text.) -/
inductive Sym where
  | ch (c : Char)
  | bad (b : UInt8)
  deriving DecidableEq, Repr

/-- The successive results of `read_line`: lines with their line feed, the last possibly without, etc_environment.rs 18-19. -/
def readLines : List Sym → List (List Sym)
  | [] => []
  | c :: cs =>
    if c = .ch '\n' then [c] :: readLines cs
    else match readLines cs with
      | [] => [[c]]
      | l :: ls => (c :: l) :: ls

/-- `read_line` fails with `InvalidData` on a line that is not UTF-8. -/
def decode : List Sym → Option (List Char)
  | [] => some []
  | .ch c :: cs => (decode cs).map (c :: ·)
  | .bad _ :: _ => none

/-- `str::strip_prefix(p).unwrap_or(s)`. -/
def stripPrefix (p s : List Char) : List Char := if p.isPrefixOf s then s.drop p.length else s
/-- `str::strip_suffix(c).unwrap_or(s)`. -/
def stripSuffix (c : Char) (s : List Char) : List Char := if s.getLast? = some c then s.dropLast else s

/-- `splitn(2, '=')` with two parts, etc_environment.rs 38-42. -/
def splitEq : List Char → Option (List Char × List Char)
  | [] => none
  | c :: cs => if c = '=' then some ([], cs) else (splitEq cs).map (fun p => (c :: p.1, p.2))

/-- etc_environment.rs 50: `is_ascii_alphanumeric() || '_'`. -/
def keyChar (c : Char) : Bool := asciiAlpha c || asciiDigit c || c == '_'

/-- Quote stripping, etc_environment.rs 58-64. -/
def unquote (val : List Char) : List Char :=
  let lead := val.head? = some '\'' ∨ val.head? = some '"'
  let v := stripPrefix ['"'] (stripPrefix ['\''] val)
  if lead then stripSuffix '"' (stripSuffix '\'' v) else v

/-- One line, etc_environment.rs 20-66; `none` for the `continue`s. -/
def parseLine (raw : List Char) : Option (List Char × List Char) :=
  let line := trim raw
  if line = [] ∨ line.head? = some '#' then none
  else
    let line := stripPrefix "export ".toList line
    let line := line.takeWhile (· ≠ '#')
    match splitEq line with
    | none => none
    | some (key, val) =>
      if key = [] then none
      else if !key.all keyChar then none
      else some (key, unquote val)

/-- The loop; `none` for the `Err` return, which discards all pairs. -/
def parseLines : List (List Sym) → Option (List (List Char × List Char))
  | [] => some []
  | l :: ls =>
    match decode l with
    | none => none
    | some cs =>
      match parseLines ls with
      | none => none
      | some ps => some ((parseLine cs).toList ++ ps)

/-- `parse_compat`, etc_environment.rs 13-73. -/
def parseCompat (file : List Sym) : Option (List (List Char × List Char)) := parseLines (readLines file)

end Shpool.EtcEnv
