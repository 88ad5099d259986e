import Verif.Json.Model
/-!
# Specification: a reader of JSON texts

RFC 8259, restricted to integers without exponent.  It knows nothing of how the texts were made: it accepts blanks wherever the RFC
does, and all escapes.  `fuel` bounds the depth of the recursion; `parse` gives as much as the text is long.
-/

namespace Shpool.Json

/-- Blanks between tokens. -/
def ws (c : Char) : Bool := c == ' ' || c == '\t' || c == '\n' || c == '\r'

def skip (s : Str) : Str := s.dropWhile ws

/-- The value of a hexadecimal digit, of either case. -/
def hexVal (c : Char) : Option Nat :=
  if 48 ≤ c.toNat ∧ c.toNat ≤ 57 then some (c.toNat - 48)
  else if 97 ≤ c.toNat ∧ c.toNat ≤ 102 then some (c.toNat - 87)
  else if 65 ≤ c.toNat ∧ c.toNat ≤ 70 then some (c.toNat - 55)
  else none

def hex4 (a b c d : Char) : Option Nat :=
  match hexVal a, hexVal b, hexVal c, hexVal d with
  | some a, some b, some c, some d => some (((a * 16 + b) * 16 + c) * 16 + d)
  | _, _, _, _ => none

/-- The escapes of one letter. -/
def shortEsc (c : Char) : Option Char :=
  if c = '"' then some '"' else if c = '\\' then some '\\' else if c = '/' then some '/'
  else if c = 'b' then some '\x08' else if c = 'f' then some '\x0c' else if c = 'n' then some '\n'
  else if c = 'r' then some '\r' else if c = 't' then some '\t' else none

/-- The rest of a string after its opening quote: its text and what follows.  Surrogates are read as nothing (an error). -/
def readStr : Str → Option (Str × Str)
  | [] => none
  | '\\' :: 'u' :: a :: b :: c :: d :: r =>
    match hex4 a b c d with
    | some n => if n.isValidChar then (readStr r).map fun p => (Char.ofNat n :: p.1, p.2) else none
    | none => none
  | '\\' :: c :: r =>
    match shortEsc c with
    | some x => (readStr r).map fun p => (x :: p.1, p.2)
    | none => none
  | c :: r =>
    if c = '"' then some ([], r)
    else if c = '\\' ∨ c.toNat < 32 then none
    else (readStr r).map fun p => (c :: p.1, p.2)

def isDigit (c : Char) : Bool := decide (48 ≤ c.toNat) && decide (c.toNat ≤ 57)

/-- The value of decimal digits. -/
def natOf (ds : Str) : Nat := ds.foldl (fun n c => n * 10 + (c.toNat - 48)) 0

/-- A number without sign: no leading zeros, no fraction or exponent. -/
def readNat (s : Str) : Option (Nat × Str) :=
  let ds := s.takeWhile isDigit
  let r := s.dropWhile isDigit
  if ds = [] ∨ (ds.head? = some '0' ∧ ds ≠ ['0']) ∨ r.head? = some '.' ∨ r.head? = some 'e' ∨ r.head? = some 'E' then none
  else some (natOf ds, r)

def readInt : Str → Option (Int × Str)
  | '-' :: s => (readNat s).map fun p => (-(p.1 : Int), p.2)
  | s => (readNat s).map fun p => ((p.1 : Int), p.2)

mutual
/-- A value and what follows it. -/
def value : Nat → Str → Option (Json × Str)
  | 0, _ => none
  | f + 1, s =>
    match skip s with
    | '"' :: r => (readStr r).map fun p => (.str p.1, p.2)
    | '[' :: r =>
      match skip r with
      | ']' :: r => some (.arr [], r)
      | r => (elements f r).map fun p => (.arr p.1, p.2)
    | '{' :: r =>
      match skip r with
      | '}' :: r => some (.obj [], r)
      | r => (members f r).map fun p => (.obj p.1, p.2)
    | 'n' :: 'u' :: 'l' :: 'l' :: r => some (.null, r)
    | s => (readInt s).map fun p => (.int p.1, p.2)

/-- One or more values, separated by commas, and the closing bracket. -/
def elements : Nat → Str → Option (List Json × Str)
  | 0, _ => none
  | f + 1, s =>
    match value f s with
    | none => none
    | some (v, r) =>
      match skip r with
      | ']' :: r => some ([v], r)
      | ',' :: r => (elements f r).map fun p => (v :: p.1, p.2)
      | _ => none

/-- One or more members, separated by commas, and the closing brace. -/
def members : Nat → Str → Option (List (Str × Json) × Str)
  | 0, _ => none
  | f + 1, s =>
    match skip s with
    | '"' :: r =>
      match readStr r with
      | none => none
      | some (k, r) =>
        match skip r with
        | ':' :: r =>
          match value f r with
          | none => none
          | some (v, r) =>
            match skip r with
            | '}' :: r => some ([(k, v)], r)
            | ',' :: r => (members f r).map fun p => ((k, v) :: p.1, p.2)
            | _ => none
        | _ => none
    | _ => none
end

/-- The value a text stands for. -/
def parse (s : Str) : Option Json :=
  match value (s.length + 1) s with
  | some (v, r) => if skip r = [] then some v else none
  | none => none

/-! How a program gets at the contents. -/

/-- The first member of that name. -/
def Json.get (k : String) : Json → Option Json
  | .obj l => (l.find? (fun p => p.1 = k.toList)).map (·.2)
  | _ => none

def Json.text : Json → Option Str
  | .str s => some s
  | _ => none

def Json.num : Json → Option Int
  | .int i => some i
  | _ => none

/-- A number or nothing. -/
def Json.numOpt : Json → Option (Option Int)
  | .int i => some (some i)
  | .null => some none
  | _ => none

def Json.items : Json → Option (List Json)
  | .arr l => some l
  | _ => none

end Shpool.Json
