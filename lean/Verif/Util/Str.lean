/-!
# Models of the Rust standard library string functions used by shpool

Strings are `List Char` (Rust strings are sequences of Unicode scalar values, as are Lean `Char`s).
Used by: `protocol.rs` 208-240, `duration.rs` 22-79, `template.rs` 48-108, `etc_environment.rs` 13-73.
-/

namespace Shpool.Str

/-- `str::split(sep)` for a character separator: always at least one piece. -/
def split (sep : Char) : List Char → List (List Char)
  | [] => [[]]
  | c :: cs =>
    if c = sep then [] :: split sep cs
    else match split sep cs with
      | [] => [[c]]
      | h :: t => (c :: h) :: t

/-- Joining pieces with a separator character (used only to *state* properties). -/
def join (sep : Char) : List (List Char) → List Char
  | [] => []
  | [p] => p
  | p :: q :: ps => p ++ sep :: join sep (q :: ps)

/-- Value of an ASCII decimal digit (`char::to_digit(10)`). -/
def digit? (c : Char) : Option Nat :=
  if 48 ≤ c.toNat ∧ c.toNat ≤ 57 then some (c.toNat - 48) else none

/-- Accumulate decimal digits, failing on the first non digit. -/
def digitsAcc : Nat → List Char → Option Nat
  | acc, [] => some acc
  | acc, c :: cs => match digit? c with
    | none => none
    | some d => digitsAcc (10 * acc + d) cs

/-- A non empty run of decimal digits as a natural number. -/
def parseDigits : List Char → Option Nat
  | [] => none
  | cs => digitsAcc 0 cs

/-- An optional leading plus sign, as accepted by `from_str_radix`. -/
def stripPlus : List Char → List Char
  | '+' :: r => r
  | cs => cs

/-- `str::parse::<u64>()` (`from_str_radix` with radix 10): optional `+`, at least one digit, no overflow. -/
def parseU64 (cs : List Char) : Option Nat :=
  match parseDigits (stripPlus cs) with
  | none => none
  | some n => if n < 2 ^ 64 then some n else none

/-- `str::parse::<i64>()`: optional `+` or `-`, at least one digit, no overflow. -/
def parseI64 (cs : List Char) : Option Int :=
  match cs with
  | '-' :: r =>
    match parseDigits r with
    | none => none
    | some n => if n ≤ 2 ^ 63 then some (-(n : Int)) else none
  | '+' :: r =>
    match parseDigits r with
    | none => none
    | some n => if n < 2 ^ 63 then some (n : Int) else none
  | _ =>
    match parseDigits cs with
    | none => none
    | some n => if n < 2 ^ 63 then some (n : Int) else none

/-- Unicode classification used through `char::is_alphabetic` and `char::is_numeric`.  The tables themselves are not
modelled; only their ASCII part is assumed (`CharTables.Faithful`). -/
structure CharTables where
  alphabetic : Char → Bool
  numeric : Char → Bool

/-- `char::is_alphanumeric` is by definition `is_alphabetic() || is_numeric()`. -/
def CharTables.alphanumeric (t : CharTables) (c : Char) : Bool := t.alphabetic c || t.numeric c

/-- ASCII letters. -/
def asciiAlpha (c : Char) : Bool := (65 ≤ c.toNat && c.toNat ≤ 90) || (97 ≤ c.toNat && c.toNat ≤ 122)
/-- ASCII digits. -/
def asciiDigit (c : Char) : Bool := 48 ≤ c.toNat && c.toNat ≤ 57

/-- The tables agree with ASCII on ASCII characters. -/
structure CharTables.Faithful (t : CharTables) : Prop where
  alpha : ∀ c : Char, c.toNat < 128 → t.alphabetic c = asciiAlpha c
  num : ∀ c : Char, c.toNat < 128 → t.numeric c = asciiDigit c

/-- A faithful table exists (the ASCII one). -/
def asciiTables : CharTables := ⟨asciiAlpha, asciiDigit⟩
theorem asciiTables_faithful : asciiTables.Faithful := ⟨fun _ _ => rfl, fun _ _ => rfl⟩

/-- `char::is_whitespace`: the Unicode White_Space property, complete list. -/
def isWhitespace (c : Char) : Bool :=
  let n := c.toNat
  (9 ≤ n && n ≤ 13) || n == 32 || n == 0x85 || n == 0xA0 || n == 0x1680 || (0x2000 ≤ n && n ≤ 0x200A) ||
    n == 0x2028 || n == 0x2029 || n == 0x202F || n == 0x205F || n == 0x3000

/-- Drop leading white space. -/
def trimStart (cs : List Char) : List Char := cs.dropWhile isWhitespace
/-- Drop trailing white space. -/
def trimEnd (cs : List Char) : List Char := (cs.reverse.dropWhile isWhitespace).reverse
/-- `str::trim`. -/
def trim (cs : List Char) : List Char := trimEnd (trimStart cs)

end Shpool.Str

/-- Decidable equality of results, so concrete runs can be evaluated. -/
instance instDecidableEqExcept {ε α : Type} [DecidableEq ε] [DecidableEq α] : DecidableEq (Except ε α)
  | .ok a, .ok b => if h : a = b then isTrue (by rw [h]) else isFalse (fun e => h (Except.ok.inj e))
  | .error a, .error b => if h : a = b then isTrue (by rw [h]) else isFalse (fun e => h (Except.error.inj e))
  | .ok _, .error _ => isFalse (fun e => nomatch e)
  | .error _, .ok _ => isFalse (fun e => nomatch e)
