import Verif.Util.Str
/-!
# Model of the ttl duration parser

Source: `/repo/libshpool/src/duration.rs` 22-79.  Durations are whole seconds (`Duration::from_secs`).

Arithmetic is on `u64`.  An overflowing `*` or `+=` panics in builds with overflow checks and wraps modulo `2^64`
otherwise; both are modelled, selected by `Build`.
-/

namespace Shpool.Duration
open Shpool.Str

/-- Whether integer overflow is checked (debug profile) or wraps (release profile). -/
inductive Build where
  | checked | wrapping
  deriving DecidableEq, Repr

/-- Outcome of a parse. -/
inductive Res where
  | ok (secs : Nat)
  | err
  | panic
  deriving DecidableEq, Repr

/-- One `u64` arithmetic result under the build's overflow rule. -/
def arith (b : Build) (v : Nat) (k : Nat → Res) : Res :=
  if v < 2 ^ 64 then k v
  else match b with
    | .checked => .panic
    | .wrapping => k (v % 2 ^ 64)

/-- `parse_colon_duration`, duration.rs 33-61.  `parts` are reversed (line 35) so `s` is the last piece.  The
multiplications associate to the left (`n * 60 * 60 * 24`), each step may overflow. -/
def parseColon (b : Build) (src : List Char) : Res :=
  match (split ':' src).reverse with
  | [] => .err
  | s :: ps =>
    match parseU64 s with
    | none => .err
    | some secs =>
      match ps with
      | [] => .ok secs
      | m :: ps =>
        match parseU64 m with
        | none => .err
        | some mv =>
          arith b (mv * 60) fun mv => arith b (secs + mv) fun secs =>
          match ps with
          | [] => .ok secs
          | h :: ps =>
            match parseU64 h with
            | none => .err
            | some hv =>
              arith b (hv * 60) fun hv => arith b (hv * 60) fun hv => arith b (secs + hv) fun secs =>
              match ps with
              | [] => .ok secs
              | d :: ps =>
                match parseU64 d with
                | none => .err
                | some dv =>
                  arith b (dv * 60) fun dv => arith b (dv * 60) fun dv => arith b (dv * 24) fun dv =>
                  arith b (secs + dv) fun secs =>
                  match ps with
                  | [] => .ok secs
                  | _ :: _ => .err

/-- `make_suffix_duration`, duration.rs 71-79. -/
def makeSuffix (b : Build) (n : Nat) (c : Char) : Res :=
  if c = 's' then .ok n
  else if c = 'm' then arith b (n * 60) .ok
  else if c = 'h' then arith b (n * 60) fun n => arith b (n * 60) .ok
  else if c = 'd' then arith b (n * 60) fun n => arith b (n * 60) fun n => arith b (n * 24) .ok
  else .err

/-- `parse_suffix_duration`, duration.rs 64-69: the leading run of numeric characters is the number, the *last*
character is the unit; whatever is in between is ignored. -/
def parseSuffix (t : CharTables) (b : Build) (src : List Char) : Res :=
  match src.getLast? with
  | none => .err
  | some c =>
    match parseU64 (src.takeWhile t.numeric) with
    | none => .err
    | some n => makeSuffix b n c

/-- `parse`, duration.rs 22-30. -/
def parse (t : CharTables) (b : Build) (src : List Char) : Res :=
  if ':' ∈ src then parseColon b src
  else if (src.getLast?.map t.alphabetic).getD false then parseSuffix t b src
  else .err

end Shpool.Duration
