import Verif.Trie.Model
/-!
# Model of the sentinel scanner

Source: `/repo/libshpool/src/daemon/shell_inject.rs` 220-254 (`SentinelScanner`),
`/repo/libshpool/src/daemon/shell.rs` 273-278 and 580-597 (its use on the shell's output),
`/repo/libshpool/src/daemon/shell_inject.rs` 168-197 (its use while waiting for the shell to start),
`/repo/libshpool/src/consts.rs` (the two sentinel texts).
-/

namespace Shpool.Sentinel

/-- `consts::PROMPT_SENTINEL`, consts.rs: the bytes of "SHPOOL_PROMPT_SETUP_SENTINEL". -/
def promptSentinel : List UInt8 :=
  [83, 72, 80, 79, 79, 76, 95, 80, 82, 79, 77, 80, 84, 95, 83, 69, 84, 85, 80, 95, 83, 69, 78, 84, 73, 78, 69, 76]

/-- `consts::STARTUP_SENTINEL`, consts.rs: the bytes of "SHPOOL_STARTUP_SENTINEL". -/
def startupSentinel : List UInt8 :=
  [83, 72, 80, 79, 79, 76, 95, 83, 84, 65, 82, 84, 85, 80, 95, 83, 69, 78, 84, 73, 78, 69, 76]

/-- `SentinelScanner`, shell_inject.rs 221-225. -/
structure Scanner where
  scanner : Trie UInt8 Unit
  cursor : TrieCursor
  numMatches : Nat

/-- `SentinelScanner::new`, shell_inject.rs 229-234. -/
def Scanner.new (sentinel : List UInt8) : Scanner :=
  { scanner := Trie.new.insert sentinel (), cursor := .start, numMatches := 0 }

/-- `SentinelScanner::transition`, shell_inject.rs 238-253.  The counter is a natural number (a `usize` would need
2^64 matches to overflow). -/
def Scanner.transition (s : Scanner) (byte : UInt8) : Scanner × Bool :=
  let cursor := s.scanner.advance s.cursor byte
  match cursor with
  | .noMatch => ({ s with cursor := .start }, false)
  | .match _ false => ({ s with cursor := .start, numMatches := s.numMatches + 1 }, s.numMatches + 1 = 1)
  | c => ({ s with cursor := c }, false)

/-- The filter state of the shell-to-client thread: `has_seen_prompt_sentinel` and `prompt_sentinel_scanner`
(shell.rs 273-278). -/
structure Filter where
  seen : Bool
  scan : Scanner

/-- The state at thread start, shell.rs 273-278. -/
def Filter.new (supportsSentinels : Bool) (sentinel : List UInt8) : Filter :=
  { seen := !supportsSentinels, scan := .new sentinel }

/-- The `for (i, byte) in buf.iter().enumerate()` loop, shell.rs 581-593.  `whole` is the buffer being iterated, `i` the
index of the next byte, `buf` the current value of the variable `buf` and `seen` of the flag. -/
def scanLoop (whole : List UInt8) : List UInt8 → Nat → Scanner → Bool → List UInt8 → Scanner × Bool × List UInt8
  | [], _, sc, seen, buf => (sc, seen, buf)
  | b :: bs, i, sc, seen, buf =>
    match sc.transition b with
    | (sc, true) => scanLoop whole bs (i + 1) sc true (whole.drop (i + 1))
    | (sc, false) => scanLoop whole bs (i + 1) sc seen buf

/-- One read of pty output, shell.rs 580-597: the new state and the text to process and show, `none` while the sentinel
has not been seen. -/
def Filter.read (f : Filter) (buf : List UInt8) : Filter × Option (List UInt8) :=
  if f.seen then (f, some buf)
  else
    match scanLoop buf buf 0 f.scan false buf with
    | (sc, true, rest) => ({ seen := true, scan := sc }, some rest)
    | (sc, false, _) => ({ seen := false, scan := sc }, none)

/-- A sequence of reads; the second component is everything shown, in order. -/
def Filter.reads : Filter → List (List UInt8) → Filter × List UInt8
  | f, [] => (f, [])
  | f, buf :: bufs =>
    match f.read buf with
    | (f', out) =>
      match f'.reads bufs with
      | (f'', rest) => (f'', out.getD [] ++ rest)

/-- The scanning loop of `wait_for_startup`, shell_inject.rs 187-196: `true` when the function returns `Ok`, that is, when
a transition reports the sentinel. -/
def startupSeen : Scanner → List UInt8 → Bool
  | _, [] => false
  | sc, b :: bs =>
    match sc.transition b with
    | (_, true) => true
    | (sc, false) => startupSeen sc bs

end Shpool.Sentinel
