import Verif.Util.Lts
/-!
# Model of typing while a client goes from one session to another

Sources: `/repo/libshpool/src/attach.rs` 119-136 (the loop of `Attach::run`), 226-237 (`attach_resolved`); `/repo/libshpool/src/protocol.rs`
251-302 (`pipe_bytes`: the settings of the terminal, the thread that reads standard input), 374-387 (a switch is accepted), 393-517 (the end);
`/repo/libshpool/src/tty.rs` 93-141 (`set_attach_flags`, its guard; both use `TCSANOW`, which keeps what has been typed).

A transition system of the user's terminal and the client: each call of `pipe_bytes` sets the terminal to raw mode and, at its end, gives it
its former settings back; between two calls it has these.  The terminal is the line discipline of Linux (`n_tty.c`): what was typed
and is not read yet is kept when the settings change; in canonical mode the current line can be edited.

Simplifications: writing to the daemon succeeds; what is typed is not longer than the terminal's buffer.  The former settings are a
parameter (what a typed character does to the current line); `sane` are the usual ones.
-/

namespace Shpool.Switch

/-- What a character typed with the former settings does to the current line. -/
inductive Effect where
  /-- the line is now this -/
  | line (l : List UInt8)
  /-- the line has ended, with this content -/
  | ended (l : List UInt8)
  /-- the processes on the terminal get a signal (interrupt, quit, stop) -/
  | signal
  deriving DecidableEq, Repr

/-- The usual settings (ICANON, ISIG, ICRNL, the usual characters), `n_tty_receive_char_special`: ^C, ^\\, ^Z; return and newline; ^D, which
ends the line and is kept as a zero; backspace; ^U; all others as they are.  (^W, ^V, ^R, ^S and ^Q are left out.) -/
def sane (l : List UInt8) (c : UInt8) : Effect :=
  if c = 3 ∨ c = 28 ∨ c = 26 then .signal
  else if c = 13 ∨ c = 10 then .ended (l ++ [10])
  else if c = 4 then .ended (l ++ [0])
  else if c = 127 then .line l.dropLast
  else if c = 21 then .line []
  else .line (l ++ [c])

/-- Where the client is. -/
inductive Phase where
  /-- the thread that reads standard input is about to look at the result, protocol.rs 271-276 -/
  | top
  /-- it waits for input, protocol.rs 278-287 -/
  | reading
  /-- it has returned -/
  | done
  /-- `pipe_bytes` has returned; the client attaches to the next session, attach.rs 121-136 -/
  | between
  /-- ended or stopped by a signal -/
  | gone
  deriving DecidableEq, Repr

/-- `queue`: what has been typed and can be read; `line`: the line being edited; `cur`: the number of the session the client is attached to
(or was, between two); `switch`: a switch was accepted; `sent`: what was sent to which session; `typed`: all that was typed. -/
structure St where
  phase : Phase
  raw : Bool
  queue : List UInt8
  line : List UInt8
  cur : Nat
  switch : Bool
  sent : List (Nat × List UInt8)
  typed : List UInt8
  deriving DecidableEq, Repr

def init : St := ⟨.top, true, [], [], 0, false, [], []⟩

inductive Label where
  | type (c : UInt8)
  /-- a switch hint leads to another name, protocol.rs 381-385 -/
  | hint
  | check
  | timeout
  /-- `n` bytes are read and written to the socket, protocol.rs 289-299 -/
  | read (n : Nat)
  /-- both threads have ended; the settings are given back, protocol.rs 393-517, tty.rs 133-141 -/
  | leave
  /-- the next session is attached to, and the terminal set to raw mode again, protocol.rs 257 -/
  | enter
  deriving DecidableEq, Repr

/-- A step.  `tty`: the standard descriptors are terminals (otherwise the settings are not touched, tty.rs 97-100, and nothing is done to
what is typed); `cooked`: the former settings. -/
def step (tty : Bool) (cooked : List UInt8 → UInt8 → Effect) (s : St) : Label → Option St
  | .type c =>
    if s.phase = .gone then none
    else if s.raw = true ∨ tty = false then some { s with queue := s.queue ++ [c], typed := s.typed ++ [c] }
    else match cooked s.line c with
      | .line l => some { s with line := l, typed := s.typed ++ [c] }
      | .ended l => some { s with queue := s.queue ++ l, line := [], typed := s.typed ++ [c] }
      | .signal => some { s with phase := .gone, typed := s.typed ++ [c] }
  | .hint => if s.phase = .top ∨ s.phase = .reading then some { s with switch := true } else none
  | .check => if s.phase = .top then some { s with phase := if s.switch then .done else .reading } else none
  | .timeout => if s.phase = .reading then some { s with phase := .top } else none
  | .read n =>
    if s.phase = .reading ∧ 0 < n ∧ n ≤ s.queue.length then
      some { s with phase := .top, sent := s.sent ++ [(s.cur, s.queue.take n)], queue := s.queue.drop n }
    else none
  | .leave => if s.phase = .done then some { s with phase := .between, raw := false } else none
  | .enter =>
    if s.phase = .between then
      -- what there is of a line can be read now
      some { s with phase := .top, raw := true, queue := s.queue ++ s.line, line := [], cur := s.cur + 1, switch := false }
    else none

def Run (tty : Bool) (cooked : List UInt8 → UInt8 → Effect) (ls : List Label) (s : St) : Prop := runSteps (step tty cooked) init ls = some s

end Shpool.Switch
