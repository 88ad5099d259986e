import Verif.Pipe.Model
/-!
# Model of signals arriving at the attach process

Sources: `/repo/libshpool/src/attach.rs` 427-499 (`SignalHandler`: the signal SIGWINCH, sent when the terminal is resized, is handled),
`/repo/libshpool/src/protocol.rs` 279-288 and 320-330 (the two calls of `poll`, whose errors end the thread).

This layer is put on top of the client's main loop (`Verif/Pipe`).  A signal is sent to the process, and the kernel chooses the thread
that is interrupted by it.  It is not sent to a thread that blocks it, and a thread blocks it while it runs the handler for it.
POSIX allows any other thread; Linux takes the main thread unless that blocks the signal (`complete_signal` in kernel/signal.c).  A
signal that is sent again before it was taken by a thread is merged with the first.

The handler is installed by the crate signal-hook, with `SA_RESTART`: it raises a flag and wakes the thread that is reading from the
iterator (attach.rs 441-455).  An interrupted `read` or `write` is restarted, an interrupted sleep is continued by the standard
library; an interrupted `poll` is never restarted by the kernel (signal(7)) and returns the error EINTR.

Simplifications: whether a thread that is past its check of the result is waiting in `poll` or doing something else is chosen by
the label.  A resize request (attach.rs 461-499) is two steps: taking the flag, and reading the terminal's size and telling it; that
it is handled is in `Verif/Winch` and `Verif/Sizes`.  The size of the terminal is the number of times it was changed.  The process
exits when the main thread is done (a switch to another session is not followed).
-/

namespace Shpool.Intr

/-- The threads of the process: the main thread, stdin-to-socket, socket-to-stdout, and the one of attach.rs 441. -/
inductive Thr where
  | main
  | inp
  | out
  | iter
  deriving DecidableEq, Repr

/-- What is assumed, or changed: Linux's choice of the thread; `poll` called again when it was interrupted. -/
structure Params where
  linux : Bool
  again : Bool

/-- The program as it is, on Linux. -/
def real : Params := ⟨true, false⟩

structure St where
  pipe : Pipe.St
  /-- the signal was sent and no thread has taken it -/
  pending : Bool
  /-- the threads that are in the handler; `some true`: when it returns, `poll` fails -/
  handler : Thr → Option Bool
  /-- the flag of the iterator -/
  flag : Bool
  /-- the thread of attach.rs 441 has taken the flag and is to tell the size -/
  telling : Bool
  /-- the size of the terminal, and the one last told to the daemon -/
  size : Nat
  told : Nat

def init : St where
  pipe := Pipe.init
  pending := false
  handler := fun _ => none
  flag := false
  telling := false
  size := 0
  told := 0

inductive Label where
  /-- the terminal is resized -/
  | resize
  /-- a thread takes the signal; whether it was waiting in `poll` -/
  | deliver (t : Thr) (inPoll : Bool)
  /-- the handler returns -/
  | ret (t : Thr)
  | take
  | tell
  | pipe (l : Pipe.Label)
  deriving DecidableEq, Repr

/-- Replaces one value of a function. -/
def upd (f : Thr → Option Bool) (t : Thr) (v : Option Bool) : Thr → Option Bool := fun u => if u = t then v else f u

/-- The process has exited, protocol.rs 473-517 and attach.rs 233. -/
def over (s : Pipe.St) : Bool :=
  match s.main with
  | .done _ | .hardExit _ => true
  | _ => false

/-- Whether the thread exists, protocol.rs 265-391. -/
def alive (s : Pipe.St) : Thr → Bool
  | .inp => s.inp != .finished
  | .out => s.out != .finished
  | .main | .iter => true

/-- Whether the thread can be waiting in `poll`, protocol.rs 281 and 323. -/
def canPoll (s : Pipe.St) : Thr → Bool
  | .inp => s.inp = .reading
  | .out => s.out = .reading
  | .main | .iter => false

/-- The thread that performs a step of the main loop. -/
def who : Pipe.Label → Thr
  | .inCheck | .inTimeout | .inData .. | .inEof | .inError => .inp
  | .outCheck | .outTimeout | .outRecv _ | .outError | .outHandle .. => .out
  | .mainWake | .graceEnd _ | .stamp | .wait2End _ => .main

/-- What a failing `poll` does: `context("polling stdin")?` ends the thread, protocol.rs 281-282 and 323-324. -/
def pollFails (s : Pipe.St) : Thr → Option Pipe.St
  | .inp => Pipe.step s .inError
  | .out => Pipe.step s .outError
  | .main | .iter => some s

def stepOf (P : Params) (s : St) : Label → Option St
  | .resize => if over s.pipe then none else some { s with pending := true, size := s.size + 1 }
  | .deliver t b =>
    if over s.pipe = false ∧ s.pending = true ∧ s.handler t = none ∧ alive s.pipe t = true ∧ (b = true → canPoll s.pipe t = true) ∧
        (P.linux = true → t = .main ∨ s.handler .main ≠ none) then
      some { s with pending := false, handler := upd s.handler t (some b) }
    else none
  | .ret t =>
    if over s.pipe then none else
    match s.handler t with
    | none => none
    | some b =>
      match (if b && !P.again then pollFails s.pipe t else some s.pipe) with
      | none => none
      | some p => some { s with pipe := p, flag := true, handler := upd s.handler t none }
  -- attach.rs 442; the flag is taken first
  | .take =>
    if over s.pipe = false ∧ s.flag = true ∧ s.telling = false ∧ s.handler .iter = none then some { s with flag := false, telling := true }
    else none
  -- attach.rs 461-484
  | .tell =>
    if over s.pipe = false ∧ s.telling = true ∧ s.handler .iter = none then some { s with telling := false, told := s.size } else none
  | .pipe l =>
    if over s.pipe = false ∧ s.handler (who l) = none then
      match Pipe.step s.pipe l with
      | none => none
      | some p => some { s with pipe := p }
    else none

/-- The steps of the process as it is, on Linux. -/
abbrev step : St → Label → Option St := stepOf real

def RunOf (P : Params) (ls : List Label) (s : St) : Prop := runSteps (stepOf P) init ls = some s

abbrev Run : List Label → St → Prop := RunOf real

end Shpool.Intr
