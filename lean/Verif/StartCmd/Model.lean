import Verif.Util.Lts
/-!
# Model of the commands typed ahead into a new shell

Sources: `/repo/libshpool/src/daemon/shell_inject.rs` 57-144 (`maybe_setup`: the setup, the start command and the command that prints the
marker are written to the shell's terminal at once), 147-230 (`wait_for_startup`), `/repo/libshpool/src/daemon/server.rs` 1078-1104 (a failed
setup is only logged), `/repo/libshpool/src/daemon/shell.rs` 578-626 (nothing is shown before the marker), `/repo/libshpool/src/lib.rs` 172-190
(`--start-cmd`).

The input of the session's terminal is one queue of lines.  Who takes a line from it is whoever reads from the terminal: the shell at its
prompt, but a program that runs in the foreground if it reads its input.  A program can also throw away what was typed ahead (as
programs do that ask for a password or change the settings of the terminal).

Simplifications: lines are taken as a whole; what a shell makes of a line is in the kind of line; an unfinished command (such as one with
an open quote) is one that takes a line of input; output is numbered.  The time the daemon waits for the shell's start is left open: it can give
up at any time before the start was noticed.
-/

namespace Shpool.StartCmd

/-- A command: whether it reads its terminal, whether it throws away what was typed ahead, whether it comes back to the shell's prompt (one
that replaces the shell, such as `exec top`, does not). -/
structure Cmd where
  reads : Bool
  flushes : Bool
  ends : Bool
  deriving DecidableEq, Repr

/-- What is typed. -/
inductive Line where
  /-- the command that prints the startup marker (shell_inject.rs 152-156) -/
  | startup
  /-- the setup of the prompt (shell_inject.rs 74-120) -/
  | setup
  /-- a start command, or what the user types -/
  | cmd (c : Cmd)
  /-- the command that prints the prompt marker (shell_inject.rs 128-136) -/
  | marker
  deriving DecidableEq, Repr

/-- Where the daemon is: in `wait_for_startup`, done with the script (the client is connected then), or done without it. -/
inductive Phase where
  | waiting
  | typed
  | gaveUp
  deriving DecidableEq, Repr

/-- `rc`: what the start files of the shell do; `before`, `after`: the lines of the start command typed before and after the marker. -/
structure Params where
  rc : Cmd
  before : List Cmd
  after : List Cmd

/-- The program: the start command comes before the marker (shell_inject.rs 122-136). -/
def program (rc : Cmd) (startCmd : List Cmd) : Params := ⟨rc, startCmd, []⟩

/-- What it could do: the marker first. -/
def markerFirst (rc : Cmd) (startCmd : List Cmd) : Params := ⟨rc, [], startCmd⟩

/-- The terminal, the shell, and what of the output is shown (shell.rs 578-626). -/
structure St where
  phase : Phase
  queue : List Line
  /-- what runs in the foreground; `none`: the shell is at its prompt -/
  running : Option Cmd
  /-- the startup marker was printed -/
  noticed : Bool
  /-- the prompt marker was printed -/
  shown : Bool
  seen : List Nat
  hidden : List Nat
  deriving DecidableEq, Repr

/-- The shell was started, runs its start files, and the first command was typed (shell_inject.rs 154-156). -/
def init (P : Params) : St := ⟨.waiting, [.startup], some P.rc, false, false, [], []⟩

/-- What happens. -/
inductive Label where
  /-- the shell takes a line -/
  | shell
  /-- the program in the foreground takes a line -/
  | take
  /-- it throws away what was typed ahead -/
  | flush
  /-- it comes back -/
  | finish
  /-- something is printed -/
  | print (x : Nat)
  /-- the daemon types the script (shell_inject.rs 122-139) -/
  | script
  /-- the daemon has waited too long (shell_inject.rs 166-175) -/
  | giveUp
  /-- the user types a command -/
  | type (c : Cmd)
  deriving DecidableEq, Repr

/-- What `maybe_setup` types after the start was noticed (shell_inject.rs 74-139). -/
def scriptOf (P : Params) : List Line := .setup :: P.before.map .cmd ++ .marker :: P.after.map .cmd

/-- One step. -/
def step (P : Params) (s : St) : Label → Option St
  | .shell =>
    match s.running, s.queue with
    | none, .startup :: q => some { s with queue := q, noticed := true }
    | none, .setup :: q => some { s with queue := q }
    | none, .cmd c :: q => some { s with queue := q, running := some c }
    | none, .marker :: q => some { s with queue := q, shown := true }
    | _, _ => none
  | .take =>
    match s.running, s.queue with
    | some c, _ :: q => if c.reads then some { s with queue := q } else none
    | _, _ => none
  | .flush =>
    match s.running with
    | some c => if c.flushes then some { s with queue := [] } else none
    | none => none
  | .finish =>
    match s.running with
    | some c => if c.ends then some { s with running := none } else none
    | none => none
  | .print x => some (if s.shown then { s with seen := s.seen ++ [x] } else { s with hidden := s.hidden ++ [x] })
  | .script => if s.phase = .waiting ∧ s.noticed = true then some { s with phase := .typed, queue := s.queue ++ scriptOf P } else none
  | .giveUp => if s.phase = .waiting ∧ s.noticed = false then some { s with phase := .gaveUp } else none
  | .type c => if s.phase = .waiting then none else some { s with queue := s.queue ++ [.cmd c] }

/-- The runs. -/
def Run (P : Params) (ls : List Label) (s : St) : Prop := runSteps (step P) (init P) ls = some s

end Shpool.StartCmd
