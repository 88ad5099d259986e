import Verif.Util.Lts
/-!
# The log: which messages are written, where they go, and what becomes of a log file that several processes open

Models `libshpool/src/lib.rs` 341-359 (`LogWriterBuilder`), 386-416 (the filter by the count of `-v`, the log file made with
`File::create`), `libshpool/src/daemon/server.rs` 663-684 (`handle_set_log_level`) and `shpool-protocol/src/lib.rs` 107-117
(`LogLevel`).  One log file is looked at, and any number of `shpool` processes, daemons and clients, that come and go; each of
them has been given that file with `--log-file` or has not.  Processes given another file do not matter to this one and are
left out.

A process opens its log file once, when it starts, with `File::create`: the file is emptied, and the process writes from
position 0 on, each write going to where its own last one ended (the file is not opened for appending).  A write beyond the
end of the file leaves bytes of value 0 in between, one before the end writes over what is there.

Simplified: a message is the text `tracing_subscriber` makes of it, a whole line; it is written with one `write_all` while the
lock of the log file is held (lib.rs 351), so it is one step here.  Writes that fail (a full disk) are left out.  Changing the
level (`modify` on the reload handle) takes effect for all threads at once; it fails only if the subscriber is gone or its
lock is poisoned, and is taken to succeed.
-/

namespace Shpool.Logs

/-- The level of a message (`tracing::Level`). -/
inductive Level where
  | error | warn | info | debug | trace
  deriving DecidableEq, Repr

/-- The filter (`tracing_subscriber::filter::LevelFilter`). -/
inductive Filter where
  | off | error | warn | info | debug | trace
  deriving DecidableEq, Repr

/-- The level a client asks for (`shpool-protocol/src/lib.rs` 107-117). -/
inductive Asked where
  | off | error | warn | info | debug | trace
  deriving DecidableEq, Repr

/-- The order of message levels in `tracing`: the more talkative, the larger. -/
def Level.rank : Level → Nat
  | .error => 1
  | .warn => 2
  | .info => 3
  | .debug => 4
  | .trace => 5

/-- The same order for filters. -/
def Filter.rank : Filter → Nat
  | .off => 0
  | .error => 1
  | .warn => 2
  | .info => 3
  | .debug => 4
  | .trace => 5

/-- Does the filter let a message pass (`LevelFilter::enabled`: the message's level is at most the filter's)? -/
def Filter.lets (f : Filter) (l : Level) : Bool := decide (l.rank ≤ f.rank)

/-- `handle_set_log_level`, daemon/server.rs 669-676. -/
def Asked.filter : Asked → Filter
  | .off => .off
  | .error => .error
  | .warn => .warn
  | .info => .info
  | .debug => .debug
  | .trace => .trace

/-- The filter a process begins with, by the count of `-v` (lib.rs 386-392). -/
def startFilter (verbose : Nat) : Filter :=
  if verbose = 0 then .info else if verbose = 1 then .debug else .trace

/-- Where the messages of a process go (`make_writer`, lib.rs 349-358): to the log file at the given position, to its standard
error, or nowhere. -/
inductive Dest where
  | file (pos : Nat)
  | stderr
  | nowhere
  deriving DecidableEq, Repr

/-- lib.rs 350-357: the log file if one was given, else standard error for a daemon, else nothing. -/
def dest (daemon logFile : Bool) : Dest :=
  if logFile then .file 0 else if daemon then .stderr else .nowhere

/-- A running process: its filter, whether it is a daemon, where its messages go. -/
structure Proc where
  filter : Filter
  daemon : Bool
  dest : Dest

/-- The log file (no such file is the same as an empty one here), the running processes, and what each process has put on its
standard error since it started. -/
structure St where
  file : List UInt8
  proc : Nat → Option Proc
  err : Nat → List UInt8

/-- Nothing has happened yet; what is in the file is from an earlier time. -/
def init (old : List UInt8) : St := { file := old, proc := fun _ => none, err := fun _ => [] }

/-- Changing a function in one place. -/
def upd {α : Type} (f : Nat → α) (p : Nat) (a : α) : Nat → α := fun q => if q = p then a else f q

/-- What `write(2)` makes of a file: the text goes to position `pos`. -/
def writeAt (file : List UInt8) (pos : Nat) (text : List UInt8) : List UInt8 :=
  (file.take pos ++ List.replicate (pos - file.length) 0) ++ text ++ file.drop (pos + text.length)

/-- What can happen. -/
inductive Label where
  /-- process `p` starts, with `-v` given `verbose` times, as a daemon or not, with this log file or not (lib.rs 386-416) -/
  | start (p verbose : Nat) (daemon logFile : Bool)
  /-- process `p` has something to say -/
  | log (p : Nat) (l : Level) (text : List UInt8)
  /-- the daemon `p` is asked for another level (server.rs 663-684) -/
  | setLevel (p : Nat) (a : Asked)
  /-- process `p` ends -/
  | exit (p : Nat)
  deriving DecidableEq, Repr

/-- One step. -/
def step (s : St) : Label → Option St
  | .start p verbose daemon logFile =>
    match s.proc p with
    | some _ => none
    | none => some {
        file := if logFile then [] else s.file
        proc := upd s.proc p (some { filter := startFilter verbose, daemon := daemon, dest := dest daemon logFile })
        err := upd s.err p [] }
  | .log p l text =>
    match s.proc p with
    | none => none
    | some r =>
      if r.filter.lets l then
        match r.dest with
        | .file pos => some { s with
            file := writeAt s.file pos text
            proc := upd s.proc p (some { r with dest := .file (pos + text.length) }) }
        | .stderr => some { s with err := upd s.err p (s.err p ++ text) }
        | .nowhere => some s
      else some s
  | .setLevel p a =>
    match s.proc p with
    | none => none
    | some r => if r.daemon then some { s with proc := upd s.proc p (some { r with filter := a.filter }) } else none
  | .exit p =>
    match s.proc p with
    | none => none
    | some _ => some { s with proc := upd s.proc p none }

/-- From a file with the content `old` and no process the steps `ls` lead to `s`. -/
def Run (old : List UInt8) (ls : List Label) (s : St) : Prop := runSteps step (init old) ls = some s

end Shpool.Logs
