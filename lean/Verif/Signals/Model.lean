import Verif.Util.Lts
/-!
# Model of ending the daemon by a signal

Sources: `/repo/libshpool/src/daemon/signals.rs` 25-76, `/repo/libshpool/src/daemon/mod.rs` 94-103 (which files are removed, and when the
handlers are installed).

A transition system: the main thread installs the handlers one after the other, signals arrive at any time, and the thread started last
removes the files.  The crate `signal-hook` is modelled from its documentation: once an action is registered for a signal, the default
effect of the signal is gone, and the registered actions run in the order of their registration; `Signals` remembers signals from the
moment it has registered for them.  Files are numbered; a file is removed, or somebody else has removed it, or removing it fails.
-/

namespace Shpool.Signals

/-- `TERM_SIGNALS`. -/
inductive Sig where
  | term | quit | int
  deriving DecidableEq, Repr

def termSignals : List Sig := [.term, .quit, .int]

/-- The actions registered for a signal. -/
inductive Action where
  /-- `register_conditional_shutdown(sig, 1, term_now)`, signals.rs 45 -/
  | shutdown
  /-- `register(sig, term_now)`, signals.rs 49 -/
  | arm
  /-- `Signals::new`, signals.rs 52 -/
  | note
  deriving DecidableEq, Repr

/-- What the main thread still has to do in `spawn`. -/
inductive Todo where
  | reg (s : Sig) (a : Action)
  | thread
  deriving DecidableEq, Repr

/-- `Handler::spawn`, signals.rs 42-76, in the order of the code. -/
def spawn : List Todo :=
  termSignals.flatMap (fun s => [.reg s .shutdown, .reg s .arm]) ++ termSignals.map (fun s => .reg s .note) ++ [.thread]

/-- The signal thread, signals.rs 53-74: not started; waiting; removing the files that are left to do. -/
inductive Thread where
  | off
  | waiting
  | removing (files : List Nat)
  deriving DecidableEq, Repr

/-- How the process ended: exit status, or the signal's default effect. -/
inductive Ending where
  | exit (status : Nat)
  | killed
  deriving DecidableEq, Repr

/-- `todo`: the main thread's; `acts`: what is registered; `armed`: `term_now`; `pending`: a remembered signal; `socks`:
`socks_to_clean`; `files`: those that exist; `failed`: those whose removal failed (history). -/
structure St where
  todo : List Todo
  acts : Sig → List Action
  armed : Bool
  pending : Bool
  thr : Thread
  socks : List Nat
  files : List Nat
  failed : List Nat
  ended : Option Ending

def init (socks : List Nat) : St := ⟨spawn, fun _ => [], false, false, .off, socks, socks, [], none⟩

inductive Label where
  /-- the main thread's next step in `spawn` -/
  | next
  | signal (s : Sig)
  /-- the iterator yields a signal, signals.rs 58 -/
  | wake
  /-- one `remove_file`, signals.rs 62-69; `ok` is false if it fails although the file is there -/
  | remove (ok : Bool)
  /-- `exit(0)`, signals.rs 72 -/
  | leave
  deriving DecidableEq, Repr

/-- The actions of a signal, in order; a shutdown ends the process. -/
def runActs : List Action → St → St
  | [], s => s
  | .shutdown :: as, s => if s.armed then { s with ended := some (.exit 1) } else runActs as s
  | .arm :: as, s => runActs as { s with armed := true }
  | .note :: as, s => runActs as { s with pending := true }

def step (s : St) (l : Label) : Option St :=
  if s.ended.isSome then none else
  match l with
  | .next =>
    match s.todo with
    | [] => none
    | .reg x a :: todo => some { s with todo := todo, acts := fun y => if y = x then s.acts x ++ [a] else s.acts y }
    | .thread :: todo => some { s with todo := todo, thr := .waiting }
  | .signal x =>
    match s.acts x with
    | [] => some { s with ended := some .killed }
    | as => some (runActs as s)
  | .wake => if s.thr = .waiting ∧ s.pending then some { s with thr := .removing s.socks, pending := false } else none
  | .remove ok =>
    match s.thr with
    | .removing (f :: fs) =>
      if ok then some { s with thr := .removing fs, files := s.files.filter (· ≠ f) }
      else some { s with thr := .removing fs, failed := f :: s.failed }
    | _ => none
  | .leave => if s.thr = .removing [] then some { s with ended := some (.exit 0) } else none

/-- `s` is reachable by the steps `ls`, if the files `socks` are to be removed. -/
def Run (socks : List Nat) (ls : List Label) (s : St) : Prop := runSteps step (init socks) ls = some s

end Shpool.Signals
