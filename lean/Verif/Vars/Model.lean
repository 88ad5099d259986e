import Verif.Util.Lts
/-!
# Model of session variables

Sources: `/repo/libshpool/src/daemon/server.rs` 114-123 (defaults), 686-735 (`handle_get_vars`, `handle_modify_var`),
`/repo/libshpool/src/attach.rs` 101-139 (the client reads the variables, then attaches), `/repo/libshpool/src/daemon/shell.rs`
445-485 (a pushed state goes to the attached client, if there is one).

A transition system: any number of threads changing variables, any number of clients, one table of sessions.  The hash map is a
list of pairs without repeated names; its order, which is arbitrary in the code, is the order of insertion here.
-/

namespace Shpool.Vars

abbrev Str := List Char
abbrev Map := List (Str × Str)

/-- `HashMap::insert`. -/
def insert (k v : Str) : Map → Map
  | [] => [(k, v)]
  | (k', v') :: m => if k' = k then (k, v) :: m else (k', v') :: insert k v m

/-- `HashMap::remove`. -/
def remove (k : Str) (m : Map) : Map := m.filter (fun p => p.1 ≠ k)

/-- `HashMap::get`. -/
def get (k : Str) (m : Map) : Option Str := (m.find? (fun p => p.1 = k)).map (·.2)

/-- `into_iter().collect()` into a hash map, server.rs 114-123. -/
def collect (defaults : List (Str × Str)) : Map := defaults.foldl (fun m p => insert p.1 p.2 m) []

/-- A change: server.rs 707-711. -/
def change (k : Str) (v : Option Str) (m : Map) : Map :=
  match v with
  | some v => insert k v m
  | none => remove k m

/-- A thread in `handle_modify_var`: not started; the change is made, `m` is the state right after it (712-716); pushing it to
the sessions still to do (719-730); answered; ended without an answer. -/
inductive Thread where
  | idle
  | changed (m : Map)
  | pushing (m : Map) (todo : List Nat)
  | answered
  | failed
  deriving DecidableEq, Repr

/-- `table`: the sessions; `alive`: whether a session's shell-to-client thread runs; `view`: the variables known to the client
attached to a session; `known`: the variables a client has read and with which it is about to attach; `queue`: states
pushed to a session that its thread has not taken yet (the channel holds ten, server.rs 1118); `pushed`: all states pushed to a
session (history variable). -/
structure St where
  vars : Map
  thr : Nat → Thread
  table : List Nat
  alive : Nat → Bool
  view : Nat → Option Map
  known : Nat → Option Map
  queue : Nat → List Map
  pushed : Nat → List Map

def upd {α : Type} (f : Nat → α) (i : Nat) (x : α) : Nat → α := fun j => if j = i then x else f j

def init (defaults : List (Str × Str)) : St :=
  ⟨collect defaults, fun _ => .idle, [], fun _ => false, fun _ => none, fun _ => none, fun _ => [], fun _ => []⟩

inductive Label where
  | change (i : Nat) (k : Str) (v : Option Str)
  | gather (i : Nat)
  | push (i : Nat)
  | deliver (x : Nat)
  | pushFails (i : Nat)
  | answer (i : Nat)
  | fetch (c : Nat)
  | create (x : Nat)
  | attach (c x : Nat)
  | detach (x : Nat)
  | exit (x : Nat)
  | remove (x : Nat)
  deriving DecidableEq, Repr

def step (s : St) : Label → Option St
  -- under the lock of the variables, server.rs 705-717
  | .change i k v =>
    if s.thr i = .idle then
      let m := change k v s.vars
      some { s with vars := m, thr := upd s.thr i (.changed m) }
    else none
  -- under the lock of the table, server.rs 720-725
  | .gather i => match s.thr i with
    | .changed m => some { s with thr := upd s.thr i (.pushing m s.table) }
    | _ => none
  -- the state is put into the session's channel, server.rs 727-729
  | .push i => match s.thr i with
    | .pushing m (x :: todo) =>
      if s.alive x = true ∧ (s.queue x).length < 10 then
        some { s with
          thr := upd s.thr i (.pushing m todo)
          queue := upd s.queue x (s.queue x ++ [m])
          pushed := upd s.pushed x (s.pushed x ++ [m]) }
      else none
    | _ => none
  -- the session's thread takes a state and shows it to the client, if there is one, shell.rs 445-485
  | .deliver x => match s.queue x with
    | m :: q =>
      some { s with
        queue := upd s.queue x q
        view := if (s.view x).isSome then upd s.view x (some m) else s.view }
    | [] => none
  -- the session's thread is gone, or its channel is full for 500 ms: `?` leaves the handler, server.rs 728-730
  | .pushFails i => match s.thr i with
    | .pushing _ (_ :: _) => some { s with thr := upd s.thr i .failed }
    | _ => none
  | .answer i => match s.thr i with
    | .pushing _ [] => some { s with thr := upd s.thr i .answered }
    | _ => none
  -- `handle_get_vars`, server.rs 687-698; attach.rs 107-110
  | .fetch c => some { s with known := upd s.known c (some s.vars) }
  -- a new session, not yet in the table
  | .create x => if x ∈ s.table then none else some { s with table := s.table ++ [x], alive := upd s.alive x true }
  -- the client attaches with what it has read
  | .attach c x => match s.known c with
    | some m =>
      if x ∈ s.table ∧ s.alive x = true ∧ s.view x = none then
        some { s with known := upd s.known c none, view := upd s.view x (some m) }
      else none
    | none => none
  | .detach x => some { s with view := upd s.view x none }
  -- the shell exits while nobody is attached: its thread ends, the session stays in the table
  | .exit x => if s.view x = none then some { s with alive := upd s.alive x false, queue := upd s.queue x [] } else none
  -- the session is removed from the table (shell exited, killed, expired); its thread ends
  | .remove x => some { s with table := s.table.erase x, alive := upd s.alive x false, view := upd s.view x none, queue := upd s.queue x [] }

def Run (d : List (Str × Str)) (ls : List Label) (s : St) : Prop := runSteps step (init d) ls = some s

end Shpool.Vars
