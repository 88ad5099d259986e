import Verif.Server.Model
/-!
# Model of who holds the connection of an attached client

Sources: `/repo/libshpool/src/daemon/server.rs` 242-397 (`handle_attach`), 400-571 (`select_shell_desc`), 1132-1183 (`spawn_subshell`),
625-662 (`handle_detach`); `/repo/libshpool/src/daemon/shell.rs` 157-172 (`SessionInner`), 174-200, 316-400 (the messages of the
shell-to-client thread), 614-626 (a failed write), 655-800 (`bidi_stream`).

The transition system of the session table, with the handles (`UnixStream` and its clones) of the connection of every attach request.
A handle is in one of three places: in the hands of the request (the argument of `handle_attach`, later the variables of `bidi_stream`
and of its threads), in the session (`client_stream` of `SessionInner`) or in the shell-to-client thread of the session.  A connection is
open until its last handle is dropped or one is shut down.  The client has no time limit for reading (protocol.rs 196-203), so it
waits as long as its connection is open.

Simplifications: several clones at one place count as one.  The number of a request is the number of its connection.  A shutdown succeeds.
The reply "busy" is written.  A request whose disconnect message was taken but acknowledged late ends at once (its threads may first have to
wait for the thread to get to the shutdown, which is a step here).
-/

namespace Shpool.Conns
open Shpool.Server

/-- `hand`: the connection the request has a handle of; `slot`: the one in the session; `relay`: the one the shell-to-client thread of
the session writes to; `due`: the thread has a disconnect message it has not dealt with; `shut`: the connection was shut down. -/
structure CSt where
  base : St
  hand : Nat → Option Nat
  slot : Nat → Option Nat
  relay : Nat → Option Nat
  due : Nat → Bool
  shut : Nat → Bool

/-- Every request comes with its connection. -/
def cinit : CSt := ⟨init, fun t => some t, fun _ => none, fun _ => none, fun _ => false, fun _ => false⟩

/-- The session itself (`Arc<Mutex<SessionInner>>`) is kept by the table and by the request that has its lock (`ArcMutexGuard`). -/
def held (s : St) (x : Nat) : Bool := s.table.any (fun p => p.2 == x) || (s.sess x).owner.isSome

/-- A session that is not kept any more is dropped, with what is in it. -/
def sweep (s s' : St) (slot : Nat → Option Nat) : Nat → Option Nat :=
  fun x => if held s x && !held s' x then none else slot x

/-- The session whose `client_stream` is set, server.rs 446: one whose lock is free and whose shell runs, even if its thread has ended. -/
def takes (s : St) (n : Name) : Option Nat :=
  match find n s.table with
  | none => none
  | some x => if (s.sess x).owner.isNone && (s.sess x).alive then some x else none

/-- The sessions that get the message of a detach request, server.rs 631-656: up to the first whose thread is gone. -/
def reached (s : St) (names : List Name) : List Nat :=
  (names.takeWhile fun n => match find n s.table with
    | none => true
    | some x => (s.sess x).s2c).filterMap fun n => find n s.table

/-- The threads of the sessions shut down their clients and drop them, shell.rs 322-328, 357-364, 372-386. -/
def dismiss (c : CSt) (xs : List Nat) : CSt :=
  { c with
    relay := fun x => if x ∈ xs then none else c.relay x
    shut := fun k => c.shut k || xs.any (fun x => c.relay x == some k) }

/-- The session a request holds. -/
def servedBy (s : St) (t : Nat) : Option Nat :=
  match s.thr t with
  | .owns _ x | .streaming _ x => some x
  | _ => none

/-- What a step does to the handles; `s'` is the table after it. -/
def moved (c : CSt) (s' : St) : Label → CSt
  -- server.rs 446; 509-510 (busy); 469-487 (`stream` is dropped at the return); 498-502 (an error, `stream` is dropped)
  | .select t n _ =>
    let c := match takes c.base n with
      | some x => { c with slot := upd c.slot x (some t) }
      | none => c
    match s'.thr t with
    | .making _ => c
    | .done .busy => { c with hand := upd c.hand t none, shut := upd c.shut t true }
    | _ => { c with hand := upd c.hand t none }
  -- server.rs 1134
  | .spawn t => { c with slot := upd c.slot c.base.next (c.hand t), hand := upd c.hand t none }
  | .spawnFails t => { c with hand := upd c.hand t none }
  -- shell.rs 667-698: the thread gets its handles; its old client, if any, is dismissed (322-328)
  | .start t =>
    match servedBy c.base t with
    | none => c
    | some x =>
      let k := c.slot x
      let c := dismiss c [x]
      { c with slot := upd c.slot x none, hand := upd c.hand t k, relay := upd c.relay x k }
  -- the variables of the thread are dropped
  | .s2cEnds x => { c with relay := upd c.relay x none, due := upd c.due x false }
  | .detach names => dismiss c (reached c.base names)
  | _ => c

/-- What became of the disconnect message at the end of `bidi_stream`, shell.rs 744-771: acknowledged; not taken in time (then the
stream is shut down here, 764); taken, but not acknowledged in time (then the error ends `bidi_stream`, 766-767). -/
inductive How where
  | answered
  | unsent
  | late
  deriving DecidableEq, Repr

inductive CLabel where
  /-- a step of the table (those of `startFails` and `ends` are not taken this way) -/
  | base (l : Label)
  /-- `bidi_stream` fails before it starts its threads, shell.rs 672-698; `handed`: its message was taken, only the acknowledgement was late -/
  | startFails (t : Nat) (handed : Bool)
  /-- `bidi_stream` ends; `child`: since the shell has exited -/
  | ends (t : Nat) (child : Bool) (how : How)
  /-- the thread deals with a late message -/
  | catchUp (x : Nat)
  /-- the thread fails to write to its client and forgets it, shell.rs 617-624 -/
  | drops (x : Nat)
  deriving DecidableEq, Repr

/-- The conditions of a step beyond those of the table: `bidi_stream` needs a client stream (shell.rs 667; without one the request ends
early, server.rs 294) and a thread that takes its message. -/
def allowed (c : CSt) : Label → Bool
  | .start t => match servedBy c.base t with
    | none => false
    | some x => (c.slot x).isSome && (c.base.sess x).s2c && !c.due x
  | .clientGone _ | .childDone _ => false
  | _ => true

/-- A step of the table, and what it does to the handles. -/
def after (c : CSt) (s' : St) (l : Label) : CSt :=
  let c' := moved c s' l
  { c' with base := s', slot := sweep c.base s' c'.slot }

def cstep (c : CSt) : CLabel → Option CSt
  | .base l =>
    if allowed c l then
      match step c.base l with
      | none => none
      | some s' => some (after c s' l)
    else none
  | .startFails t handed =>
    match servedBy c.base t, runSteps step c.base [.start t, .clientGone t] with
    | some x, some s' =>
      if (c.slot x).isSome && (!handed || ((c.base.sess x).s2c && !c.due x)) then
        if handed then
          let k := c.slot x
          let c := dismiss c [x]
          some { c with base := s', slot := upd c.slot x none, relay := upd c.relay x k }
        else some { c with base := s', slot := upd c.slot x none }
      else none
    | _, _ => none
  | .ends t child how =>
    match servedBy c.base t, step c.base (if child ∧ how ≠ .late then .childDone t else .clientGone t) with
    | some x, some s' =>
      match how with
      | .answered =>
        if (c.base.sess x).s2c && !c.due x then
          let c := dismiss c [x]
          some { c with base := s', hand := upd c.hand t none }
        else none
      | .unsent =>
        some { c with
          base := s', hand := upd c.hand t none
          shut := fun k => c.shut k || c.hand t == some k }
      | .late =>
        if (c.base.sess x).s2c && !c.due x then some { c with base := s', hand := upd c.hand t none, due := upd c.due x true }
        else none
    | _, _ => none
  | .catchUp x => if c.due x then some { dismiss c [x] with due := upd c.due x false } else none
  | .drops x => if (c.relay x).isSome then some { c with relay := upd c.relay x none } else none

def CRun (ls : List CLabel) (c : CSt) : Prop := runSteps cstep cinit ls = some c

end Shpool.Conns
