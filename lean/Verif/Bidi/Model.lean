import Verif.Util.Lts

/-!
# Model of serving an attached client: the threads of one request

Source: `/repo/libshpool/src/daemon/shell.rs` 651-802 (`bidi_stream`), 804-953 (`spawn_client_to_shell`), 955-1022
(`spawn_heartbeat`), 1024-1063 (`spawn_supervisor`), 1069-1085 (`action_detach`), 316-444 and 520-545 (what the shell-to-client
thread does with the messages of this request and when the pty hangs up); `/repo/libshpool/src/daemon/server.rs` 333-387 (what
`handle_attach` makes of the result).

A transition system of one request: the thread that serves it (`Main`), the three threads it starts, the shell-to-client thread of the
session, the mutex around the channels to that thread, the connection to the client, the pty and the shell.  Other requests can ask the
shell-to-client thread to drop the client (`Who.ext`).

Simplifications:
* Time is not modelled: a wait with a timeout may time out at any moment (but see `Sup.waiting`).
* One read from the client is one opaque number, which is handed to the pty by one write, or is a detach key sequence (what exactly is
  written is in `Verif/Input`).
* What the shell writes is not modelled (`Verif/S2C`), except that writing it to a client that is gone makes the shell-to-client thread
  forget the client (`dropConn`).  Session variables and sizes are left out too.
* Shutting down a socket succeeds.  Starting threads succeeds.
-/

namespace Shpool.Bidi

/-- How a thread ended: `Ok(())` or an error. -/
inductive End where
  | ok
  | err
  deriving DecidableEq, Repr

/-- The client-to-shell thread (shell.rs 828-950): `start` is before the keybindings are checked (832), `top` the top of the loop (842),
`reading` in the `read` (854-856), `writing x` in the `write_all` to the pty (945), `detaching` in `action_detach` (917). -/
inductive C2s where
  | off
  | start
  | top
  | reading
  | writing (x : Nat)
  | detaching
  | done (e : End)
  deriving DecidableEq, Repr

/-- The heartbeat thread (shell.rs 964-1019): `rest` before the first look at `stop` in `sleep_unless` (969-973), `sleeping` after it,
`beating` from taking the mutex (979) to the answer (1010). -/
inductive Hb where
  | off
  | rest
  | sleeping
  | beating
  | done (e : End)
  deriving DecidableEq, Repr

/-- The supervisor thread (shell.rs 1036-1061).  `waiting sure` is in the wait for the shell's exit (1044); `sure` says that the shell
had exited when the wait began, in which case the wait does not time out (`Verif/ExitNotify`). -/
inductive Sup where
  | off
  | top
  | waiting (sure : Bool)
  | done
  deriving DecidableEq, Repr

/-- The thread serving the request (shell.rs 667-802): `connecting` (680-699), `poll` (722-738), `stopping` between setting `stop` (733)
and looking at `child_done` (744), `disconnecting exited` (745-771, `exited` is `c_done`), the three joins (774-791), `leaving` an early
return from the scope, which waits for all threads, `final` (796), `returned`.  The result is `none` for an error. -/
inductive Main where
  | connecting
  | poll
  | stopping
  | disconnecting (exited : Bool)
  | joinC
  | joinH
  | joinS
  | leaving
  | final
  | returned (r : Option Bool)
  deriving DecidableEq, Repr

/-- Who talks to the shell-to-client thread.  `ext` is another request that drops the client: `timed` for `attach --force`
(server.rs 886-896), not timed for `shpool detach` (server.rs 633-642). -/
inductive Who where
  | main
  | hb
  | c2s
  | ext (timed : Bool)
  deriving DecidableEq, Repr

/-- The messages (shell.rs 237-246, and the heartbeat). -/
inductive Msg where
  | new
  | disc
  | exit (status : Nat)
  | beat
  deriving DecidableEq, Repr

/-- The shell-to-client thread: receiving, at work on a message, sending the acknowledgement (with its answer to a heartbeat), ended. -/
inductive S2c where
  | free
  | busy (w : Who) (m : Msg)
  | acking (w : Who) (m : Msg) (present : Bool)
  | gone
  deriving DecidableEq, Repr

/-- How talking to the shell-to-client thread ended. -/
inductive Out where
  | acked (present : Bool)
  | sendTimeout
  | ackTimeout
  | goneAtSend
  | goneAtAck
  deriving DecidableEq, Repr

structure St where
  main : Main
  c2s : C2s
  hb : Hb
  sup : Sup
  /-- the holder of the mutex around the channels, its message, and whether the message was received (shell.rs 680-698 etc.) -/
  ctl : Option (Who × Msg × Bool)
  s2c : S2c
  /-- the shell-to-client thread has this client's connection (shell.rs 351) -/
  att : Bool
  /-- the daemon has shut the connection down -/
  shut : Bool
  /-- the client has closed its end -/
  closed : Bool
  /-- what the client has sent and was not read yet -/
  inq : List Nat
  /-- what was written to the pty -/
  out : List Nat
  /-- the shell's exit status, once announced (the `ExitNotifier`) -/
  exited : Option Nat
  /-- no process has the shell's side of the pty open any more -/
  hung : Bool
  stop : Bool
  childDone : Bool
  /-- the exit statuses in the frames the client received -/
  told : List Nat
  deriving DecidableEq, Repr

/-- The request holds the session; its client is not yet connected to the shell-to-client thread. -/
def init : St where
  main := .connecting
  c2s := .off
  hb := .off
  sup := .off
  ctl := none
  s2c := .free
  att := false
  shut := false
  closed := false
  inq := []
  out := []
  exited := none
  hung := false
  stop := false
  childDone := false
  told := []

inductive Label where
  -- the world outside
  | clientSends (x : Nat)
  | clientCloses
  /-- the shell exits and its status is announced -/
  | shellExits (status : Nat)
  /-- the last process that had the shell's side of the pty open has closed it -/
  | ptyCloses
  /-- the shell, or another program on the terminal, makes room for what is being written to the pty -/
  | ptyTakes
  /-- another request drops the client -/
  | extAsks (timed : Bool)
  -- talking to the shell-to-client thread
  | meet
  | s2cWorks
  | ack
  | sendTimeout
  | ackTimeout
  | noticeGone
  -- the shell-to-client thread by itself
  | dropConn
  /-- it notices that the pty is closed, and obtains the exit status if it needs it (shell.rs 520-538) -/
  | hangup
  /-- it notices that the pty is closed, but the shell does not exit within the 500 ms it waits for that -/
  | hangupAlone
  /-- it ends because of an error -/
  | s2cFails
  -- the threads of this request
  | mainLock
  | mainPolls
  | mainLooks
  | mainJoins
  | c2sCompiles (good : Bool)
  | c2sChecks
  /-- `key`: the read completes a detach key sequence -/
  | c2sReads (key : Bool)
  | c2sEof
  | c2sReadFails
  | c2sWriteFails
  | c2sLock
  | hbPolls
  | hbWakes
  | hbLock
  | supChecks
  | supSees
  | supTimeout
  deriving DecidableEq, Repr

/-- The client receives an exit frame if it and the connection are still there (`write_exit_chunk`, shell.rs 633-649). -/
def St.tell (s : St) (status : Nat) : St :=
  if s.closed || s.shut then s else { s with told := s.told ++ [status] }

/-- The shell-to-client thread performs a message of `w` (shell.rs 320-403). -/
def St.perform (s : St) (w : Who) : Msg → St
  | .new => { s with att := true, s2c := .acking w .new true }
  | .disc =>
    if s.att then { s.tell 0 with shut := true, att := false, s2c := .acking w .disc true }
    else { s with s2c := .acking w .disc true }
  | .exit c =>
    if s.att then { s.tell c with shut := true, att := false, s2c := .acking w (.exit c) true }
    else { s with s2c := .acking w (.exit c) true }
  | .beat => { s with s2c := .acking w .beat (s.att && !s.closed && !s.shut) }

/-- What the requester does when talking to the shell-to-client thread has ended. -/
def St.finish (s : St) (w : Who) (o : Out) : St :=
  let s := { s with ctl := none }
  match w with
  | .main =>
    match s.main with
    -- shell.rs 680-715
    | .connecting =>
      match o with
      | .acked _ => { s with main := .poll, c2s := .start, hb := .rest, sup := .top }
      | _ => { s with main := .returned none }
    -- shell.rs 759-770
    | .disconnecting _ =>
      match o with
      | .acked _ => { s with main := .joinC }
      | .sendTimeout => { s with shut := true, main := .joinC }
      | .goneAtSend => { s with shut := true, main := .joinC }
      | .ackTimeout => { s with main := .leaving }
      | .goneAtAck => { s with main := .leaving }
    | _ => s
  -- shell.rs 980-1016
  | .hb =>
    match o with
    | .goneAtSend => { s with hb := .done .ok }
    | .sendTimeout => { s with hb := .rest }
    | .goneAtAck => { s with hb := .done .ok }
    | .ackTimeout => { s with hb := .done .err }
    | .acked true => { s with hb := .rest }
    | .acked false => { s with hb := .done .ok }
  -- shell.rs 917-919, 1071-1084
  | .c2s =>
    match o with
    | .acked _ => { s with c2s := .done .ok }
    | _ => { s with c2s := .done .err }
  | .ext _ => s

/-- Whether a requester waits with a timeout. -/
def Who.timed : Who → Bool
  | .ext t => t
  | _ => true

/-- One of the threads has ended or the supervisor has seen the exit (shell.rs 724-725). -/
def St.over (s : St) : Bool :=
  (match s.c2s with | .done _ => true | _ => false) || (match s.hb with | .done _ => true | _ => false) ||
    s.sup == .done || s.childDone

/-- One step. -/
def step (s : St) : Label → Option St
  | .clientSends x => if s.closed then none else some { s with inq := s.inq ++ [x] }
  | .clientCloses => if s.closed then none else some { s with closed := true }
  | .shellExits c => if s.exited.isSome then none else some { s with exited := some c }
  | .ptyCloses => if s.hung then none else some { s with hung := true }
  -- shell.rs 945
  | .ptyTakes =>
    match s.c2s with
    | .writing x => if s.hung then none else some { s with c2s := .top, out := s.out ++ [x] }
    | _ => none
  | .extAsks timed => if s.ctl.isNone then some { s with ctl := some (.ext timed, .disc, false) } else none
  | .meet =>
    match s.ctl, s.s2c with
    | some (w, m, false), .free => some { s with ctl := some (w, m, true), s2c := .busy w m }
    | _, _ => none
  | .s2cWorks =>
    match s.s2c with
    | .busy w m => some (s.perform w m)
    | _ => none
  | .ack =>
    match s.ctl, s.s2c with
    | some (w, m, true), .acking w' m' p =>
      if w = w' ∧ m = m' then
        some ({ s with s2c := match m with | .exit _ => .gone | _ => .free }.finish w (.acked p))
      else none
    | _, _ => none
  | .sendTimeout =>
    match s.ctl with
    | some (w, _, false) => if w.timed then some (s.finish w .sendTimeout) else none
    | _ => none
  | .ackTimeout =>
    match s.ctl with
    | some (w, _, true) => if w.timed then some (s.finish w .ackTimeout) else none
    | _ => none
  | .noticeGone =>
    match s.ctl, s.s2c with
    | some (w, _, b), .gone => some (s.finish w (if b then .goneAtAck else .goneAtSend))
    | _, _ => none
  -- shell.rs 597-608
  | .dropConn =>
    if s.s2c = .free ∧ s.att ∧ (s.closed ∨ s.shut) then some { s with att := false } else none
  -- shell.rs 520-538
  | .hangup =>
    if s.s2c = .free ∧ s.hung then
      match s.att, s.exited with
      | true, some c => some { s.tell c with att := false, s2c := .gone }
      | true, none => none
      | false, _ => some { s with s2c := .gone }
    else none
  | .hangupAlone =>
    if s.s2c = .free ∧ s.hung ∧ s.att ∧ s.exited = none then some { s with att := false, s2c := .gone } else none
  | .s2cFails =>
    match s.s2c with
    | .free => some { s with att := false, s2c := .gone }
    | .busy _ _ => some { s with att := false, s2c := .gone }
    | _ => none
  -- shell.rs 681-683, 744-757
  | .mainLock =>
    match s.main, s.ctl with
    | .connecting, none => some { s with ctl := some (.main, .new, false) }
    | .disconnecting e, none =>
      some { s with ctl := some (.main, if e then .exit (s.exited.getD 1) else .disc, false) }
    | _, _ => none
  -- shell.rs 722-738
  | .mainPolls =>
    if s.main = .poll then (if s.over then some { s with stop := true, main := .stopping } else some s) else none
  -- shell.rs 744
  | .mainLooks => if s.main = .stopping then some { s with main := .disconnecting s.childDone } else none
  -- shell.rs 774-802
  | .mainJoins =>
    match s.main with
    | .joinC =>
      match s.c2s with
      | .done .ok => some { s with main := .joinH }
      | .done .err => some { s with main := .leaving }
      | _ => none
    | .joinH =>
      match s.hb with
      | .done .ok => some { s with main := .joinS }
      | .done .err => some { s with main := .leaving }
      | _ => none
    | .joinS => if s.sup = .done then some { s with main := .final } else none
    | .leaving =>
      match s.c2s, s.hb, s.sup with
      | .done _, .done _, .done => some { s with main := .returned none }
      | _, _, _ => none
    | .final => some { s with main := .returned (some s.childDone), shut := s.shut || s.childDone }
    | _ => none
  -- shell.rs 832
  | .c2sCompiles good => if s.c2s = .start then some { s with c2s := if good then .top else .done .err } else none
  -- shell.rs 843-846
  | .c2sChecks => if s.c2s = .top then some { s with c2s := if s.stop then .done .ok else .reading } else none
  -- shell.rs 854-856, 872-921
  | .c2sReads key =>
    match s.c2s, s.inq with
    | .reading, x :: q => some { s with inq := q, c2s := if key then .detaching else .writing x }
    | _, _ => none
  -- shell.rs 857-860
  | .c2sEof =>
    if s.c2s = .reading ∧ s.inq = [] ∧ (s.closed ∨ s.shut) then some { s with c2s := .done .ok } else none
  | .c2sReadFails => if s.c2s = .reading ∧ s.closed then some { s with c2s := .done .err } else none
  -- shell.rs 945: writing to a pty nobody has open any more fails
  | .c2sWriteFails =>
    match s.c2s with
    | .writing _ => if s.hung then some { s with c2s := .done .err } else none
    | _ => none
  -- shell.rs 1071-1076
  | .c2sLock => if s.c2s = .detaching ∧ s.ctl = none then some { s with ctl := some (.c2s, .disc, false) } else none
  -- shell.rs 969-977
  | .hbPolls =>
    match s.hb with
    | .rest => some { s with hb := if s.stop then .done .ok else .sleeping }
    | .sleeping => if s.stop then some { s with hb := .done .ok } else none
    | _ => none
  | .hbWakes => if s.hb = .sleeping then some { s with hb := .beating } else none
  | .hbLock => if s.hb = .beating ∧ s.ctl = none then some { s with ctl := some (.hb, .beat, false) } else none
  -- shell.rs 1038-1042
  | .supChecks => if s.sup = .top then some { s with sup := if s.stop then .done else .waiting s.exited.isSome } else none
  -- shell.rs 1044-1054
  | .supSees =>
    match s.sup with
    | .waiting _ => if s.exited.isSome then some { s with childDone := true, sup := .done } else none
    | _ => none
  | .supTimeout => if s.sup = .waiting false then some { s with sup := .top } else none

/-- What `handle_attach` does with the result (server.rs 333-387): it removes the session from the table exactly if the result is
`Ok(true)`; after an error it goes on as if the shell were running (334-342). -/
def removes : Option Bool → Bool
  | some done => done
  | none => false

/-- `s` is reachable by the steps `ls`. -/
def Run (ls : List Label) (s : St) : Prop := runSteps step init ls = some s

end Shpool.Bidi
