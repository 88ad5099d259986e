import Verif.Util.Lts
/-!
# Model of a message pager while it runs

Sources: `/repo/libshpool/src/daemon/pager.rs` 130-404 (`Pager::display` from starting the pager on, `PagerProcGuard`).

A transition system for one call of `display`: the thread of the attach request, which relays between the client and the pager's terminal;
the thread that waits for the pager to exit (`pager_exit_monitor`); the pager; the client.  It begins when the pager has been started
(pager.rs 152).  That the number of the terminal stands for the terminal until `display` returns is taken for granted here; `Verif/PagerFd` shows when it
does not.  What comes before (control slot, message file) and the listener for new sizes are in `Verif/Pager/Model.lean`.

Simplified: reads and writes of the terminal and of the socket are lists of bytes; a write that does not go through because its reader does
not read is a step that is not performed.  The clock that tells when a heartbeat is due is a choice of the environment.
`Master::read` (of the crate `shpool_pty`) is taken to return 0 at the end of the terminal, as the comment in pager.rs 262-264 does; other errors
are a choice of the environment.  `wait_for_exit` is taken to return only when the pager has exited.
-/

namespace Shpool.PagerRun

abbrev Bytes := List UInt8

/-- The process of the pager: it runs; it has exited, its terminal is closed; its exit status has been collected (by the thread that waits
for it, pager.rs 160), so that its number is free; another process has been given the number. -/
inductive Proc where
  | running
  | exited
  | reaped
  | reused
  deriving DecidableEq, Repr

/-- What the client is sent: pager.rs 242 and 267. -/
inductive Frame where
  | heartbeat
  | data (b : Bytes)
  deriving DecidableEq, Repr

/-- How `display` ends: with a size, because the client hung up (`PagerError::ClientHangup`), or with another error. -/
inductive Res where
  | ok
  | hangup
  | error
  deriving DecidableEq, Repr

inductive Sig where
  | term
  | kill
  deriving DecidableEq, Repr

/-- Where the thread of the request is. -/
inductive Main where
  /-- at `poll`, pager.rs 219-224 -/
  | poll
  /-- writes a heartbeat, 242-253 -/
  | beat
  /-- is going to read from the pager's terminal, 260; then from the client if it was ready too -/
  | readPty (client : Bool)
  /-- writes to the client what the pager has printed, 268-277 -/
  | show (b : Bytes) (client : Bool)
  /-- is going to read from the client, 281 -/
  | readClient
  /-- writes to the pager's terminal what the client sent, 290-303 -/
  | feed (b : Bytes)
  /-- `display` is about to return: `PagerProcGuard::drop`, 342-353 -/
  | guard (r : Res)
  /-- SIGTERM has been sent; so many looks at the flag are left, 372-379 -/
  | killing (left : Nat) (r : Res)
  | returned (r : Res)
  deriving DecidableEq, Repr

structure St where
  main : Main
  proc : Proc
  /-- `pager_exited` -/
  flag : Bool
  /-- what the pager has printed; what of it has not been read yet -/
  printed : Bytes
  pty : Bytes
  /-- what the client has typed; what of it has not been read yet -/
  typed : Bytes
  sock : Bytes
  /-- the client has hung up -/
  closed : Bool
  /-- what the client has been sent -/
  sent : List Frame
  /-- what the pager has read, and what waits for it in its terminal -/
  keys : Bytes
  input : Bytes
  /-- for the record: what was read for the pager or from it and could not be passed on -/
  lostIn : Bytes
  lostOut : Bytes
  /-- for the record: the signals sent, with what had the process number -/
  signals : List (Sig × Proc)
  /-- for the record: how long the thread slept for the pager to exit, in milliseconds -/
  slept : Nat
  deriving DecidableEq, Repr

def init : St := ⟨.poll, .running, false, [], [], [], [], false, [], [], [], [], [], [], 0⟩

inductive Label where
  -- the pager
  | print (b : Bytes)
  | press (n : Nat)
  | exit
  -- the thread that waits for it, and the system
  | reap
  | setFlag
  | reuse
  -- the client
  | type (b : Bytes)
  | close
  -- the thread of the request
  | wake (beat : Bool)
  | pollFails
  | beatDone (r : Option Res)
  | readPty (n : Nat)
  | readPtyFails
  | showDone (r : Option Res)
  | readClient (n : Nat)
  | readClientFails
  | feedDone
  | feedFails (n : Nat)
  | guard
  | look
  deriving DecidableEq, Repr

/-- `consts::BUF_SIZE`, consts.rs 20 -/
def bufSize : Nat := 16384

/-- `kill(pid, sig)`: the signal goes to whatever has the number; nothing has it if the pager was reaped and the number is free.  SIGKILL ends the
pager. -/
def St.signal (s : St) (g : Sig) : Option St :=
  match s.proc with
  | .running => some { s with signals := s.signals ++ [(g, .running)], proc := if g = .kill then .exited else .running }
  | .exited => some { s with signals := s.signals ++ [(g, .exited)] }
  | .reaped => none
  | .reused => some { s with signals := s.signals ++ [(g, .reused)] }

/-- The wait before the look number `7 - left + 1` is over: 10, 20, 40, … ms, pager.rs 372-378. -/
def sleepMs (left : Nat) : Nat := 10 * 2 ^ (7 - left)

def step (s : St) : Label → Option St
  | .print b => if s.proc = .running then some { s with printed := s.printed ++ b, pty := s.pty ++ b } else none
  | .press n =>
    if s.proc = .running then some { s with keys := s.keys ++ s.input.take n, input := s.input.drop n } else none
  | .exit => if s.proc = .running then some { s with proc := .exited } else none
  -- pager.rs 160: `wait_for_exit` returns
  | .reap => if s.proc = .exited then some { s with proc := .reaped } else none
  -- 163, 167, 171
  | .setFlag => if (s.proc = .reaped ∨ s.proc = .reused) ∧ s.flag = false then some { s with flag := true } else none
  | .reuse => if s.proc = .reaped then some { s with proc := .reused } else none
  | .type b => if s.closed = false then some { s with typed := s.typed ++ b, sock := s.sock ++ b } else none
  | .close => if s.closed = false then some { s with closed := true } else none
  -- 219-236 and 254-259: what is ready when `poll` returns is what there is; without anything it returns after 100 ms
  | .wake beat =>
    if s.main = .poll then
      if s.flag then some { s with main := .guard .ok }
      else if s.pty ≠ [] ∨ s.proc ≠ .running then some { s with main := .readPty (decide (s.sock ≠ []) || s.closed) }
      else if s.sock ≠ [] ∨ s.closed = true then some { s with main := .readClient }
      else some { s with main := if beat then .beat else .poll }
    else none
  -- the `?` in 224
  | .pollFails => if s.main = .poll then some { s with main := .guard .error } else none
  | .beatDone r =>
    if s.main = .beat then
      match r with
      | none => if s.closed then none else some { s with main := .poll, sent := s.sent ++ [.heartbeat] }
      | some .ok => none
      | some .hangup => if s.closed then some { s with main := .guard .hangup } else none
      | some .error => some { s with main := .guard .error }
    else none
  -- 260-267
  | .readPty n => match s.main with
    | .readPty c =>
      if s.pty = [] then
        if s.proc = .running then none else some { s with main := .guard .ok }
      else if 0 < n ∧ n ≤ bufSize then some { s with main := .show (s.pty.take n) c, pty := s.pty.drop n }
      else none
    | _ => none
  | .readPtyFails => match s.main with
    | .readPty _ => some { s with main := .guard .error }
    | _ => none
  -- 268-277; 280 looks at what the same `poll` has said about the client
  | .showDone r => match s.main with
    | .show b c =>
      match r with
      | none =>
        if s.closed then none
        else some { s with main := if c then .readClient else .poll, sent := s.sent ++ [.data b] }
      | some .ok => none
      | some .hangup => if s.closed then some { s with main := .guard .hangup, lostOut := b } else none
      | some .error => some { s with main := .guard .error, lostOut := b }
    | _ => none
  -- 281-286
  | .readClient n =>
    if s.main = .readClient then
      if s.sock = [] then
        if s.closed then some { s with main := .guard .ok } else none
      else if 0 < n ∧ n ≤ bufSize then some { s with main := .feed (s.sock.take n), sock := s.sock.drop n }
      else none
    else none
  | .readClientFails => if s.main = .readClient then some { s with main := .guard .error } else none
  -- 290-303
  | .feedDone => match s.main with
    | .feed b => some { s with main := .poll, input := s.input ++ b }
    | _ => none
  | .feedFails n => match s.main with
    | .feed b => if s.proc = .running then none
      else some { s with main := .guard .ok, input := s.input ++ b.take n, lostIn := b.drop n }
    | _ => none
  -- `PagerProcGuard::drop`, 342-353, and the beginning of `kill`, 363-366
  | .guard => match s.main with
    | .guard r =>
      if s.flag then some { s with main := .returned r }
      else match s.signal .term with
        | none => some { s with main := .returned r }
        | some s' => some { s' with main := .killing 7 r }
    | _ => none
  -- 372-384
  | .look => match s.main with
    | .killing 0 r => match s.signal .kill with
      | none => some { s with main := .returned r }
      | some s' => some { s' with main := .returned r }
    | .killing (n + 1) r =>
      if s.flag then some { s with main := .returned r }
      else some { s with main := .killing n r, slept := s.slept + sleepMs (n + 1) }
    | _ => none

def Run (ls : List Label) (s : St) : Prop := runSteps step init ls = some s

end Shpool.PagerRun
