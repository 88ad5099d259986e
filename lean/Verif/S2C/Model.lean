import Verif.Sentinel.Model
import Verif.Chunk.Model
import Verif.Util.Lts
/-!
# Model of the shell-to-client thread

Source: `/repo/libshpool/src/daemon/shell.rs` 152-234 (types, `shutdown_socket`), 263-649 (`spawn_shell_to_client`,
`write_exit_chunk`); `/repo/libshpool/src/daemon/show_motd.rs` 58-73 (`DailyMessenger::dump`);
`/repo/libshpool/src/session_restore.rs` 40-60 (the `SessionSpool` interface); `/repo/libshpool/src/tty.rs` 63-79.

The thread is a transition system.  One loop iteration is three steps, `select`, `settle` (resize and restore) and
`poll`; between any two of them the environment may act: time passes, the shell writes or closes its side of the pty,
the peer of a connection goes away, the configured message of the day changes.  What the code does not decide itself (which
channel is ready, how many bytes a read returns) is chosen by the label.

Simplifications:
* A client connection that has failed once keeps failing (`Health`); a failed write delivers nothing of its frame.
  (Writes have no timeout on these sockets, so there are no transient failures; a partly delivered frame on a
  connection that is then dead is not observable.)
* Sending an acknowledgement succeeds.  The rendezvous with the requester, including its timeouts, is modelled in
  `Verif/Handshake`.
* `set_fd` (an ioctl on the pty the daemon owns) succeeds.
* The restore engine (`SessionSpool`, third-party terminal emulators) is an arbitrary function of the operations
  performed on it; an operation also carries an opaque number standing for the configuration at that time
  (session_restore.rs 34-38 reads the width from the live configuration).
* Blocking writes to a client that does not read are not modelled here.
-/

namespace Shpool.S2C
open Chunk (Chunk Kind)

/-- `consts::BUF_SIZE`, consts.rs. -/
def bufSize : Nat := 16384

/-- `REATTACH_RESIZE_DELAY`, shell.rs 56, in milliseconds. -/
def reattachResizeDelay : Nat := 50

/-- `TtySize`, shpool-protocol/src/lib.rs 356-364. -/
structure TtySize where
  rows : UInt16
  cols : UInt16
  xpixel : UInt16
  ypixel : UInt16
  deriving DecidableEq, Repr

/-- What writing to a connection does: succeed, fail with `BrokenPipe`, or fail with another error. -/
inductive Health where
  | ok
  | pipe
  | other
  deriving DecidableEq, Repr

/-- `ClientConnection`, shell.rs 174-186.  `id` identifies the connection; `sink` and `stream` are represented by what
writing to them does. -/
structure Conn where
  id : Nat
  size : TtySize
  health : Health
  deriving DecidableEq, Repr

/-- Operations on the restore engine, session_restore.rs 41-60. -/
inductive SpoolOp where
  | process (bytes : List UInt8)
  | resize (size : TtySize) (cfg : Nat)
  deriving DecidableEq, Repr

/-- `ClientConnectionStatus`, shell.rs 188-200. -/
inductive Ack where
  | replaced
  | new
  | detached
  | detachNone
  deriving DecidableEq, Repr

/-- How the thread ended: `Ok(())`, an error, or a panic. -/
inductive End where
  | ok
  | err
  | panic
  deriving DecidableEq, Repr

/-- Where the thread is: before the first message (shell.rs 298-306), at the `select!` (316), between `select!` and `poll`
(487-526, with the variable `do_reattach`), at `poll` (535-626), finished. -/
inductive PC where
  | waitInitial
  | select
  | settle (doReattach : Bool)
  | poll
  | ended (e : End)
  deriving DecidableEq, Repr

/-- What `DailyMessenger::dump` (show_motd.rs 58-73) would do now: write this text, fail, or panic because the
configured mode is not `dump` (the `assert!`). -/
inductive Motd where
  | text (bytes : List UInt8)
  | fails
  | notDump
  deriving DecidableEq, Repr

/-- What is fixed when the thread is spawned, shell.rs 268-292. -/
structure Params where
  supportsSentinels : Bool
  needsMotd : Bool
  /-- whether the build panics on integer overflow (debug) or wraps (release) -/
  overflowChecks : Bool
  /-- the restore engine -/
  restore : List SpoolOp → List UInt8
  /-- the size and message of the day at the start -/
  ptySize : TtySize
  motd : Motd

/-- The state of the thread and of what it interacts with. -/
structure St where
  pc : PC
  client : Option Conn
  /-- `resize_cmd`: size and due time -/
  resize : Option (TtySize × Nat)
  /-- operations performed on `output_spool` -/
  spool : List SpoolOp
  filter : Sentinel.Filter
  needsMotd : Bool
  /-- the size of the pty -/
  pty : TtySize
  now : Nat
  motd : Motd
  /-- output of the shell that has not been read yet -/
  pending : List UInt8
  /-- everything read from the pty -/
  read : List UInt8
  /-- the shell's side of the pty is closed -/
  hup : Bool
  /-- the exit status, once known -/
  exited : Option UInt32
  /-- frames delivered, with the connection they were written to -/
  out : List (Nat × Chunk)
  /-- acknowledgements sent -/
  acks : List Ack
  heartbeatAcks : List Bool
  /-- identities used for connections so far -/
  used : List Nat

/-- The state when the thread starts, shell.rs 268-297. -/
def init (P : Params) : St where
  pc := .waitInitial
  client := none
  resize := none
  spool := []
  filter := Sentinel.Filter.new P.supportsSentinels Sentinel.promptSentinel
  needsMotd := P.needsMotd
  pty := P.ptySize
  now := 0
  motd := P.motd
  pending := []
  read := []
  hup := false
  exited := none
  out := []
  acks := []
  heartbeatAcks := []
  used := []

/-- `ClientConnectionMsg`, shell.rs 236-246. -/
inductive Msg where
  | new (id : Nat) (size : TtySize)
  | disconnectExit (status : UInt32)
  | disconnect
  deriving DecidableEq, Repr

/-- Which arm of the `select!` (shell.rs 316-485) is taken; `none` is a closed channel.  `shutdownOk` is the result of
`shutdown_socket`, `cfg` the configuration seen by the restore engine. -/
inductive Sel where
  | default
  | connection (m : Option Msg) (shutdownOk : Bool) (cfg : Nat)
  | sizeChange (size : Option TtySize) (cfg : Nat)
  | heartbeat
  /-- the encoded payload; `none`: receiving or encoding failed -/
  | maybeSwitch (payload : Option (List UInt8))
  deriving DecidableEq, Repr

/-- What `poll` and `read` deliver, shell.rs 535-576. -/
inductive Poll where
  | error
  | timeout
  /-- `POLLHUP`; the exit status if it is known within 500ms -/
  | hangup (status : Option UInt32)
  | readError
  | read (n : Nat)
  deriving DecidableEq, Repr

/-- Steps of the thread and of its environment. -/
inductive Label where
  | initial (m : Option Msg)
  | select (s : Sel)
  | settle
  | poll (p : Poll)
  -- environment
  | tick (ms : Nat)
  | shellWrite (bytes : List UInt8)
  | shellClose
  | exitKnown (status : UInt32)
  | breaks (h : Health)
  | setMotd (m : Motd)
  deriving DecidableEq, Repr

/-- Writing a frame to a connection: delivered iff the connection works. -/
def send (s : St) (c : Conn) (f : Chunk) : St :=
  if c.health = .ok then { s with out := s.out ++ [(c.id, f)] } else s

/-- `write_exit_chunk`, shell.rs 635-649: errors are only logged. -/
def exitFrame (status : UInt32) : Chunk := ⟨.exitStatus, Chunk.le32 status.toNat⟩

/-- `rows + 1` on a `u16`, shell.rs 338-343: `none` is an overflow panic. -/
def succU16 (checks : Bool) (n : UInt16) : Option UInt16 :=
  if checks && n == 65535 then none else some (n + 1)

/-- The thread ends; returning (or unwinding) drops `client_conn`. -/
def finish (s : St) (e : End) : St := { s with client := none, pc := .ended e }

/-- The first message, shell.rs 298-312. -/
def initialStep (s : St) : Option Msg → Option St
  | none => some (finish s .err)
  | some (.new id size) =>
    if id ∈ s.used then none
    else some { s with pc := .select, client := some ⟨id, size, .ok⟩, used := s.used ++ [id],
                       resize := some (size, s.now), acks := s.acks ++ [.new] }
  | some _ => some { s with pc := .select, client := none, acks := s.acks ++ [.new] }

/-- The old client, if any, is told to go away: exit chunk and shutdown (shell.rs 322-328, 357-364, 372-386).
`none`: the shutdown failed and the thread returns an error. -/
def dismiss (s : St) (status : UInt32) (shutdownOk : Bool) : St × Bool :=
  match s.client with
  | none => (s, true)
  | some c => ({ send s c (exitFrame status) with client := none }, shutdownOk)

/-- `select!` arm for `client_connection`, shell.rs 317-400. -/
def connectionStep (P : Params) (s : St) (m : Option Msg) (shutdownOk : Bool) (cfg : Nat) : Option St :=
  match m with
  | some (.new id size) =>
    if id ∈ s.used then none
    else
      let ack := if s.client.isSome then Ack.replaced else Ack.new
      match dismiss s 0 shutdownOk with
      | (s, false) => some (finish s .err)
      | (s, true) =>
        let s := { s with spool := s.spool ++ [SpoolOp.resize size cfg] }
        match succU16 P.overflowChecks size.rows, succU16 P.overflowChecks size.cols with
        | some rows, some cols =>
          some { s with pty := { size with rows := rows, cols := cols },
                        resize := some (size, s.now + reattachResizeDelay),
                        client := some ⟨id, size, .ok⟩,
                        used := s.used ++ [id],
                        acks := s.acks ++ [ack],
                        pc := .settle true }
        | _, _ => some (finish { s with used := s.used ++ [id] } .panic)
  | some .disconnect =>
      let ack := if s.client.isSome then Ack.detached else Ack.detachNone
      match dismiss s 0 shutdownOk with
      | (s, false) => some (finish s .err)
      | (s, true) => some { s with client := none, acks := s.acks ++ [ack], pc := .settle false }
  | some (.disconnectExit status) =>
      let ack := if s.client.isSome then Ack.detached else Ack.detachNone
      match dismiss s status shutdownOk with
      | (s, false) => some (finish s .err)
      | (s, true) => some (finish { s with acks := s.acks ++ [ack] } .ok)
  | none => some (finish s .ok)

/-- `select!` arm for `tty_size_change`, shell.rs 401-420. -/
def sizeChangeStep (s : St) (size : Option TtySize) (cfg : Nat) : St :=
  match size with
  | none => finish s .ok
  | some z => { s with spool := s.spool ++ [.resize z cfg], resize := some (z, s.now), pc := .settle false }

/-- `select!` arm for `heartbeat`, shell.rs 421-444. -/
def heartbeatStep (s : St) : St :=
  match s.client with
  | none => { s with heartbeatAcks := s.heartbeatAcks ++ [false], pc := .settle false }
  | some c =>
    match c.health with
    | .ok => { send s c ⟨.heartbeat, []⟩ with heartbeatAcks := s.heartbeatAcks ++ [true], pc := .settle false }
    | .pipe => { s with heartbeatAcks := s.heartbeatAcks ++ [false], pc := .settle false }
    | .other => finish s .err

/-- `select!` arm for `maybe_switch`, shell.rs 445-480; `continue` goes back to the `select!`. -/
def maybeSwitchStep (s : St) (payload : Option (List UInt8)) : St :=
  match payload, s.client with
  | none, _ => s
  | some _, none => s
  | some p, some c =>
    match c.health with
    | .ok => { send s c ⟨.maybeSwitch, p⟩ with pc := .settle false }
    | .pipe => { s with pc := .settle false }
    | .other => finish s .err

/-- The blocks of at most `n` bytes; the first argument bounds their number. -/
def chunksUpTo (n : Nat) : Nat → List UInt8 → List (List UInt8)
  | 0, _ => []
  | k + 1, b => if b = [] ∨ n = 0 then [] else b.take n :: chunksUpTo n k (b.drop n)

/-- `slice::chunks(n)`, shell.rs 515 (`slice::chunks` panics for `n = 0`, which is never passed). -/
def chunks (n : Nat) (b : List UInt8) : List (List UInt8) := chunksUpTo n b.length b

/-- The executed resize, shell.rs 487-504. -/
def doResize (s : St) : St :=
  match s.resize with
  | some (z, due) => if due ≤ s.now then { s with pty := z, resize := none } else s
  | none => s

/-- The restore buffer is sent in blocks, shell.rs 506-526. -/
def doRestore (P : Params) (s : St) : St :=
  match s.client with
  | none => s
  | some c => (chunks bufSize (P.restore s.spool)).foldl (fun s b => send s c ⟨.data, b⟩) s

/-- The part of an iteration between `select!` and `poll`, shell.rs 487-526. -/
def settleStep (P : Params) (s : St) (doReattach : Bool) : St :=
  let s := doResize s
  let s := if doReattach then doRestore P s else s
  { s with pc := .poll }

/-- The message of the day, written before the first output, shell.rs 604-613. -/
def motdStep (s : St) (c : Conn) : St :=
  if s.needsMotd then
    match s.motd with
    | .text m => send { s with needsMotd := false } c ⟨.data, m⟩
    | .fails => { s with needsMotd := false }
    | .notDump => finish { s with needsMotd := false } .panic
  else s

/-- Output is shown, shell.rs 595-626 with the flag set. -/
def showStep (s : St) (v : List UInt8) : St :=
  let s := { s with spool := s.spool ++ [SpoolOp.process v] }
  match s.client with
  | none => { s with pc := .select }
  | some c =>
    let s := motdStep s c
    match s.pc with
    | .ended _ => s
    | _ =>
      match c.health with
      | .ok => { send s c ⟨.data, v⟩ with pc := .select }
      | _ => { s with client := none, pc := .select }

/-- `poll`, `read` and the rest of the iteration, shell.rs 532-627. -/
def pollStep (s : St) : Poll → Option St
  | .error => some (finish s .err)
  | .timeout => if s.pending = [] ∧ s.hup = false then some { s with pc := .select } else none
  | .hangup status =>
    -- whatever is still unread stays unread
    if s.hup = true ∧ (s.exited.isSome → status = s.exited) then
      match s.client, status with
      | some c, some st => some (finish (send s c (exitFrame st)) .ok)
      | _, _ => some (finish s .ok)
    else none
  | .readError => if s.hup = false then some (finish s .err) else none
  | .read n =>
    if s.hup = false ∧ 0 < n ∧ n ≤ bufSize ∧ n ≤ s.pending.length then
      let buf := s.pending.take n
      let s := { s with pending := s.pending.drop n, read := s.read ++ buf }
      match s.filter.read buf with
      | (f, none) => some { s with filter := f, pc := .select }
      | (f, some v) => some (showStep { s with filter := f } v)
    else none

/-- One step. -/
def step (P : Params) (s : St) : Label → Option St
  | .initial m => if s.pc = .waitInitial then initialStep s m else none
  | .select sel =>
    if s.pc = .select then
      match sel with
      | .default => some { s with pc := .settle false }
      | .connection m ok cfg => connectionStep P s m ok cfg
      | .sizeChange z cfg => some (sizeChangeStep s z cfg)
      | .heartbeat => some (heartbeatStep s)
      | .maybeSwitch p => some (maybeSwitchStep s p)
    else none
  | .settle =>
    match s.pc with
    | .settle r => some (settleStep P s r)
    | _ => none
  | .poll p => if s.pc = .poll then pollStep s p else none
  | .tick ms => some { s with now := s.now + ms }
  | .shellWrite b => if s.hup then none else some { s with pending := s.pending ++ b }
  | .shellClose => some { s with hup := true }
  | .exitKnown st => if s.exited.isNone then some { s with exited := some st } else none
  | .breaks h =>
    match s.client with
    | some c => if c.health = .ok then some { s with client := some { c with health := h } } else none
    | none => none
  | .setMotd m => some { s with motd := m }

/-- `s` is reachable by the steps `ls`. -/
def Run (P : Params) (ls : List Label) (s : St) : Prop := runSteps (step P) (init P) ls = some s

end Shpool.S2C
