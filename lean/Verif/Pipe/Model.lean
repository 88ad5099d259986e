import Verif.Chunk.Model
import Verif.Util.Lts
/-!
# Model of the attach client's main loop

Source: `/repo/libshpool/src/protocol.rs` 250-519 (`Client::pipe_bytes`).

Three threads share one result slot: stdin-to-socket, socket-to-stdout and the main thread.  Every thread is a small
state machine; a label is one step of one of them, with what the operating system returned (bytes read, timeout, error).
Holding the slot's mutex is one step.

Simplifications: the decoding of a frame from the socket is `Verif/Chunk`; here `recv` delivers a whole frame (or an
error, which includes end of file, an unknown kind and an oversized frame).  Whether a switch hint is decodable and
whether the callback accepts it is chosen by the label (the callback is modelled in `Verif/Template`).  Bytes accepted by
`write_all` count as printed (the standard library's buffer is flushed after every frame, 355; a flush error is ignored,
as in the code).  `sleep_unless` is modelled in `Verif/Sleep`; here it ends either because its condition
holds or because the time is up, chosen by the label.  Panics of the threads do not occur in the model (there is no
panicking operation in them).
-/

namespace Shpool.Pipe
open Chunk (Chunk Kind)

/-- `PipeBytesResult`, protocol.rs. `switch` carries the encoded hint. -/
inductive Result where
  | exit (status : Nat)
  | switch (payload : List UInt8)
  deriving DecidableEq, Repr

/-- The stdin-to-socket thread, protocol.rs 265-301: at the top of the loop, past the check of the slot, finished. -/
inductive InPC where
  | top
  | reading
  | finished
  deriving DecidableEq, Repr

/-- The socket-to-stdout thread, protocol.rs 304-391: at the top of the loop, past the check, holding a frame,
finished. -/
inductive OutPC where
  | top
  | reading
  | got (f : Chunk)
  | finished
  deriving DecidableEq, Repr

/-- The main thread, protocol.rs 393-517: waiting for a thread to finish; giving the socket side a moment (404-419);
about to fill the slot (425-430); waiting for the second thread (432-452); done with a result; hard exit with a code
(454-483). -/
inductive MainPC where
  | waiting
  | grace
  | stamp
  | wait2
  | done (r : Result)
  | hardExit (code : Nat)
  deriving DecidableEq, Repr

/-- The state of the client. -/
structure St where
  inp : InPC
  out : OutPC
  main : MainPC
  slot : Option Result
  /-- bytes written to stdout -/
  stdout : List UInt8
  /-- bytes read from stdin, and bytes written to the socket -/
  typed : List UInt8
  sent : List UInt8
  /-- frames handled by the socket side, with the callback's answer for switch hints -/
  handled : List (Chunk × Bool)
  /-- the frame whose writing to stdout failed -/
  stdoutFailed : Option Chunk
  /-- whether writing to the socket failed -/
  sockFailed : Bool

def init : St where
  inp := .top
  out := .top
  main := .waiting
  slot := none
  stdout := []
  typed := []
  sent := []
  handled := []
  stdoutFailed := none
  sockFailed := false

/-- Steps. -/
inductive Label where
  -- stdin -> sock
  | inCheck
  | inTimeout
  /-- `read` returned these bytes (not empty); `accepted` of them could be written before an error, `none`: all -/
  | inData (b : List UInt8) (accepted : Option Nat)
  | inEof
  | inError
  -- sock -> stdout
  | outCheck
  | outTimeout
  | outRecv (f : Chunk)
  | outError
  /-- handling the frame: the callback's answer (switch hints), and how much of a data frame could be written before an
  error, `none`: all; `bad`: a switch hint that cannot be decoded -/
  | outHandle (accept : Bool) (written : Option Nat) (bad : Bool)
  -- main
  | mainWake
  | graceEnd (timeout : Bool)
  | stamp
  | wait2End (timeout : Bool)
  deriving DecidableEq, Repr

/-- Handling a frame, protocol.rs 348-389; `read_i32` of the exit status keeps the 32 bits (the exit code is their signed
reading). -/
def handle (s : St) (f : Chunk) (accept : Bool) (written : Option Nat) (bad : Bool) : St :=
  match f.kind with
  | .heartbeat => { s with handled := s.handled ++ [(f, accept)], out := .top }
  | .data =>
    match written with
    | none => { s with stdout := s.stdout ++ f.buf, handled := s.handled ++ [(f, accept)], out := .top }
    | some k => { s with stdout := s.stdout ++ f.buf.take k, stdoutFailed := some f, out := .finished }
  | .exitStatus =>
    match Chunk.ofLe32 (f.buf.take 4) with
    | none => { s with out := .finished }
    | some st => { s with slot := some (.exit st), handled := s.handled ++ [(f, accept)], out := .top }
  | .maybeSwitch =>
    if bad then { s with out := .finished }
    else if accept then { s with slot := some (.switch f.buf), handled := s.handled ++ [(f, accept)], out := .top }
    else { s with handled := s.handled ++ [(f, accept)], out := .top }

/-- Both threads have finished. -/
def bothFinished (s : St) : Bool := s.inp = .finished ∧ s.out = .finished

/-- The result handed to the caller, protocol.rs 510-517. -/
def final (s : St) : Result := s.slot.getD (.exit 1)

/-- The code of the hard exit, protocol.rs 477-482. -/
def hardCode (s : St) : Nat :=
  match s.slot with
  | some (.exit st) => st
  | _ => 1

/-- One step. -/
def step (s : St) : Label → Option St
  -- stdin -> sock, protocol.rs 270-300
  | .inCheck =>
    if s.inp = .top then some { s with inp := if s.slot.isSome then .finished else .reading } else none
  | .inTimeout => if s.inp = .reading then some { s with inp := .top } else none
  | .inData b acc =>
    if s.inp = .reading ∧ b ≠ [] then
      match acc with
      | none => some { s with typed := s.typed ++ b, sent := s.sent ++ b, inp := .top }
      | some k => some { s with typed := s.typed ++ b, sent := s.sent ++ b.take k, sockFailed := true, inp := .finished }
    else none
  | .inEof => if s.inp = .reading then some { s with inp := .finished } else none
  | .inError => if s.inp = .reading then some { s with inp := .finished } else none
  -- sock -> stdout, protocol.rs 310-390
  | .outCheck =>
    if s.out = .top then some { s with out := if s.slot.isSome then .finished else .reading } else none
  | .outTimeout => if s.out = .reading then some { s with out := .top } else none
  | .outRecv f => if s.out = .reading then some { s with out := .got f } else none
  | .outError => if s.out = .reading then some { s with out := .finished } else none
  | .outHandle accept written bad =>
    match s.out with
    | .got f => some (handle s f accept written bad)
    | _ => none
  -- main, protocol.rs 393-517
  | .mainWake =>
    if s.main = .waiting ∧ (s.inp = .finished ∨ s.out = .finished) then
      some { s with main := if s.inp = .finished ∧ s.out ≠ .finished then .grace else .stamp }
    else none
  | .graceEnd timeout =>
    if s.main = .grace ∧ (timeout = true ∨ s.out = .finished ∨ s.slot.isSome) then some { s with main := .stamp } else none
  | .stamp =>
    if s.main = .stamp then
      let slot := some (s.slot.getD (.exit 1))
      some { s with slot := slot, main := .wait2 }
    else none
  | .wait2End timeout =>
    if s.main = .wait2 then
      if bothFinished s then some { s with main := .done (final s) }
      else if timeout then some { s with main := .hardExit (hardCode s) }
      else none
    else none

/-- `s` is reachable by the steps `ls`. -/
def Run (ls : List Label) (s : St) : Prop := runSteps step init ls = some s

end Shpool.Pipe
