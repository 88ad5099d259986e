import Verif.S2C.Model
import Verif.Pipe.Model
import Verif.Input.Model
/-!
# Model of a client and a daemon connected by a socket

Sources: those of the areas S2C (`/repo/libshpool/src/daemon/shell.rs` 263-649), Pipe (`/repo/libshpool/src/protocol.rs` 250-519),
Chunk (`/repo/libshpool/src/protocol.rs` 84-126) and Input (`/repo/libshpool/src/daemon/shell.rs` 806-953), put together: one client,
the thread that writes the shell's output to it, the thread that reads its input, and the two directions of the socket between them
as strings of bytes.

A step is a step of the shell-to-client thread (frames it delivers to this client's connection are encoded and appended to the bytes
on their way), a step of the client's process, the client's reading of one frame from the socket, or one `read` of the input thread.
The socket hands over bytes in order and in pieces of any size; it loses nothing.

Simplifications: those of the areas.  The input thread reads from the start on (in the code from the attach on; what the client sends
before waits in the socket); how it is stopped is in the area Bidi.  Time is left to the areas.
-/

namespace Shpool.EndToEnd
open Chunk (Chunk Kind)
open Keys (Bindings)

/-- What is fixed: the daemon's parameters, the number of this client's connection and the keybindings. -/
structure Params where
  daemon : S2C.Params
  id : Nat
  keys : Bindings

structure St where
  daemon : S2C.St
  client : Pipe.St
  /-- bytes on their way to the client -/
  down : List UInt8
  /-- bytes on their way to the daemon -/
  up : List UInt8
  /-- the input thread; `none` once a detach binding has fired -/
  input : Option (Input.Thread Bindings)
  /-- what it has written to the shell -/
  shell : List UInt8

/-- The state when the client has sent its request.  `BUF_SIZE` bytes of buffer, shell.rs 818. -/
def init (P : Params) : St where
  daemon := S2C.init P.daemon
  client := Pipe.init
  down := []
  up := []
  input := some ⟨P.keys, [], List.replicate S2C.bufSize 0⟩
  shell := []

inductive Label where
  | daemon (l : S2C.Label)
  /-- a step of the client's process, except for reading a frame -/
  | client (l : Pipe.Label)
  /-- the client reads a frame; the bytes on their way arrive in these pieces -/
  | recv (segs : List (List UInt8))
  /-- the input thread's `read` returns this many bytes -/
  | read (n : Nat)

/-- The frames a step added to those delivered to connection `id`. -/
def added (id : Nat) (s s' : S2C.St) : List Chunk :=
  ((s'.out.drop s.out.length).filter (·.1 = id)).map (·.2)

/-- A step of the shell-to-client thread, shell.rs 316-627; the frames are written by `write_to`, protocol.rs 84-99. -/
def daemonStep (P : Params) (s : St) (l : S2C.Label) : Option St :=
  match S2C.step P.daemon s.daemon l with
  | none => none
  | some d =>
    match Chunk.writeAll (added P.id s.daemon d) with
    | .error _ => none
    | .ok bytes => some { s with daemon := d, down := s.down ++ bytes }

/-- A step of the client, protocol.rs 250-519.  What it writes to the socket is on its way.  Reading a frame fails only if there is
no whole frame of at most `BUF_SIZE` bytes. -/
def clientStep (s : St) (l : Pipe.Label) : Option St :=
  let go := match Pipe.step s.client l with
    | none => none
    | some c => some { s with client := c, up := s.up ++ c.sent.drop s.client.sent.length }
  match l with
  | .outRecv _ => none
  | .outError =>
    match Chunk.readInto Chunk.flat S2C.bufSize s.down with
    | .ok _ => none
    | .error _ => go
  | _ => go

/-- The client reads a frame from what has arrived, protocol.rs 329-335, 101-126. -/
def recvStep (s : St) (segs : List (List UInt8)) : Option St :=
  if segs.flatten = s.down then
    match Chunk.readInto Chunk.segmented S2C.bufSize segs with
    | .error _ => none
    | .ok (f, rest) =>
      match Pipe.step s.client (.outRecv f) with
      | none => none
      | some c => some { s with client := c, down := rest.flatten }
  else none

/-- The input thread reads and handles what it read, shell.rs 844-949. -/
def readStep (s : St) (n : Nat) : Option St :=
  if 0 < n ∧ n ≤ S2C.bufSize ∧ n ≤ s.up.length then
    match s.input with
    | none => none
    | some t =>
      match Input.processRead Bindings.transition t (s.up.take n) with
      | .running t' w => some { s with input := some t', up := s.up.drop n, shell := s.shell ++ w }
      | .detached w => some { s with input := none, up := s.up.drop n, shell := s.shell ++ w }
      | .panicked => none
  else none

def step (P : Params) (s : St) : Label → Option St
  | .daemon l => daemonStep P s l
  | .client l => clientStep s l
  | .recv segs => recvStep s segs
  | .read n => readStep s n

/-- `s` is reachable by the steps `ls`. -/
def Run (P : Params) (ls : List Label) (s : St) : Prop := runSteps (step P) (init P) ls = some s

end Shpool.EndToEnd
