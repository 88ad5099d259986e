import Verif.Util.Lts
/-!
# Model of connections that are slow

Sources: `/repo/libshpool/src/daemon/server.rs` 139-165 (`serve`), 167-240 (`handle_conn`), 625-662 (`handle_detach`), 664-697, 738-769
(`handle_kill`), 772-807 (`handle_list`), 505-515 (busy), 1310-1331 (`parse_connect_header`, `write_reply`);
`/repo/libshpool/src/protocol.rs` 43-69 (`encode_to`, `decode_from`); `/repo/libshpool/src/consts.rs` 17.

Times are milliseconds.  The timeouts are those of a socket: they limit each `read` and each `write`, not the whole request.  Requests are
decoded from, and replies encoded to, the socket itself, by many such calls.

Simplifications: a `read` that finds bytes takes no time; a `write` either finds room for some bytes or waits; what the request is does not
matter, only how many bytes it has.
-/

namespace Shpool.Slow

/-- `SOCK_STREAM_TIMEOUT`, consts.rs 17. -/
def timeout : Nat := 200

/-! ## Reading a request -/

/-- `parse_connect_header`, server.rs 1310-1314, of a request of `need` bytes under the read timeout of line 171.  The arrivals are what the
client does: the time until it sends something more, and how many bytes that is (0: it closes the connection).  A client that does nothing
more is the empty list.  The result: whether the request was read, and how long that took. -/
def readRequest : (need : Nat) → (arrivals : List (Nat × Nat)) → Bool × Nat
  | 0, _ => (true, 0)
  | _ + 1, [] => (false, timeout)
  | need + 1, (gap, k) :: rest =>
    if timeout ≤ gap then (false, timeout)
    else if k = 0 then (false, gap)
    else
      let r := readRequest (need + 1 - k) rest
      (r.1, gap + r.2)

/-! ## Writing a reply -/

/-- `write_reply`, server.rs 1316-1331, of `size` bytes to a socket with room for `room`.  The drains are what the client does: the time until
it next reads, and how many bytes (0: it closes the connection).  A client that reads nothing more is the empty list. -/
def writeReply : (size room : Nat) → (drains : List (Nat × Nat)) → Bool × Nat
  | size, room, [] => if size ≤ room then (true, 0) else (false, timeout)
  | size, room, (gap, k) :: rest =>
    if size ≤ room then (true, 0)
    else if timeout ≤ gap then (false, timeout)
    else if k = 0 then (false, gap)
    else
      let r := writeReply (size - room) k rest
      (r.1, gap + r.2)

/-- The kinds of requests that take the lock of the session table and answer. -/
inductive Kind where
  /-- `handle_list`: the reply is written with the lock held (774-805) -/
  | list
  /-- an attach request that finds the session busy: the reply is written with the lock held (425-509) -/
  | busy
  /-- `handle_detach`: the reply is written when the lock was given back (628-658) -/
  | detach
  /-- `handle_kill`: likewise (740-766) -/
  | kill
  deriving DecidableEq, Repr

/-- A request and its client. -/
structure Req where
  kind : Kind
  size : Nat
  room : Nat
  drains : List (Nat × Nat)
  deriving DecidableEq, Repr

/-- How long a request keeps the lock because of its client. -/
def Req.held (r : Req) : Nat :=
  match r.kind with
  | .list | .busy => (writeReply r.size r.room r.drains).2
  | .detach | .kill => 0

/-- How long a request waits for those before it to give back the lock. -/
def wait (before : List Req) : Nat := (before.map Req.held).sum

/-! ## Accepting connections -/

/-- The daemon's main thread: `live` are the connections that have a thread.  `up`: the thread accepts connections; if it ends, so does the
process with all sessions. -/
structure St where
  up : Bool
  live : List Nat
  deriving DecidableEq, Repr

inductive Label where
  /-- a connection is accepted and a thread started for it, server.rs 143-156.  `thread::spawn` panics if the system refuses the thread -/
  | accept (c : Nat)
  /-- accepting fails, 157-159 -/
  | acceptFails
  /-- the thread of a connection ends, with or without an error, 150-154, or by a panic -/
  | ends (c : Nat)
  deriving DecidableEq, Repr

/-- One step, if the system allows `max` threads for connections. -/
def step (max : Nat) (s : St) : Label → Option St
  | .accept c =>
    if s.up = false ∨ c ∈ s.live then none
    else if s.live.length < max then some { s with live := c :: s.live }
    else some { s with up := false }
  | .acceptFails => if s.up then some s else none
  | .ends c => if c ∈ s.live then some { s with live := s.live.erase c } else none

def Run (max : Nat) (ls : List Label) (s : St) : Prop := runSteps (step max) ⟨true, []⟩ ls = some s

end Shpool.Slow
