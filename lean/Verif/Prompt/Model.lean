/-!
# Model of attaching across versions

Sources: `/repo/libshpool/src/attach.rs` 101-108 (`Attach::run`: the first request), 332-376 (`dial_client`),
`/repo/libshpool/src/protocol.rs` 155-190 (`Client::new`), `/repo/libshpool/src/daemon/server.rs` 166-207 (`handle_conn` up to the
request), 1314-1318 (`parse_connect_header`), `/repo/libshpool/src/consts.rs` 17 (the time limit).

Time is in milliseconds since the daemon accepted the connection; computing and the transport of messages take no time.  The standard
input of the client is a list of what successive calls of `read` return, with the time at which they return it; a list that ends means
that nothing more comes.
-/

namespace Shpool.Prompt

/-- What one `read` of one byte on standard input returns. -/
inductive Ev where
  | byte (b : UInt8)
  | eof
  | intr
  | err
  deriving DecidableEq, Repr

abbrev Input := List (Nat × Ev)

/-- `SOCK_STREAM_TIMEOUT`, consts.rs 17. -/
def timeout : Nat := 200

/-- How the loop ends. -/
inductive Answer where
  /-- continued at time `t`; `rest` is what was not read -/
  | go (t : Nat) (rest : Input)
  | failed
  /-- still waiting -/
  | waits
  deriving DecidableEq, Repr

/-- The loop of `dial_client`, attach.rs 350-362; `now` is the time at which it reads. -/
def ask (now : Nat) : Input → Answer
  | [] => .waits
  | (t, e) :: rest =>
    let now := max now t
    match e with
    | .eof => .go now rest
    | .byte b => if b = 10 then .go now rest else ask now rest
    | .intr => ask now rest
    | .err => .failed

/-- `dial_client`, attach.rs 334-366, after the connection was made and the version compared (155-190). -/
def dial (silent background mismatch : Bool) (inp : Input) : Answer :=
  if mismatch && !silent && !background then ask 0 inp else .go 0 inp

/-- What comes of the first request. -/
inductive Outcome where
  /-- the daemon answers, the client goes on with `rest` still to read -/
  | answered (rest : Input)
  /-- the daemon has given up on the connection: the client fails -/
  | refused
  | failed
  | waits
  deriving DecidableEq, Repr

/-- `Attach::run`, attach.rs 104-109, against `handle_conn` (server.rs 171, 207), which reads the request with a time limit counted from
the moment the connection was accepted, and drops the connection if nothing has come by then. -/
def start (background mismatch : Bool) (inp : Input) : Outcome :=
  match dial false background mismatch inp with
  | .go t rest => if t < timeout then .answered rest else .refused
  | .failed => .failed
  | .waits => .waits

end Shpool.Prompt
