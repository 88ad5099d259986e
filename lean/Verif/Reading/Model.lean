import Verif.Server.Model
/-!
# Model of detaching a client that reads a message

Sources: `/repo/libshpool/src/daemon/server.rs` 285-345 (`handle_attach` from the reply to `bidi_stream`; the pager is shown in between, for as
long as the user reads), 625-662 (`handle_detach`) and 772-807 (`handle_list`), on top of the daemon of `Verif/Server/Model.lean`.

The request that attaches a client has the session from selecting it, but the session's shell-to-client thread gets the client only when
`bidi_stream` starts.  A detach request asks that thread.  The user decides when the pager ends (`quit`; also if the connection breaks);
until then the request neither starts streaming nor returns.  What ends the streaming of a detached client is in `Verif/Bidi`; here it is one
step (`leave`).  `Params.reach` is a repair: a detach request also reaches a request that has the session and does not stream yet.
-/

namespace Shpool.Reading

open Server (Name Phase)

structure Params where
  reach : Bool

/-- What a request does between its reply and streaming, server.rs 300-337: no pager; it is on the client's terminal; it has ended; (repair only)
the request was told to end. -/
inductive Pg where
  | no
  | up
  | over
  | told
  deriving DecidableEq, Repr

structure St where
  srv : Server.St
  pg : Nat → Pg

def init : St := ⟨Server.init, fun _ => .no⟩

inductive Label where
  | show (t : Nat)
  | quit (t : Nat)
  | detach (n : Name)
  | leave (t : Nat)
  | daemon (k : Server.Label)
  deriving DecidableEq, Repr

/-- `display_in_pager` returns only when the pager has ended, server.rs 307-334.  Detach requests have their own label. -/
def allowed (pg : Nat → Pg) : Server.Label → Bool
  | .start t => pg t != .up && pg t != .told
  | .abort t => pg t != .up
  | .detach _ => false
  | _ => true

/-- The request has the session of that name and does not stream yet. -/
def before (s : Server.St) (n : Name) (t : Nat) : Bool :=
  match s.thr t, Server.find n s.table with
  | .owns _ x, some y => x == y
  | _, _ => false

/-- `handle_detach`, server.rs 625-662, for one name: only the session's thread is asked.  With the repair also the request. -/
def reached (p : Params) (s : St) (n : Name) : Nat → Pg :=
  fun t => if p.reach && before s.srv n t then .told else s.pg t

def step (p : Params) (s : St) : Label → Option St
  -- server.rs 303-313
  | .show t => match s.srv.thr t with
    | .owns _ _ => if s.pg t = .no then some { s with pg := Server.upd s.pg t .up } else none
    | _ => none
  -- server.rs 314-331
  | .quit t => if s.pg t = .up then some { s with pg := Server.upd s.pg t .over } else none
  -- server.rs 625-662
  | .detach n => match Server.step s.srv (.detach [n]) with
    | some v => some ⟨v, reached p s n⟩
    | none => none
  -- the end of `bidi_stream` after its client was taken from the thread, server.rs 339-347
  | .leave t => match s.srv.thr t with
    | .streaming _ x =>
      if (s.srv.sess x).conn then none
      else match Server.step s.srv (.clientGone t) with
        | some v => some { s with srv := v }
        | none => none
    | _ => none
  | .daemon k =>
    if allowed s.pg k then
      match Server.step s.srv k with
      | some v => some { s with srv := v }
      | none => none
    else none

/-- The code. -/
def code : Params := ⟨false⟩

def Run (p : Params) (ls : List Label) (s : St) : Prop := runSteps (step p) init ls = some s

end Shpool.Reading
