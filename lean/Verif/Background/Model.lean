import Verif.Server.Model
/-!
# Model of attaching in the background

Source: `/repo/libshpool/src/attach.rs` 140-226 (`attach_resolved`, without `--force`), on top of the daemon of `Verif/Server/Model.lean`.

Any number of clients attach in the background (`shpool attach -b`), next to any number of other requests.  The attach request of client `t` is
served by the daemon's thread `t`.  Once the client has read the reply to its attach request it closes that connection and asks the daemon, on
a new one, to detach the session of that *name*; then it ends.  The reply is written while the request holds the session (server.rs 295-299), and
can be read any time after that.  What the daemon does is any step of its model, except that a background client's request is for the name it
asked for.  A background client killed on its way just makes no further step.
-/

namespace Shpool.Background

open Server (Name Phase)

/-- A client: anything but a background attach, or one that has not begun; its attach request is on its way or being served (attach.rs 152-154);
attached, with that connection closed (attach.rs 207); its detach request has been answered (attach.rs 208-225). -/
inductive Cl where
  | other
  | asked (n : Name)
  | closed (n : Name)
  | ended (n : Name)
  deriving DecidableEq, Repr

structure St where
  srv : Server.St
  cl : Nat → Cl

def init : St := ⟨Server.init, fun _ => .other⟩

inductive Label where
  | ask (t : Nat) (n : Name)
  | close (t : Nat)
  | detach (t : Nat)
  | daemon (l : Server.Label)
  deriving DecidableEq, Repr

/-- The daemon has told the client that it is attached, or may have: server.rs 295-299. -/
def replied : Phase → Bool
  | .owns _ _ | .streaming _ _ | .ending _ _ _ | .leaving _ | .done .served => true
  | _ => false

/-- A background client's attach request is for the name it has asked for: attach.rs 240-290 (`dial_attach`). -/
def allowed (cl : Nat → Cl) : Server.Label → Bool
  | .select t n _ => match cl t with
    | .other => true
    | .asked m => m == n
    | _ => false
  | _ => true

/-- The client's detach request is handled by the daemon like any other: attach.rs 208-225, server.rs 625-662. -/
def step (s : St) : Label → Option St
  | .ask t n => if s.cl t = .other ∧ s.srv.thr t = .idle then some { s with cl := Server.upd s.cl t (.asked n) } else none
  | .close t => match s.cl t with
    | .asked n => if replied (s.srv.thr t) then some { s with cl := Server.upd s.cl t (.closed n) } else none
    | _ => none
  | .detach t => match s.cl t with
    | .closed n => match Server.step s.srv (.detach [n]) with
      | some v => some { srv := v, cl := Server.upd s.cl t (.ended n) }
      | none => none
    | _ => none
  | .daemon l =>
    if allowed s.cl l then
      match Server.step s.srv l with
      | some v => some { s with srv := v }
      | none => none
    else none

def Run (ls : List Label) (s : St) : Prop := runSteps step init ls = some s

end Shpool.Background
