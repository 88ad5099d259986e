import Verif.Background.Model
/-!
# Model of forced attaches

Source: `/repo/libshpool/src/attach.rs` 163-204 (the loop of `attach_resolved`, with `--force`), on top of the daemon of `Verif/Server/Model.lean`.

Any number of clients attach with `--force`, next to any number of other requests.  A client makes one attach request after the other, each
served by a thread of the daemon of its own.  When one is refused because the session is busy the client asks, once, for the session of that
*name* to be detached, sleeps, and tries again, unless it has tried too often.  What the daemon does is any step of its model, except that a
client's requests are for the name it wants.  A client killed on its way, or whose request ends with an error, just makes no further step.
How long the client sleeps is left out.
-/

namespace Shpool.Force

open Server (Name Phase)
open Background (replied)

/-- A client: not begun, or no forced attach; its attach request `t` is on its way or being served, with the values of `tries` and `detached`;
that request was refused; attached by request `t`; given up. -/
inductive Cl where
  | other
  | waiting (n : Name) (tries : Nat) (detached : Bool) (t : Nat)
  | told (n : Name) (tries : Nat) (detached : Bool)
  | got (n : Name) (t : Nat)
  | failed (n : Name)
  deriving DecidableEq, Repr

/-- `mine t`: the client whose request the daemon's thread `t` serves, and the name it asks for. -/
structure St where
  srv : Server.St
  cl : Nat → Cl
  mine : Nat → Option (Nat × Name)

def init : St := ⟨Server.init, fun _ => .other, fun _ => none⟩

inductive Label where
  | begin (p : Nat) (n : Name) (t : Nat)
  | refused (p : Nat)
  | detach (p : Nat)
  | again (p : Nat) (t : Nat)
  | giveUp (p : Nat)
  | got (p : Nat)
  | daemon (l : Server.Label)
  deriving DecidableEq, Repr

/-- `MAX_FORCE_RETRIES`, attach.rs 40. -/
def maxRetries : Nat := 20

/-- A client's requests are for the name it wants: attach.rs 240-290 (`dial_attach`). -/
def allowed (mine : Nat → Option (Nat × Name)) : Server.Label → Bool
  | .select t n _ => match mine t with
    | none => true
    | some (_, m) => m == n
  | _ => true

/-- The client has nothing to do with thread `t` yet, and neither has anyone else. -/
def fresh (s : St) (t : Nat) : Prop := s.srv.thr t = .idle ∧ s.mine t = none

instance (s : St) (t : Nat) : Decidable (fresh s t) := inferInstanceAs (Decidable (_ ∧ _))

def step (s : St) : Label → Option St
  -- attach.rs 163-166
  | .begin p n t =>
    if s.cl p = .other ∧ fresh s t then
      some { s with cl := Server.upd s.cl p (.waiting n 0 false t), mine := Server.upd s.mine t (some (p, n)) }
    else none
  -- attach.rs 167-176
  | .refused p => match s.cl p with
    | .waiting n k d t =>
      if s.srv.thr t = .done .busy then some { s with cl := Server.upd s.cl p (.told n k d) } else none
    | _ => none
  -- attach.rs 177-189: once
  | .detach p => match s.cl p with
    | .told n k false => match Server.step s.srv (.detach [n]) with
      | some v => some { s with srv := v, cl := Server.upd s.cl p (.told n k true) }
      | none => none
    | _ => none
  -- attach.rs 190-197, 166
  | .again p t => match s.cl p with
    | .told n k true =>
      if k ≤ maxRetries ∧ fresh s t then
        some { s with cl := Server.upd s.cl p (.waiting n (k + 1) true t), mine := Server.upd s.mine t (some (p, n)) }
      else none
    | _ => none
  -- attach.rs 192-196
  | .giveUp p => match s.cl p with
    | .told n k true => if k > maxRetries then some { s with cl := Server.upd s.cl p (.failed n) } else none
    | _ => none
  -- attach.rs 167
  | .got p => match s.cl p with
    | .waiting n _ _ t => if replied (s.srv.thr t) then some { s with cl := Server.upd s.cl p (.got n t) } else none
    | _ => none
  | .daemon l =>
    if allowed s.mine l then
      match Server.step s.srv l with
      | some v => some { s with srv := v }
      | none => none
    else none

def Run (ls : List Label) (s : St) : Prop := runSteps step init ls = some s

end Shpool.Force
