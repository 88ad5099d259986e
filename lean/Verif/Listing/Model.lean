import Verif.Server.Model
/-!
# Model of a list request while clients come and go

Source: `/repo/libshpool/src/daemon/server.rs` 772-807 (`handle_list`).

`Server.list` takes the list as a function of one state.  Here the request is taken apart: it locks the table, looks at the sessions one
after the other (`try_lock` of a session's own lock tells whether somebody is attached), and unlocks the table when the answer has been
written.  The daemon's other threads (the transition system of the session table) take any steps in between that do not need the lock of
the table.  Requests to list wait for each other on that lock, so at most one is at work.  Left out: the errors for times before 1970 (see Verif/Clock), and
how long writing the answer takes (see the model of slow clients).  That the `try_lock` holds the session's lock for an instant is not seen
by anyone: others take a session's lock only with the table locked (429, 563).
-/

namespace Shpool.Listing
open Server (Name Row)

/-- `todo`: the sessions a list request that has locked the table still has to look at; `rows`: what it has found out so far;
`answers`: the answers given. -/
structure St where
  srv : Server.St
  todo : Option (List (Name × Nat))
  rows : List Row
  answers : List (List Row)

def init : St := ⟨Server.init, none, [], []⟩

inductive Label where
  | begin
  | look
  | finish
  | srv (l : Server.Label)
  deriving DecidableEq, Repr

/-- The steps of the other threads for which they lock the table: `select_shell_desc` 424, 541, 554; `handle_attach` 360, 379;
`handle_detach` 630; `handle_kill` 742; ttl_reaper.rs 108. -/
def needsTable : Server.Label → Bool
  | .select _ _ _ | .insert _ | .lookup _ | .unlink _ | .kill _ _ | .reap _ _ | .detach _ => true
  | _ => false

/-- One session's line, server.rs 777-800. -/
def row (s : Server.St) (p : Name × Nat) : Row :=
  ⟨p.1, (s.sess p.2).owner.isSome, (s.sess p.2).lastConn, (s.sess p.2).lastDisc, (s.sess p.2).attachment⟩

def step (s : St) : Label → Option St
  -- 773-774
  | .begin =>
    if s.srv.lock = none ∧ s.todo = none then some { s with todo := some s.srv.table, rows := [] } else none
  -- 775-803, one session
  | .look => match s.todo with
    | some (p :: ps) => some { s with todo := some ps, rows := s.rows ++ [row s.srv p] }
    | _ => none
  -- 804-806
  | .finish => match s.todo with
    | some [] => some { s with todo := none, answers := s.answers ++ [s.rows] }
    | _ => none
  | .srv l =>
    if needsTable l ∧ s.todo.isSome then none
    else match Server.step s.srv l with
      | some v => some { s with srv := v }
      | none => none

def Run (ls : List Label) (s : St) : Prop := runSteps step init ls = some s

end Shpool.Listing
