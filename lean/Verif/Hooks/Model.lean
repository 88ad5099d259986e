import Verif.Server.Model
/-!
# Model of the calls to the hooks of the wrapping binary

Sources: `/repo/libshpool/src/hooks.rs`; the calls at `/repo/libshpool/src/daemon/server.rs` 353 (`on_shell_disconnect`), 386
(`on_client_disconnect`), 474 (`on_reattach`), 511 (`on_busy`), 521 (`on_new_session`).

The transition system of the session table, with the calls: `on_reattach` and `on_busy` are made while holding the table's lock, so
they belong to the step that selects the session; the others are steps of their own, between two steps of their thread, and any
other thread may come first.  A hook that returns an error is only logged, so the result of a call is part of the label and changes
nothing.  A hook that does not return is not modelled, nor is a reply of "busy" that cannot be written (509, then `on_busy` is not
called).
-/

namespace Shpool.Hooks
open Shpool.Server

inductive Hook where
  | newSession
  | reattach
  | busy
  | clientDisconnect
  | shellDisconnect
  deriving DecidableEq, Repr

/-- A call: of which hook, with which session name, by which attach request. -/
structure Call where
  thr : Nat
  hook : Hook
  name : Name
  deriving DecidableEq, Repr

/-- `pend`: the call the request has to make before it goes on; `log`: the calls made. -/
structure HSt where
  base : St
  pend : Nat → Option Call
  log : List Call

def hinit : HSt := ⟨init, fun _ => none, []⟩

/-- The calls made within a step, server.rs 474 (in the branch of 469-487) and 511 (in that of 505-515). -/
def now (s : St) : Label → List Call
  | .select t n _ =>
    match find n s.table with
    | none => []
    | some x =>
      if (s.sess x).owner.isSome then [⟨t, .busy, n⟩]
      else if (s.sess x).alive && !((s.sess x).handle && !(s.sess x).s2c) then [⟨t, .reattach, n⟩]
      else []
  | _ => []

/-- The call a thread makes after a step: server.rs 521 after the first critical section (if it falls through), 353 when the
streaming ended with the shell, 386 after the critical section of 375-384. -/
def later (s : St) : Label → Option Call
  | .select t n j => if (select s t n j).thr t = .making n then some ⟨t, .newSession, n⟩ else none
  | .childDone t => match s.thr t with
    | .streaming n _ => some ⟨t, .shellDisconnect, n⟩
    | _ => none
  | .unlink t => match s.thr t with
    | .ending n _ false => some ⟨t, .clientDisconnect, n⟩
    | _ => none
  | _ => none

/-- The attach request whose step it is. -/
def actor : Label → Option Nat
  | .select t _ _ | .spawn t | .spawnFails t | .insert t | .lookup t | .acquire t | .start t | .abort t | .clientGone t
  | .childDone t | .unlink t | .release t => some t
  | _ => none

inductive HLabel where
  | base (l : Label)
  | call (t : Nat) (ok : Bool)
  deriving DecidableEq, Repr

def owes (h : HSt) (l : Label) : Bool :=
  match actor l with
  | some t => (h.pend t).isSome
  | none => false

def hstep (h : HSt) : HLabel → Option HSt
  | .base l =>
    if owes h l then none else
    match step h.base l with
    | none => none
    | some s' => some ⟨s', (match later h.base l with
        | some c => upd h.pend c.thr (some c)
        | none => h.pend), h.log ++ now h.base l⟩
  | .call t _ =>
    match h.pend t with
    | none => none
    | some c => some ⟨h.base, upd h.pend t none, h.log ++ [c]⟩

def HRun (ls : List HLabel) (h : HSt) : Prop := runSteps hstep hinit ls = some h

/-- The steps that are not calls. -/
def bases : List HLabel → List Label
  | [] => []
  | .base l :: ls => l :: bases ls
  | .call _ _ :: ls => bases ls

/-- The hooks an attach request called, in order. -/
def callsOf (t : Nat) (log : List Call) : List Call := log.filter (fun c => c.thr = t)

/-- The calls about a session name, other than `on_busy`. -/
def callsFor (n : Name) (log : List Call) : List Hook := (log.filter (fun c => c.name = n ∧ c.hook ≠ .busy)).map (·.hook)

end Shpool.Hooks
