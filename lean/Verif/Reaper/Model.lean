import Verif.Util.Lts
/-!
# Model of the ttl reaper

Source: `/repo/libshpool/src/daemon/ttl_reaper.rs` 38-155, together with the places that feed it and share the session table:
`server.rs` 1165-1170 (registration), 506-530 (insertion into the table) and the removals at 376 and 760.

Session names are only compared for equality, so they are an arbitrary type `N`.  `Instant`s are natural numbers read off one
monotone clock.  The session table is a partial map; the reaper's step under the table lock is atomic, as are the insertions and
removals of the server, which hold the same lock.
-/

namespace Shpool.Reaper

variable {N : Type} [DecidableEq N]

/-- `Reapable`, ttl_reaper.rs 131-135. -/
structure Reapable (N : Type) where
  name : N
  gen : Nat
  at_ : Nat
  deriving DecidableEq, Repr

/-- `Ord for Reapable`, ttl_reaper.rs 150-155: flipped. -/
def Reapable.cmp (a b : Reapable N) : Ordering := compare b.at_ a.at_

/-- A session as far as the reaper is concerned.  `sid` tells sessions apart, `deadline` is the deadline it was registered with,
if any, `regNo` says the how many-th registration of its name that was, `insertedAt` is when it entered the table. -/
structure Sess where
  sid : Nat
  deadline : Option Nat
  regNo : Nat
  insertedAt : Nat
  deriving DecidableEq, Repr

/-- A session being created: registered, but not yet in the table (server.rs between 1165 and 514). -/
structure Creating (N : Type) where
  name : N
  sid : Nat
  deadline : Option Nat
  regNo : Nat
  deriving DecidableEq, Repr

/-- `mail` is the bounded channel, `received` (ghost) everything taken from it so far; `gens` is `gen_ids` (0 if absent).
The heap is a list in any order. -/
structure St (N : Type) where
  now : Nat
  received : List (N × Nat)
  mail : List (N × Nat)
  gens : N → Nat
  heap : List (Reapable N)
  table : N → Option Sess
  creating : List (Creating N)
  nextSid : Nat

/-- Everything registered so far, in order. -/
def St.sent (s : St N) : List (N × Nat) := s.received ++ s.mail

/-- `Server::new`, server.rs 90-137, and ttl_reaper.rs 45-46. -/
def init : St N := ⟨0, [], [], fun _ => 0, [], fun _ => none, [], 0⟩

/-- Capacity of the registration channel, server.rs 96. -/
def mailCap : Nat := 10

inductive Label (N : Type) where
  /-- the clock advances -/
  | tick
  /-- a session is spawned; with a ttl it is registered (`reap_at = now + ttl`), server.rs 906-1170 -/
  | spawn (n : N) (ttl : Option Nat)
  /-- the spawned session is put into the table, replacing any other, server.rs 506-530 -/
  | insert (c : Creating N)
  /-- the server removes the session (shell exited or killed on request), server.rs 376, 760 -/
  | remove (n : N)
  /-- the reaper takes a registration, ttl_reaper.rs 51-60 and 79-89 -/
  | recv
  /-- the timer branch with `e` popped from the heap, ttl_reaper.rs 96-121 -/
  | reap (e : Reapable N)

def countOf (n : N) (l : List (N × Nat)) : Nat := (l.filter (fun m => decide (m.1 = n))).length

/-- `heap.pop()` may return `e`: no element of the heap is greater. -/
def isTop (heap : List (Reapable N)) (e : Reapable N) : Bool :=
  decide (e ∈ heap) && heap.all (fun x => x.cmp e ≠ .gt)

def step (s : St N) : Label N → Option (St N)
  | .tick => some { s with now := s.now + 1 }
  | .spawn n ttl =>
    match ttl with
    | none => some { s with creating := s.creating ++ [⟨n, s.nextSid, none, 0⟩], nextSid := s.nextSid + 1 }
    | some t =>
      -- `send` blocks while the channel is full
      if s.mail.length ≥ mailCap then none
      else some { s with
        mail := s.mail ++ [(n, s.now + t)]
        creating := s.creating ++ [⟨n, s.nextSid, some (s.now + t), countOf n s.sent + 1⟩]
        nextSid := s.nextSid + 1 }
  | .insert c =>
    if c ∈ s.creating then
      some { s with
        creating := s.creating.erase c
        table := fun m => if m = c.name then some ⟨c.sid, c.deadline, c.regNo, s.now⟩ else s.table m }
    else none
  | .remove n => some { s with table := fun m => if m = n then none else s.table m }
  | .recv =>
    match s.mail with
    | [] => none
    | (n, t) :: rest =>
      let g := s.gens n + 1
      some { s with
        mail := rest
        received := s.received ++ [(n, t)]
        gens := fun m => if m = n then g else s.gens m
        heap := s.heap ++ [⟨n, g, t⟩] }
  | .reap e =>
    -- `at(wake_at)` is ready once the clock has reached the top's deadline
    if isTop s.heap e = true ∧ e.at_ ≤ s.now then
      let s' := { s with heap := s.heap.erase e }
      if s.gens e.name ≠ e.gen then some s'
      else match s.table e.name with
        | none => some s'
        | some _ => some { s' with table := fun m => if m = e.name then none else s.table m }
    else none

/-- A run from the start of the daemon. -/
def Run (ls : List (Label N)) (s : St N) : Prop := runSteps step init ls = some s

end Shpool.Reaper
