import Verif.Server.Model
/-!
# Model of the times in the list

Sources: `/repo/libshpool/src/daemon/server.rs` 772-807 (`handle_list`), 1177 (`started_at`); `/repo/libshpool/src/daemon/shell.rs` 76-87.

The transition system of the session table records the instants at which a session was started, last connected and last disconnected.
The daemon records what the system clock shows at these instants, and the clock can be set: here it is any function from instants to
nanoseconds since 1970.  `list` is the answer to a list request with the times as they are sent, or `none` if the request fails (then there
is no answer, and `shpool list` ends with an error).  Simplified: the clock shows the same all through one step of the transition system, so
a session is started and first connected at the same time.
-/

namespace Shpool.Clock
open Server (Name St)

/-- What the system clock shows at each instant, in nanoseconds since 1970. -/
abbrev Wall := Nat → Int

/-- Rust's `as i64` of a `u128`: the low 64 bits, as a signed number (server.rs 786, 790, 795-796). -/
def asI64 (n : Nat) : Int :=
  if n % 2 ^ 64 < 2 ^ 63 then ((n % 2 ^ 64 : Nat) : Int) else ((n % 2 ^ 64 : Nat) : Int) - 2 ^ 64

/-- `t.duration_since(time::UNIX_EPOCH)` and `as_millis() as i64`, server.rs 786, 790, 795-796: an error for times before 1970. -/
def unixMs (t : Int) : Option Int := if t < 0 then none else some (asI64 (t.toNat / 1000000))

/-- `Option::map` and `transpose`, server.rs 784-791. -/
def maybeMs : Option Int → Option (Option Int)
  | none => some none
  | some t => match unixMs t with
    | none => none
    | some m => some (some m)

/-- `Session`, shpool-protocol/src/lib.rs 274-291. -/
structure Line where
  name : Name
  started : Int
  lastConn : Option Int
  lastDisc : Option Int
  attached : Bool
  attachment : Option Nat
  deriving DecidableEq, Repr

/-- The closure of `handle_list`, server.rs 777-801. -/
def line (w : Wall) (s : St) (p : Name × Nat) : Option Line :=
  let v := s.sess p.2
  match maybeMs (v.lastConn.map w), maybeMs (v.lastDisc.map w), unixMs (w v.started) with
  | some c, some d, some b => some ⟨p.1, b, c, d, v.owner.isSome, v.attachment⟩
  | _, _, _ => none

/-- `collect` of results, server.rs 803: the first error is the result. -/
def collect {α : Type} : List (Option α) → Option (List α)
  | [] => some []
  | none :: _ => none
  | some a :: r => match collect r with
    | none => none
    | some as => some (a :: as)

/-- `handle_list`, server.rs 772-807. -/
def list (w : Wall) (s : St) : Option (List Line) := collect (s.table.map (line w s))

end Shpool.Clock
