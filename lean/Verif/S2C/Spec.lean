import Verif.S2C.Model
/-!
# Vocabulary for the properties of the shell-to-client thread
-/

namespace Shpool.S2C
open Chunk (Chunk Kind)

/-- The frames delivered on one connection, in order. -/
def framesTo (out : List (Nat × Chunk)) (id : Nat) : List Chunk := (out.filter (·.1 = id)).map (·.2)

/-- The terminal data a frame carries. -/
def Data (f : Chunk) : List UInt8 := if f.kind = .data then f.buf else []

/-- The terminal data delivered on one connection. -/
def dataTo (out : List (Nat × Chunk)) (id : Nat) : List UInt8 := (framesTo out id).flatMap Data

/-- The text fed to the restore engine. -/
def processed (ops : List SpoolOp) : List UInt8 :=
  ops.flatMap (fun o => match o with | .process b => b | .resize _ _ => [])

/-- Everything the shell wrote. -/
def written (ls : List Label) : List UInt8 :=
  ls.flatMap (fun l => match l with | .shellWrite b => b | _ => [])

/-- The size asked for by an attach or resize request. -/
def request : Label → Option TtySize
  | .initial (some (.new _ z)) => some z
  | .select (.connection (some (.new _ z)) _ _) => some z
  | .select (.sizeChange (some z) _) => some z
  | _ => none

/-- The size in the most recent request. -/
def lastRequested (ls : List Label) : Option TtySize := (ls.filterMap request).getLast?

/-- The thread has not finished. -/
def Running (s : St) : Prop := ∀ e, s.pc ≠ .ended e

/-- The label hands the thread a new client. -/
def attaches : Label → Bool
  | .initial (some (.new _ _)) => true
  | .select (.connection (some (.new _ _)) _ _) => true
  | _ => false

/-- What `handle_detach` (server.rs 646-653) reports for an acknowledgement: everything but `DetachNone` counts as
detached. -/
def reportedDetached (a : Ack) : Prop := a ≠ .detachNone

/-- The label hands the thread a detach request. -/
def detaches : Label → Bool
  | .initial (some .disconnect) => true
  | .select (.connection (some .disconnect) _ _) => true
  | _ => false

/-- Text of a message of the day. -/
def motdText : Motd → List UInt8
  | .text m => m
  | _ => []

/-- The label is a step of the environment, not of the thread. -/
def isEnv : Label → Bool
  | .tick _ | .shellWrite _ | .shellClose | .exitKnown _ | .breaks _ | .setMotd _ => true
  | _ => false

end Shpool.S2C
