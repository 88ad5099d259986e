import Verif.Chunk.Model
/-!
# Specification of the frame format, independent of the reader

The shape of a legal frame, in the words of the protocol documentation: exit status frames carry exactly four bytes,
all other frames carry less than `2^32` bytes.
-/

namespace Shpool.Chunk

/-- A frame the protocol can carry. -/
def Legal (c : Chunk) : Prop :=
  (c.kind = .exitStatus → c.buf.length = 4) ∧ c.buf.length < 2 ^ 32

instance (c : Chunk) : Decidable (Legal c) := by unfold Legal; infer_instance

/-- Number of bytes a frame occupies on the wire. -/
def wireSize (c : Chunk) : Nat :=
  match c.kind with
  | .exitStatus => 5
  | _ => 5 + c.buf.length

end Shpool.Chunk
