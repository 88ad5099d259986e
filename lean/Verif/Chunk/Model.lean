/-!
# Model of the chunk (frame) wire format

Source: `/repo/libshpool/src/protocol.rs` lines 84-126 (`Chunk::write_to`, `Chunk::read_into`) and
`/repo/shpool-protocol/src/lib.rs` lines 384-432 (`ChunkKind`, `TryFrom<u8>`, `Chunk`).

Bytes are `UInt8`, byte strings are `List UInt8`.  Rust `assert!` failures and I/O errors are explicit
error values.
-/

namespace Shpool.Chunk

/-- `ChunkKind`, shpool-protocol/src/lib.rs 384-398. -/
inductive Kind where
  | data
  | heartbeat
  | exitStatus
  | maybeSwitch
  deriving DecidableEq, Repr

/-- The discriminant written on the wire (`self.kind as u8`), shpool-protocol/src/lib.rs 384-398
(`Data = 0`, `Heartbeat = 1`, `ExitStatus = 2`, `MaybeSwitch = 3`). -/
def Kind.toByte : Kind → UInt8
  | .data => 0
  | .heartbeat => 1
  | .exitStatus => 2
  | .maybeSwitch => 3

/-- `TryFrom<u8> for ChunkKind`, shpool-protocol/src/lib.rs 400-412. -/
def Kind.ofByte (b : UInt8) : Option Kind :=
  if b = 0 then some .data
  else if b = 1 then some .heartbeat
  else if b = 2 then some .exitStatus
  else if b = 3 then some .maybeSwitch
  else none

/-- `Chunk`, shpool-protocol/src/lib.rs 424-432. -/
structure Chunk where
  kind : Kind
  buf : List UInt8
  deriving DecidableEq, Repr

/-- Reasons an operation can fail.  `panic` models the `assert!` at protocol.rs 90. -/
inductive Err where
  | panic
  | eof
  | unknownKind
  | bufferTooSmall
  deriving DecidableEq, Repr

/-- `write_u32::<LittleEndian>` applied to `self.buf.len() as u32` (protocol.rs 93): the cast keeps the low
32 bits. -/
def le32 (n : Nat) : List UInt8 :=
  [UInt8.ofNat (n % 256), UInt8.ofNat (n / 256 % 256), UInt8.ofNat (n / 65536 % 256),
   UInt8.ofNat (n / 16777216 % 256)]

/-- `read_u32::<LittleEndian>` on exactly four bytes (protocol.rs 113). Any other number of bytes cannot occur
after a successful `read_exact` of four. -/
def ofLe32 : List UInt8 → Option Nat
  | [a, b, c, d] => some (a.toNat + 256 * b.toNat + 65536 * c.toNat + 16777216 * d.toNat)
  | _ => none

/-- `Chunk::write_to`, protocol.rs 84-99.  The bytes that reach the stream if all writes succeed. -/
def writeTo (c : Chunk) : Except Err (List UInt8) :=
  match c.kind with
  | .exitStatus =>
      -- `assert!(self.buf.len() == 4)`; no length is written for exit status frames
      if c.buf.length = 4 then .ok (c.kind.toByte :: c.buf) else .error .panic
  | _ => .ok (c.kind.toByte :: (le32 c.buf.length ++ c.buf))

/-- A byte source offering `read_exact`; `σ` is the state of the source. -/
structure Source (σ : Type) where
  /-- `read_exact n`: `none` on EOF before `n` bytes. -/
  readExact : Nat → σ → Option (List UInt8 × σ)

/-- `Chunk::read_into`, protocol.rs 101-126, for a caller buffer of `cap` bytes, reading from `src`. -/
def readInto {σ : Type} (src : Source σ) (cap : Nat) (s : σ) : Except Err (Chunk × σ) :=
  match src.readExact 1 s with
  | none => .error .eof
  | some (kb, s) =>
    match kb.head?.bind Kind.ofByte with
    | none => .error .unknownKind
    | some .exitStatus =>
        if 4 > cap then .error .bufferTooSmall
        else match src.readExact 4 s with
          | none => .error .eof
          | some (buf, s) => .ok (⟨.exitStatus, buf⟩, s)
    | some k =>
        match src.readExact 4 s with
        | none => .error .eof
        | some (lb, s) =>
          match ofLe32 lb with
          | none => .error .eof
          | some len =>
            if len > cap then .error .bufferTooSmall
            else match src.readExact len s with
              | none => .error .eof
              | some (buf, s) => .ok (⟨k, buf⟩, s)

/-- `read_exact` on a plain byte string. -/
def flatReadExact (n : Nat) (s : List UInt8) : Option (List UInt8 × List UInt8) :=
  if s.length < n then none else some (s.take n, s.drop n)

/-- The ideal source: all bytes available at once. -/
def flat : Source (List UInt8) := ⟨flatReadExact⟩

/-- `read_exact` on a socket whose data arrives as a list of segments: every `read(2)` returns at most what is
left of the first segment; std's `read_exact` loops until `n` bytes are in (models `std::io::Read::read_exact`,
used at protocol.rs 105-119 through `byteorder` and directly). An empty segment stands for a spurious wake up. -/
def segReadExact : Nat → List (List UInt8) → Option (List UInt8 × List (List UInt8))
  | n, [] => if n = 0 then some ([], []) else none
  | n, seg :: segs =>
      if n ≤ seg.length then some (seg.take n, seg.drop n :: segs)
      else match segReadExact (n - seg.length) segs with
        | none => none
        | some (bs, segs') => some (seg ++ bs, segs')

/-- The segmented source. -/
def segmented : Source (List (List UInt8)) := ⟨segReadExact⟩

/-- The client's read loop (protocol.rs 310-390) reduced to its decoding: read `n` frames in a row. -/
def readN {σ : Type} (src : Source σ) (cap : Nat) : Nat → σ → Except Err (List Chunk × σ)
  | 0, s => .ok ([], s)
  | n + 1, s =>
    match readInto src cap s with
    | .error e => .error e
    | .ok (c, s) =>
      match readN src cap n s with
      | .error e => .error e
      | .ok (cs, s) => .ok (c :: cs, s)

/-- The daemon writing a sequence of frames on one connection: every frame is written by `write_to`
(protocol.rs 84-99); the first failing write aborts. -/
def writeAll : List Chunk → Except Err (List UInt8)
  | [] => .ok []
  | c :: cs =>
    match writeTo c with
    | .error e => .error e
    | .ok bs =>
      match writeAll cs with
      | .error e => .error e
      | .ok rest => .ok (bs ++ rest)

end Shpool.Chunk
