import Verif.Config.Model
/-!
# Model of the output spool

Sources: `/repo/libshpool/src/session_restore.rs`, `/repo/libshpool/src/daemon/server.rs` 58 and 1147-1154 (how many lines are
kept), `/repo/libshpool/src/config.rs` 350-377 (defaults).

The two terminal emulators (crates shpool_vt100 and shpool-vterm) are not part of the repository.  They are modelled by the
calls made to them; what they answer is an arbitrary function of these calls.
-/

namespace Shpool.Scroll

open Config

abbrev Bytes := List UInt8

/-- A call to a terminal emulator that changes it. -/
inductive Call where
  | new (rows cols scrollback : Nat)
  | setSize (rows cols : Nat)
  | process (b : Bytes)
  deriving DecidableEq, Repr

/-- What is asked of a terminal emulator: the screen, the last rows, the input modes (shpool_vt100 only). -/
inductive Query where
  | screen
  | last (n : Nat)
  | inputModes
  deriving DecidableEq, Repr

/-- A terminal emulator: the answer to a query, given the calls made so far. -/
abbrev Emulator := List Call → Query → Bytes

/-- `SessionSpool` implementations: `NullSpool` 60-72, `Vt100Screen` 74-104, `Vt100Lines` 106-138, `Vterm` 140-168.  The list
holds the calls made to the emulator so far. -/
inductive Spool where
  | null
  | vt100Screen (calls : List Call)
  | vt100Lines (calls : List Call) (n : Nat)
  | vterm (calls : List Call) (mode : RestoreMode)
  deriving DecidableEq, Repr

/-- `vterm_width`, session_restore.rs 24-39. -/
def vtermWidth (c : Config) : Nat := c.vt100_output_spool_width.getD 1024

/-- `session_restore::new`, session_restore.rs 171-201. -/
def Spool.new (c : Config) (rows cols scrollback : Nat) : Spool :=
  match c.session_restore_mode.getD .screen, c.session_restore_engine.getD .vt100 with
  | .simple, _ => .null
  | .screen, .vt100 => .vt100Screen [.new rows (vtermWidth c) scrollback]
  | .lines n, .vt100 => .vt100Lines [.new rows (vtermWidth c) scrollback] n
  | mode, .vterm => .vterm [.new rows cols scrollback] mode

/-- `resize`; the configuration is the one in force at that moment. -/
def Spool.resize (c : Config) (rows cols : Nat) : Spool → Spool
  | .null => .null
  | .vt100Screen cs => .vt100Screen (cs ++ [.setSize rows (vtermWidth c)])
  | .vt100Lines cs n => .vt100Lines (cs ++ [.setSize rows (vtermWidth c)]) n
  | .vterm cs m => .vterm (cs ++ [.setSize rows cols]) m

/-- `process`. -/
def Spool.process (b : Bytes) : Spool → Spool
  | .null => .null
  | .vt100Screen cs => .vt100Screen (cs ++ [.process b])
  | .vt100Lines cs n => .vt100Lines (cs ++ [.process b]) n
  | .vterm cs m => .vterm (cs ++ [.process b]) m

/-- `restore_buffer`. -/
def Spool.restore (e : Emulator) : Spool → Bytes
  | .null => []
  | .vt100Screen cs => e cs .screen ++ e cs .inputModes
  | .vt100Lines cs n => e cs (.last n) ++ e cs .inputModes
  | .vterm _ .simple => []
  | .vterm cs .screen => e cs .screen
  | .vterm cs (.lines n) => e cs (.last n)

/-- `scrollback_lines`, server.rs 1147-1154. -/
def scrollbackLines (c : Config) : Nat :=
  match c.output_spool_lines, c.session_restore_mode with
  | some l, _ => l
  | none, some (.lines l) => l
  | none, _ => 500

/-- One use of the spool by the shell-to-client thread. -/
inductive Op where
  | resize (c : Config) (rows cols : Nat)
  | process (b : Bytes)
  deriving DecidableEq, Repr

def Spool.apply (s : Spool) : Op → Spool
  | .resize c r k => s.resize c r k
  | .process b => s.process b

/-- The spool of a session created under configuration `c` by a client with the given terminal size, after `ops`. -/
def after (c : Config) (rows cols : Nat) (ops : List Op) : Spool :=
  ops.foldl Spool.apply (Spool.new c rows cols (scrollbackLines c))

end Shpool.Scroll
