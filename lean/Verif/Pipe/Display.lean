import Verif.Pipe.Props
/-!
# C126: a client that ends gives the terminal's display back as it was

The settings of the terminal device (`tcsetattr`) are in C88.  This is about the state of the terminal itself that programs change by
writing to it: alternate screen, mouse reports, bracketed paste, hidden cursor and the like.
-/

namespace Shpool.Pipe
open Chunk (Chunk Kind)

/-! ## A terminal

A small specification of how terminals treat private modes: `ESC [ ? n h` sets mode `n`, `ESC [ ? n l` resets it; anything else leaves the
modes alone.  (Sequences with several numbers, and all other functions of a terminal, are left out.) -/

inductive Parser where
  | ground
  | esc
  | csi
  | num (n : Nat)
  deriving DecidableEq, Repr

structure Terminal where
  parser : Parser
  modes : List Nat
  deriving DecidableEq, Repr

/-- One byte written to the terminal. -/
def Terminal.byte (t : Terminal) (b : UInt8) : Terminal :=
  match t.parser with
  | .ground => if b = 0x1b then { t with parser := .esc } else t
  | .esc => { t with parser := if b = 0x5b then .csi else if b = 0x1b then .esc else .ground }
  | .csi => { t with parser := if b = 0x3f then .num 0 else if b = 0x1b then .esc else .ground }
  | .num n =>
    if 0x30 ≤ b ∧ b ≤ 0x39 then { t with parser := .num (10 * n + (b.toNat - 0x30)) }
    else if b = 0x68 then ⟨.ground, if n ∈ t.modes then t.modes else n :: t.modes⟩
    else if b = 0x6c then ⟨.ground, t.modes.filter (· ≠ n)⟩
    else { t with parser := if b = 0x1b then .esc else .ground }

def Terminal.write (t : Terminal) (bs : List UInt8) : Terminal := bs.foldl Terminal.byte t

theorem write_append (t : Terminal) (a b : List UInt8) : t.write (a ++ b) = (t.write a).write b := List.foldl_append ..

/-! ## C126 -/

/-- The client has ended. -/
def MainPC.ended : MainPC → Prop
  | .done _ | .hardExit _ => True
  | _ => False

/-- C126: when a client ends, its terminal has the modes it had before. -/
def C126_statement : Prop := ∀ (ls : List Label) (s : St) (t : Terminal), Run ls s → s.main.ended →
  ∀ n, n ∈ (t.write s.stdout).modes ↔ n ∈ t.modes

/-- An application switches to the alternate screen: `ESC [ ? 1049 h`. -/
def altScreen : Chunk := ⟨.data, [0x1b, 0x5b, 0x3f, 0x31, 0x30, 0x34, 0x39, 0x68]⟩

/-- The frame that ends a client that was detached. -/
def exit0 : Chunk := ⟨.exitStatus, [0, 0, 0, 0]⟩

/-- Attaching, an application in the alternate screen, and a detach request. -/
def detached : List Label := [.inCheck, .outCheck, .outRecv altScreen, .outHandle false none false, .outCheck, .outRecv exit0,
  .outHandle false none false, .outCheck, .mainWake, .stamp, .inTimeout, .inCheck, .wait2End false]

/-- **C126 fails**: after a detach the terminal still is in the alternate screen. -/
theorem C126_false : ¬ C126_statement := by
  intro h
  have := h detached _ ⟨.ground, []⟩ rfl trivial 1049
  revert this
  decide

/-- **C126**, exactly: the client adds nothing of its own, so the modes are those that the output of the session leaves. -/
theorem C126_exact_partial {ls : List Label} {s : St} (h : Run ls s) (hok : s.stdoutFailed = none) (t : Terminal) :
    t.write s.stdout = t.write (printed s.handled) := by rw [C24_prints_exactly h hok]

/-- **C126** for a session whose programs have undone what they did to the terminal: so it is for everybody. Missing: programs that have not,
because they still run. -/
theorem C126_undone_partial {ls : List Label} {s : St} (h : Run ls s) (hok : s.stdoutFailed = none) (t : Terminal)
    (hu : ∀ n, n ∈ (t.write (printed s.handled)).modes ↔ n ∈ t.modes) : ∀ n, n ∈ (t.write s.stdout).modes ↔ n ∈ t.modes := by
  rw [C126_exact_partial h hok t]; exact hu

/-- The application leaves the alternate screen before the detach. -/
example : ∃ s, Run ([.inCheck, .outCheck, .outRecv altScreen, .outHandle false none false, .outCheck,
      .outRecv ⟨.data, [0x1b, 0x5b, 0x3f, 0x31, 0x30, 0x34, 0x39, 0x6c]⟩, .outHandle false none false, .outCheck, .outRecv exit0,
      .outHandle false none false, .outCheck, .mainWake, .stamp, .inTimeout, .inCheck, .wait2End false] : List Label) s ∧ s.main.ended ∧
    s.stdoutFailed = none ∧ (Terminal.write ⟨.ground, [25]⟩ (printed s.handled)).modes = [25] := ⟨_, rfl, trivial, rfl, by decide⟩

/-- **C126**: what one client leaves behind is there for whatever uses the terminal next, also for the client's next session when it
switches (C60): the terminal's state is carried over. -/
theorem C126_carried {ls ls' : List Label} {s s' : St} (h : Run ls s) (hok : s.stdoutFailed = none) (h' : Run ls' s')
    (hok' : s'.stdoutFailed = none) (t : Terminal) :
    (t.write s.stdout).write s'.stdout = t.write (printed s.handled ++ printed s'.handled) := by
  rw [C24_prints_exactly h hok, C24_prints_exactly h' hok', write_append]

end Shpool.Pipe
