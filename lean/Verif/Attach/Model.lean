import Verif.Client.Model
/-!
# Model of the attach process: its terminal and its exit status

Sources: `/repo/libshpool/src/tty.rs` 82-140, `/repo/libshpool/src/attach.rs` 101-239, `/repo/libshpool/src/protocol.rs` 250-260 and
446-519, `/repo/libshpool/src/lib.rs` 454-488.

What happens between entering and leaving the piping is in `Verif/Pipe`; here only how it ends (`PipeEnd`).  The flag words of the
terminal are 32 bit vectors with the Linux values of the flags; the remaining settings (control characters, speeds) are one opaque
number.  Setting the attributes of the terminal succeeds (an error leaves it as it was).
-/

namespace Shpool.Attach

open Shpool.Client Shpool.Template

/-! ## Terminal flags -/

structure Termios where
  iflag : BitVec 32
  oflag : BitVec 32
  cflag : BitVec 32
  lflag : BitVec 32
  rest : Nat
  deriving DecidableEq, Repr

/-! The flags used in tty.rs 106-121 (asm-generic/termbits.h). -/
def IGNBRK : BitVec 32 := 0x1#32
def BRKINT : BitVec 32 := 0x2#32
def PARMRK : BitVec 32 := 0x8#32
def ISTRIP : BitVec 32 := 0x20#32
def INLCR : BitVec 32 := 0x40#32
def IGNCR : BitVec 32 := 0x80#32
def ICRNL : BitVec 32 := 0x100#32
def IXON : BitVec 32 := 0x400#32
def OPOST : BitVec 32 := 0x1#32
def ISIG : BitVec 32 := 0x1#32
def ICANON : BitVec 32 := 0x2#32
def ECHO : BitVec 32 := 0x8#32
def ECHONL : BitVec 32 := 0x40#32
def IEXTEN : BitVec 32 := 0x8000#32
def CSIZE : BitVec 32 := 0x30#32
def CS8 : BitVec 32 := 0x30#32
def PARENB : BitVec 32 := 0x100#32

/-- tty.rs 105-121. -/
def rawOf (old : Termios) : Termios :=
  { old with
    iflag := old.iflag &&& ~~~(IGNBRK ||| BRKINT ||| PARMRK ||| ISTRIP ||| INLCR ||| IGNCR ||| ICRNL ||| IXON)
    oflag := old.oflag &&& ~~~OPOST
    lflag := old.lflag &&& ~~~(ECHO ||| ECHONL ||| ICANON ||| ISIG ||| IEXTEN)
    cflag := (old.cflag &&& ~~~(CSIZE ||| PARENB)) ||| CS8 }

/-- `disable_echo`, tty.rs 82-89 (on the session's own pty). -/
def disableEcho (t : Termios) : Termios := { t with lflag := t.lflag &&& ~~~ECHO }

/-- Which of the three standard descriptors are terminals. -/
structure Ttys where
  stdin : Bool
  stdout : Bool
  stderr : Bool
  deriving DecidableEq, Repr

/-- `set_attach_flags`, tty.rs 91-125: the terminal afterwards and what the guard remembers. -/
def setAttachFlags (ttys : Ttys) (term : Termios) : Termios × Option Termios :=
  if !ttys.stdin || !ttys.stdout || !ttys.stderr then (term, none)
  else (rawOf term, some term)

/-- Dropping the guard, tty.rs 132-140. -/
def dropGuard (guard : Option Termios) (term : Termios) : Termios :=
  match guard with
  | some old => old
  | none => term

/-! ## Piping -/

inductive PipeResult where
  | exit (status : Int)
  | switch (vars : Vars)

/-- How `pipe_bytes` ends. -/
inductive PipeEnd where
  /-- the stream cannot be cloned, protocol.rs 259-260 -/
  | cloneErr
  /-- both threads ended, protocol.rs 510-517 -/
  | result (r : PipeResult)
  /-- a thread does not end: the process leaves at once, protocol.rs 473-482, with what is in the result slot -/
  | hardExit (slot : Option PipeResult)
  /-- a thread panicked: the panic is passed on, protocol.rs 497 and 506; the process ends with status 101 -/
  | panicked
  /-- a signal ends the process (there is no handler for any but SIGWINCH, attach.rs 436) -/
  | killed

/-- What `pipe_bytes` gives its caller, or how the process ends in it. -/
inductive Piped where
  | ok (r : PipeResult)
  | err
  | exits (status : Int)
  | killed

/-- `pipe_bytes`, protocol.rs 250-519.  `during`: the settings somebody else made meanwhile.  Results: the terminal while piping,
the terminal afterwards, the outcome. -/
def pipeBytes (ttys : Ttys) (term : Termios) (during : Option Termios) (e : PipeEnd) : Termios × Termios × Piped :=
  let (term1, guard) := setAttachFlags ttys term
  let term2 := during.getD term1
  match e with
  | .cloneErr => (term1, dropGuard guard term1, .err)
  | .result r => (term1, dropGuard guard term2, .ok r)
  | .hardExit (some (.exit n)) => (term1, dropGuard guard term2, .exits n)
  | .hardExit _ => (term1, dropGuard guard term2, .exits 1)
  | .panicked => (term1, dropGuard guard term2, .exits 101)
  | .killed => (term1, term2, .killed)

/-! ## The attach process -/

/-- One attach to a session: the outcomes of the dials, whether the detach dialogue of a forced attach works, whether that of a
background attach works, and the piping. -/
structure Round where
  dials : List DialAttach
  detachOk : Bool
  bgOk : Bool
  during : Option Termios
  pipe : PipeEnd

/-- How the process ended. -/
inductive End where
  | exited (status : Int)
  | killed
  | running
  deriving DecidableEq, Repr

/-- What can be seen of an attach: the session's name and the terminal while piping. -/
structure Obs where
  name : Str
  term : Termios
  deriving DecidableEq, Repr

structure Opts where
  force : Bool
  background : Bool
  ttys : Ttys

/-- The loop of `Attach::run` with `attach_resolved`, attach.rs 119-135 and 140-239; an error ends the process with status 1
(lib.rs 482-485). -/
def attachLoop (o : Opts) (tm : Template) : Termios → Str → List Round → Termios × List Obs × End
  | term, _, [] => (term, [], .running)
  | term, name, r :: rs =>
    match (attachResolved o.force r.detachOk name r.dials).2 with
    | .reportedName => (term, [], .exited 0)
    | .reportedBusy => (term, [], .exited 0)
    | .failed => (term, [], .exited 1)
    | .waiting => (term, [], .running)
    | .attached =>
      if o.background then (term, [], .exited (if r.bgOk then 0 else 1))
      else
        let (t1, t2, res) := pipeBytes o.ttys term r.during r.pipe
        match res with
        | .ok (.exit n) => (t2, [⟨name, t1⟩], .exited n)
        | .ok (.switch vs) =>
          let (t3, obs, e) := attachLoop o tm t2 (tm.apply vs) rs
          (t3, ⟨name, t1⟩ :: obs, e)
        | .err => (t2, [⟨name, t1⟩], .exited 1)
        | .exits n => (t2, [⟨name, t1⟩], .exited n)
        | .killed => (t2, [⟨name, t1⟩], .killed)

/-- `Attach::run`, attach.rs 101-136; `first`: the variables read from the daemon, `none` if that fails. -/
def attachProc (o : Opts) (tm : Template) (term : Termios) (first : Option Vars) (rs : List Round) : Termios × List Obs × End :=
  match first with
  | none => (term, [], .exited 1)
  | some vs => attachLoop o tm term (tm.apply vs) rs

end Shpool.Attach
