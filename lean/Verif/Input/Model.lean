import Verif.Keybindings.Model
/-!
# Model of the client→shell keystroke filter

Source: `/repo/libshpool/src/daemon/shell.rs` 806-953 (thread body) and 1125-1177 (`snip_buf`).

The keybinding engine is a parameter `tr` (a transition function), instantiated with `Bindings.transition` in the
properties.  Writes to the pty are collected in order; write errors (which end the thread) are not modelled.
-/

namespace Shpool.Input
open Keys (BindingResult Action)

/-- `keep_sections` of `snip_buf`, shell.rs 1141-1151.  `none` is the arithmetic underflow of `end_open - len`. -/
def keepLoop (cur : Nat) (keep : List (Nat × Nat)) : List (Nat × Nat) → Option (Nat × List (Nat × Nat))
  | [] => some (cur, keep)
  | (len, endOff) :: rest =>
    let endOpen := endOff + 1
    if endOpen < len then none
    else
      let snipStart := endOpen - len
      keepLoop endOpen (if snipStart > cur then keep ++ [(cur, snipStart)] else keep) rest

/-- `std::ptr::copy(&buf[start], &mut buf[last_end], section_len)`, shell.rs 1171. -/
def memmove (buf : List UInt8) (start dst n : Nat) : List UInt8 :=
  buf.take dst ++ (buf.drop start).take n ++ buf.drop (dst + n)

/-- The compaction loop, shell.rs 1153-1176.  `none` is a failed assertion or an underflow of `end - start`. -/
def copyLoop (buf : List UInt8) (lastEnd : Nat) : List (Nat × Nat) → Option (List UInt8 × Nat)
  | [] => some (buf, lastEnd)
  | (start, «end») :: rest =>
    if start = «end» then copyLoop buf lastEnd rest
    else if start = lastEnd then copyLoop buf «end» rest
    else if «end» < start then none
    else
      let n := «end» - start
      if ¬ (lastEnd + n < buf.length) then none
      else if ¬ (start + n - 1 < buf.length) then none
      else copyLoop (memmove buf start lastEnd n) (lastEnd + n) rest

/-- `snip_buf`, shell.rs 1130-1177: the new buffer and the new length; `none` is a panic. -/
def snipBuf (buf : List UInt8) (len : Nat) (snips : List (Nat × Nat)) : Option (List UInt8 × Nat) :=
  if snips.isEmpty then some (buf, len)
  else match keepLoop 0 [] snips with
    | none => none
    | some (cur, keep) => copyLoop buf 0 (keep ++ [(cur, len)])

variable {σ : Type}

/-- Locals of the scanning loop, shell.rs 838-842: engine, `partial_keybinding`, `snip_sections`, and the bytes written
directly by the flush at 887-889. -/
structure Scan (σ : Type) where
  eng : σ
  part : List UInt8
  snips : List (Nat × Nat)
  flushed : List UInt8

/-- One iteration of the scanning loop, shell.rs 874-931.  The flag is true when the detach action fired and the thread
returns. -/
def scanByte (tr : σ → UInt8 → σ × BindingResult) (s : Scan σ) (i : Nat) (byte : UInt8) : Scan σ × Bool :=
  match (tr s.eng byte).2 with
  | .noMatch =>
    if ¬ s.part.isEmpty ∧ i < s.part.length then
      ({ s with eng := (tr s.eng byte).1, part := [], flushed := s.flushed ++ s.part,
                snips := if i > 0 then s.snips ++ [(i, i - 1)] else s.snips }, false)
    else ({ s with eng := (tr s.eng byte).1, part := [] }, false)
  | .partialMatch => ({ s with eng := (tr s.eng byte).1, part := s.part ++ [byte] }, false)
  | .match a =>
    let kl := s.part.length + 1
    let s' := { s with
      eng := (tr s.eng byte).1
      part := []
      snips := if kl < i then s.snips ++ [(kl, i)] else s.snips ++ [(i + 1, i)] }
    (s', match a with
      | .detach => true
      | .noOp => false)

/-- The scanning loop `for (i, byte) in buf[0..len].iter().enumerate()`, shell.rs 874-931. -/
def scan (tr : σ → UInt8 → σ × BindingResult) (s : Scan σ) (i : Nat) : List UInt8 → Scan σ × Bool
  | [] => (s, false)
  | b :: bs =>
    match scanByte tr s i b with
    | (s', true) => (s', true)
    | (s', false) => scan tr s' (i + 1) bs

/-- The state of the thread between reads: engine, `partial_keybinding`, `buf`. -/
structure Thread (σ : Type) where
  eng : σ
  part : List UInt8
  buf : List UInt8

/-- What one read leads to. -/
inductive Outcome (σ : Type) where
  /-- The loop goes on; the bytes were written to the shell. -/
  | running (t : Thread σ) (written : List UInt8)
  /-- The detach action fired and the thread returned; only these bytes of the read were written. -/
  | detached (written : List UInt8)
  /-- An assertion or arithmetic check failed. -/
  | panicked

/-- One read of `chunk` (not empty, at most `buf.length` bytes) and its processing, shell.rs 857-948. -/
def processRead (tr : σ → UInt8 → σ × BindingResult) (t : Thread σ) (chunk : List UInt8) : Outcome σ :=
  let buf := chunk ++ t.buf.drop chunk.length
  let len := chunk.length
  match scan tr ⟨t.eng, t.part, [], []⟩ 0 (buf.take len) with
  | (s, true) => .detached s.flushed
  | (s, false) =>
    let snips :=
      if ¬ s.part.isEmpty then
        s.snips ++ [(if s.part.length > len then len else s.part.length, len - 1)]
      else s.snips
    match snipBuf buf len snips with
    | none => .panicked
    | some (buf', len') => .running ⟨s.eng, s.part, buf'⟩ (s.flushed ++ buf'.take len')

/-- A series of reads, shell.rs 844-949. -/
def runReads (tr : σ → UInt8 → σ × BindingResult) (t : Thread σ) (written : List UInt8) : List (List UInt8) → Outcome σ
  | [] => .running t written
  | c :: cs =>
    match processRead tr t c with
    | .running t' w => runReads tr t' (written ++ w) cs
    | .detached w => .detached (written ++ w)
    | .panicked => .panicked

end Shpool.Input
