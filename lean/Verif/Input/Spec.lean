import Verif.Input.Model
/-!
# Specification of the keystroke filter

The filter should behave like this byte-at-a-time machine, which knows nothing about reads, offsets or buffers:
bytes that may still turn out to be a keybinding are withheld; if they do not, they are delivered together with the
byte that settled it; if they do, they are dropped.
-/

namespace Shpool.Input
open Keys (BindingResult Action)

variable {σ : Type}

/-- State of the ideal filter. -/
structure Ideal (σ : Type) where
  eng : σ
  withheld : List UInt8
  delivered : List UInt8

/-- One byte. -/
def Ideal.step (tr : σ → UInt8 → σ × BindingResult) (s : Ideal σ) (b : UInt8) : Ideal σ :=
  match (tr s.eng b).2 with
  | .noMatch => ⟨(tr s.eng b).1, [], s.delivered ++ s.withheld ++ [b]⟩
  | .partialMatch => ⟨(tr s.eng b).1, s.withheld ++ [b], s.delivered⟩
  | .match _ => ⟨(tr s.eng b).1, [], s.delivered⟩

/-- A whole input. -/
def Ideal.run (tr : σ → UInt8 → σ × BindingResult) (s : Ideal σ) (input : List UInt8) : Ideal σ :=
  input.foldl (Ideal.step tr) s

/-- No detach binding fires on the input. -/
def NoDetach (tr : σ → UInt8 → σ × BindingResult) : σ → List UInt8 → Prop
  | _, [] => True
  | e, b :: bs => (tr e b).2 ≠ .match .detach ∧ NoDetach tr (tr e b).1 bs

/-- No binding at all fires on the input. -/
def NoFire (tr : σ → UInt8 → σ × BindingResult) : σ → List UInt8 → Prop
  | _, [] => True
  | e, b :: bs => (∀ a, (tr e b).2 ≠ .match a) ∧ NoFire tr (tr e b).1 bs

/-- No binding that fires in this read (from offset `i` on, with `w` bytes of it already seen) has its first byte at offset 1
of the read. -/
def NoSecondByteStart (tr : σ → UInt8 → σ × BindingResult) : σ → List UInt8 → Nat → List UInt8 → Prop
  | _, _, _, [] => True
  | e, w, i, b :: bs =>
    match (tr e b).2 with
    | .noMatch => NoSecondByteStart tr (tr e b).1 [] (i + 1) bs
    | .partialMatch => NoSecondByteStart tr (tr e b).1 (w ++ [b]) (i + 1) bs
    | .match _ => w.length + 1 ≠ i ∧ NoSecondByteStart tr (tr e b).1 [] (i + 1) bs

/-- The same for a series of reads. -/
def NoSecondByteStarts (tr : σ → UInt8 → σ × BindingResult) : Ideal σ → List (List UInt8) → Prop
  | _, [] => True
  | s, c :: cs => NoSecondByteStart tr s.eng s.withheld 0 c ∧ NoSecondByteStarts tr (s.run tr c) cs

/-- Reads as the socket delivers them: never empty, never larger than the buffer. -/
def LegalReads (cap : Nat) (reads : List (List UInt8)) : Prop := ∀ c ∈ reads, c ≠ [] ∧ c.length ≤ cap

end Shpool.Input
