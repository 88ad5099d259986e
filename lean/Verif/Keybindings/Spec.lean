import Verif.Keybindings.Model
/-!
# Specification of keybindings: documented grammar, terminal codes
-/

namespace Shpool.Keys
open Str

/-- The keys a user may name, documented at keybindings.rs 41 together with the punctuation of the control table. -/
inductive Sym where
  | space
  | punct (c : Char) (h : c ∈ ['\\', '[', ']', '@', '^', '_', '?'])
  | digit (c : Char) (h : 48 ≤ c.toNat ∧ c.toNat ≤ 57)
  | letter (c : Char) (h : 97 ≤ c.toNat ∧ c.toNat ≤ 122)

/-- How a key is written. -/
def Sym.text : Sym → List Char
  | .space => ['S', 'p', 'a', 'c', 'e']
  | .punct c _ => [c]
  | .digit c _ => [c]
  | .letter c _ => [c]

/-- A chord of the documented grammar: a key, possibly with Ctrl. -/
structure SpecChord where
  ctrl : Bool
  sym : Sym

/-- How a chord is written: `key` or `Ctrl-key`. -/
def SpecChord.text (c : SpecChord) : List Char :=
  if c.ctrl then ['C', 't', 'r', 'l', '-'] ++ c.sym.text else c.sym.text

/-- The keys held down together. -/
def SpecChord.keys (c : SpecChord) : List (List Char) :=
  if c.ctrl then [['C', 't', 'r', 'l'], c.sym.text] else [c.sym.text]

/-- The text of a spec with all white space removed. -/
def squeeze (s : List Char) : List Char := s.filter (fun c => !isWhitespace c)

/-- `src` is a way of writing the chords one after the other: apart from white space it is their texts in order. -/
def Writes (src : List Char) (cs : List SpecChord) : Prop := squeeze src = cs.flatMap SpecChord.text

instance (src : List Char) (cs : List SpecChord) : Decidable (Writes src cs) := inferInstanceAs (Decidable (_ = _))

/-- The two keys that have no control code: "Ctrl-1" and "Ctrl-9". -/
def SpecChord.Codeless (c : SpecChord) : Prop := c.ctrl = true ∧ (c.sym.text = ['1'] ∨ c.sym.text = ['9'])

instance (c : SpecChord) : Decidable c.Codeless := inferInstanceAs (Decidable (_ ∧ _))

/-- What terminals send for Ctrl with a digit (the convention of xterm and the VT220; none for 1 and 9). -/
def ctrlDigit (c : Char) : Option UInt8 :=
  if c = '2' then some 0
  else if c = '3' then some 27
  else if c = '4' then some 28
  else if c = '5' then some 29
  else if c = '6' then some 30
  else if c = '7' then some 31
  else if c = '8' then some 127
  else if c = '0' then some 127
  else none

/-- The byte a chord stands for: that of the key itself; with Ctrl the ASCII control byte, counted from Ctrl-a as 1 for a letter,
with bit 6 flipped for punctuation.  Ctrl-x and Ctrl-y stand for each other's byte (the defect of `C10_false`). -/
def SpecChord.byte : SpecChord → Option UInt8
  | ⟨false, .space⟩ => some 32
  | ⟨false, .punct c _⟩ => some (UInt8.ofNat c.toNat)
  | ⟨false, .digit c _⟩ => some (UInt8.ofNat c.toNat)
  | ⟨false, .letter c _⟩ => some (UInt8.ofNat c.toNat)
  | ⟨true, .space⟩ => some 0
  | ⟨true, .punct c _⟩ => some (UInt8.ofNat (c.toNat ^^^ 64))
  | ⟨true, .digit c _⟩ => ctrlDigit c
  | ⟨true, .letter c _⟩ => some (if c = 'x' then 25 else if c = 'y' then 24 else UInt8.ofNat (c.toNat - 96))

end Shpool.Keys
