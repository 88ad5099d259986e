import Verif.Util.Str
import Verif.Trie.Model
/-!
# Model of keybinding specs and of the matching engine

Source: `/repo/libshpool/src/daemon/keybindings.rs` 26-479.  Strings are `List Char`; the error text is reduced to the
kind of error.
-/

namespace Shpool.Keys
open Str

/-- `Token`, keybindings.rs 358-362. -/
inductive Token where
  | key (k : List Char)
  | dash
  deriving DecidableEq, Repr

/-- Reasons for rejecting a binding spec (the `anyhow!` messages of keybindings.rs). -/
inductive Err where
  | trieBug          -- 385
  | unexpectedChar   -- 402
  | unexpectedDash   -- 335
  | invalidChord     -- 231-247
  | unknownCode      -- 277
  | tooManyChords    -- 142
  deriving DecidableEq, Repr

/-- The word "Ctrl". -/
def ctrlWord : List Char := ['C', 't', 'r', 'l']
/-- The word "Space". -/
def spaceWord : List Char := ['S', 'p', 'a', 'c', 'e']

/-- `Lexer::new`, keybindings.rs 365-372. -/
def wordsTrie : Trie Char Unit := Trie.build [(ctrlWord, ()), (spaceWord, ())]

/-- The single character tokens of keybindings.rs 391-403. -/
def charToken (c : Char) : Except Err Token :=
  if c = '-' then .ok .dash
  else if c = '\\' ∨ c = '[' ∨ c = ']' ∨ c = '@' ∨ c = '^' ∨ c = '_' ∨ c = '?' then .ok (.key [c])
  else if 48 ≤ c.toNat ∧ c.toNat ≤ 57 then .ok (.key [c])
  else if 97 ≤ c.toNat ∧ c.toNat ≤ 122 then .ok (.key [c])
  else .error .unexpectedChar

/-- The inner loop of keybindings.rs 390-404, emitting each buffered character on its own. -/
def emitChars : List Char → Except Err (List Token)
  | [] => .ok []
  | c :: cs =>
    match charToken c with
    | .error e => .error e
    | .ok t => match emitChars cs with
      | .error e => .error e
      | .ok ts => .ok (t :: ts)

/-- The loop of `Lexer::tokenize`, keybindings.rs 378-424, with the cursor and the buffered word.  The tokens pushed so
far are returned in front of the tokens of the rest, instead of being accumulated. -/
def lexLoop : TrieCursor → List Char → List Char → Except Err (List Token)
  | _, _, [] => .ok []
  | cur, word, c :: cs =>
    if isWhitespace c then lexLoop cur word cs
    else
      match wordsTrie.advance cur c with
      | .start => .error .trieBug
      | .noMatch =>
        match emitChars (word ++ [c]) with
        | .error e => .error e
        | .ok ts => match lexLoop .start [] cs with
          | .error e => .error e
          | .ok rest => .ok (ts ++ rest)
      | .match i p =>
        if p then lexLoop (.match i p) (word ++ [c]) cs
        else match lexLoop .start [] cs with
          | .error e => .error e
          | .ok rest => .ok (.key (word ++ [c]) :: rest)

/-- `Lexer::tokenize`, keybindings.rs 374-425. -/
def tokenize (src : List Char) : Except Err (List Token) := lexLoop .start [] src

/-- `Chord`, keybindings.rs 220. -/
abbrev Chord := List (List Char)

/-- The loop of `parse`, keybindings.rs 320-347, with the finished chords, the keys of the current chord and the
`saw_dash` flag. -/
def parseLoop (chords : List Chord) (keys : Chord) (sawDash : Bool) : List Token → Except Err (List Chord)
  | [] => .ok (if keys.isEmpty then chords else chords ++ [keys])
  | .key k :: ts =>
    if sawDash then parseLoop chords (keys ++ [k]) false ts
    else parseLoop (chords ++ [keys]) [k] sawDash ts
  | .dash :: ts =>
    if sawDash then .error .unexpectedDash
    else parseLoop chords keys true ts

/-- `parse`, keybindings.rs 316-348. -/
def parse (ts : List Token) : Except Err (List Chord) := parseLoop [] [] true ts

/-- `Chord::is_ctrl`, keybindings.rs 284-286. -/
def isCtrl (k : List Char) : Bool := decide (k = ctrlWord)

/-- `char::is_digit(36)`. -/
def isDigit36 (c : Char) : Bool :=
  decide (48 ≤ c.toNat ∧ c.toNat ≤ 57) || decide (97 ≤ c.toNat ∧ c.toNat ≤ 122) ||
    decide (65 ≤ c.toNat ∧ c.toNat ≤ 90)

/-- `Chord::is_sym`, keybindings.rs 288-306. (`key.len() != 1` counts bytes; a one character key that passes
`is_digit(36)` is one byte.) -/
def isSym (k : List Char) : Bool :=
  if k = spaceWord then true
  else match k with
    | [c] => decide (c = '\\' ∨ c = '[' ∨ c = ']' ∨ c = '@' ∨ c = '^' ∨ c = '_' ∨ c = '?') || isDigit36 c
    | _ => false

/-- `Chord::is_key`, keybindings.rs 280-282. -/
def isKey (k : List Char) : Bool := isCtrl k || isSym k

/-- `Chord::check_valid`, keybindings.rs 228-250. -/
def checkValid (c : Chord) : Except Err Unit :=
  if !c.all isKey then .error .invalidChord
  else match c with
    | [k] => if isCtrl k then .error .invalidChord else .ok ()
    | [k1, k2] =>
      if !isCtrl k1 then .error .invalidChord
      else if isCtrl k2 then .error .invalidChord
      else .ok ()
    | _ => .error .invalidChord

/-- `CONTROL_CODES`, keybindings.rs 436-479, keyed by the second key of the chord: the table's strings are all
`"Ctrl-" ++ key`, and the looked up string `format!("{self}")` of a valid two-key chord is `"Ctrl-" ++ key` too. -/
def controlCodes : List (List Char × UInt8) :=
  [ (spaceWord, 0),
    (['a'], 1), (['b'], 2), (['c'], 3), (['d'], 4), (['e'], 5), (['f'], 6), (['g'], 7), (['h'], 8), (['i'], 9),
    (['j'], 10), (['k'], 11), (['l'], 12), (['m'], 13), (['n'], 14), (['o'], 15), (['p'], 16), (['q'], 17),
    (['r'], 18), (['s'], 19), (['t'], 20), (['u'], 21), (['v'], 22), (['w'], 23), (['y'], 24), (['x'], 25),
    (['z'], 26), (['@'], 0), (['2'], 0), (['['], 27), (['3'], 27), (['\\'], 28), (['4'], 28), ([']'], 29),
    (['5'], 29), (['^'], 30), (['6'], 30), (['_'], 31), (['7'], 31), (['?'], 127), (['8'], 127), (['0'], 127) ]

/-- `Chord::key_code`, keybindings.rs 257-278. -/
def keyCode (c : Chord) : Except Err UInt8 :=
  match checkValid c with
  | .error e => .error e
  | .ok () =>
    match c with
    | [k] =>
      if isSym k then
        if k = spaceWord then .ok 32
        else match k with
          | ch :: _ => .ok (UInt8.ofNat ch.toNat)
          | [] => .error .unknownCode
      else .error .unknownCode
    | [_, k2] =>
      match controlCodes.find? (fun e => e.1 = k2) with
      | some e => .ok e.2
      | none => .error .unknownCode
    | _ => .error .unknownCode

/-- `Action`, keybindings.rs 201-208. -/
inductive Action where
  | detach
  | noOp
  deriving DecidableEq, Repr

/-- `BindingResult`, keybindings.rs 86-90. -/
inductive BindingResult where
  | noMatch
  | partialMatch
  | «match» (a : Action)
  deriving DecidableEq, Repr

/-- The mutable locals of `Bindings::new`, keybindings.rs 121-125.  `atoms` is the `HashMap<Chord, ChordAtom>` as an
association list (a key is inserted at most once). -/
structure BuildState where
  chords : Trie UInt8 UInt8
  sequences : Trie UInt8 Action
  counter : Nat
  atoms : List (Chord × UInt8)

/-- Initial locals, keybindings.rs 121-125. -/
def BuildState.init : BuildState := ⟨Trie.new, Trie.new, 0, []⟩

/-- `chord_atom_tab.get(chord)`. -/
def lookupAtom (atoms : List (Chord × UInt8)) (c : Chord) : Option UInt8 :=
  (atoms.find? (fun e => e.1 = c)).map (·.2)

/-- The body of the chord loop, keybindings.rs 132-149. -/
def addChord (st : BuildState) (c : Chord) : Except Err BuildState :=
  match keyCode c with
  | .error e => .error e
  | .ok code =>
    let (atom, counter, atoms) :=
      match lookupAtom st.atoms c with
      | some a => (a, st.counter, st.atoms)
      | none => (UInt8.ofNat st.counter, st.counter + 1, st.atoms ++ [(c, UInt8.ofNat st.counter)])
    if counter ≥ 255 then .error .tooManyChords
    else .ok { st with chords := st.chords.insert [code] atom, counter := counter, atoms := atoms }

/-- The chord loop, keybindings.rs 132-149. -/
def addChords (st : BuildState) : List Chord → Except Err BuildState
  | [] => .ok st
  | c :: cs => match addChord st c with
    | .error e => .error e
    | .ok st' => addChords st' cs

/-- One iteration of the binding loop, keybindings.rs 128-152.  The `unwrap` at 151 cannot fail: every chord of the
sequence was entered in the table just before (`Lemmas.addChords_known`); the model drops a chord that is missing. -/
def addBinding (st : BuildState) (src : List Char) (action : Action) : Except Err BuildState :=
  match tokenize src with
  | .error e => .error e
  | .ok toks =>
    match parse toks with
    | .error e => .error e
    | .ok seq =>
      match addChords st seq with
      | .error e => .error e
      | .ok st' =>
        .ok { st' with sequences := st'.sequences.insert (seq.filterMap (lookupAtom st'.atoms)) action }

/-- The loop over the configured bindings, keybindings.rs 128-152. -/
def addBindings (st : BuildState) : List (List Char × Action) → Except Err BuildState
  | [] => .ok st
  | (src, a) :: rest => match addBinding st src a with
    | .error e => .error e
    | .ok st' => addBindings st' rest

/-- `Bindings`, keybindings.rs 68-82. -/
structure Bindings where
  chords : Trie UInt8 UInt8
  chordsCursor : TrieCursor
  sequences : Trie UInt8 Action
  sequencesCursor : TrieCursor

/-- `Bindings::new`, keybindings.rs 120-160. -/
def Bindings.new (cfg : List (List Char × Action)) : Except Err Bindings :=
  match addBindings .init cfg with
  | .error e => .error e
  | .ok st => .ok ⟨st.chords, .start, st.sequences, .start⟩

/-- `Bindings::transition`, keybindings.rs 165-198. -/
def Bindings.transition (b : Bindings) (byte : UInt8) : Bindings × BindingResult :=
  let cc := b.chords.advance b.chordsCursor byte
  match b.chords.get cc with
  | some atom =>
    let sc := b.sequences.advance b.sequencesCursor atom
    match sc with
    | .match i p =>
      if p then ({ b with chordsCursor := .start, sequencesCursor := sc }, .partialMatch)
      else
        match b.sequences.get (.match i p) with
        | some a => ({ b with chordsCursor := .start, sequencesCursor := .start }, .match a)
        | none => ({ b with chordsCursor := .start, sequencesCursor := .start }, .noMatch)
    | _ => ({ b with chordsCursor := .start, sequencesCursor := .start }, .noMatch)
  | none =>
    match cc with
    | .match _ true => ({ b with chordsCursor := cc }, .partialMatch)
    | _ => ({ b with chordsCursor := .start, sequencesCursor := .start }, .noMatch)

/-- Feeding a whole input, collecting the result after each byte (the use in shell.rs 848-916). -/
def Bindings.run (b : Bindings) : List UInt8 → Bindings × List BindingResult
  | [] => (b, [])
  | x :: xs =>
    let (b', r) := b.transition x
    let (b'', rs) := b'.run xs
    (b'', r :: rs)

end Shpool.Keys
