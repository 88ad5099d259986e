import Verif.Keybindings.EngineLemmas
/-!
# Properties C08-C12: keybinding grammar, key codes and the matching engine
-/

namespace Shpool.Keys
open Str

/-! ## C08: specs of the grammar are understood as written -/

/-- A spec of the documented grammar with code-less chords is *rejected*: "Ctrl-1" and "Ctrl-9" follow the grammar
(`sym` includes the numbers, keybindings.rs 41) but have no control code. -/
theorem C08_false : ∃ (src : List Char) (cs : List SpecChord), Writes src cs ∧ cs ≠ [] ∧
    ∀ a, ¬ ∃ b, Bindings.new [(src, a)] = .ok b := by
  refine ⟨['C', 't', 'r', 'l', '-', '1'], [⟨true, .digit '1' (by decide)⟩], by decide, by decide, ?_⟩
  intro a
  rintro ⟨b, hb⟩
  have : Bindings.new [(['C', 't', 'r', 'l', '-', '1'], a)] = .error .unknownCode := rfl
  rw [this] at hb; cases hb

/-- C08 (all chords but Ctrl-1 and Ctrl-9). A spec that writes the chords `cs`, with any white space anywhere, is read as exactly
those chords. -/
theorem C08_understood_partial (src : List Char) (cs : List SpecChord) (hw : Writes src cs)
    (hcl : ∀ c ∈ cs, ¬ c.Codeless) :
    ∃ toks, tokenize src = .ok toks ∧ parse toks = .ok (cs.map SpecChord.keys) := by
  obtain ⟨toks, h1, h2, -⟩ := understood_of_text src cs [] (.inl rfl) (by rw [List.append_nil]; exact hw) hcl
  exact ⟨toks, h1, h2⟩

/-- C08 (all chords but Ctrl-1 and Ctrl-9). Any number of such specs is accepted together; in particular the limit of 255
distinct chords is never hit. -/
theorem C08_accepted_partial (cfg : List (List Char × Action))
    (h : ∀ e ∈ cfg, ∃ cs, Writes e.1 cs ∧ ∀ c ∈ cs, ¬ SpecChord.Codeless c) :
    ∃ b, Bindings.new cfg = .ok b := by
  rw [new_ok_iff]
  induction cfg with
  | nil => exact ⟨[], .nil⟩
  | cons e cfg ih =>
    obtain ⟨src, a⟩ := e
    obtain ⟨cs, hw, hcl⟩ := h _ (List.mem_cons_self)
    obtain ⟨pc, hpc⟩ := ih (fun e he => h e (List.mem_cons_of_mem _ he))
    exact ⟨_, .cons (understood_of_text src cs [] (.inl rfl) (by rw [List.append_nil]; exact hw) hcl) hpc⟩

/-- "Ctrl-Space  Ctrl-q" with two spaces is a spec of the grammar. -/
def demoSrc : List Char := "Ctrl-Space  Ctrl-q".toList
def demoChords : List SpecChord := [⟨true, .space⟩, ⟨true, .letter 'q' (by decide)⟩]
example : Writes demoSrc demoChords := by decide
example : ∀ c ∈ demoChords, ¬ SpecChord.Codeless c := by
  intro c hc
  simp only [demoChords, List.mem_cons, List.not_mem_nil, or_false] at hc
  rcases hc with rfl | rfl <;> decide

/-! ## C09: malformed specs are rejected -/

/-- The claim that everything outside the grammar is rejected is false: a dangling dash, a cut off key name and an
empty spec are all accepted. -/
theorem C09_false :
    (∃ b, Bindings.new [("a-".toList, .detach)] = .ok b) ∧
    (∃ b, Bindings.new [("a Spac".toList, .detach)] = .ok b) ∧
    (∃ b, Bindings.new [("".toList, .detach)] = .ok b) := ⟨⟨_, rfl⟩, ⟨_, rfl⟩, ⟨_, rfl⟩⟩

/-- None of these three is in the grammar. -/
theorem C09_false_not_written :
    (∀ cs, ¬ Writes "a-".toList cs) ∧ (∀ cs, ¬ Writes "a Spac".toList cs) ∧
    (∀ cs, Writes "".toList cs → cs = []) := by
  have last : ∀ (cs : List SpecChord) (s : List Char) (x : Char), cs.flatMap SpecChord.text = s ++ [x] →
      ∃ k ∈ symTexts, k.getLast? = some x ∧ ∃ p, s ++ [x] = p ++ k := by
    intro cs s x h
    rcases List.eq_nil_or_concat cs with rfl | ⟨cs, c, rfl⟩
    · simp at h
    · rw [List.concat_eq_append] at h
      simp only [List.flatMap_append, List.flatMap_cons, List.flatMap_nil, List.append_nil] at h
      obtain ⟨ctrl, sym⟩ := c
      have hk := sym_text_mem sym
      have hne : ∀ k ∈ symTexts, k ≠ [] := by decide
      obtain ⟨p, hp⟩ : ∃ p, s ++ [x] = p ++ sym.text := by
        cases ctrl
        · exact ⟨_, h.symm⟩
        · exact ⟨List.flatMap SpecChord.text cs ++ ['C', 't', 'r', 'l', '-'], by rw [← h]; simp [SpecChord.text]⟩
      refine ⟨sym.text, hk, ?_, p, hp⟩
      have := congrArg List.getLast? hp
      rw [List.getLast?_append, List.getLast?_append] at this
      cases hg : sym.text.getLast? with
      | none => exact absurd (List.getLast?_eq_none_iff.mp hg) (hne _ hk)
      | some y => rw [hg] at this; simpa using this.symm
  refine ⟨?_, ?_, ?_⟩
  · intro cs h
    obtain ⟨k, hk, hl, -⟩ := last cs ['a'] '-' (by
      have : squeeze "a-".toList = ['a'] ++ ['-'] := by decide
      rw [← this]; exact h.symm)
    have : ∀ k ∈ symTexts, k.getLast? ≠ some '-' := by decide
    exact this k hk hl
  · intro cs h
    have hs : squeeze "a Spac".toList = ['a', 'S', 'p', 'a'] ++ ['c'] := by decide
    -- peel the keys off from the end
    have nosym : ∀ (cs : List SpecChord), cs.flatMap SpecChord.text ≠ ['a', 'S', 'p', 'a', 'c'] := by
      intro cs hcs
      have hp := lex_tokens ((cs.map SpecChord.keys).flatMap chordToks) (by
        intro t ht
        obtain ⟨c, hc, hc2⟩ := List.mem_flatMap.mp ht
        obtain ⟨sc, -, rfl⟩ := List.mem_map.mp hc
        exact (specChord_toks sc).1 t hc2) [] [] rfl
      have htext : ((cs.map SpecChord.keys).flatMap chordToks).flatMap Token.text = ['a', 'S', 'p', 'a', 'c'] := by
        rw [← hcs, List.flatMap_map, List.flatMap_assoc]
        congr 1; funext c; exact (specChord_toks c).2.1
      rw [htext] at hp
      simp only [List.append_nil] at hp
      have h2 : lexLoop .start [] ['a', 'S', 'p', 'a', 'c'] = .ok [.key ['a']] := by decide
      rw [h2] at hp
      simp only [Except.ok.injEq] at hp
      rw [← hp] at htext
      exact absurd htext (by decide)
    exact nosym cs (by rw [← h, hs]; rfl)
  · intro cs h
    have h' : cs.flatMap SpecChord.text = [] := h.symm
    cases cs with
    | nil => rfl
    | cons c cs =>
      simp only [List.flatMap_cons, List.append_eq_nil_iff] at h'
      have hne : ∀ k ∈ symTexts, k ≠ [] := by decide
      obtain ⟨ctrl, sym⟩ := c
      cases ctrl
      · exact absurd h'.1 (hne _ (sym_text_mem sym))
      · simp [SpecChord.text] at h'

/-- C09 (up to the leniencies). Exactly which configurations are accepted: every spec must, apart from white space, be chords of
the grammar that have a code, followed at most by a dangling dash and/or a cut off "Ctrl"/"Space".  Everything else (unknown
key, Ctrl alone, Ctrl-Ctrl, two plain keys in one chord, doubled dash, leading dash) is an error. -/
theorem C09_accepts_exactly_partial (cfg : List (List Char × Action)) :
    (∃ b, Bindings.new cfg = .ok b) ↔
    ∀ e ∈ cfg, ∃ (cs : List SpecChord) (tail : List Char), squeeze e.1 = cs.flatMap SpecChord.text ++ tail ∧
      (∀ c ∈ cs, ¬ c.Codeless) ∧
      (tail = [] ∨ tail ∈ wordPrefixes ∨ (cs ≠ [] ∧ (tail = ['-'] ∨ ∃ w ∈ wordPrefixes, tail = '-' :: w))) := by
  rw [new_ok_iff]
  induction cfg with
  | nil => exact ⟨fun _ => by simp, fun _ => ⟨[], .nil⟩⟩
  | cons e cfg ih =>
    obtain ⟨src, a⟩ := e
    constructor
    · rintro ⟨pc, hp⟩
      cases hp with
      | cons hu hp =>
        intro e he
        rcases List.mem_cons.mp he with rfl | he
        · obtain ⟨cs, tail, -, h2, h3, h4⟩ := text_of_understood _ _ hu
          exact ⟨cs, tail, h4, h2, h3⟩
        · exact ih.mp ⟨_, hp⟩ e he
    · intro h
      obtain ⟨cs, tail, h1, h2, h3⟩ := h _ List.mem_cons_self
      obtain ⟨pc, hpc⟩ := ih.mpr (fun e he => h e (List.mem_cons_of_mem _ he))
      exact ⟨_, .cons (understood_of_text src cs tail h3 h1 h2) hpc⟩

example : ¬ ∃ b, Bindings.new [("Ctrl".toList, .detach)] = .ok b := by rintro ⟨b, h⟩; cases h
example : ¬ ∃ b, Bindings.new [("Ctrl--a".toList, .detach)] = .ok b := by rintro ⟨b, h⟩; cases h
example : ¬ ∃ b, Bindings.new [("a-b".toList, .detach)] = .ok b := by rintro ⟨b, h⟩; cases h
example : ¬ ∃ b, Bindings.new [("A".toList, .detach)] = .ok b := by rintro ⟨b, h⟩; cases h

/-! ## C10: key codes -/

/-- What an ASCII terminal sends for Ctrl-<character>: the upper case character with bit 6 flipped. -/
def asciiControl (c : Char) : Nat := c.toUpper.toNat ^^^ 64

/-- C10. A plain key is bound to its own byte. -/
theorem C10_plain (s : Sym) : keyCode [s.text] = .ok (match s with
    | .space => 32
    | .punct c _ => UInt8.ofNat c.toNat
    | .digit c _ => UInt8.ofNat c.toNat
    | .letter c _ => UInt8.ofNat c.toNat) := by
  cases s with
  | space => rfl
  | punct c h =>
    show keyCode [[c]] = _
    dsimp only
    simp only [List.mem_cons, List.not_mem_nil, or_false] at h
    rcases h with rfl | rfl | rfl | rfl | rfl | rfl | rfl <;> rfl
  | digit c h =>
    exact char_range (P := fun c => keyCode [[c]] = .ok (UInt8.ofNat c.toNat)) 48 57 (by decide) (by decide) c h
  | letter c h =>
    exact char_range (P := fun c => keyCode [[c]] = .ok (UInt8.ofNat c.toNat)) 97 122 (by decide) (by decide) c h

/-- The table swaps Ctrl-x and Ctrl-y: Ctrl-x is bound to 25 although terminals send 24 for it. -/
theorem C10_false : keyCode [['C', 't', 'r', 'l'], ['x']] = .ok 25 ∧ asciiControl 'x' = 24 ∧
    keyCode [['C', 't', 'r', 'l'], ['y']] = .ok 24 ∧ asciiControl 'y' = 25 := by decide

/-- C10 (all letters but x and y). Ctrl with a letter or with `\ [ ] @ ^ _ ?` is bound to the ASCII control byte, and Ctrl-Space to
zero. -/
theorem C10_control_partial :
    keyCode [['C', 't', 'r', 'l'], ['S', 'p', 'a', 'c', 'e']] = .ok 0 ∧
    (∀ c : Char, (97 ≤ c.toNat ∧ c.toNat ≤ 122) → c ≠ 'x' → c ≠ 'y' →
      keyCode [['C', 't', 'r', 'l'], [c]] = .ok (UInt8.ofNat (asciiControl c))) ∧
    (∀ c ∈ ['\\', '[', ']', '@', '^', '_', '?'],
      keyCode [['C', 't', 'r', 'l'], [c]] = .ok (UInt8.ofNat (asciiControl c))) := by
  refine ⟨rfl, ?_, by decide⟩
  intro c h hx hy
  have hfin : ∀ n : Fin 128, 97 ≤ n.val → n.val ≤ 122 → Char.ofNat n.val = 'x' ∨ Char.ofNat n.val = 'y' ∨
      keyCode [['C', 't', 'r', 'l'], [Char.ofNat n.val]] = .ok (UInt8.ofNat (asciiControl (Char.ofNat n.val))) := by
    decide
  rcases char_range (P := fun c => c = 'x' ∨ c = 'y' ∨
    keyCode [['C', 't', 'r', 'l'], [c]] = .ok (UInt8.ofNat (asciiControl c))) 97 122
      (fun n hn h1 h2 => hfin ⟨n, hn⟩ h1 h2) (by decide) c h with h | h | h
  · exact absurd h hx
  · exact absurd h hy
  · exact h

/-- C10. The digits 2 to 8 stand for the control codes a VT220/xterm assigns to them. -/
theorem C10_digits :
    ['2', '3', '4', '5', '6', '7', '8'].map (fun c => keyCode [['C', 't', 'r', 'l'], [c]]) =
      [0, 27, 28, 29, 30, 31, 127].map Except.ok := by decide

/-! ## C11: soundness -/

theorem spells_of_mem {cfg pc} (hp : ParsedAs cfg pc) {d : List Chord × Action} (hd : d ∈ pc) :
    ∃ src, (src, d.2) ∈ cfg ∧ understood src d.1 := by
  induction hp with
  | nil => cases hd
  | @cons src a chords cfg pc hu _ ih =>
    rcases List.mem_cons.mp hd with rfl | hd
    · exact ⟨src, by simp, hu⟩
    · obtain ⟨s, h1, h2⟩ := ih hd
      exact ⟨s, List.mem_cons_of_mem _ h1, h2⟩

theorem mem_of_spells {cfg pc} (hp : ParsedAs cfg pc) {src : List Char} {a : Action} (h : (src, a) ∈ cfg)
    (toks : List Token) (chords : List Chord) (h1 : tokenize src = .ok toks) (h2 : parse toks = .ok chords) :
    (chords, a) ∈ pc := by
  induction hp with
  | nil => cases h
  | @cons src' a' chords' cfg pc hu _ ih =>
    rcases List.mem_cons.mp h with he | h
    · cases he
      obtain ⟨t, e1, e2, -⟩ := hu
      rw [h1] at e1; cases e1
      rw [h2] at e2; cases e2
      simp
    · exact List.mem_cons_of_mem _ (ih h)

/-- When an action fires, the bytes of the current run of partial answers plus the last byte spell the binding. -/
theorem fired_bytes (cfg : List (List Char × Action)) (b : Bindings) (hb : Bindings.new cfg = .ok b)
    (h : List UInt8) (x : UInt8) (a : Action) (hm : ((b.run h).1.transition x).2 = .match a) :
    ∃ src, (src, a) ∈ cfg ∧ Spells src ((b.track h).2 ++ [x]) ∧ (b.track h).2 <:+ h := by
  obtain ⟨pc, num, ci, hpc, hc, h1, h2⟩ := new_compiled cfg b hb
  obtain ⟨s, hs⟩ := EInv.track hc h1 h2 h
  rw [← track_fst] at hm
  have hspec := transition_spec (hc.same hs.tables) hs.at_ x
  dsimp only at hspec
  obtain ⟨-, hsp⟩ := hspec
  cases hl : Trie.lastInserted ci [x] with
  | none => rw [hl] at hsp; dsimp only at hsp; rw [hm] at hsp; exact absurd hsp.1 (by simp)
  | some atom =>
    rw [hl] at hsp
    dsimp only at hsp
    cases hv : Trie.lastInserted (pc.map fun d => (d.1.map num, d.2)) (s ++ [atom]) with
    | none =>
      rw [hv] at hsp
      dsimp only at hsp
      split at hsp <;> (rw [hm] at hsp; exact absurd hsp.1 (by simp))
    | some a' =>
      rw [hv] at hsp
      dsimp only at hsp
      rw [hm] at hsp
      have haa : a = a' := by simpa using hsp.1
      subst haa
      obtain ⟨d, hd, he⟩ := List.mem_map.mp (lastInserted_mem hv)
      simp only [Prod.mk.injEq] at he
      obtain ⟨src, hsrc, toks, hu1, hu2, -⟩ := spells_of_mem hpc hd
      refine ⟨src, by rw [← he.2]; exact hsrc, (spells_iff _ _).mpr ⟨toks, d.1, hu1, hu2, ?_⟩, hs.suffix⟩
      apply codes_of_atoms hc
      · intro c hcd; exact List.mem_flatMap.mpr ⟨d, hd, hcd⟩
      · rw [he.1]; simp [hs.codes, hl]

/-- C11. Whenever the engine reports an action after the input `h ++ [x]`, the input ends with the complete byte sequence of a
configured binding with exactly that action. -/
theorem C11_action_only_on_its_keys (cfg : List (List Char × Action)) (b : Bindings) (hb : Bindings.new cfg = .ok b)
    (h : List UInt8) (x : UInt8) (a : Action) (hm : ((b.run h).1.transition x).2 = .match a) :
    ∃ src codes, (src, a) ∈ cfg ∧ Spells src codes ∧ codes ≠ [] ∧ codes <:+ h ++ [x] := by
  obtain ⟨src, h1, h2, t, ht⟩ := fired_bytes cfg b hb h x a hm
  exact ⟨src, _, h1, h2, by simp, t, by rw [← List.append_assoc, ht]⟩

/-- C11. As long as the engine answers "partial", the bytes of that run are the beginning, but not all, of the byte sequence of a
configured binding. -/
theorem C11_partial_is_proper_prefix (cfg : List (List Char × Action)) (b : Bindings) (hb : Bindings.new cfg = .ok b)
    (h : List UInt8) (hne : (b.track h).2 ≠ []) :
    ∃ src a codes, (src, a) ∈ cfg ∧ Spells src codes ∧ (b.track h).2 <+: codes ∧ (b.track h).2 ≠ codes := by
  obtain ⟨pc, num, ci, hpc, hc, h1, h2⟩ := new_compiled cfg b hb
  obtain ⟨s, hs⟩ := EInv.track hc h1 h2 h
  have hlen : (b.track h).2.length = s.length := by simpa using congrArg List.length hs.codes
  have hsne : s ≠ [] := by
    intro e; subst e
    exact hne (List.length_eq_zero_iff.mp (by simpa using hlen))
  obtain ⟨d, hd, hpre, hneq⟩ := hs.pending hsne
  obtain ⟨src, hsrc, toks, hu1, hu2, hu3⟩ := spells_of_mem hpc hd
  -- all codes of the binding
  obtain ⟨codes, hcodes⟩ : ∃ codes : List UInt8, d.1.map keyCode = codes.map Except.ok := by
    generalize d.1 = l at hu3
    induction l with
    | nil => exact ⟨[], rfl⟩
    | cons c cs ih =>
      obtain ⟨code, hcd⟩ := hu3 c (by simp)
      obtain ⟨codes, hcs⟩ := ih (fun c h => hu3 c (List.mem_cons_of_mem _ h))
      exact ⟨code :: codes, by simp [hcd, hcs]⟩
  refine ⟨src, d.2, codes, hsrc, (spells_iff _ _).mpr ⟨toks, d.1, hu1, hu2, hcodes⟩, ?_, ?_⟩
  · obtain ⟨t, ht⟩ := hpre
    have hsd : s = (d.1.take s.length).map num := by
      rw [List.map_take, ← ht]; simp
    have hk := codes_of_atoms hc (b.track h).2 (d.1.take s.length)
      (fun c hcd => List.mem_flatMap.mpr ⟨d, hd, List.mem_of_mem_take hcd⟩) (by rw [← hsd]; exact hs.codes)
    rw [List.map_take, hcodes, ← List.map_take] at hk
    have : codes.take s.length = (b.track h).2 := List.map_inj_right (fun _ _ h => by cases h; rfl) |>.mp hk
    rw [← this]
    exact List.take_prefix _ _
  · intro he
    apply hneq
    obtain ⟨t, ht⟩ := hpre
    have l1 : codes.length = d.1.length := by simpa using (congrArg List.length hcodes).symm
    have l2 : s.length = (d.1.map num).length := by rw [← hlen, he, l1]; simp
    have : t = [] := by
      have := congrArg List.length ht
      simp only [List.length_append] at this
      exact List.length_eq_zero_iff.mp (by omega)
    rw [this] at ht; simpa using ht

/-- The default configuration, shell.rs 817-823. -/
def defaultCfg : List (List Char × Action) := [("Ctrl-Space Ctrl-q".toList, .detach)]
/-- The results of a whole input with a fresh engine. -/
def results (cfg : List (List Char × Action)) (input : List UInt8) : Except Err (List BindingResult) :=
  match Bindings.new cfg with
  | .ok b => .ok (b.run input).2
  | .error e => .error e
example : results defaultCfg [104, 0, 17] = .ok [.noMatch, .partialMatch, .match .detach] := by decide

/-! ## C12: completeness -/

/-- The claim "a typed keybinding always fires" is false: after one stray Ctrl-Space, the default sequence Ctrl-Space
Ctrl-q does nothing, because the failing byte is not tried again as the start of a binding. -/
theorem C12_false : results defaultCfg [0, 0, 17] = .ok [.partialMatch, .noMatch, .noMatch] := by decide

/-- A binding whose first keys are themselves a binding can never fire. -/
theorem C12_false_prefix :
    results [("a b".toList, .detach), ("a".toList, .noOp)] [97, 98] = .ok [.match .noOp, .noMatch] := by decide

/-- Two names of the same byte in different bindings disable the binding configured first. -/
theorem C12_false_alias :
    results [("Ctrl-Space a".toList, .detach), ("Ctrl-@ b".toList, .noOp)] [0, 97] = .ok [.partialMatch, .noMatch] := by
  decide

theorem prefix_of_keys {as bs : List SpecChord} (h : as.map SpecChord.keys <+: bs.map SpecChord.keys) : as <+: bs := by
  induction as generalizing bs with
  | nil => exact List.nil_prefix
  | cons a as ih =>
    cases bs with
    | nil => obtain ⟨t, ht⟩ := h; simp at ht
    | cons b bs =>
      simp only [List.map_cons, List.cons_prefix_cons] at h ⊢
      exact ⟨keys_inj h.1, ih h.2⟩

/-- C12 (idle engine, no aliasing, no shadowing). If the engine is not in the middle of a match, no two different configured
chords stand for the same byte, and no other configured binding with another meaning is a beginning of this one, then typing the
byte sequence of a binding answers "partial" for all but the last byte and fires exactly its action at the last byte,
whatever was typed before. -/
theorem C12_fires_partial (cfg : List (List Char × Action)) (b : Bindings) (hb : Bindings.new cfg = .ok b)
    (h : List UInt8) (hidle : (b.track h).2 = [])
    (src : List Char) (a : Action) (hmem : (src, a) ∈ cfg) (cs : List SpecChord) (hr : ReadAs src cs) (hne : cs ≠ [])
    (codes : List UInt8) (hcodes : cs.map SpecChord.byte = codes.map some)
    (hdist : ∀ s1 a1 c1 s2 a2 c2, (s1, a1) ∈ cfg → ReadAs s1 c1 → (s2, a2) ∈ cfg → ReadAs s2 c2 →
      ∀ x ∈ c1, ∀ y ∈ c2, x.byte = y.byte → x = y)
    (hsh : ∀ s1 a1 c1, (s1, a1) ∈ cfg → ReadAs s1 c1 → c1 ≠ [] → c1 <+: cs → c1 = cs ∧ a1 = a) :
    ((b.run h).1.run codes).2 = List.replicate (codes.length - 1) .partialMatch ++ [.match a] := by
  obtain ⟨pc, num, ci, hpc, hc, hs1, hs2⟩ := new_compiled cfg b hb
  obtain ⟨s, hs⟩ := EInv.track hc hs1 hs2 h
  rw [hidle] at hs
  have hse : s = [] := by simpa using hs.codes
  subst hse
  obtain ⟨toks, h1, h2, -⟩ := (understood_iff src _).mpr ⟨cs, hr, rfl⟩
  have hd := mem_of_spells hpc hmem toks _ h1 h2
  have key := run_binding hc ?_ (cs.map SpecChord.keys) a hd ?_ [] (cs.map SpecChord.keys) rfl (by simpa using hne) codes
    ((codes_keys cs codes).mpr hcodes) _ hs.tables hs.at_
  · rw [track_fst] at key
    have hl : cs.length = codes.length := by simpa using congrArg List.length hcodes
    rw [key, List.length_map, hl]
  · intro c hcm c' hcm' he
    obtain ⟨d, hdm, hcd⟩ := List.mem_flatMap.mp hcm
    obtain ⟨d', hdm', hcd'⟩ := List.mem_flatMap.mp hcm'
    obtain ⟨s1, m1, hu1⟩ := spells_of_mem hpc hdm
    obtain ⟨s2, m2, hu2⟩ := spells_of_mem hpc hdm'
    obtain ⟨c1, r1, e1⟩ := (understood_iff _ _).mp hu1
    obtain ⟨c2, r2, e2⟩ := (understood_iff _ _).mp hu2
    rw [e1] at hcd
    rw [e2] at hcd'
    obtain ⟨x, hx, rfl⟩ := List.mem_map.mp hcd
    obtain ⟨y, hy, rfl⟩ := List.mem_map.mp hcd'
    have : x.byte = y.byte := by
      cases hxb : x.byte with
      | none =>
        obtain ⟨_, _, _, h3⟩ := r1
        exact absurd hxb (h3 x hx)
      | some k =>
        have hk := (keyCode_byte x k).mpr hxb
        rw [he] at hk
        exact ((keyCode_byte y k).mp hk).symm
    rw [hdist s1 _ c1 s2 _ c2 m1 r1 m2 r2 x hx y hy this]
  · intro d hdm hdne hpre
    obtain ⟨s1, m1, hu1⟩ := spells_of_mem hpc hdm
    obtain ⟨c1, r1, e1⟩ := (understood_iff _ _).mp hu1
    rw [e1] at hdne hpre ⊢
    obtain ⟨e, ea⟩ := hsh s1 d.2 c1 m1 r1 (by rintro rfl; exact hdne rfl) (prefix_of_keys hpre)
    exact ⟨by rw [e], ea⟩

/-- C12. The engine is idle (the hypothesis of `C12_fires_partial`) at the start, after any fired action, after any byte
answered with "no match", and in particular after any byte that belongs to no configured binding. -/
theorem C12_idle_partial (cfg : List (List Char × Action)) (b : Bindings) (hb : Bindings.new cfg = .ok b)
    (h : List UInt8) (x : UInt8) :
    (b.track []).2 = [] ∧
    (((b.run h).1.transition x).2 ≠ .partialMatch → (b.track (h ++ [x])).2 = []) ∧
    ((∀ src a codes, (src, a) ∈ cfg → Spells src codes → x ∉ codes) → (b.track (h ++ [x])).2 = []) := by
  have hstep : ((b.run h).1.transition x).2 ≠ .partialMatch → (b.track (h ++ [x])).2 = [] := by
    intro hm
    rw [track_snoc, track_fst]
    cases hr : ((b.run h).1.transition x).2 with
    | partialMatch => exact absurd hr hm
    | noMatch => rfl
    | «match» a => rfl
  refine ⟨rfl, hstep, ?_⟩
  intro hx
  rcases Classical.em ((b.track (h ++ [x])).2 = []) with he | he
  · exact he
  · obtain ⟨src, a, codes, m, sp, hpre, -⟩ := C11_partial_is_proper_prefix cfg b hb (h ++ [x]) he
    -- the pending bytes end with x
    have hxmem : x ∈ (b.track (h ++ [x])).2 := by
      revert he
      rw [track_snoc]
      cases ((b.track h).1.transition x).2 <;> simp
    exact absurd (hpre.subset hxmem) (hx src a codes m sp)

/-- The default configuration meets the hypotheses of `C12_fires_partial` after typing "hi". -/
example : ∃ b, Bindings.new defaultCfg = .ok b ∧ (b.track [104, 105]).2 = [] ∧
    ((b.run [104, 105]).1.run [0, 17]).2 = [.partialMatch, .match .detach] := ⟨_, rfl, by decide, by decide⟩
example : ReadAs "Ctrl-Space Ctrl-q".toList [⟨true, .space⟩, ⟨true, .letter 'q' (by decide)⟩] ∧
    [(⟨true, .space⟩ : SpecChord), ⟨true, .letter 'q' (by decide)⟩].map SpecChord.byte = [0, 17].map some :=
  ⟨⟨[], .inl rfl, by decide, by decide⟩, by decide⟩
/-- It has no other reading, so it meets the conditions on aliases and shadows. -/
example : ∀ s1 a1 c1, (s1, a1) ∈ defaultCfg → ReadAs s1 c1 → c1 = [⟨true, .space⟩, ⟨true, .letter 'q' (by decide)⟩] := by
  intro s1 a1 c1 hm hr
  simp only [defaultCfg, List.mem_singleton, Prod.mk.injEq] at hm
  obtain ⟨rfl, -⟩ := hm
  obtain ⟨toks, h1, h2, -⟩ := (understood_iff _ _).mpr ⟨c1, hr, rfl⟩
  have e1 : tokenize "Ctrl-Space Ctrl-q".toList =
      .ok [.key ctrlWord, .dash, .key spaceWord, .key ctrlWord, .dash, .key ['q']] := by decide
  rw [e1] at h1; cases h1
  have e2 : parse [.key ctrlWord, .dash, .key spaceWord, .key ctrlWord, .dash, .key ['q']] =
      .ok ([⟨true, .space⟩, ⟨true, .letter 'q' (by decide)⟩].map SpecChord.keys) := by decide
  rw [e2] at h2
  simp only [Except.ok.injEq] at h2
  have inj : ∀ as bs : List SpecChord, as.map SpecChord.keys = bs.map SpecChord.keys → as = bs := by
    intro as
    induction as with
    | nil => intro bs h; cases bs with
      | nil => rfl
      | cons b bs => simp at h
    | cons a as ih => intro bs h; cases bs with
      | nil => simp at h
      | cons b bs =>
        simp only [List.map_cons, List.cons.injEq] at h
        rw [keys_inj h.1, ih bs h.2]
  exact (inj _ _ h2).symm

end Shpool.Keys
