import Verif.Keybindings.Props
/-! # Exactly which chords are bound to what terminals send (C10) -/

namespace Shpool.Keys

/-- **C10** (exactly which): Ctrl with a letter is bound to the byte terminals send for it exactly for the letters other than x and y. -/
theorem C10_exact (c : Char) (h : 97 ≤ c.toNat ∧ c.toNat ≤ 122) :
    keyCode [['C', 't', 'r', 'l'], [c]] = .ok (UInt8.ofNat (asciiControl c)) ↔ c ≠ 'x' ∧ c ≠ 'y' := by
  constructor
  · intro hk
    refine ⟨?_, ?_⟩ <;> (rintro rfl; revert hk; decide)
  · rintro ⟨hx, hy⟩
    exact C10_control_partial.2.1 c h hx hy

example : 97 ≤ 'q'.toNat ∧ 'q'.toNat ≤ 122 := by decide

/-- **C08** (all chords): a spec that writes the chords `cs`, with any white space anywhere, is read as exactly those chords. -/
theorem C08_understood (src : List Char) (cs : List SpecChord) (hw : Writes src cs) :
    ∃ toks, tokenize src = .ok toks ∧ parse toks = .ok (cs.map SpecChord.keys) := by
  have htext : squeeze src = ((cs.map SpecChord.keys).flatMap chordToks).flatMap Token.text ++ [] := by
    rw [show squeeze src = _ from hw, List.append_nil, List.flatMap_map, List.flatMap_assoc]
    congr 1; funext c
    exact (specChord_toks c).2.1.symm
  have hlextok : ∀ t ∈ (cs.map SpecChord.keys).flatMap chordToks, LexTok t := by
    intro t ht
    obtain ⟨c, hc, hc2⟩ := List.mem_flatMap.mp ht
    obtain ⟨sc, -, rfl⟩ := List.mem_map.mp hc
    exact (specChord_toks sc).1 t hc2
  have hlex := lex_tokens _ hlextok [] [] (lex_tail [] (.inl rfl))
  rw [← htext, List.append_nil] at hlex
  refine ⟨_, by unfold tokenize; rw [lexLoop_squeeze]; exact hlex, ?_⟩
  have := parse_chords (cs.map SpecChord.keys) (fun c hc => by
    obtain ⟨sc, -, rfl⟩ := List.mem_map.mp hc
    exact (specChord_toks sc).2.2) [] (.inl rfl)
  rwa [List.append_nil] at this

/-- **C08** (exactly which): specs that follow the documented grammar are accepted together exactly if none of them has Ctrl-1 or Ctrl-9 in it. -/
theorem C08_exact (cfg : List (List Char × Action)) (written : List Char → List SpecChord) (hw : ∀ e ∈ cfg, Writes e.1 (written e.1)) :
    (∃ b, Bindings.new cfg = .ok b) ↔ ∀ e ∈ cfg, ∀ c ∈ written e.1, ¬ c.Codeless := by
  refine ⟨fun h => ?_, fun h => C08_accepted_partial cfg (fun e he => ⟨_, hw e he, h e he⟩)⟩
  obtain ⟨pc, hpc⟩ := (new_ok_iff cfg).mp h
  clear h
  induction hpc with
  | nil => intro e he; cases he
  | @cons src a chords cfg pc hu _ ih =>
    intro e he
    rcases List.mem_cons.mp he with rfl | he
    · obtain ⟨toks, h1, h2, h3⟩ := hu
      obtain ⟨toks', h1', h2'⟩ := C08_understood src _ (hw _ List.mem_cons_self)
      rw [h1] at h1'
      cases h1'
      rw [h2] at h2'
      cases h2'
      intro c hc hcl
      obtain ⟨code, hk⟩ := h3 _ (List.mem_map.mpr ⟨c, hc, rfl⟩)
      rw [keyCode_byte, (codeless_iff c).mp hcl] at hk
      cases hk
    · exact ih (fun e he => hw e (List.mem_cons_of_mem _ he)) e he

example : Writes "Ctrl-9 a".toList [⟨true, .digit '9' (by decide)⟩, ⟨false, .letter 'a' (by decide)⟩] ∧
    (⟨true, .digit '9' (by decide)⟩ : SpecChord).Codeless := by decide

end Shpool.Keys
