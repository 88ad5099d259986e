import Verif.Noise.Props
/-!
# Exactly when the marker is in what is typed (C150)
-/

namespace Shpool.Noise

open Inject

private theorem in_prompt {k : Known} (p : Str) : p <:+: promptScript (some k) p := by
  cases k with
  | bash => exact ⟨bash1, bash2 ++ p ++ bash3, by simp only [promptScript, List.append_assoc]⟩
  | zsh => exact ⟨zsh1, zsh2, rfl⟩
  | fish => exact ⟨fish1, fish2, rfl⟩

/-- **C150** (exactly).  The marker is in what is typed into a new shell if and only if the user put it there: in the prefix with the name in it (for a
shell whose prompt is set), in the start command, or in the path of the binary. -/
theorem C150_typed_exact (procName pfx startCmd name exe : Str) : marker <:+: script procName pfx startCmd name exe ↔
    (sniff procName ≠ none ∧ marker <:+: expandPrefix pfx name) ∨ marker <:+: startCmd ∨ marker <:+: exe := by
  constructor
  · intro h
    refine Classical.byContradiction fun hc => ?_
    simp only [not_or, not_and] at hc
    obtain ⟨h1, h2, h3⟩ := hc
    by_cases hs : sniff procName = none
    · have e : script procName pfx startCmd name exe = script procName [] startCmd [] exe := by
        simp only [script, hs, promptScript]
      rw [e] at h
      exact C150_typed_partial procName [] startCmd [] exe (by decide +kernel) h2 h3 h
    · exact C150_typed_partial procName pfx startCmd name exe (h1 hs) h2 h3 h
  · have hexe : exe <:+: script procName pfx startCmd name exe := by
      refine List.IsInfix.trans ?_ (List.suffix_append _ _).isInfix
      exact ⟨'\n' :: ' ' :: flagVar ++ '=' :: "prompt".toList ++ [' '], " daemon\n".toList, by simp [sentinelCmd]⟩
    rintro (⟨hs, h⟩ | h | h)
    · obtain ⟨k, hk⟩ := Option.ne_none_iff_exists'.mp hs
      refine h.trans ((in_prompt (k := k) _).trans ?_)
      simp only [script, hk]
      split
      · exact (List.prefix_append _ _).isInfix
      · exact ((List.prefix_append _ _).trans (List.prefix_append _ _) |>.trans (List.prefix_append _ _)).isInfix
    · refine h.trans ?_
      by_cases he : startCmd = []
      · subst he; exact List.nil_infix
      · rw [C67_start_cmd _ _ _ _ _ he]
        exact ⟨promptScript (sniff procName) (expandPrefix pfx name) ++ ['\n'], '\n' :: sentinelCmd "prompt".toList exe, by
          simp only [List.append_assoc, List.cons_append, List.nil_append]⟩
    · exact h.trans hexe

/-- A session that has the marker as its name, with the prefix used by default, in bash. -/
example : sniff "bash".toList ≠ none ∧ marker <:+: expandPrefix defaultPrefix marker :=
  ⟨by decide +kernel, "shpool:".toList, [' '], by decide +kernel⟩

end Shpool.Noise
