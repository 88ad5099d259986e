import Verif.Config.Props
/-! # Exactly when the daemon starts (C73) and when the user's configuration file is the documented one (C74) -/

namespace Shpool.Config

/-- **C74** (exactly when): the files are the documented ones exactly if the two variables lead to the same directory. -/
theorem C74_exact (env : Str → Option Path) (home : Path) :
    configFiles none env home = [["etc".toList, "shpool".toList, "config.toml".toList],
      ((env "XDG_CONFIG_HOME".toList).getD (home ++ [".config".toList])) ++ ["shpool".toList, "config.toml".toList]] ↔
    (env "XDG_CONFIG_HOME".toList).getD (home ++ [".config".toList]) = (env "XDG_CONFIG_DIR".toList).getD (home ++ [".config".toList]) := by
  have e : configBaseDir env home = (env "XDG_CONFIG_DIR".toList).getD (home ++ [".config".toList]) := by
    simp only [configBaseDir]
    cases env "XDG_CONFIG_DIR".toList <;> rfl
  simp only [configFiles, userConfig, systemConfig, e, List.cons.injEq, true_and, and_true, List.append_cancel_right_eq]
  exact eq_comm

/-- **C73** (exactly when): the daemon starts exactly if none of the files it reads is malformed and, unless one is given explicitly, the user's file is not
the system's. -/
theorem C73_exact (explicit : Option Path) (env : Str → Option Path) (home : Path) (contents : Path → File) :
    managerStarts explicit env home contents = true ↔
      (∀ p ∈ configFiles explicit env home, contents p ≠ .malformed) ∧
      (explicit = none → userConfig env home ≠ ["etc".toList, "shpool".toList, "config.toml".toList]) := by
  have hl : (load ((configFiles explicit env home).map contents)).isSome = true ↔ ∀ p ∈ configFiles explicit env home, contents p ≠ .malformed := by
    rw [Option.isSome_iff_ne_none, ne_eq, (C32_precedence _).1]
    simp
  have hw : (watchAll [] (configFiles explicit env home)).isSome = true ↔
      (explicit = none → userConfig env home ≠ ["etc".toList, "shpool".toList, "config.toml".toList]) := by
    cases explicit with
    | some p => simp [configFiles, watchAll]
    | none =>
      by_cases h : userConfig env home = systemConfig
      · have h' : userConfig env home = ["etc".toList, "shpool".toList, "config.toml".toList] := h
        simp only [configFiles, watchAll, List.not_mem_nil, if_false, List.mem_singleton, if_pos h]
        simp [h']
      · have h' : ¬ userConfig env home = ["etc".toList, "shpool".toList, "config.toml".toList] := h
        simp only [configFiles, watchAll, List.not_mem_nil, if_false, List.mem_singleton, if_neg h]
        exact ⟨fun _ _ => h', fun _ => rfl⟩
  simp only [managerStarts, Bool.and_eq_true, hl, hw]

end Shpool.Config
