import Verif.LetGo.Props
/-!
# Letting go of the launching command, repaired (C134)

Counterfactual: `/repo/libshpool/src/daemonize.rs` 72-89 marks the descriptors above 2 close-on-exec before it launches the daemon.
-/

namespace Shpool.LetGo

/-- The client (daemonize.rs 72-89), had it marked its descriptors above 2. -/
def marked (c : Proc) : Proc :=
  { c with fd := fun i => if i < 3 then c.fd i else (c.fd i).map fun e => { e with cloexec := true } }

/-- **C134** (repaired).  If the client marked its descriptors above 2, the daemon would have nothing of what launched it: another session and group,
no terminal, not its directory, and no open file but /dev/null; and it would come up whenever it does now. -/
theorem C134_repaired {c : Proc} {pid0 n : Nat} {a : Answers} (hn : 3 ≤ n) :
    (∀ d, Launched (marked c) pid0 n [] a d → d.session ≠ c.session ∧ d.group ≠ c.group ∧ d.ctty = none ∧ d.cwd = 0 ∧
      ∀ i, i < n → ∀ e, d.fd i = some e → i < 3 ∧ e.file = .null) ∧
    ((∃ d, Launched c pid0 n [] a d) → ∃ d, Launched (marked c) pid0 n [] a d) := by
  constructor
  · intro d h
    obtain ⟨h1, h2, _, h3, _, h4⟩ := C134_session_partial h
    refine ⟨h1, h2, h3, h4, fun i hi e he => ?_⟩
    by_cases h3 : i < 3
    · rw [C134_std_partial hn h i h3] at he
      cases he
      exact ⟨h3, rfl⟩
    · rw [C134_rest_partial hn h i (by omega) hi] at he
      simp only [marked, if_neg h3] at he
      cases hc : c.fd i <;> simp [hc, Option.filter] at he
  · rintro ⟨d, hf, hd⟩
    refine C134_comes_up (c := marked c) hf ?_
    obtain ⟨_, _, h1, h2, _, h4⟩ := daemonize_some hd
    simp only [daemonize] at hd
    have hcd : a.cd = true := by cases hx : a.cd <;> simp [hx] at hd ⊢
    simp only [hcd, h1, h2] at hd
    split at hd
    · cases hd
    · split at hd
      · cases hd
      · split at hd
        · cases hd
        · split at hd
          · cases hd
          · rename_i hp hw
            simp only [not_or, Bool.not_eq_false] at hw hp
            exact ⟨hcd, by rw [h1]; rfl, hp, by rw [h2]; rfl, hw.1, hw.2.1, hw.2.2⟩

example : ∃ d, Launched (marked client) 101 64 [] good d ∧ d.fd 5 = none := ⟨_, ⟨by simp [Fresh, marked, client, good], rfl⟩, by decide⟩

end Shpool.LetGo
