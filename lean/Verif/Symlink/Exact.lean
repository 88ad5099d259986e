import Verif.Symlink.Props
/-!
# Exactly which changes of an existing configuration file are noticed (C118)
-/

namespace Shpool.Symlink

/-- What is looked at on the way to a file, but for the file itself, are directories and links. -/
theorem visited_kind {fs : Fs} {n : Nat} {done rest q : Path} (h : walk fs n done rest = some q) {v : Path} (hv : v ∈ visited fs n done rest) :
    v = q ∨ node fs v = some .dir ∨ ∃ t, node fs v = some (.link t) := by
  induction n generalizing done rest with
  | zero => cases rest <;> cases hv
  | succ n ih =>
    cases rest with
    | nil => cases hv
    | cons c rest =>
      unfold walk at h
      unfold visited at hv
      cases hn : node fs (done ++ [c]) with
      | none => rw [hn] at h; cases h
      | some y =>
        rw [hn] at h
        simp only [hn] at hv
        cases y with
        | dir =>
          rcases List.mem_cons.mp hv with rfl | hv
          · exact .inr (.inl hn)
          · exact ih h hv
        | file x =>
          simp only at h
          split at h
          · cases h
            rcases List.mem_cons.mp hv with rfl | hv
            · exact .inl rfl
            · cases hv
          · cases h
        | link t =>
          rcases List.mem_cons.mp hv with rfl | hv
          · exact .inr (.inr ⟨t, hn⟩)
          · exact ih h hv

/-- **C118, exactly**, for a configuration file that is there (through any links): a change that makes a difference to what is read is noticed, and leads to a reload, if
and only if it is made to the real file; and all others that make a difference are changes of a directory or a link on the way to it. -/
theorem C118_exact {fs : Fs} {p : Path} {x : Nat} {c : Change} (h : read fs p = some x) (hd : read fs p ≠ read (change fs c.at_ c.to) p) :
    ∃ q, resolve fs p = some q ∧ node fs q = some (.file x) ∧
      (reloads (watchAndAdd fs (canonicalizePath fs p)) c.at_ = true ↔ c.at_ = q) ∧
      (noticed (watchAndAdd fs (canonicalizePath fs p)) c.at_ = true ↔ c.at_ = q) ∧
      (c.at_ ≠ q → c.at_ ∈ visited fs steps [] p ∧ (node fs c.at_ = some .dir ∨ ∃ t, node fs c.at_ = some (.link t))) := by
  obtain ⟨q, h1, h2, _⟩ := C118_edit_partial h
  have hne : q ≠ [] := by rintro rfl; simp [node] at h2
  have hv : c.at_ ≠ q → c.at_ ∈ visited fs steps [] p := by
    intro hq
    refine Classical.byContradiction fun hn => hd ?_
    have := (C118_stays_partial (fs' := change fs c.at_ c.to) h1 h2 (x' := x) (by rw [node_change_ne (Ne.symm hq)]; exact h2)
      (fun v hv _ => node_change_ne (by rintro rfl; exact hn hv))).2
    rw [h, this]
  have hk : c.at_ ≠ q → node fs c.at_ = some .dir ∨ ∃ t, node fs c.at_ = some (.link t) :=
    fun hq => (visited_kind h1 (hv hq)).resolve_left hq
  refine ⟨q, h1, h2, ?_, ?_, fun hq => ⟨hv hq, hk hq⟩⟩
  all_goals
    have : canonicalizePath fs p = q := by simp [canonicalizePath, h1]
    rw [this, bestEffort_full (resolve_idem h1) hne]
    simp only [noticed, reloads, rewatches, reported, Bool.or_eq_true, Bool.and_eq_true, decide_eq_true_eq]
    grind

/-- Both sides have cases: the real file edited, the link made to lead elsewhere. -/
example : (read dotfiles [1, 9] ≠ read (change dotfiles [2, 1] (some (.file 11))) [1, 9] ∧ resolve dotfiles [1, 9] = some [2, 1]) ∧
    read dotfiles [1, 9] ≠ read (change dotfiles [1, 9] (some (.link [2, 2]))) [1, 9] := by decide

end Shpool.Symlink
