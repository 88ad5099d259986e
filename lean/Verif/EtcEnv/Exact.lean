import Verif.EtcEnv.Props
/-! # Exactly when /etc/environment can be read (C31) -/

namespace Shpool.EtcEnv

theorem decode_none {l : List Sym} : decode l = none ↔ ∃ b, Sym.bad b ∈ l := by
  induction l with
  | nil => simp [decode]
  | cons c l ih =>
    cases c with
    | ch c => simp [decode, ih]
    | bad b => simp [decode]

theorem flatten_readLines (f : List Sym) : (readLines f).flatten = f := by
  induction f with
  | nil => rfl
  | cons c f ih =>
    simp only [readLines]
    split
    · simp [ih]
    · split
      · next h => rw [h] at ih; simp at ih; simp [← ih]
      · next l ls h => rw [h] at ih; simp at ih; simp [ih]

theorem parseLines_none {ls : List (List Sym)} : parseLines ls = none ↔ ∃ l ∈ ls, decode l = none := by
  induction ls with
  | nil => simp [parseLines]
  | cons l ls ih =>
    simp only [parseLines, List.mem_cons, exists_eq_or_imp]
    cases hd : decode l with
    | none => simp
    | some cs =>
      cases hp : parseLines ls with
      | none => simpa using ih.mp hp
      | some ps =>
        simp only [reduceCtorEq, false_or, false_iff]
        rw [← ih, hp]
        simp

/-- **C31** (exactly when): reading the file fails, so that all of it is lost, exactly if some byte of it, in whatever line, is not part of valid UTF-8. -/
theorem C31_exact (file : List Sym) : parseCompat file = none ↔ ∃ b, Sym.bad b ∈ file := by
  rw [parseCompat, parseLines_none]
  conv => rhs; rw [← flatten_readLines file]
  constructor
  · rintro ⟨l, hl, hd⟩
    obtain ⟨b, hb⟩ := decode_none.mp hd
    exact ⟨b, List.mem_flatten.mpr ⟨l, hl, hb⟩⟩
  · rintro ⟨b, hb⟩
    obtain ⟨l, hl, hm⟩ := List.mem_flatten.mp hb
    exact ⟨l, hl, decode_none.mpr ⟨b, hm⟩⟩

end Shpool.EtcEnv
