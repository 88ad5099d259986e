import Verif.Env.Props
/-!
# C101: sourcing forward.env

The file `forward.env` in the session's directory (server.rs 608-622) is there to be sourced by the shell (`shpool/tests/attach.rs` 176).
-/

namespace Shpool.Env

open Shpool.Str

/-! Specification: the part of the shell language (POSIX XCU 2.9.1) that is needed, on texts of characters without special meaning. -/

/-- Characters no shell gives a meaning to in the value of an assignment or the name of a command. -/
def Inert (c : Char) : Prop := c.isAlphanum = true ∨ c ∈ ['_', '-', '.', '/', ',', '+', '@', '%']

/-- A variable's name: a letter or underscore, then letters, digits and underscores. -/
def Ident (s : Str) : Prop := ∃ c r, s = c :: r ∧ (c.isAlpha = true ∨ c = '_') ∧ ∀ d ∈ r, d.isAlphanum = true ∨ d = '_'

/-- What a line does. -/
inductive Does where
  | sets (name value : Str)
  | runs (cmd : Str)

/-- `name=value` sets the variable; `name=value cmd` runs `cmd`. -/
inductive Line : Str → Does → Prop where
  | sets {n v} : Ident n → (∀ c ∈ v, Inert c) → Line (n ++ '=' :: v) (.sets n v)
  | runs {n v cmd} : Ident n → (∀ c ∈ v, Inert c) → cmd ≠ [] → (∀ c ∈ cmd, Inert c) → Line (n ++ '=' :: v ++ ' ' :: cmd) (.runs cmd)

inductive Lines : List Str → List Does → Prop where
  | nil : Lines [] []
  | cons {l ls d ds} : Line l d → Lines ls ds → Lines (l :: ls) (d :: ds)

/-- A text does what its lines do, in order. -/
def Sources (t : Str) (ds : List Does) : Prop := Lines (split '\n' t) ds

/-- The full property: sourcing the file sets each forwarded variable to its value. -/
def C101_statement : Prop := ∀ l : Pairs, l ≠ [] → (∀ p ∈ l, Ident p.1) → Sources (forwardEnvText l) (l.map fun p => .sets p.1 p.2)

private theorem ident_A : Ident ['A'] := ⟨'A', [], rfl, .inl (by decide), by simp⟩

/-- **C101 (defect)**: a forwarded value with a blank makes the shell run the rest of it as a command. -/
theorem C101_false_runs : Sources (forwardEnvText [(['A'], "b reboot".toList)]) [.runs "reboot".toList] := by
  have : split '\n' (forwardEnvText [(['A'], "b reboot".toList)]) = [['A'] ++ '=' :: ['b'] ++ ' ' :: "reboot".toList] := by decide
  unfold Sources
  rw [this]
  refine .cons (.runs ident_A ?_ (by decide) ?_) .nil
  · intro c hc; rw [List.mem_singleton] at hc; subst hc; exact .inl (by decide)
  · intro c hc
    have : ∀ c ∈ "reboot".toList, c.isAlphanum = true := by decide
    exact .inl (this c hc)

/-- **C101 (defect)**: and the variable is not set. -/
theorem C101_false : ¬ C101_statement := by
  intro h
  have h1 := h [(['A'], "b reboot".toList)] (by simp) (by simp [ident_A])
  have hs : split '\n' (forwardEnvText [(['A'], "b reboot".toList)]) = ["A=b reboot".toList] := by decide
  unfold Sources at h1
  rw [hs] at h1
  cases h1 with
  | cons h1 _ =>
    have inv : ∀ t n v, Line t (.sets n v) → ∀ c ∈ v, Inert c := by
      intro t n v hl
      cases hl with | sets hn hv => exact hv
    have := inv _ _ _ h1 ' ' (by decide)
    revert this
    unfold Inert
    decide

theorem ident_no {s : Str} (h : Ident s) : '=' ∉ s ∧ '\n' ∉ s := by
  obtain ⟨c, r, rfl, hc, hr⟩ := h
  have key : ∀ d : Char, (d.isAlphanum = true ∨ d = '_') → d ≠ '=' ∧ d ≠ '\n' := by
    intro d hd
    constructor <;> rintro rfl <;> revert hd <;> decide
  have hc' : c.isAlphanum = true ∨ c = '_' := hc.imp (fun e => by simp [Char.isAlphanum, e]) id
  constructor <;> intro hm <;> rcases List.mem_cons.mp hm with e | e
  · exact (key c hc').1 e.symm
  · exact (key _ (hr _ e)).1 rfl
  · exact (key c hc').2 e.symm
  · exact (key _ (hr _ e)).2 rfl

/-- **C101 (part)**: if no value has a character that can mean something to the shell.  Missing: all other values. -/
theorem C101_source_partial (l : Pairs) (hne : l ≠ []) (hk : ∀ p ∈ l, Ident p.1) (hv : ∀ p ∈ l, ∀ c ∈ p.2, Inert c) :
    Sources (forwardEnvText l) (l.map fun p => .sets p.1 p.2) := by
  have hn : ∀ p ∈ l, '\n' ∉ p.1 ++ '=' :: p.2 := by
    intro p hp hm
    rcases List.mem_append.mp hm with hm | hm
    · exact (ident_no (hk p hp)).2 hm
    · rcases List.mem_cons.mp hm with hm | hm
      · exact absurd hm (by decide)
      · have := hv p hp _ hm
        revert this
        unfold Inert
        decide
  unfold Sources forwardEnvText
  rw [joinLines_eq, split_join]
  · clear hne hn
    induction l with
    | nil => exact .nil
    | cons p l ih =>
      exact .cons (.sets (hk p (by simp)) (hv p (by simp))) (ih (fun q hq => hk q (by simp [hq])) (fun q hq => hv q (by simp [hq])))
  · simpa using hne
  · intro x hx
    obtain ⟨p, hp, rfl⟩ := List.mem_map.mp hx
    exact hn p hp

/-- **C101**: what a line of the specified kind does is determined: it cannot both set a variable and run a command. -/
theorem C101_line_unique {t : Str} {n v cmd : Str} (h : Line t (.sets n v)) : ¬ Line t (.runs cmd) := by
  intro h2
  have hb : ' ' ∉ t := by
    cases h with
    | sets hn hv =>
      intro hm
      rcases List.mem_append.mp hm with hm | hm
      · obtain ⟨c, r, rfl, hc, hr⟩ := hn
        rcases List.mem_cons.mp hm with e | e
        · subst e; revert hc; decide
        · have := hr _ e; revert this; decide
      · rcases List.mem_cons.mp hm with e | e
        · exact absurd e (by decide)
        · have := hv _ e; revert this; unfold Inert; decide
  cases h2 with
  | runs => exact hb (by simp)

example : (∀ p ∈ demoHeader.localEnv, ∀ c ∈ p.2, c.isAlphanum = true ∨ c ∈ ['_', '-', '.', '/', ',', '+', '@', '%']) ∧
    demoHeader.localEnv ≠ [] := by decide

end Shpool.Env
