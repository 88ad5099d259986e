import Verif.Motd.Model
/-!
# The message of the day (C65, C68)
-/

namespace Shpool.Motd

/-! ## C68 -/

/-- Specification: every line feed is followed by the terminal's carriage return, and one more line end is added. -/
def rawSpec (cr motd : List UInt8) : List UInt8 :=
  (motd.flatMap fun b => if b = 10 then 10 :: cr else [b]) ++ 10 :: cr

private theorem splitLines_ne (m : List UInt8) : splitLines m ≠ [] := by
  cases m with
  | nil => simp [splitLines]
  | cons c t => simp only [splitLines]; split <;> (try split) <;> simp

/-- **C68**: the raw message is the original text, byte for byte, with the carriage return inserted after every line feed and
a line end appended. -/
theorem C68_raw (cr motd : List UInt8) : convertToRaw (some cr) motd = .ok (rawSpec cr motd) := by
  simp only [convertToRaw, rawSpec]
  congr 1
  induction motd with
  | nil => simp [splitLines]
  | cons c t ih =>
    simp only [splitLines]
    by_cases hc : c = 10
    · simp [hc, ih]
    · simp only [hc, if_false]
      split
      · rename_i h; exact absurd h (splitLines_ne t)
      · rename_i l ls h
        rw [h] at ih
        simp only [List.map_cons, List.flatten_cons, List.cons_append, List.flatMap_cons, hc, if_false, List.nil_append] at ih ⊢
        rw [ih]

/-- **C68**: nothing else is lost or added: for a text without carriage returns, removing them from the raw message gives back
the text and one line feed. -/
theorem C68_lossless (motd : List UInt8) (h : 13 ∉ motd) :
    ∃ raw, convertToRaw (some [13]) motd = .ok raw ∧ raw.filter (· ≠ 13) = motd ++ [10] := by
  refine ⟨_, C68_raw _ _, ?_⟩
  simp only [rawSpec, List.filter_append]
  congr 1
  induction motd with
  | nil => rfl
  | cons c t ih =>
    simp only [List.mem_cons, not_or] at h
    simp only [List.flatMap_cons, List.filter_append, ih h.2]
    by_cases hc : c = 10
    · subst hc; simp
    · have : c ≠ 13 := fun e => h.1 e.symm
      simp [hc, this]

/-- **C68**: a terminal without the carriage return capability is an error, not a garbled message. -/
theorem C68_no_capability (motd : List UInt8) : convertToRaw none motd = .error () := rfl

example : convertToRaw (some [13]) [97, 10, 98, 99, 10] = .ok [97, 10, 13, 98, 99, 10, 13, 10, 13] := by decide

/-- The resolver's arguments contain `noupdate` exactly once more than needed: never added twice, never missing. -/
theorem C68_noupdate (args : List (List Char)) :
    "noupdate".toList ∈ motdArgs args ∧ ("noupdate".toList ∈ args → motdArgs args = args) ∧
      (∀ a ∈ args, a ∈ motdArgs args) := by
  simp only [motdArgs]
  split
  · rename_i h
    simp only [List.any_eq_true, decide_eq_true_eq] at h
    obtain ⟨x, hx, rfl⟩ := h
    exact ⟨hx, fun _ => rfl, fun a ha => ha⟩
  · rename_i h
    simp only [List.any_eq_true, decide_eq_true_eq] at h
    refine ⟨by simp, fun hm => absurd ⟨_, hm, rfl⟩ h, fun a ha => by simp [ha]⟩

/-! ## C65 -/

/-- The clock never goes backwards: every reading is at least as late as the ones before it. -/
def Monotone : Int → List (Int × Int) → Prop
  | _, [] => True
  | t, (a, b) :: rest => t ≤ a ∧ a ≤ b ∧ Monotone b rest

private theorem monotone_weaken {t t' : Int} (h : t ≤ t') : ∀ {cs}, Monotone t' cs → Monotone t cs
  | [], _ => trivial
  | (_, _) :: _, ⟨h1, h2, h3⟩ => ⟨by omega, h2, h3⟩

private theorem fires_first (d : Debouncer) : ∀ cs t, t ≤ d.last ∨ d.last ≤ t → ∀ p ∈ (fires d cs).head?, d.last + d.dur ≤ p.1 := by
  intro cs
  induction cs with
  | nil => intro t _ p h; simp [fires] at h
  | cons c cs ih =>
    intro t ht p h
    obtain ⟨a, b⟩ := c
    simp only [fires, Debouncer.shouldFire] at h
    by_cases h1 : d.last ≤ a
    · by_cases h2 : (d.dur : Int) ≤ a - d.last
      · simp only [h1, h2, if_true, List.head?_cons, Option.mem_some_iff] at h
        subst h; simp only; omega
      · simp only [h1, h2, if_true, if_false] at h
        exact ih t ht p h
    · simp only [h1, if_false] at h
      exact ih t ht p h

/-- Consecutive elements of a list are related. -/
def Consecutive {α : Type} (R : α → α → Prop) : List α → Prop
  | [] => True
  | [_] => True
  | x :: y :: rest => R x y ∧ Consecutive R (y :: rest)

/-- **C65**: whatever the clock does and however often clients attach, between the time recorded for one display of the message
and the next display lies at least the configured interval. -/
theorem C65_spacing (d : Debouncer) (calls : List (Int × Int)) :
    Consecutive (fun x y : Int × Int => x.2 + (d.dur : Int) ≤ y.1) (fires d calls) := by
  induction calls generalizing d with
  | nil => trivial
  | cons c cs ih =>
    obtain ⟨a, b⟩ := c
    simp only [fires, Debouncer.shouldFire]
    by_cases h1 : d.last ≤ a
    · by_cases h2 : (d.dur : Int) ≤ a - d.last
      · simp only [h1, h2, if_true]
        have hrest := ih { d with last := b }
        cases hf : fires { d with last := b } cs with
        | nil => trivial
        | cons x xs =>
          rw [hf] at hrest
          refine ⟨?_, hrest⟩
          have := fires_first { d with last := b } cs b (.inl (Int.le_refl _)) x (by rw [hf]; simp)
          exact this
      · simp only [h1, h2, if_true, if_false]
        exact ih d
    · simp only [h1, if_false]
      exact ih d

/-- **C65**: with a monotone clock any two displays, not only consecutive ones, are at least the interval apart. -/
theorem C65_spacing_all (d : Debouncer) (calls : List (Int × Int)) (t : Int) (hm : Monotone t calls)
    (i j : Nat) (hij : i < j) (p q : Int × Int) (hp : (fires d calls)[i]? = some p) (hq : (fires d calls)[j]? = some q) :
    p.2 + d.dur ≤ q.1 := by
  have hsp := C65_spacing d calls
  have hord : ∀ x ∈ fires d calls, x.1 ≤ x.2 := by
    clear hsp hp hq
    induction calls generalizing d t with
    | nil => intro x hx; simp [fires] at hx
    | cons c cs ih =>
      obtain ⟨a, b⟩ := c
      obtain ⟨h1, h2, h3⟩ := hm
      intro x hx
      simp only [fires, Debouncer.shouldFire] at hx
      by_cases h1 : d.last ≤ a
      · by_cases h4 : (d.dur : Int) ≤ a - d.last
        · simp only [h1, h4, if_true, List.mem_cons] at hx
          rcases hx with rfl | hx
          · exact h2
          · exact ih _ _ h3 x hx
        · simp only [h1, h4, if_true, if_false] at hx
          exact ih _ _ h3 x hx
      · simp only [h1, if_false] at hx
        exact ih _ _ h3 x hx
  generalize fires d calls = fs at *
  generalize d.dur = w at *
  induction fs generalizing i j p with
  | nil => simp at hp
  | cons x xs ih =>
    cases j with
    | zero => omega
    | succ j =>
      have htail : Consecutive (fun x y : Int × Int => x.2 + (w : Int) ≤ y.1) xs := by
        cases xs with
        | nil => trivial
        | cons y ys => exact hsp.2
      have hordt : ∀ y ∈ xs, y.1 ≤ y.2 := fun y hy => hord y (by simp [hy])
      simp at hq
      cases i with
      | succ i =>
        simp at hp
        exact ih i j (by omega) p hp hq hordt htail
      | zero =>
        simp at hp
        subst hp
        cases xs with
        | nil => simp at hq
        | cons y ys =>
          have h0 := hsp.1
          cases j with
          | zero => simp at hq; subst hq; exact h0
          | succ j =>
            have := ih 0 (j + 1) (by omega) y (by rfl) hq hordt htail
            have := hord y (by simp)
            simp only at h0
            omega

/-- The full property about the first display: a daemon with any configured interval starts, and shows the message at once. -/
def C65_first_statement : Prop :=
  ∀ (now : Int) (dur : Nat) (a b : Int), 0 ≤ now → now ≤ a → a ≤ b →
    ∃ d, Debouncer.new now dur = some d ∧ ∃ d', d.shouldFire a b = .ok (true, d')

/-- **C65 (defect)**: a very long interval ("show it once") makes the daemon panic at start: twice the interval does not fit
the clock's range. -/
theorem C65_false : ¬ C65_first_statement := by
  intro h
  obtain ⟨d, hd, _⟩ := h 0 (2 ^ 63 * sec) 0 0 (by decide) (by decide) (by decide)
  have : Debouncer.new 0 (2 ^ 63 * sec) = none := by decide
  rw [this] at hd; cases hd

/-- **C65 (part)**: with an interval of less than 2^62 seconds the daemon starts and the first client sees the message at once. -/
theorem C65_first_partial (now : Int) (dur : Nat) (a b : Int) (hnow : 0 ≤ now) (ha : now ≤ a)
    (hdur : dur < 2 ^ 62 * sec) :
    ∃ d, Debouncer.new now dur = some d ∧ ∃ d', d.shouldFire a b = .ok (true, d') := by
  have h1 : dur * 2 / sec < 2 ^ 64 := by
    rw [Nat.div_lt_iff_lt_mul (by decide)]; simp only [sec] at *; omega
  have h2 : -(2 ^ 63 : Int) * sec ≤ now - dur * 2 := by
    simp only [sec] at *; omega
  refine ⟨⟨now - dur * 2, dur⟩, by simp only [Debouncer.new]; rw [if_pos ⟨h1, h2⟩], ?_⟩
  refine ⟨⟨b, dur⟩, ?_⟩
  simp only [Debouncer.shouldFire]
  rw [if_pos (by omega), if_pos (by omega)]

/-- **C65**: a call before the interval is over shows nothing and does not move the time of the last display. -/
theorem C65_quiet (d : Debouncer) (a b : Int) (h : d.last ≤ a) (hq : a < d.last + d.dur) :
    d.shouldFire a b = .ok (false, d) := by
  simp only [Debouncer.shouldFire]
  rw [if_pos h, if_neg (by omega)]

/-- **C65**: and once it is over the next client sees the message. -/
theorem C65_again (d : Debouncer) (a b : Int) (h : d.last + d.dur ≤ a) :
    d.shouldFire a b = .ok (true, { d with last := b }) := by
  simp only [Debouncer.shouldFire]
  rw [if_pos (by omega), if_pos (by omega)]

/-! ## C80 -/

/-- The full property: deciding whether to show the message never fails (a failure ends the attach request, server.rs
344-351). -/
def C80_statement : Prop :=
  ∀ (now : Int) (dur : Nat) (d : Debouncer) (calls : List (Int × Int)) (a b : Int), Debouncer.new now dur = some d →
    ∃ r, (calls.foldl Debouncer.after d).shouldFire a b = .ok r

/-- **C80 (defect)**: after a display, setting the system clock back makes every attach fail until the clock has caught up. -/
theorem C80_false : ¬ C80_statement := by
  intro h
  obtain ⟨r, hr⟩ := h 1000 100 ⟨800, 100⟩ [(1001, 1002)] 900 900 (by decide)
  have : (([(1001, 1002)] : List (Int × Int)).foldl Debouncer.after ⟨800, 100⟩).shouldFire 900 900 = .error () := by decide
  rw [this] at hr; cases hr

/-- **C80 (part)**: with a clock that never goes back it does not fail. -/
theorem C80_never_fails_partial (d : Debouncer) (t : Int) (calls : List (Int × Int)) (hm : Monotone t calls)
    (hd : d.last ≤ t) : ∀ pre c post, calls = pre ++ c :: post →
    ∃ r, (pre.foldl Debouncer.after d).shouldFire c.1 c.2 = .ok r := by
  intro pre
  induction pre generalizing d t calls with
  | nil =>
    intro c post he
    subst he
    obtain ⟨h1, _, _⟩ := hm
    show ∃ r, d.shouldFire c.1 c.2 = .ok r
    simp only [Debouncer.shouldFire]
    rw [if_pos (by omega)]
    split <;> exact ⟨_, rfl⟩
  | cons x xs ih =>
    intro c post he
    subst he
    obtain ⟨h1, h2, h3⟩ := hm
    simp only [List.foldl_cons]
    refine ih _ x.2 _ h3 ?_ c post rfl
    simp only [Debouncer.after, Debouncer.shouldFire]
    rw [if_pos (by omega)]
    by_cases hw : (d.dur : Int) ≤ x.1 - d.last
    · rw [if_pos hw]; exact Int.le_refl _
    · rw [if_neg hw]; simp only; omega

/-- Four clients; the interval is 100. -/
example : (Debouncer.new 1000 100).map (fun d => fires d [(1001, 1002), (1050, 1051), (1101, 1102), (1102, 1103)])
    = some [(1001, 1002), (1102, 1103)] := by decide
example : Monotone 1000 [(1001, 1002), (1050, 1051), (1101, 1102), (1102, 1103)] := by simp [Monotone]

end Shpool.Motd
