import Verif.Nest.Model
/-!
# C164: what a session prints comes out at a terminal
-/

namespace Shpool.Nest

/-- Following the clients outward from here comes to an end: at a terminal outside, or in a session without a client. -/
inductive Ends (c : Nat → Option Place) : Place → Prop
  | outside (n : Nat) : Ends c (.outside n)
  | free (a : Nat) : c a = none → Ends c (.inside a)
  | via (a : Nat) (p : Place) : c a = some p → Ends c p → Ends c (.inside a)

/-- Following the clients outward from here comes to session `b`. -/
inductive Leads (c : Nat → Option Place) (b : Nat) : Place → Prop
  | here : Leads c b (.inside b)
  | via (a : Nat) (p : Place) : c a = some p → Leads c b p → Leads c b (.inside a)

/-- Following the clients outward from here comes to a terminal outside. -/
inductive Rooted (c : Nat → Option Place) : Place → Prop
  | outside (n : Nat) : Rooted c (.outside n)
  | via (a : Nat) (p : Place) : c a = some p → Rooted c p → Rooted c (.inside a)

/-- **C164**, as stated. -/
def C164_statement : Prop := ∀ ls s, Run ls s → ∀ a, Ends s.client (.inside a)

/-! ## What attaching does -/

theorem upd_at {α : Type} (f : Nat → α) (i : Nat) (x : α) (j : Nat) : upd f i x j = if j = i then x else f j := rfl

theorem leads_trans {c : Nat → Option Place} {a b : Nat} {p : Place} (h1 : Leads c a p) (h2 : Leads c b (.inside a)) : Leads c b p := by
  induction h1 with
  | here => exact h2
  | via y q hy _ ih => exact .via y q hy ih

/-- A circle does not end. -/
theorem not_ends {c : Nat → Option Place} {p : Place} (h : Ends c p) : ∀ a q, p = .inside a → c a = some q → ¬ Leads c a q := by
  induction h with
  | outside n => intro a q e; cases e
  | free a h => intro b q e hq; cases e; rw [h] at hq; cases hq
  | via a p hp _ ih =>
    intro b q e hq hl
    cases e
    rw [hp] at hq; cases hq
    cases hl with
    | here => exact ih _ _ rfl hp .here
    | via y r hr hl => exact ih _ _ rfl hr (leads_trans hl (.via _ _ hp .here))

theorem ends_off {c : Nat → Option Place} {b : Nat} {p : Place} {v : Option Place} (h : Ends c p) : ¬ Leads c b p → Ends (upd c b v) p := by
  induction h with
  | outside n => intro _; exact .outside n
  | free a h =>
    intro hl
    exact .free a (by rw [upd_at, if_neg (by rintro rfl; exact hl .here)]; exact h)
  | via a p hp _ ih =>
    intro hl
    exact .via a p (by rw [upd_at, if_neg (by rintro rfl; exact hl .here)]; exact hp) (ih fun h => hl (.via a p hp h))

/-- An attach from `p` to `b` leaves all well if `p` does not lead to `b`. -/
theorem ends_attach {c : Nat → Option Place} {b : Nat} {p : Place} (hall : ∀ a, Ends c (.inside a)) (hl : ¬ Leads c b p) :
    ∀ a, Ends (upd c b (some p)) (.inside a) := by
  have hp : Ends (upd c b (some p)) p := by
    cases p with
    | outside n => exact .outside n
    | inside y => exact ends_off (hall y) hl
  have : ∀ q, Ends c q → Ends (upd c b (some p)) q := by
    intro q hq
    induction hq with
    | outside n => exact .outside n
    | free a h =>
      by_cases e : a = b
      · subst e; exact .via a p (by simp [upd_at]) hp
      · exact .free a (by rw [upd_at, if_neg e]; exact h)
    | via a r hr _ ih =>
      by_cases e : a = b
      · subst e; exact .via a p (by simp [upd_at]) hp
      · exact .via a r (by rw [upd_at, if_neg e]; exact hr) ih
  exact fun a => this _ (hall a)

theorem leads_upd {c : Nat → Option Place} {b : Nat} {p : Place} {v : Option Place} (h : Leads c b p) : Leads (upd c b v) b p := by
  induction h with
  | here => exact .here
  | via a p hp _ ih =>
    by_cases e : a = b
    · subst e; exact .here
    · exact .via a p (by rw [upd_at, if_neg e]; exact hp) ih

theorem ends_fewer {c c' : Nat → Option Place} (h : ∀ a, c' a = c a ∨ c' a = none) {p : Place} (he : Ends c p) : Ends c' p := by
  induction he with
  | outside n => exact .outside n
  | free a ha => exact .free a (by rcases h a with e | e <;> rw [e]; exact ha)
  | via a p hp _ ih =>
    rcases h a with e | e
    · exact .via a p (by rw [e]; exact hp) ih
    · exact .free a e

/-- Every step but an attach keeps it so. -/
theorem ends_step {k : Check} {s s' : St} {l : Label} (hs : stepOf k s l = some s') (hl : ∀ p b f, l ≠ .attach p b f)
    (hall : ∀ a, Ends s.client (.inside a)) : ∀ a, Ends s'.client (.inside a) := by
  intro a
  cases l with
  | attach p b f => exact absurd rfl (hl p b f)
  | leave b =>
    simp only [stepOf] at hs
    split at hs <;> cases hs
    exact ends_fewer (fun y => by simp only [upd_at]; split <;> simp) (hall a)
  | ended b =>
    simp only [stepOf] at hs
    split at hs <;> cases hs
    exact ends_fewer (fun y => by dsimp only; split <;> simp) (hall a)
  | print b x =>
    simp only [stepOf] at hs
    split at hs <;> cases hs
    exact hall a
  | relay b =>
    simp only [stepOf] at hs
    repeat' split at hs
    all_goals cases hs
    all_goals exact hall a

theorem attach_client {k : Check} {s s' : St} {p : Place} {b : Nat} {f : Bool} (hs : stepOf k s (.attach p b f) = some s') :
    s'.client = upd s.client b (some p) ∧ refused k s p b = false ∧ (s.client b = none ∨ f = true) := by
  simp only [stepOf] at hs
  split at hs <;> cases hs
  rename_i h
  exact ⟨rfl, h.2.1, h.2.2⟩

/-- **C164** (exact).  If all was well, it is after an attach from `p` to `b` exactly if following the clients outward from `p` does not
come to `b`. -/
theorem C164_exact {s s' : St} {p : Place} {b : Nat} {f : Bool} (hall : ∀ a, Ends s.client (.inside a))
    (hs : step s (.attach p b f) = some s') : (∀ a, Ends s'.client (.inside a)) ↔ ¬ Leads s.client b p := by
  rw [(attach_client hs).1]
  refine ⟨fun h hl => ?_, ends_attach hall⟩
  exact not_ends (h b) b p rfl (by simp [upd_at]) (leads_upd hl)

/-- **C164**, if no attach is forced and each is made where following the clients outward comes to a terminal outside: at the time, a
user sits there. -/
theorem C164_partial {ls : List Label} {s : St} (h : Run ls s)
    (hp : ∀ pre p b f post u, ls = pre ++ .attach p b f :: post → Run pre u → f = false ∧ Rooted u.client p) :
    ∀ a, Ends s.client (.inside a) := by
  have := run_hist (step := step) (s := init) (I := fun ls s => Run ls s ∧
    ((∀ pre p b f post u, ls = pre ++ .attach p b f :: post → Run pre u → f = false ∧ Rooted u.client p) → ∀ a, Ends s.client (.inside a)))
    (fun ls s l s' hI hs => ?_) ⟨rfl, fun _ a => .free a rfl⟩ h
  · exact this.2 hp
  · obtain ⟨hr, hI⟩ := hI
    refine ⟨by show runSteps _ _ _ = _; rw [run_append, show runSteps (stepOf .nothing) init ls = some s from hr]; simp [runSteps, hs], fun hq => ?_⟩
    have hall := hI fun pre p b f post u e => hq pre p b f (post ++ [l]) u (by rw [e]; simp)
    by_cases hl : ∃ p b f, l = .attach p b f
    · obtain ⟨p, b, f, rfl⟩ := hl
      rw [C164_exact hall hs]
      obtain ⟨hf, hroot⟩ := hq ls p b f [] s rfl hr
      obtain ⟨-, -, hfree⟩ := attach_client hs
      rw [hf] at hfree
      have hfree : s.client b = none := hfree.resolve_right (by simp)
      intro hlead
      clear hs hq
      induction hlead with
      | here => cases hroot with | via _ q hq _ => rw [hfree] at hq; cases hq
      | via a q hq _ ih => cases hroot with | via _ r hr' hroot' => rw [hq] at hr'; cases hr'; exact ih hroot'
    · exact ends_step hs (fun p b f e => hl ⟨p, b, f, e⟩) hall

/-- Session 2 is attached to from inside session 1, which is shown on terminal 0; what is printed in 2 comes out there. -/
example : ∃ s, Run [.attach (.outside 0) 1 false, .attach (.inside 1) 2 false, .print 2 [65], .relay 2, .relay 1] s ∧
    s.shown = [(0, 65)] ∧ Rooted s.client (.inside 2) := ⟨_, rfl, rfl, .via 2 (.inside 1) rfl (.via 1 (.outside 0) rfl (.outside 0))⟩

/-! ## Circles -/

/-- `shpool attach -f` with the name of the session it is run in. -/
def itself : List Label := [.attach (.outside 0) 1 false, .attach (.inside 1) 1 true]

/-- **C164 is false**: a session can be made its own client. -/
theorem C164_false : ¬ C164_statement := by
  intro h
  have hr : ∃ s, Run itself s ∧ s.client 1 = some (.inside 1) := ⟨_, rfl, rfl⟩
  obtain ⟨s, hr, hc⟩ := hr
  exact not_ends (h _ s hr 1) 1 _ rfl hc .here

/-- Without force, and without attaching to the session the client runs in: the user leaves session 1, in which a program then attaches to
session 2; a program in there attaches to session 1, which is free. -/
def pair : List Label := [.attach (.outside 0) 1 false, .attach (.outside 0) 2 false, .leave 1, .leave 2, .attach (.inside 1) 2 false,
  .attach (.inside 2) 1 false]

theorem C164_false_unforced : ∃ s, Run pair s ∧ (∀ p b f, .attach p b f ∈ pair → f = false ∧ p ≠ .inside b) ∧ ¬ Ends s.client (.inside 1) := by
  have hr : ∃ s, Run pair s ∧ s.client 1 = some (.inside 2) ∧ s.client 2 = some (.inside 1) := ⟨_, rfl, rfl, rfl⟩
  obtain ⟨s, hr, h1, h2⟩ := hr
  refine ⟨s, hr, fun p b f hm => ?_, fun h => not_ends h 1 _ rfl h1 (.via 2 _ h2 .here)⟩
  simp [pair] at hm
  rcases hm with ⟨rfl, rfl, rfl⟩ | ⟨rfl, rfl, rfl⟩ | ⟨rfl, rfl, rfl⟩ | ⟨rfl, rfl, rfl⟩ <;> simp

/-- A client that refuses to attach to the session it runs in would not be enough. -/
theorem C164_own_not_enough : ∃ s, RunOf .own pair s ∧ ¬ Ends s.client (.inside 1) := by
  have hr : ∃ s, RunOf .own pair s ∧ s.client 1 = some (.inside 2) ∧ s.client 2 = some (.inside 1) := ⟨_, rfl, rfl, rfl⟩
  obtain ⟨s, hr, h1, h2⟩ := hr
  exact ⟨s, hr, fun h => not_ends h 1 _ rfl h1 (.via 2 _ h2 .here)⟩

/-- Steps that make or end no attach. -/
def quiet : Label → Bool
  | .print .. | .relay _ => true
  | _ => false

/-- **C164** (for ever).  Once there is something to show in sessions that show each other in a circle, there is for ever: as long as
nobody leaves or attaches, it is relayed without end and never comes out. -/
theorem C164_for_ever {C : Nat → Prop} {s s' : St} {ls : List Label} (hC : ∀ a, C a → ∃ b, C b ∧ s.client a = some (.inside b))
    (hq : ∃ a, C a ∧ s.queue a ≠ []) (h : runSteps step s ls = some s') (hl : ∀ l ∈ ls, quiet l = true) :
    ∃ a s'', C a ∧ step s' (.relay a) = some s'' ∧ s''.shown = s'.shown := by
  have key : ∀ (ls : List Label) (s : St), (∀ a, C a → ∃ b, C b ∧ s.client a = some (.inside b)) → (∃ a, C a ∧ s.queue a ≠ []) →
      (∀ l ∈ ls, quiet l = true) → runSteps step s ls = some s' →
      (∀ a, C a → ∃ b, C b ∧ s'.client a = some (.inside b)) ∧ ∃ a, C a ∧ s'.queue a ≠ [] := by
    intro ls
    induction ls with
    | nil => intro s hC hq _ h; cases h; exact ⟨hC, hq⟩
    | cons l ls ih =>
      intro s hC hq hl h
      obtain ⟨s1, h1, h2⟩ := run_cons_some h
      refine ih s1 ?_ ?_ (fun l hm => hl l (by simp [hm])) h2
      · have hc : s1.client = s.client := by
          have := hl l (by simp)
          cases l <;> simp only [quiet, Bool.false_eq_true] at this <;> simp only [step, stepOf] at h1 <;> (repeat' split at h1) <;> cases h1 <;> rfl
        rw [hc]; exact hC
      · obtain ⟨a, ha, hqa⟩ := hq
        have hql := hl l (by simp)
        cases l with
        | attach => cases hql
        | leave => cases hql
        | ended => cases hql
        | print b x =>
          simp only [step, stepOf] at h1
          split at h1 <;> cases h1
          refine ⟨a, ha, ?_⟩
          simp only [upd_at]; split
          · rename_i e; subst e; simp [hqa]
          · exact hqa
        | relay b =>
          simp only [step, stepOf] at h1
          split at h1
          · cases h1
          rename_i y q hy
          by_cases hb : C b
          · obtain ⟨d, hd, hcd⟩ := hC b hb
            rw [hcd] at h1
            cases h1
            exact ⟨d, hd, by simp [upd_at]⟩
          · have hab : a ≠ b := by rintro rfl; exact hb ha
            refine ⟨a, ha, ?_⟩
            split at h1 <;> cases h1
            · simp only [upd_at, if_neg hab]; exact hqa
            · simp only [upd_at, if_neg hab]; exact hqa
            · simp only [upd_at, if_neg hab]
              split
              · simp
              · exact hqa
  obtain ⟨hC', a, ha, hqa⟩ := key ls s hC hq hl h
  obtain ⟨b, _, hcb⟩ := hC' a ha
  cases he : s'.queue a with
  | nil => exact absurd he hqa
  | cons x q =>
    refine ⟨a, { s' with queue := upd (upd s'.queue a q) b (upd s'.queue a q b ++ [x]) }, ha, ?_, rfl⟩
    simp only [step, stepOf, he, hcb]

/-- A letter in a session that is its own client, after four rounds. -/
example : ∃ s, Run (itself ++ [.print 1 [65], .relay 1, .relay 1, .relay 1, .relay 1]) s ∧ s.queue 1 = [65] ∧ s.shown = [] ∧
    s.client 1 = some (.inside 1) := ⟨_, rfl, rfl, rfl, rfl⟩

/-! ## What the daemon could do -/

theorem leads_found {c : Nat → Option Place} {b : Nat} {p : Place} (h : Leads c b p) : ∀ k, finds c b k p = true := by
  induction h with
  | here => intro k; cases k <;> simp [finds]
  | via a p hp _ ih =>
    intro k
    cases k with
    | zero => rfl
    | succ k =>
      simp only [finds]
      split
      · rfl
      · rw [hp]; exact ih k

/-- **C164** for a daemon that follows the clients outward from where an attach is made, however far, and refuses it if it comes
to the session or does not come to an end: it holds, forced or not. -/
theorem C164_repaired {k : Nat} {ls : List Label} {s : St} (h : RunOf (.follow k) ls s) : ∀ a, Ends s.client (.inside a) := by
  refine run_inv (I := fun s => ∀ a, Ends s.client (.inside a)) (fun s l s' hI hs => ?_) (fun a => .free a rfl) h
  by_cases hl : ∃ p b f, l = .attach p b f
  · obtain ⟨p, b, f, rfl⟩ := hl
    obtain ⟨h1, h2, -⟩ := attach_client hs
    rw [h1]
    refine ends_attach hI fun hlead => ?_
    simp only [refused] at h2
    rw [leads_found hlead k] at h2
    cases h2
  · exact ends_step hs (fun p b f e => hl ⟨p, b, f, e⟩) hI

/-- If it follows them far enough, it refuses no attach made where following the clients comes to a terminal outside, unless the session
is on the way. -/
theorem C164_repaired_refuses_no_more {s : St} {p : Place} {b : Nat} (hr : Rooted s.client p) (hl : ¬ Leads s.client b p) :
    ∃ n, ∀ k, n ≤ k → refused (.follow k) s p b = false := by
  induction hr with
  | outside n => exact ⟨0, fun k _ => by cases k <;> rfl⟩
  | via a q hq _ ih =>
    obtain ⟨n, hn⟩ := ih fun h => hl (.via a q hq h)
    refine ⟨n + 1, fun k hk => ?_⟩
    cases k with
    | zero => omega
    | succ k =>
      have hab : a ≠ b := by rintro rfl; exact hl .here
      have := hn k (by omega)
      simp only [refused] at this
      simp only [refused, finds, if_neg hab, hq]
      exact this

example : ∃ s, RunOf (.follow 3) [.attach (.outside 0) 1 false, .attach (.inside 1) 2 false] s ∧ stepOf (.follow 3) s (.attach (.inside 2) 1 true) = none ∧
    (stepOf (.follow 3) s (.attach (.inside 2) 3 false)).isSome = true := ⟨_, rfl, rfl, rfl⟩

end Shpool.Nest
