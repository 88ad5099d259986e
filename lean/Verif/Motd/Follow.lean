import Verif.Motd.Props
/-!
# C127: the message of the day follows the configuration

Source: `/repo/libshpool/src/daemon/show_motd.rs` 29-55, 84-126, `/repo/libshpool/src/daemon/server.rs` 305-336.

An attach request reads the configuration twice: server.rs 308 to see whether the pager is wanted, show_motd.rs 104 to see which.  The
interval is not read from the configuration at all but from a debouncer made when the daemon starts.  Intervals are nanoseconds (the text
is parsed by `duration::parse`, C25 to C27; a text that it rejects keeps the daemon from starting, show_motd.rs 43).  Finding out the
message and running the pager are one flag `works` of the request.
-/

namespace Shpool.Motd

/-- `MotdDisplayMode`, config.rs 380-417. -/
inductive Mode where
  | never
  | dump
  | pager (bin : List Char) (every : Option Nat)
  deriving DecidableEq, Repr

/-- The interval of a mode. -/
def Mode.every : Mode → Option Nat
  | .pager _ e => e
  | _ => none

/-- `DailyMessenger::new`, show_motd.rs 38-55: the debouncer of the mode at start; `none` is a panic. -/
def Messenger.new (mode : Mode) (now : Int) : Option (Option Debouncer) :=
  match mode.every with
  | some dur => (Debouncer.new now dur).map some
  | none => some none

/-- An attach request as far as the message matters. -/
structure Req where
  /-- configuration at server.rs 308 -/
  mode : Mode
  /-- configuration at show_motd.rs 104 -/
  mode' : Mode
  /-- clock at show_motd.rs 184 -/
  now : Int
  /-- clock at show_motd.rs 186 -/
  now' : Int
  /-- the message can be found out and the pager runs to its end, show_motd.rs 114-124 -/
  works : Bool
  deriving DecidableEq, Repr

inductive Outcome where
  /-- the pager is not wanted, or it is too early: the session is connected without -/
  | skipped
  /-- the message was shown with this pager -/
  | shown (bin : List Char)
  /-- the attach request ends with an error -/
  | failed
  deriving DecidableEq, Repr

/-- `display_in_pager`, show_motd.rs 84-126. -/
def display (m : Option Debouncer) (r : Req) : Outcome × Option Debouncer :=
  let go (m : Option Debouncer) : Outcome × Option Debouncer :=
    match r.mode' with
    | .pager bin _ => (if r.works then .shown bin else .failed, m)
    | _ => (.failed, m)
  match m with
  | none => go none
  | some d =>
    match d.shouldFire r.now r.now' with
    | .error _ => (.failed, some d)
    | .ok (false, d') => (.skipped, some d')
    | .ok (true, d') => go (some d')

/-- `handle_attach`, server.rs 305-336. -/
def attach (m : Option Debouncer) (r : Req) : Outcome × Option Debouncer :=
  match r.mode with
  | .pager _ _ => display m r
  | _ => (.skipped, m)

/-- A history of requests. -/
def history (m : Option Debouncer) : List Req → List (Req × Outcome)
  | [] => []
  | r :: rs => (r, (attach m r).1) :: history (attach m r).2 rs

/-! ## Specification -/

/-- When was the message last shown? (`l`: before this history) -/
def lastShown (l : Option Int) : List (Req × Outcome) → Option Int
  | [] => l
  | (r, .shown _) :: h => lastShown (some r.now') h
  | _ :: h => lastShown l h

/-- What the documentation promises of a client that attaches at `now` when the message was last shown at `l`. -/
def promised (mode : Mode) (l : Option Int) (now : Int) : Outcome :=
  match mode with
  | .never | .dump => .skipped
  | .pager bin none => .shown bin
  | .pager bin (some every) =>
    match l with
    | none => .shown bin
    | some t => if t + every ≤ now then .shown bin else .skipped

/-- The clock does not go back. -/
def Ordered : Int → List Req → Prop
  | _, [] => True
  | t, r :: rs => t ≤ r.now ∧ r.now ≤ r.now' ∧ Ordered r.now' rs

/-- C127: every client gets what the configuration at its time promises. -/
def C127_statement : Prop := ∀ (mode : Mode) (t : Int) (m : Option Debouncer) (pre : List Req) (r : Req),
  Messenger.new mode t = some m → Ordered t (pre ++ [r]) → (∀ x ∈ pre ++ [r], x.mode = x.mode' ∧ x.works = true) →
  ∃ o, history m (pre ++ [r]) = history m pre ++ [(r, o)] ∧ o = promised r.mode (lastShown none (history m pre)) r.now

theorem history_append (m : Option Debouncer) (pre : List Req) (r : Req) :
    ∃ o, history m (pre ++ [r]) = history m pre ++ [(r, o)] := by
  induction pre generalizing m with
  | nil => exact ⟨_, rfl⟩
  | cons x xs ih =>
    obtain ⟨o, ho⟩ := ih (attach m x).2
    exact ⟨o, by simp only [List.cons_append, history, ho]⟩

/-- Two requests one after the other with the same configuration. -/
def less (now : Int) : Req := ⟨.pager ['l'] (some 100), .pager ['l'] (some 100), now, now, true⟩

/-- **C127 fails**: an interval that is set while the daemon runs is ignored; the message is shown to every client. -/
theorem C127_false : ¬ C127_statement := by
  intro h
  obtain ⟨o, ho, hp⟩ := h .never 0 none [less 1] (less 2) rfl (by simp [Ordered, less]) (by simp [less])
  have hs : history none [less 1, less 2] = [(less 1, .shown ['l']), (less 2, .shown ['l'])] := by decide
  have h1 : history none [less 1] = [(less 1, .shown ['l'])] := by decide
  rw [h1] at ho hp
  simp only [List.cons_append, List.nil_append] at ho
  rw [hs] at ho
  simp only [List.cons.injEq, Prod.mk.injEq, true_and, and_true] at ho
  subst ho
  revert hp; decide

/-- The other way round: an interval that is taken out of the configuration, or made shorter, still keeps the message away. -/
theorem C127_false_removed : ∃ m, Messenger.new (.pager ['l'] (some 100)) 0 = some m ∧
    (history m [less 1, ⟨.pager ['l'] none, .pager ['l'] none, 2, 2, true⟩]).map (·.2) = [.shown ['l'], .skipped] :=
  ⟨_, rfl, by decide⟩

/-- A pager that cannot be run uses up the interval: nobody sees the message. -/
theorem C127_false_used_up : ∃ m, Messenger.new (.pager ['l'] (some 100)) 0 = some m ∧
    (history m [{ less 1 with works := false }, less 2]).map (·.2) = [.failed, .skipped] :=
  ⟨_, rfl, by decide⟩

/-- An edit that turns the pager off at the wrong moment makes the attach request fail. -/
theorem C127_false_race : (attach none { less 1 with mode' := .never }).1 = .failed := rfl

/-- **C127**, exactly when the message makes an attach request fail. -/
theorem C127_fails_exact_partial (m : Option Debouncer) (r : Req) : (attach m r).1 = .failed ↔
    (∃ bin e, r.mode = .pager bin e) ∧
      ((∃ d, m = some d ∧ r.now < d.last) ∨
        ((∀ d, m = some d → d.last + d.dur ≤ r.now) ∧ ((∀ bin e, r.mode' ≠ .pager bin e) ∨ r.works = false))) := by
  obtain ⟨m1, m2, now, now', w⟩ := r
  cases m1 with
  | never => simp [attach]
  | dump => simp [attach]
  | pager b e =>
    simp only [attach, display, Mode.pager.injEq, exists_and_left, exists_eq', and_true, true_and]
    cases m with
    | none =>
      cases m2 <;> cases w <;> simp
    | some d =>
      simp only [Debouncer.shouldFire]
      by_cases h1 : d.last ≤ now
      · by_cases h2 : (d.dur : Int) ≤ now - d.last
        · have h3 : d.last + (d.dur : Int) ≤ now := by omega
          have h4 : ¬ now < d.last := by omega
          rw [if_pos h1, if_pos h2]
          cases m2 <;> cases w <;> simp [h3, h4]
        · have h3 : ¬ d.last + (d.dur : Int) ≤ now := by omega
          have h4 : ¬ now < d.last := by omega
          rw [if_pos h1, if_neg h2]
          simp [h3, h4]
      · have h4 : now < d.last := by omega
        rw [if_neg h1]
        simp [h4]

/-- The debouncer agrees with what was shown. -/
private def Agree (every : Option Nat) (m : Option Debouncer) (l : Option Int) (t : Int) : Prop :=
  match every with
  | none => m = none
  | some e => ∃ d, m = some d ∧ d.dur = e ∧ d.last ≤ t ∧
    match l with
    | none => d.last + e ≤ t
    | some x => d.last = x

private theorem agree_step (mode : Mode) (m : Option Debouncer) (l : Option Int) (t : Int) (r : Req)
    (ha : Agree mode.every m l t) (h1 : t ≤ r.now) (h2 : r.now ≤ r.now') (hm : r.mode = r.mode') (hw : r.works = true)
    (he : ∀ bin e, r.mode = .pager bin e → e = mode.every) :
    (attach m r).1 = promised r.mode l r.now ∧
      Agree mode.every (attach m r).2 (lastShown l [(r, (attach m r).1)]) r.now' := by
  obtain ⟨m1, m2, now, now', w⟩ := r
  dsimp only at *
  subst hm hw
  cases m1 with
  | never =>
    refine ⟨rfl, ?_⟩
    simp only [attach, lastShown]
    cases hev : mode.every with
    | none => rw [hev] at ha; exact ha
    | some e =>
      rw [hev] at ha
      obtain ⟨d, rfl, hd, hl, hx⟩ := ha
      refine ⟨d, rfl, hd, by omega, ?_⟩
      cases l with
      | none => simp only at hx ⊢; omega
      | some _ => exact hx
  | dump =>
    refine ⟨rfl, ?_⟩
    simp only [attach, lastShown]
    cases hev : mode.every with
    | none => rw [hev] at ha; exact ha
    | some e =>
      rw [hev] at ha
      obtain ⟨d, rfl, hd, hl, hx⟩ := ha
      refine ⟨d, rfl, hd, by omega, ?_⟩
      cases l with
      | none => simp only at hx ⊢; omega
      | some _ => exact hx
  | pager b e =>
    have := he b e rfl
    subst this
    cases hev : mode.every with
    | none =>
      rw [hev] at ha
      have : m = none := ha
      subst this
      exact ⟨rfl, rfl⟩
    | some e =>
      rw [hev] at ha
      obtain ⟨d, rfl, hd, hl, hx⟩ := ha
      simp only [attach, display, Debouncer.shouldFire]
      rw [if_pos (by omega)]
      by_cases hf : (d.dur : Int) ≤ now - d.last
      · rw [if_pos hf]
        simp only [if_true, promised, lastShown]
        refine ⟨?_, ⟨_, rfl, hd, Int.le_refl _, rfl⟩⟩
        cases l with
        | none => rfl
        | some x => simp only at hx ⊢; rw [if_pos (by omega)]
      · rw [if_neg hf]
        simp only [promised, lastShown]
        cases l with
        | none => simp only at hx; omega
        | some x =>
          simp only at hx ⊢
          rw [if_neg (by omega)]
          exact ⟨rfl, d, rfl, hd, by omega, hx⟩

private theorem lastShown_cons (l : Option Int) (p : Req × Outcome) (h : List (Req × Outcome)) :
    lastShown l (p :: h) = lastShown (lastShown l [p]) h := by
  obtain ⟨r, o⟩ := p
  cases o <;> rfl

private theorem follows (mode : Mode) : ∀ (pre : List Req) (m : Option Debouncer) (l : Option Int) (t : Int) (r : Req),
    Agree mode.every m l t → Ordered t (pre ++ [r]) → (∀ x ∈ pre ++ [r], x.mode = x.mode' ∧ x.works = true) →
    (∀ x ∈ pre ++ [r], ∀ bin e, x.mode = .pager bin e → e = mode.every) →
    history m (pre ++ [r]) = history m pre ++ [(r, promised r.mode (lastShown l (history m pre)) r.now)]
  | [], m, l, t, r, ha, ho, hx, he => by
    obtain ⟨h1, h2, _⟩ := ho
    have := agree_step mode m l t r ha h1 h2 (hx r (by simp)).1 (hx r (by simp)).2 (he r (by simp))
    simp only [List.nil_append, history, lastShown, this.1]
  | x :: xs, m, l, t, r, ha, ho, hx, he => by
    obtain ⟨h1, h2, h3⟩ := ho
    have hs := agree_step mode m l t x ha h1 h2 (hx x (by simp)).1 (hx x (by simp)).2 (he x (by simp))
    have := follows mode xs (attach m x).2 _ x.now' r hs.2 h3 (fun y hy => hx y (by simp at hy ⊢; exact Or.inr hy))
      (fun y hy => he y (by simp at hy ⊢; exact Or.inr hy))
    simp only [List.cons_append, history, this]
    rw [← lastShown_cons]

/-- **C127** as long as the interval is the one the daemon started with: every client gets what is promised, whatever else of the mode
is edited. Missing: edits of the interval. -/
theorem C127_follows_partial (mode : Mode) (t : Int) (m : Option Debouncer) (pre : List Req) (r : Req)
    (hm : Messenger.new mode t = some m) (ho : Ordered t (pre ++ [r]))
    (hx : ∀ x ∈ pre ++ [r], x.mode = x.mode' ∧ x.works = true)
    (he : ∀ x ∈ pre ++ [r], ∀ bin e, x.mode = .pager bin e → e = mode.every) :
    history m (pre ++ [r]) = history m pre ++ [(r, promised r.mode (lastShown none (history m pre)) r.now)] := by
  refine follows mode pre m none t r ?_ ho hx he
  unfold Messenger.new at hm
  unfold Agree
  cases hev : mode.every with
  | none => rw [hev] at hm; simpa using hm.symm
  | some e =>
    rw [hev] at hm
    simp only [Debouncer.new] at hm
    split at hm
    · simp only [Option.map_some, Option.some.injEq] at hm
      subst hm
      exact ⟨_, rfl, rfl, by simp only; omega, by simp only; omega⟩
    · cases hm

/-- With an interval from the start, the message is not shown while it is off, and the pager may be changed. -/
example : ∃ m, Messenger.new (.pager ['m'] (some 100)) 0 = some m ∧ (history m [less 1, less 50, ⟨.never, .never, 120, 120, true⟩,
    { less 130 with mode := .pager ['m'] (some 100), mode' := .pager ['m'] (some 100) }]).map (·.2) =
    [.shown ['l'], .skipped, .skipped, .shown ['m']] := ⟨_, rfl, by decide⟩

end Shpool.Motd
