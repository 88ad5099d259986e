import Verif.Attach.Props
/-! # Exactly when `shpool attach` reports success, and what a signal leaves behind (C88, C90) -/

namespace Shpool.Attach
open Shpool.Client Shpool.Template

/-- The daemon gives the client the session: at once, or, if the client may and can send the other one away, after at most twenty-one
answers that it is busy. -/
def GetsIn (force detachOk : Bool) (dials : List DialAttach) : Prop :=
  ∃ k rest, dials = List.replicate k .busy ++ .client :: rest ∧ (k = 0 ∨ (force = true ∧ detachOk = true ∧ k ≤ 21))

/-- The ways to end with success, for a client about to attach to a session of this name. -/
inductive Succeeds (o : Opts) (tm : Template) : Str → List Round → Prop where
  /-- the name is not acceptable -/
  | badName {name r rs} (h : ¬ Env.GoodName name) : Succeeds o tm name (r :: rs)
  /-- another client is attached and is not to be sent away -/
  | busy {name r rs} (h : Env.GoodName name) (hf : o.force = false) (hb : r.dials.head? = some .busy) : Succeeds o tm name (r :: rs)
  /-- attached in the background, and left alone again -/
  | background {name r rs} (h : Env.GoodName name) (hi : GetsIn o.force r.detachOk r.dials) (hb : o.background = true)
    (hok : r.bgOk = true) : Succeeds o tm name (r :: rs)
  /-- attached until the shell ended with status 0, or the client was detached, which looks the same -/
  | ended {name r rs} (h : Env.GoodName name) (hi : GetsIn o.force r.detachOk r.dials) (hb : o.background = false)
    (he : r.pipe = .result (.exit 0) ∨ r.pipe = .hardExit (some (.exit 0))) : Succeeds o tm name (r :: rs)
  /-- attached until the variables named another session, and then one of these -/
  | switched {name r rs vs} (h : Env.GoodName name) (hi : GetsIn o.force r.detachOk r.dials) (hb : o.background = false)
    (he : r.pipe = .result (.switch vs)) (hs : Succeeds o tm (tm.apply vs) rs) : Succeeds o tm name (r :: rs)

private theorem busy_exact (force ok : Bool) (name : Str) : ∀ (ds : List DialAttach) (det : Bool) (tries : Nat),
    ((busyLoop force ok name ds det tries).2 = .attached ↔ ∃ k rest, ds = List.replicate k .busy ++ .client :: rest ∧
      (k = 0 ∨ (force = true ∧ (det = true ∨ ok = true) ∧ k + tries ≤ 21))) ∧
    ((busyLoop force ok name ds det tries).2 = .reportedBusy ↔ force = false ∧ ds.head? = some .busy) ∧
    (busyLoop force ok name ds det tries).2 ≠ .reportedName := by
  intro ds
  induction ds with
  | nil =>
    intro det tries
    refine ⟨⟨fun h => by simp [busyLoop] at h, ?_⟩, by simp [busyLoop], by simp [busyLoop]⟩
    rintro ⟨k, rest, h, -⟩
    cases k <;> simp at h
  | cons d ds ih =>
    intro det tries
    cases d with
    | client =>
      refine ⟨⟨fun _ => ⟨0, ds, rfl, .inl rfl⟩, fun _ => rfl⟩, by simp [busyLoop], by simp [busyLoop]⟩
    | err =>
      refine ⟨⟨fun h => by simp [busyLoop] at h, ?_⟩, by simp [busyLoop], by simp [busyLoop]⟩
      rintro ⟨k, rest, h, -⟩
      cases k <;> simp [List.replicate_succ] at h
    | busy =>
      have hk : ∀ P : Nat → Prop, (∃ k rest, DialAttach.busy :: ds = List.replicate k .busy ++ .client :: rest ∧ (k = 0 ∨ P k)) ↔
          ∃ k rest, ds = List.replicate k .busy ++ .client :: rest ∧ P (k + 1) := by
        intro P
        constructor
        · rintro ⟨k, rest, h, hp⟩
          cases k with
          | zero => simp at h
          | succ k =>
            simp only [List.replicate_succ, List.cons_append, List.cons.injEq, true_and] at h
            exact ⟨k, rest, h, hp.resolve_left (by omega)⟩
        · rintro ⟨k, rest, h, hp⟩
          exact ⟨k + 1, rest, by rw [h]; rfl, .inr hp⟩
      rw [hk]
      obtain ⟨i1, i2, i3⟩ := ih true (tries + 1)
      simp only [busyLoop]
      cases hf : force with
      | false => simp
      | true =>
        subst hf
        simp only [Bool.not_true, Bool.false_eq_true, if_false]
        split
        · rename_i hd
          simp only [Bool.and_eq_true, Bool.not_eq_true'] at hd
          refine ⟨⟨nofun, ?_⟩, by simp, by simp⟩
          rintro ⟨k, rest, -, -, h | h, -⟩
          · rw [hd.1] at h; cases h
          · rw [hd.2] at h; cases h
        · rename_i hd
          split
          · rename_i ht
            refine ⟨⟨nofun, ?_⟩, by simp, by simp⟩
            rintro ⟨k, rest, -, -, -, h⟩
            simp only [maxForceRetries] at ht
            omega
          · rename_i ht
            simp only [maxForceRetries] at ht
            dsimp only
            refine ⟨?_, ?_, i3⟩
            · rw [i1]
              constructor
              · rintro ⟨k, rest, h, h2⟩
                refine ⟨k, rest, h, trivial, ?_, ?_⟩
                · cases det
                  · right
                    cases ok
                    · simp at hd
                    · rfl
                  · exact .inl rfl
                · rcases h2 with rfl | ⟨-, -, h2⟩ <;> omega
              · rintro ⟨k, rest, h, -, -, h2⟩
                exact ⟨k, rest, h, .inr ⟨rfl, .inl rfl, by omega⟩⟩
            · rw [i2]; simp

private theorem resolved_exact (force ok : Bool) (name : Str) (ds : List DialAttach) :
    ((attachResolved force ok name ds).2 = .attached ↔ Env.GoodName name ∧ GetsIn force ok ds) ∧
    ((attachResolved force ok name ds).2 = .reportedBusy ↔ Env.GoodName name ∧ force = false ∧ ds.head? = some .busy) ∧
    ((attachResolved force ok name ds).2 = .reportedName ↔ ¬ Env.GoodName name) := by
  unfold attachResolved
  cases hc : Env.clientRejects name with
  | none =>
    have hg := (Env.clientAccepts_iff name).1 hc
    obtain ⟨h1, h2, h3⟩ := busy_exact force ok name ds false 0
    simp only [Option.isSome_none, Bool.false_eq_true, if_false]
    refine ⟨?_, ?_, ?_⟩
    · rw [h1]
      constructor
      · rintro ⟨k, rest, h, h'⟩
        refine ⟨hg, k, rest, h, h'.imp id ?_⟩
        rintro ⟨a, b, c⟩
        exact ⟨a, b.resolve_left (by simp), by omega⟩
      · rintro ⟨-, k, rest, h, h'⟩
        refine ⟨k, rest, h, h'.imp id ?_⟩
        rintro ⟨a, b, c⟩
        exact ⟨a, .inr b, by omega⟩
    · rw [h2]
      exact ⟨fun h => ⟨hg, h⟩, fun h => h.2⟩
    · exact ⟨fun h => absurd h h3, fun h => absurd hg h⟩
  | some _ =>
    have hg : ¬ Env.GoodName name := fun h => by rw [(Env.clientAccepts_iff name).2 h] at hc; cases hc
    simp [hg]

private theorem loop_exact (o : Opts) (tm : Template) : ∀ (rs : List Round) (term : Termios) (name : Str),
    (attachLoop o tm term name rs).2.2 = .exited 0 ↔ Succeeds o tm name rs := by
  intro rs
  induction rs with
  | nil => intro term name; exact ⟨nofun, nofun⟩
  | cons r rs ih =>
    intro term name
    obtain ⟨h1, h2, h3⟩ := resolved_exact o.force r.detachOk name r.dials
    obtain ⟨res, hres⟩ : ∃ res, (attachResolved o.force r.detachOk name r.dials).2 = res := ⟨_, rfl⟩
    rw [hres] at h1 h2 h3
    have none_of : (res ≠ .attached) → (res ≠ .reportedBusy) → (res ≠ .reportedName) → ¬ Succeeds o tm name (r :: rs) := by
      intro a b c hs
      cases hs with
      | badName h => exact c (h3.2 h)
      | busy h hf hb => exact b (h2.2 ⟨h, hf, hb⟩)
      | background h hi => exact a (h1.2 ⟨h, hi⟩)
      | ended h hi => exact a (h1.2 ⟨h, hi⟩)
      | switched h hi => exact a (h1.2 ⟨h, hi⟩)
    simp only [attachLoop, hres]
    cases res with
    | reportedName => exact ⟨fun _ => .badName (h3.1 rfl), fun _ => rfl⟩
    | reportedBusy =>
      obtain ⟨a, b, c⟩ := h2.1 rfl
      exact ⟨fun _ => .busy a b c, fun _ => rfl⟩
    | failed => exact ⟨fun h => by simp at h, fun h => absurd h (none_of nofun nofun nofun)⟩
    | waiting => exact ⟨nofun, fun h => absurd h (none_of nofun nofun nofun)⟩
    | attached =>
      obtain ⟨hg, hi⟩ := h1.1 rfl
      have hnb : ¬ (o.force = false ∧ r.dials.head? = some .busy) := fun h => by cases h2.2 ⟨hg, h⟩
      by_cases hb : o.background = true
      · simp only [hb, if_true]
        constructor
        · intro h
          refine .background hg hi hb ?_
          cases hok : r.bgOk
          · rw [hok] at h; simp at h
          · rfl
        · intro h
          cases h with
          | badName h => exact absurd hg h
          | busy _ hf hbusy => exact absurd ⟨hf, hbusy⟩ hnb
          | background _ _ _ hok => simp [hok]
          | ended _ _ hb' => rw [hb] at hb'; cases hb'
          | switched _ _ hb' => rw [hb] at hb'; cases hb'
      · have hb' : o.background = false := by simpa using hb
        have back : Succeeds o tm name (r :: rs) → (r.pipe = .result (.exit 0) ∨ r.pipe = .hardExit (some (.exit 0))) ∨
            ∃ vs, r.pipe = .result (.switch vs) ∧ Succeeds o tm (tm.apply vs) rs := by
          intro h
          cases h with
          | badName h => exact absurd hg h
          | busy _ hf hbusy => exact absurd ⟨hf, hbusy⟩ hnb
          | background _ _ hbb => exact absurd hbb hb
          | ended _ _ _ he => exact .inl he
          | switched _ _ _ he hs => exact .inr ⟨_, he, hs⟩
        simp only [hb', Bool.false_eq_true, if_false]
        unfold pipeBytes
        cases hp : r.pipe with
        | cloneErr =>
          refine ⟨fun h => by simp at h, fun h => ?_⟩
          rcases back h with (h | h) | ⟨vs, h, -⟩ <;> rw [hp] at h <;> cases h
        | panicked =>
          refine ⟨fun h => by simp at h, fun h => ?_⟩
          rcases back h with (h | h) | ⟨vs, h, -⟩ <;> rw [hp] at h <;> cases h
        | killed =>
          refine ⟨fun h => by simp at h, fun h => ?_⟩
          rcases back h with (h | h) | ⟨vs, h, -⟩ <;> rw [hp] at h <;> cases h
        | result x =>
          cases x with
          | exit n =>
            dsimp only
            constructor
            · intro h
              simp only [End.exited.injEq] at h
              exact .ended hg hi hb' (.inl (by rw [hp, h]))
            · intro h
              rcases back h with (h | h) | ⟨vs, h, -⟩ <;> rw [hp] at h <;> cases h
              rfl
          | switch vs =>
            dsimp only
            rw [ih]
            constructor
            · intro h
              exact .switched hg hi hb' hp h
            · intro h
              rcases back h with (h | h) | ⟨vs', h, h'⟩ <;> rw [hp] at h <;> cases h
              exact h'
        | hardExit x =>
          cases x with
          | none =>
            refine ⟨fun h => by simp at h, fun h => ?_⟩
            rcases back h with (h | h) | ⟨vs, h, -⟩ <;> rw [hp] at h <;> cases h
          | some x =>
            cases x with
            | switch vs =>
              refine ⟨fun h => by simp at h, fun h => ?_⟩
              rcases back h with (h | h) | ⟨vs, h, -⟩ <;> rw [hp] at h <;> cases h
            | exit n =>
              dsimp only
              constructor
              · intro h
                simp only [End.exited.injEq] at h
                exact .ended hg hi hb' (.inr (by rw [hp, h]))
              · intro h
                rcases back h with (h | h) | ⟨vs, h, -⟩ <;> rw [hp] at h <;> cases h
                rfl

/-- **C90** (exactly when): `shpool attach` reports success exactly in the five ways of `Succeeds`, whatever the daemon, the shell and the
other clients do; the first two of them, at the start or after a switch, are those in which the session asked for was not attached to. -/
theorem C90_exact (o : Opts) (tm : Template) (term : Termios) (first : Option Vars) (rs : List Round) :
    (attachProc o tm term first rs).2.2 = .exited 0 ↔ ∃ vs, first = some vs ∧ Succeeds o tm (tm.apply vs) rs := by
  cases first with
  | none => simp [attachProc]
  | some vs => simp [attachProc, loop_exact]

/-- Switching to a session that another client has: the process succeeds although it is attached to nothing. -/
example (term : Termios) : (attachProc ⟨false, false, ⟨true, true, true⟩⟩ tmA term (some fun _ => none)
    [⟨[.client], true, true, none, .result (.switch fun _ => none)⟩, ⟨[.busy], true, true, none, .cloneErr⟩]).2.2 = .exited 0 := by
  have hn : Env.GoodName (tmA.apply fun _ => none) := (Env.clientAccepts_iff _).1 (by decide +kernel)
  exact (C90_exact _ _ _ _ _).2 ⟨_, rfl, .switched hn ⟨0, [], rfl, .inl rfl⟩ rfl rfl (.busy hn rfl rfl)⟩

/-- **C88** (what is left): a client ended by a signal leaves the terminal as it was at that moment: in raw mode, or as another program
had set it since. -/
theorem C88_exact (o : Opts) (tm : Template) (term : Termios) (first : Option Vars) (rs : List Round)
    (ht : o.ttys.stdin = true ∧ o.ttys.stdout = true ∧ o.ttys.stderr = true) (hk : (attachProc o tm term first rs).2.2 = .killed) :
    ∃ r ∈ rs, r.pipe = .killed ∧
      ((r.during = none ∧ IsRaw term (attachProc o tm term first rs).1) ∨ r.during = some (attachProc o tm term first rs).1) := by
  have key : ∀ (rs : List Round) (name : Str), (attachLoop o tm term name rs).2.2 = .killed → ∃ r ∈ rs, r.pipe = .killed ∧
      (attachLoop o tm term name rs).1 = r.during.getD (rawOf term) := by
    intro rs
    induction rs with
    | nil => intro name h; simp [attachLoop] at h
    | cons r rs ih =>
      intro name h
      have hset : setAttachFlags o.ttys term = (rawOf term, some term) := by simp [setAttachFlags, ht]
      simp only [attachLoop] at h ⊢
      obtain ⟨res, hres⟩ : ∃ res, (attachResolved o.force r.detachOk name r.dials).2 = res := ⟨_, rfl⟩
      rw [hres] at h ⊢
      cases res with
      | reportedName => simp at h
      | reportedBusy => simp at h
      | failed => simp at h
      | waiting => simp at h
      | attached =>
        cases hb : o.background with
        | true => simp [hb] at h
        | false =>
          simp only [hb, Bool.false_eq_true, if_false, pipeBytes, hset] at h ⊢
          cases hp : r.pipe with
          | cloneErr => simp [hp] at h
          | panicked => simp [hp] at h
          | killed => exact ⟨r, by simp, hp, by simp⟩
          | hardExit x =>
            cases x with
            | none => simp [hp] at h
            | some x => cases x <;> simp [hp] at h
          | result x =>
            cases x with
            | exit n => simp [hp] at h
            | switch vs =>
              simp only [hp, dropGuard] at h ⊢
              obtain ⟨q, h1, h2, h3⟩ := ih _ h
              exact ⟨q, List.mem_cons_of_mem _ h1, h2, h3⟩
  cases first with
  | none => simp [attachProc] at hk
  | some vs =>
    obtain ⟨r, h1, h2, h3⟩ := key rs _ hk
    refine ⟨r, h1, h2, ?_⟩
    have e : (attachProc o tm term (some vs) rs).1 = r.during.getD (rawOf term) := h3
    cases hd : r.during with
    | none => left; rw [e, hd]; exact ⟨rfl, raw_spec term⟩
    | some d => right; rw [e, hd]; rfl

end Shpool.Attach
