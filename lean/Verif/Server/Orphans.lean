import Verif.Server.Props
/-!
# C137: a shell that runs can be reached

By name: with `shpool list`, `attach` and `kill`, which work on the session table.
-/

namespace Shpool.Server

/-- The shell of the session `x` cannot be reached: the session is not in the table, and nobody is about to put it there. -/
def Lost (s : St) (x : Nat) : Prop := (∀ n, find n s.table ≠ some x) ∧ ∀ t n, s.thr t ≠ .spawned n x

/-- The full claim: every shell that runs can be reached. -/
def C137_statement : Prop := ∀ ls s, Run ls s → ∀ x, (s.sess x).alive = true → ¬ Lost s x

theorem not_spawned {ls : List Label} {s : St} {x t : Nat} (h : Run ls s) (hs : (s.sess x).stream = some t) (hp : (s.thr t).creates = none ∨
    ∃ n y, s.thr t = .inserted n y) : ∀ t n, s.thr t ≠ .spawned n x := by
  intro t' n ht
  have := ((inv_of_run h).spawned t' n x ht).2.2.2.1
  rw [hs] at this
  cases this
  rw [ht] at hp
  simp [Phase.creates] at hp

/-- A session whose shell runs as another user (`exec su`) and whose ttl is over. -/
def otherUser : List Label := [.select 0 a false, .spawn 0, .insert 0, .lookup 0, .start 0, .clientGone 0, .unlink 0, .release 0, .reap a true]

/-- **C137 fails**: the ttl reaper cannot kill the shell but removes its session. -/
theorem C137_false : ¬ C137_statement := by
  intro h
  obtain ⟨s, hs, h1, h2, h3, h4⟩ : ∃ s, Run otherUser s ∧ (s.sess 0).alive = true ∧ s.table = [] ∧ (s.sess 0).stream = some 0 ∧
    (s.thr 0).creates = none := ⟨_, rfl, rfl, rfl, rfl, rfl⟩
  exact h otherUser s hs 0 h1 ⟨fun n hn => (by rw [h2] at hn; cases hn), not_spawned hs h3 (.inl h4)⟩

/-- **C137 fails** (race): of two sessions of one name created at the same time the first is lost. -/
theorem C137_false_race : ∃ s, Run (race.take 6) s ∧ (s.sess 0).alive = true ∧ s.table = [(a, 1)] ∧ ∀ t n, s.thr t ≠ .spawned n 0 := by
  exact ⟨_, rfl, rfl, rfl, not_spawned (ls := race.take 6) (t := 0) rfl rfl (.inr ⟨_, _, rfl⟩)⟩

/-- **C137 fails** (thread): if the shell-to-client thread of a session has ended although its shell runs, attaching starts another
shell and loses the first. -/
theorem C137_false_thread : ∃ s, Run [.select 0 a false, .spawn 0, .insert 0, .lookup 0, .start 0, .s2cEnds 0, .clientGone 0,
      .unlink 0, .release 0, .select 1 a false, .spawn 1, .insert 1] s ∧ (s.sess 0).alive = true ∧ s.table = [(a, 1)] ∧
    ∀ t n, s.thr t ≠ .spawned n 0 := by
  obtain ⟨s, hs, h1, h2, h3, h4⟩ : ∃ s, Run [.select 0 a false, .spawn 0, .insert 0, .lookup 0, .start 0, .s2cEnds 0, .clientGone 0,
      .unlink 0, .release 0, .select 1 a false, .spawn 1, .insert 1] s ∧ (s.sess 0).alive = true ∧ s.table = [(a, 1)] ∧
      (s.sess 0).stream = some 1 ∧ (∃ n y, s.thr 1 = .inserted n y) := ⟨_, rfl, rfl, rfl, rfl, _, _, rfl⟩
  exact ⟨s, hs, h1, h2, not_spawned hs h3 (.inr h4)⟩

/-- **C137 fails** (name): the request of a client whose session was killed removes the session created under the name meanwhile. -/
theorem C137_false_name : ∃ s, Run (recreated ++ [Label.unlink 0]) s ∧ (s.sess 1).alive = true ∧ s.table = [] ∧
    ∀ t n, s.thr t ≠ .spawned n 1 := by
  obtain ⟨s, hs, h1, h2, h3, h4⟩ : ∃ s, Run (recreated ++ [Label.unlink 0]) s ∧ (s.sess 1).alive = true ∧ s.table = [] ∧
    (s.sess 1).stream = some 1 ∧ (s.thr 1).creates = none := ⟨_, rfl, rfl, rfl, rfl, rfl⟩
  exact ⟨s, hs, h1, h2, not_spawned hs h3 (.inl h4)⟩

theorem lost_step {s s' : St} {l : Label} {x : Nat} (hx : x < s.next) (hl : Lost s x) (hs : step s l = some s') (hn : l ≠ .exit x) :
    x < s'.next ∧ Lost s' x ∧ (s'.sess x).alive = (s.sess x).alive := by
  obtain ⟨h1, h2⟩ := hl
  have he := step_eff hs
  clear hs
  cases he
  case kill names fail _ =>
    have k2 := kill_find s names fail
    refine ⟨by rw [kill_next]; exact hx, ⟨fun n => ?_, by rw [kill_thr]; exact h2⟩, ?_⟩
    · rcases k2 n with e | ⟨e, -⟩ <;> rw [e]
      · exact h1 n
      · nofun
    · have := killLoop_sess s.table names s.sess fail x
      unfold kill
      dsimp only
      split <;> grind
  case detach names _ =>
    refine ⟨hx, ⟨h1, h2⟩, (detach_fields s names x).2.2.2⟩
  all_goals
    refine ⟨?_, ⟨?_, ?_⟩, ?_⟩
    all_goals
      (try simp only [setThr, setSess, upd_apply, Sess.recordAttached, Sess.recordDetached, find_insert, find_erase]) <;>
      first
        | assumption
        | omega
        | grind

/-- What is lost stays lost: no request reaches the shell any more; until it exits by itself it runs. -/
theorem C137_for_ever {ls ls' : List Label} {s s' : St} {x : Nat} (_ : Run ls s) (hx : x < s.next) (hl : Lost s x)
    (h' : runSteps step s ls' = some s') (hn : .exit x ∉ ls') : Lost s' x ∧ (s'.sess x).alive = (s.sess x).alive := by
  induction ls' generalizing ls s with
  | nil => cases h'; exact ⟨hl, rfl⟩
  | cons l ls' ih =>
    obtain ⟨s1, h1, h2⟩ := run_cons_some h'
    obtain ⟨g1, g2, g3⟩ := lost_step hx hl h1 (fun e => hn (by simp [e]))
    obtain ⟨k1, k2⟩ := ih (run_snoc ‹Run ls s› h1) g1 g2 h2 (fun e => hn (by simp [e]))
    exact ⟨k1, k2.trans g3⟩

/-- The ttl reaper can kill the shells of the sessions it removes. -/
def CanKill (_ : St) : Label → Prop
  | .reap _ fails => fails = false
  | _ => True

theorem kept_step {s s' : St} {l : Label} (hi : Inv s) (h2 : Ord2 s) (h3 : Live s) (hk : CanKill s l) (he : Eff s l s')
    (hI : ∀ x, (s.sess x).alive = true → ¬ Lost s x) : ∀ x, (s'.sess x).alive = true → ¬ Lost s' x := by
  have hI' : ∀ x, (s.sess x).alive = true → (∃ n, find n s.table = some x) ∨ ∃ t n, s.thr t = .spawned n x := by
    intro x hx
    have := hI x hx
    unfold Lost at this
    simp only [Classical.not_and_iff_not_or_not, ne_eq, Classical.not_forall, Classical.not_not] at this
    exact this
  suffices hh : ∀ x, (s'.sess x).alive = true → (∃ n, find n s'.table = some x) ∨ ∃ t n, s'.thr t = .spawned n x by
    rintro x hx ⟨g1, g2⟩
    rcases hh x hx with ⟨n, h⟩ | ⟨t, n, h⟩
    · exact g1 n h
    · exact g2 t n h
  clear hI
  have ht := hi.tbl
  have hsp := hi.spawned
  have hdead := hi.dead
  have d3 := h3.spawned
  have same := h2.same
  clear h2 h3
  intro x hx
  cases he
  case kill names fail _ =>
    rw [kill_thr]
    have hal : (s.sess x).alive = true := by
      have := (kill_fields s names fail x).2.2.2
      cases h : (s.sess x).alive with
      | true => rfl
      | false => rw [this h] at hx; cases hx
    rcases hI' x hal with ⟨n, hn⟩ | h
    · rcases kill_find s names fail n with e | ⟨e, hm⟩
      · exact .inl ⟨n, e.trans hn⟩
      · exfalso
        have hok := killLoop_ok s.table names s.sess fail
        unfold kill at hx e
        dsimp only at hx e
        split at hx
        · rename_i hk
          rw [(hok hk).2.2 n hm x hn] at hx
          cases hx
        · rename_i hk
          rw [if_neg hk] at e
          dsimp only at e
          rw [hn] at e
          cases e
    · exact .inr h
  case detach names _ =>
    exact hI' x ((detach_fields s names x).2.2.2 ▸ hx)
  case insert t m y g1 g2 =>
    rcases hI' x hx with ⟨n, hn⟩ | ⟨t', n, h⟩
    · by_cases e : n = m
      · subst e
        have := d3 t n y g1 x hn
        rw [show (s.sess x).alive = true from hx] at this
        cases this
      · exact .inl ⟨n, by simp only [find_insert, if_neg e]; exact hn⟩
    · by_cases e : t' = t
      · subst e
        rw [g1] at h
        cases h
        exact .inl ⟨m, by simp [find_insert]⟩
      · exact .inr ⟨t', n, by simp [setThr, upd_apply, e, h]⟩
  case unlinkDone t m y g1 g2 =>
    rcases hI' x hx with ⟨n, hn⟩ | ⟨t', n, h⟩
    · by_cases e : n = m
      · subst e
        have := same t n y (by rw [g1]; rfl) x hn
        subst this
        have := (hdead t n x g1).2
        rw [show (s.sess x).alive = true from hx] at this
        cases this
      · exact .inl ⟨n, by simp only [find_erase, if_neg e]; exact hn⟩
    · refine .inr ⟨t', n, ?_⟩
      have : t' ≠ t := by rintro rfl; rw [g1] at h; cases h
      simp [setThr, upd_apply, this, h]
  case reap m fails y g1 g2 =>
    have hf : fails = false := hk
    subst hf
    have hxy : x ≠ y := by
      rintro rfl
      simp [setSess] at hx
    have hal : (s.sess x).alive = true := by simpa [setSess, upd_apply, hxy] using hx
    rcases hI' x hal with ⟨n, hn⟩ | h
    · by_cases e : n = m
      · subst e; rw [g2] at hn; cases hn; exact absurd rfl hxy
      · exact .inl ⟨n, by simp only [find_erase, if_neg e]; exact hn⟩
    · exact .inr h
  case spawn t n h =>
    by_cases e : x = s.next
    · exact .inr ⟨t, n, by simp [setThr, e]⟩
    · have hal : (s.sess x).alive = true := by simpa [upd_apply, e] using hx
      rcases hI' x hal with h' | ⟨t', m, h'⟩
      · exact .inl h'
      · refine .inr ⟨t', m, ?_⟩
        have : t' ≠ t := by rintro rfl; rw [h] at h'; cases h'
        simp [setThr, upd_apply, this, h']
  all_goals
    (try simp only [setThr, setSess, upd_apply, Sess.recordAttached, Sess.recordDetached] at hx ⊢)
    have := hI' x
    clear ht hsp hdead d3 same hI' hi hk
    grind

/-- **C137** as long as attach requests of one name do not race, shell-to-client threads do not end before their shells, and the
reaper can kill the shells of the sessions whose time is over: every shell that runs is that of a session in the table, or of one that
is just being put there. -/
theorem C137_reached_partial {ls : List Label} {s : St} (h : Run ls s)
    (hp : Always (fun s l => Quiet s l ∧ Healthy s l ∧ CanKill s l) ls) {x : Nat} (hx : (s.sess x).alive = true) :
    (∃ n, find n s.table = some x) ∨ ∃ t n, s.thr t = .spawned n x := by
  have := hist_inv (P := fun s l => Quiet s l ∧ Healthy s l ∧ CanKill s l) (I := fun s => ∀ x, (s.sess x).alive = true → ¬ Lost s x)
    (by intro x hx; cases hx)
    (fun ls s l s' hr hp hI hq hs => kept_step (inv_of_run hr) (ord2_of_run hr (hp.mono fun _ _ h => h.1))
      (live_of_run hr (hp.mono fun _ _ h => ⟨h.1.1, h.2.1⟩)) hq.2.2 (step_eff hs) hI) h hp x hx
  unfold Lost at this
  simp only [Classical.not_and_iff_not_or_not, ne_eq, Classical.not_forall, Classical.not_not] at this
  exact this

/-- Whatever happens, a kill that succeeds leaves none of the shells running that it was asked to kill, and one that reports an
error leaves the sessions in the table. -/
theorem C137_kill {s : St} {names : List Name} {fail : Option Nat} {n : Name} {x : Nat} (hf : find n s.table = some x) (hn : n ∈ names) :
    ((kill s names fail).2.isSome = true → ((kill s names fail).1.sess x).alive = false ∧ find n (kill s names fail).1.table = none) ∧
    ((kill s names fail).2 = none → (kill s names fail).1.table = s.table) := by
  have hok := killLoop_ok s.table names s.sess fail
  unfold kill
  dsimp only
  split
  · rename_i hk
    obtain ⟨h1, -, h3⟩ := hok hk
    refine ⟨fun _ => ⟨h3 n hn x hf, ?_⟩, nofun⟩
    show find n (eraseAll _ s.table) = none
    rw [h1, find_eraseAll, if_pos (by simp [List.mem_filter, hn, hf])]
  · exact ⟨nofun, fun _ => rfl⟩

/-- A history that meets the hypotheses of C137_reached_partial: a session is created, left, and attached to again; another client finds it
busy. -/
theorem calm_reached : Always (fun s l => Quiet s l ∧ Healthy s l ∧ CanKill s l) calm :=
  fun pre l post s e hr => by
    have h := calm_orderly pre l post s e hr
    have hl : l ∈ calm := by rw [e]; simp
    have hk : ∀ l ∈ calm, CanKill s l := by simp [calm, CanKill]
    exact ⟨⟨h.1, h.2.1⟩, h.2.2.1, hk l hl⟩

example : ∃ s, Run calm s ∧ (s.sess 0).alive = true ∧ find a s.table = some 0 := ⟨_, rfl, rfl, rfl⟩

end Shpool.Server
