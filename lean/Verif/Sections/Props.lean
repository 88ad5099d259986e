import Verif.Sections.Lemmas
/-!
# C45 with the requests taken apart
-/

namespace Shpool.Sections
open Server (Name Table)
open Listing (Kept snoc_induction)

/-! ## The requests as single steps -/

/-- **Soundness of single steps.**  Whatever the requests taken apart lead to, the model of the session table, where they are single steps,
can do too. -/
theorem steps_sound {ls : List Label} {s : St} (h : Run ls s) : ∃ ls', Server.Run ls' s.srv := by
  have key : Good s ∧ ∃ ls', Server.Run ls' s.srv := run_inv (I := fun s : St => Good s ∧ ∃ ls', Server.Run ls' s.srv)
    (fun s l s' hi hs => by
      obtain ⟨hg, ls', hr⟩ := hi
      refine ⟨good_step hg hs, ls' ++ coarse s l, ?_⟩
      rw [Server.Run, run_append, show runSteps Server.step Server.init ls' = some s.srv from hr]
      exact coarse_step hg hs) ⟨good_init, [], rfl⟩ h
  exact key.2

/-- So everything that holds in all states of the model of the session table holds here. -/
theorem transfer {P : Server.St → Prop} (hP : ∀ ls v, Server.Run ls v → P v) {ls : List Label} {s : St} (h : Run ls s) : P s.srv := by
  obtain ⟨ls', hr⟩ := steps_sound h
  exact hP ls' _ hr

theorem kill_complete (v : Server.St) (a : List Answer) (asked : List Name) : ∀ (todo : List Name) (σ : Nat → Server.Sess)
    (fail : Option Nat) (gone missing : List Name), ∃ ls,
      runSteps step ⟨{ v with sess := σ }, some (.kill asked todo gone missing), a⟩ ls = some
        (let r := Server.killLoop v.table σ todo fail
         if r.ok then
           ⟨{ v with
              sess := r.sess
              table := (gone ++ r.toRemove).foldl (fun tb n => Server.erase n tb) v.table
              events := v.events ++ (gone ++ r.toRemove).map (fun _ => .removed) }, none, a ++ [.kill (missing ++ r.notFound)]⟩
         else ⟨{ v with sess := r.sess }, none, a ++ [.failed]⟩) := by
  intro todo
  induction todo with
  | nil =>
    intro σ fail gone missing
    exact ⟨[.killEnd], by simp [runSteps, step, Server.killLoop]⟩
  | cons n ns ih =>
    intro σ fail gone missing
    cases hf : Server.find n v.table with
    | none =>
      obtain ⟨ls, hr⟩ := ih σ fail gone (missing ++ [n])
      refine ⟨.killNext true :: ls, ?_⟩
      simp only [runSteps, step, hf, Server.killLoop]
      rw [hr]
      simp
    | some x =>
      by_cases h0 : fail = some 0
      · subst h0
        exact ⟨[.killNext false], by simp [runSteps, step, hf, Server.killLoop]⟩
      · obtain ⟨ls, hr⟩ := ih (Server.upd σ x { σ x with alive := false }) (fail.map (· - 1)) (gone ++ [n]) missing
        refine ⟨.killNext true :: ls, ?_⟩
        have hk : Server.killLoop v.table σ (n :: ns) fail =
            { Server.killLoop v.table (Server.upd σ x { σ x with alive := false }) ns (fail.map (· - 1)) with
              toRemove := n :: (Server.killLoop v.table (Server.upd σ x { σ x with alive := false }) ns (fail.map (· - 1))).toRemove } := by
          rw [Server.killLoop, hf]
          dsimp only
          split
          · rename_i e; exact absurd rfl h0
          · rfl
        simp only [runSteps, step, hf, if_true, dead, Server.setSess]
        rw [hr, hk]
        simp

theorem detach_complete (v : Server.St) (a : List Answer) (asked : List Name) : ∀ (todo : List Name) (σ : Nat → Server.Sess)
    (missing unattached : List Name), ∃ ls,
      runSteps step ⟨{ v with sess := σ }, some (.detach asked todo missing unattached), a⟩ ls = some
        (let r := Server.detachLoop v.table v.now σ todo
         ⟨{ v with sess := r.sess }, none,
          a ++ [if r.ok then .detach (missing ++ r.notFound) (unattached ++ r.notAttached) else .failed]⟩) := by
  intro todo
  induction todo with
  | nil =>
    intro σ missing unattached
    exact ⟨[.detachEnd], by simp [runSteps, step, Server.detachLoop]⟩
  | cons n ns ih =>
    intro σ missing unattached
    cases hf : Server.find n v.table with
    | none =>
      obtain ⟨ls, hr⟩ := ih σ (missing ++ [n]) unattached
      refine ⟨.detachNext :: ls, ?_⟩
      simp only [runSteps, step, hf, Server.detachLoop]
      rw [hr]
      simp
    | some x =>
      cases h1 : (σ x).s2c with
      | false => exact ⟨[.detachNext], by simp [runSteps, step, hf, h1, Server.detachLoop]⟩
      | true =>
        cases h2 : (σ x).conn with
        | true =>
          obtain ⟨ls, hr⟩ := ih (Server.upd σ x { (σ x).recordDetached v.now with conn := false }) missing unattached
          refine ⟨.detachNext :: ls, ?_⟩
          simp only [runSteps, step, hf, h1, h2, Server.detachLoop, Server.setSess, if_true]
          exact hr
        | false =>
          obtain ⟨ls, hr⟩ := ih σ missing (unattached ++ [n])
          refine ⟨.detachNext :: ls, ?_⟩
          simp only [runSteps, step, hf, h1, h2, Server.detachLoop]
          simp only [Bool.false_eq_true, Bool.true_eq_false, if_false]
          rw [hr]
          simp

theorem single {v v' : Server.St} {l : Server.Label} {a : List Answer} (hw : whole l = false) (hs : Server.step v l = some v') :
    runSteps step ⟨v, none, a⟩ [.srv l] = some ⟨v', none, a⟩ := by
  simp [runSteps, step, hs, hw]

/-- **Completeness of single steps.**  Whatever the model of the session table can do can happen here, with the same replies to the same
requests: the requests are single steps if nothing happens in between. -/
theorem steps_complete {ls : List Server.Label} {v : Server.St} (h : Server.Run ls v) : ∃ ls' a, Run ls' ⟨v, none, a⟩ := by
  refine run_inv (I := fun v : Server.St => ∃ ls' a, Run ls' ⟨v, none, a⟩) (fun v l v' hi hs => ?_) ⟨[], [], rfl⟩ h
  obtain ⟨ls', a, hr⟩ := hi
  suffices h : ∃ ls a', runSteps step ⟨v, none, a⟩ ls = some ⟨v', none, a'⟩ by
    obtain ⟨ls, a', h⟩ := h
    exact ⟨ls' ++ ls, a', by rw [Run, run_append, show runSteps step init ls' = _ from hr]; exact h⟩
  cases l with
  | kill names fail =>
    simp only [Server.step] at hs
    split at hs
    · rename_i hl
      cases hs
      obtain ⟨ls, hk⟩ := kill_complete v a names names v.sess fail [] []
      refine ⟨.killBegin names :: ls, ?_⟩
      simp only [runSteps, step, hl, and_self, if_true]
      rw [hk]
      simp only [Server.kill]
      split <;> simp
    · cases hs
  | detach names =>
    simp only [Server.step] at hs
    split at hs
    · rename_i hl
      cases hs
      obtain ⟨ls, hk⟩ := detach_complete v a names names v.sess [] []
      have hb : runSteps step ⟨v, none, a⟩ (.detachBegin names :: ls) =
          runSteps step ⟨v, some (.detach names names [] []), a⟩ ls := by
        simp [runSteps, step, hl]
      exact ⟨.detachBegin names :: ls, _, hb.trans hk⟩
    · cases hs
  | reap n fails =>
    simp only [Server.step] at hs
    split at hs
    · rename_i hl
      split at hs
      · rename_i hf
        cases hs
        exact ⟨[.reapBegin n], a, by simp [runSteps, step, hl, hf]⟩
      · rename_i x hf
        cases hs
        refine ⟨[.reapBegin n, .reapKill (!fails), .reapEnd], a, ?_⟩
        simp only [runSteps, step, hl, hf, and_self, if_true]
        cases fails
        · simp [dead, Server.setSess]
        · have : Server.upd v.sess x { v.sess x with alive := (v.sess x).alive } = v.sess := by
            funext j
            simp only [Server.upd]
            split
            · rename_i e; subst e; rfl
            · rfl
          simp [Server.setSess, this]
    · cases hs
  | _ => exact ⟨[.srv _], a, single rfl hs⟩

/-! ## Kill -/

/-- A request to kill the sessions `names` begins in the state `s0`, the steps `ls` happen until it is done (its own and those of others), and
it is answered, with `missing`, which leads to the state `s`. -/
def Kills (s0 : St) (names : List Name) (ls : List Label) (missing : List Name) (s : St) : Prop :=
  (∃ ls0, Run ls0 s0) ∧ .killEnd ∉ ls ∧ runSteps step s0 (.killBegin names :: ls ++ [.killEnd]) = some s ∧
    s.answers = s0.answers ++ [.kill missing]

theorem answers_grow {s s' : St} {l : Label} (h : step s l = some s') : ∃ e, s'.answers = s.answers ++ e := by
  cases l <;> simp only [step] at h
  all_goals
    repeat' split at h
  all_goals cases h
  all_goals first
    | exact ⟨_, rfl⟩
    | exact ⟨[], by simp⟩

/-- While the request is at work, or it has failed. -/
def KillCourse (s0 : St) (names : List Name) (s : St) : Prop :=
  (∃ todo gone missing, s.sec = some (.kill names todo gone missing) ∧ s.srv.table = s0.srv.table ∧ s.srv.events = s0.srv.events ∧
    s.answers = s0.answers) ∨ ∃ e, s.answers = s0.answers ++ .failed :: e

theorem kill_course {s0 s : St} {names : List Name} {ls : List Label} (hg : Good s0) (hn : .killEnd ∉ ls)
    (h : runSteps step s0 (.killBegin names :: ls) = some s) : Good s ∧ KillCourse s0 names s := by
  induction ls using snoc_induction generalizing s with
  | nil =>
    obtain ⟨s1, h1, h2⟩ := run_cons_some h
    cases h2
    refine ⟨good_step hg h1, .inl ?_⟩
    simp only [step] at h1
    split at h1
    · cases h1; exact ⟨names, [], [], rfl, rfl, rfl, rfl⟩
    · cases h1
  | snoc ls l ih =>
    obtain ⟨s1, h1, h2⟩ := run_append_some (a := .killBegin names :: ls) h
    obtain ⟨s2, h3, h4⟩ := run_cons_some h2
    cases h4
    obtain ⟨hg1, hc⟩ := ih (fun hm => hn (by simp [hm])) h1
    refine ⟨good_step hg1 h3, ?_⟩
    rcases hc with ⟨todo, gone, missing, e1, e2, e3, e4⟩ | ⟨e, he⟩
    · have hl := hg1.lock (by rw [e1]; rfl)
      cases l with
      | killEnd => exact absurd (List.mem_append_right _ (List.mem_singleton.mpr rfl)) hn
      | killNext ok =>
        simp only [step, e1] at h3
        split at h3
        · rename_i heq
          cases heq
          split at h3
          · cases h3; exact .inl ⟨_, _, _, rfl, e2, e3, e4⟩
          · split at h3
            · cases h3; exact .inl ⟨_, _, _, rfl, e2, e3, e4⟩
            · cases h3; exact .inr ⟨[], by rw [e4]⟩
        · cases h3
      | srv l =>
        obtain ⟨hw, hn', hst, f1, f2⟩ := srv_step h3
        have hn'' := free hw (hn' (by rw [e1]; rfl))
        exact .inl ⟨todo, gone, missing, by rw [f1, e1], by rw [(Listing.kept_step hg1.inv hl hn'' hst).table, e2],
          by rw [(meanwhile hg1.inv hl hn'' hst).1, e3], by rw [f2, e4]⟩
      | _ => simp [step, e1] at h3
    · obtain ⟨e', he'⟩ := answers_grow h3
      exact .inr ⟨e ++ e', by rw [he', he]; simp⟩

theorem foldl_erase (ns : List Name) : ∀ tb : Table, ns.foldl (fun tb n => Server.erase n tb) tb =
    tb.filter (fun p => decide (p.1 ∉ ns)) := by
  induction ns with
  | nil => intro tb; exact (List.filter_eq_self.mpr (by simp)).symm
  | cons m ns ih =>
    intro tb
    rw [List.foldl_cons, ih, Server.erase, List.filter_filter]
    apply List.filter_congr
    intro p _
    by_cases e : p.1 = m <;> simp [e]

theorem find_isSome {tb : Table} {p : Name × Nat} (h : p ∈ tb) : (Server.find p.1 tb).isSome = true := by
  simp only [Server.find, Option.isSome_map]
  rw [List.find?_isSome]
  exact ⟨p, h, by simp⟩

/-- **C45** (kill, taken apart).  Whatever others do while a request to kill is at work: its answer names exactly the requested names without a
session when it began; when it is answered the table is what it was without the requested names, the shells of the requested
sessions are dead, and one event was published for each of them and none else. -/
theorem C45_kill_apart {s0 s : St} {names missing : List Name} {ls : List Label} (h : Kills s0 names ls missing s) :
    missing = names.filter (fun n => (Server.find n s0.srv.table).isNone) ∧
    s.srv.table = s0.srv.table.filter (fun p => decide (p.1 ∉ names)) ∧
    (∀ n ∈ names, ∀ x, Server.find n s0.srv.table = some x → (s.srv.sess x).alive = false) ∧
    s.srv.events = s0.srv.events ++ (names.filter fun n => (Server.find n s0.srv.table).isSome).map fun _ => .removed := by
  obtain ⟨⟨ls0, h0⟩, hn, hr, ha⟩ := h
  obtain ⟨s1, h1, h2⟩ := run_append_some hr
  obtain ⟨s2, h3, h4⟩ := run_cons_some h2
  cases h4
  obtain ⟨hg, hc⟩ := kill_course (good_run h0) hn h1
  simp only [step] at h3
  split at h3
  · rename_i asked gone miss hs
    cases h3
    rcases hc with ⟨todo, gone', missing', e1, e2, e3, e4⟩ | ⟨e, he⟩
    · rw [e1] at hs
      cases hs
      obtain ⟨done, d1, d2, d3, d4⟩ := hg.kill _ _ _ _ e1
      rw [List.append_nil] at d1
      subst d1
      simp only [e4, List.append_cancel_left_eq, List.cons.injEq, Answer.kill.injEq, and_true] at ha
      rw [e2] at d2 d3 d4
      subst ha
      refine ⟨?_, ?_, fun n hn x hx => d4 n hn x hx, ?_⟩
      · rw [d3]
        apply List.filter_congr
        intro n _
        cases hf : Server.find n s0.srv.table <;> simp [found, hf]
      · show List.foldl _ s1.srv.table gone = _
        rw [e2, foldl_erase, d2]
        apply List.filter_congr
        intro p hp
        have := find_isSome hp
        simp [found, this]
      · show s1.srv.events ++ _ = _
        rw [e3, d2]
        rfl
    · simp only [he, List.append_assoc, List.append_cancel_left_eq] at ha
      simp at ha
  · cases h3

/-! ## Detach -/

/-- As `Kills`, for a request to detach; the answer is `missing` and `unattached`. -/
def Detaches (s0 : St) (names : List Name) (ls : List Label) (missing unattached : List Name) (s : St) : Prop :=
  (∃ ls0, Run ls0 s0) ∧ .detachEnd ∉ ls ∧ runSteps step s0 (.detachBegin names :: ls ++ [.detachEnd]) = some s ∧
    s.answers = s0.answers ++ [.detach missing unattached]

/-- The daemon is in the state `v` at some moment of the request. -/
def Moment (s0 : St) (names : List Name) (ls : List Label) (v : Server.St) : Prop :=
  ∃ pre suf σ, ls = pre ++ suf ∧ runSteps step s0 (.detachBegin names :: pre) = some σ ∧ σ.srv = v

theorem Moment.more {s0 : St} {names : List Name} {ls : List Label} {v : Server.St} (h : Moment s0 names ls v) (l : Label) :
    Moment s0 names (ls ++ [l]) v := by
  obtain ⟨pre, suf, σ, e, h1, h2⟩ := h
  exact ⟨pre, suf ++ [l], σ, by rw [e]; simp, h1, h2⟩

structure DetachCourse (s0 : St) (names : List Name) (ls : List Label) (s : St) (done todo missing unattached : List Name) : Prop where
  sec : s.sec = some (.detach names todo missing unattached)
  asked : names = done ++ todo
  kept : s.srv.table = s0.srv.table ∧ s.srv.events = s0.srv.events ∧ s.answers = s0.answers
  missing : missing = done.filter fun n => (Server.find n s0.srv.table).isNone
  told : ∀ n ∈ unattached, n ∈ done ∧ ∃ x v, Server.find n s0.srv.table = some x ∧ Moment s0 names ls v ∧ (v.sess x).conn = false
  rest : ∀ n ∈ done, n ∉ unattached → ∀ x, Server.find n s0.srv.table = some x →
    (∃ v, Moment s0 names ls v ∧ (v.sess x).conn = true) ∧ (s.srv.sess x).conn = false ∧
      ∃ t m b, s.srv.thr t = .streaming m x ∨ s.srv.thr t = .ending m x b

theorem detach_course {s0 s : St} {names : List Name} {ls : List Label} (h0 : ∃ ls0, Run ls0 s0) (hn : .detachEnd ∉ ls)
    (h : runSteps step s0 (.detachBegin names :: ls) = some s) :
    (∃ done todo missing unattached, DetachCourse s0 names ls s done todo missing unattached) ∨
      ∃ e, s.answers = s0.answers ++ .failed :: e := by
  induction ls using snoc_induction generalizing s with
  | nil =>
    obtain ⟨s1, h1, h2⟩ := run_cons_some h
    cases h2
    simp only [step] at h1
    split at h1
    · cases h1
      exact .inl ⟨[], names, [], [], rfl, rfl, ⟨rfl, rfl, rfl⟩, rfl, by simp, by simp⟩
    · cases h1
  | snoc ls l ih =>
    obtain ⟨s1, h1, h2⟩ := run_append_some (a := .detachBegin names :: ls) h
    obtain ⟨s2, h3, h4⟩ := run_cons_some h2
    cases h4
    obtain ⟨ls0, hr0⟩ := h0
    have hrun : Run (ls0 ++ .detachBegin names :: ls) s1 := by rw [Run, run_append, hr0]; exact h1
    have hg1 := good_run hrun
    have hcn : Server.Conn s1.srv := transfer (fun _ _ h => Server.conn_of_run h) hrun
    have hmom : Moment s0 names (ls ++ [l]) s1.srv := ⟨ls, [l], s1, rfl, h1, rfl⟩
    rcases ih (fun hm => hn (by simp [hm])) h1 with ⟨done, todo, missing, unattached, hc⟩ | ⟨e, he⟩
    · have e1 := hc.sec
      obtain ⟨e2, e3, e4⟩ := hc.kept
      have hl := hg1.lock (by rw [e1]; rfl)
      cases l with
      | detachEnd => exact absurd (List.mem_append_right _ (List.mem_singleton.mpr rfl)) hn
      | detachNext =>
        simp only [step, e1] at h3
        split at h3
        · rename_i asked n ns miss unatt heq
          cases heq
          split at h3
          · rename_i hf
            cases h3
            refine .inl ⟨done ++ [n], ns, _, _, rfl, by rw [hc.asked]; simp, ⟨e2, e3, e4⟩, ?_, ?_, ?_⟩
            · rw [e2] at hf
              simp [hc.missing, hf]
            · intro m hm
              obtain ⟨k1, x, v, k2, k3, k4⟩ := hc.told m hm
              exact ⟨by simp [k1], x, v, k2, k3.more _, k4⟩
            · intro m hm hu x hx
              rcases List.mem_append.mp hm with hm | hm
              · obtain ⟨⟨v, k1, k2⟩, k3, k4⟩ := hc.rest m hm hu x hx
                exact ⟨⟨v, k1.more _, k2⟩, k3, k4⟩
              · rw [List.mem_singleton] at hm
                subst hm
                rw [e2, hx] at hf; cases hf
          · rename_i x hf
            split at h3
            · cases h3; exact .inr ⟨[], by rw [e4]⟩
            · split at h3
              · rename_i hs2c hconn
                cases h3
                refine .inl ⟨done ++ [n], ns, _, _, rfl, by rw [hc.asked]; simp, ⟨e2, e3, e4⟩, ?_, ?_, ?_⟩
                · rw [e2] at hf
                  simp [hc.missing, hf]
                · intro m hm
                  obtain ⟨k1, x, v, k2, k3, k4⟩ := hc.told m hm
                  exact ⟨by simp [k1], x, v, k2, k3.more _, k4⟩
                · intro m hm hu y hy
                  by_cases hxy : y = x
                  · subst hxy
                    obtain ⟨t, m', ht⟩ := hcn y hconn
                    exact ⟨⟨_, hmom, hconn⟩, by simp [Server.setSess, Server.upd], t, m', false, .inl ht⟩
                  · rcases List.mem_append.mp hm with hm | hm
                    · obtain ⟨⟨v, k1, k2⟩, k3, k4⟩ := hc.rest m hm hu y hy
                      exact ⟨⟨v, k1.more _, k2⟩, by simp [Server.setSess, Server.upd, hxy, k3], k4⟩
                    · rw [List.mem_singleton] at hm
                      subst hm
                      rw [e2, hy] at hf; cases hf; exact absurd rfl hxy
              · rename_i hs2c hconn
                cases h3
                refine .inl ⟨done ++ [n], ns, _, _, rfl, by rw [hc.asked]; simp, ⟨e2, e3, e4⟩, ?_, ?_, ?_⟩
                · rw [e2] at hf
                  simp [hc.missing, hf]
                · intro m hm
                  rcases List.mem_append.mp hm with hm | hm
                  · obtain ⟨k1, x, v, k2, k3, k4⟩ := hc.told m hm
                    exact ⟨by simp [k1], x, v, k2, k3.more _, k4⟩
                  · rw [List.mem_singleton] at hm
                    subst hm
                    exact ⟨by simp, x, _, by rw [← e2]; exact hf, hmom, by simpa using hconn⟩
                · intro m hm hu y hy
                  have hu1 : m ∉ unattached := fun hh => hu (by simp [hh])
                  rcases List.mem_append.mp hm with hm | hm
                  · obtain ⟨⟨v, k1, k2⟩, k3, k4⟩ := hc.rest m hm hu1 y hy
                    exact ⟨⟨v, k1.more _, k2⟩, k3, k4⟩
                  · exact absurd (List.mem_append_right _ hm) hu
        · cases h3
      | srv l =>
        obtain ⟨hw, hn', hst, f1, f2⟩ := srv_step h3
        have hn'' := free hw (hn' (by rw [e1]; rfl))
        have hk := Listing.kept_step hg1.inv hl hn'' hst
        have hm := meanwhile hg1.inv hl hn'' hst
        refine .inl ⟨done, todo, missing, unattached, by rw [f1, e1], hc.asked, ⟨by rw [hk.table, e2], by rw [hm.1, e3], by rw [f2, e4]⟩,
          hc.missing, ?_, ?_⟩
        · intro m hm
          obtain ⟨k1, x, v, k2, k3, k4⟩ := hc.told m hm
          exact ⟨k1, x, v, k2, k3.more _, k4⟩
        · intro m hm' hu y hy
          obtain ⟨⟨v, k1, k2⟩, k3, k4⟩ := hc.rest m hm' hu y hy
          have hlt := (hg1.inv.tbl m y (by rw [e2]; exact hy)).1
          obtain ⟨j1, j2⟩ := hm.2.2 y hlt k4
          exact ⟨⟨v, k1.more _, k2⟩, j2 k3, j1⟩
      | _ => simp [step, e1] at h3
    · obtain ⟨e', he'⟩ := answers_grow h3
      exact .inr ⟨e ++ e', by rw [he', he]; simp⟩

/-- **C45** (detach, taken apart).  Whatever others do while a request to detach is at work: its answer names exactly the requested names without a
session; a session it calls not attached had no client at some moment of the request; every other session asked for had
a client at some moment of it and has none when the answer is given; no session comes or goes, no event is published. -/
theorem C45_detach_apart {s0 s : St} {names missing unattached : List Name} {ls : List Label}
    (h : Detaches s0 names ls missing unattached s) :
    missing = names.filter (fun n => (Server.find n s0.srv.table).isNone) ∧
    (∀ n ∈ unattached, n ∈ names ∧ ∃ x v, Server.find n s0.srv.table = some x ∧ Moment s0 names ls v ∧ (v.sess x).conn = false) ∧
    (∀ n ∈ names, n ∉ unattached → ∀ x, Server.find n s0.srv.table = some x →
      (∃ v, Moment s0 names ls v ∧ (v.sess x).conn = true) ∧ (s.srv.sess x).conn = false) ∧
    s.srv.table = s0.srv.table ∧ s.srv.events = s0.srv.events := by
  obtain ⟨h0, hn, hr, ha⟩ := h
  obtain ⟨s1, h1, h2⟩ := run_append_some hr
  obtain ⟨s2, h3, h4⟩ := run_cons_some h2
  cases h4
  have hc := detach_course h0 hn h1
  simp only [step] at h3
  split at h3
  · rename_i asked miss unatt hs
    cases h3
    rcases hc with ⟨done, todo, missing', unattached', hc⟩ | ⟨e, he⟩
    · have e1 := hc.sec
      rw [e1] at hs
      cases hs
      obtain ⟨e2, e3, e4⟩ := hc.kept
      have d1 := hc.asked
      rw [List.append_nil] at d1
      subst d1
      simp only [e4, List.append_cancel_left_eq, List.cons.injEq, Answer.detach.injEq, and_true] at ha
      obtain ⟨ha1, ha2⟩ := ha
      subst ha1 ha2
      exact ⟨hc.missing, hc.told, fun n hn hu x hx => ⟨(hc.rest n hn hu x hx).1, (hc.rest n hn hu x hx).2.1⟩, e2, e3⟩
    · simp only [he, List.append_assoc, List.append_cancel_left_eq] at ha
      simp at ha
  · cases h3

/-- That the answer of a detach request is what was the case at one moment of it: exactly the sessions called not attached had
no client then. -/
def C45_moment_statement : Prop := ∀ s0 names ls missing unattached s, names.Nodup → Detaches s0 names ls missing unattached s →
  ∃ v, Moment s0 names ls v ∧ ∀ n ∈ names, ∀ x, Server.find n s0.srv.table = some x → (n ∈ unattached ↔ (v.sess x).conn = false)

def nameA : Name := ['a']
def nameB : Name := ['b']

/-- Two clients have their sessions and do not stream yet. -/
def twoCome : List Label := List.map .srv
  [.select 0 nameA false, .spawn 0, .insert 0, .lookup 0, .select 1 nameB false, .spawn 1, .insert 1, .lookup 1]

/-- The request looks at one of them, both begin to stream, the first one first, and the request looks at the other one. -/
def between : List Label := [.detachNext, .srv (.start 0), .srv (.start 1), .detachNext]

/-- **C45 fails** (one moment): the answer says that `a` had no client and `b` had one; but `b` never had one while `a` had none. -/
theorem C45_false_moment : ¬ C45_moment_statement := by
  intro h
  obtain ⟨v, ⟨pre, suf, σ, e, hr, hv⟩, hl⟩ := h _ [nameA, nameB] between [] [nameA] _ (by decide) ⟨⟨twoCome, rfl⟩, by decide, rfl, rfl⟩
  have h1 := hl nameA (by decide) 0 rfl
  have h2 := hl nameB (by decide) 1 rfl
  have hk : pre = between.take pre.length := by rw [e]; simp
  have hle : pre.length ≤ 4 := by
    have := congrArg List.length e
    simp [between] at this
    omega
  subst hv
  revert hr
  rw [hk]
  generalize pre.length = k at hle
  intro hr
  have : k = 0 ∨ k = 1 ∨ k = 2 ∨ k = 3 ∨ k = 4 := by omega
  rcases this with e | e | e | e | e <;> subst e <;> (cases hr; revert h1 h2; decide)

/-- A kill request at work on two sessions and a name without one: a client is told that its shell is gone, and another one leaves. -/
def killing : List Label :=
  [.killNext true, .srv (.childDone 0), .killNext true, .srv (.tick 3), .killNext true, .srv (.clientGone 1)]
def streaming : List Label := twoCome ++ [.srv (.start 0), .srv (.start 1)]

example : ∃ s0 s, Kills s0 [nameA, ['c'], nameB] killing [['c']] s ∧ s0.srv.table.length = 2 ∧ s.srv.table = [] :=
  ⟨_, _, ⟨⟨streaming, rfl⟩, by decide, rfl, rfl⟩, rfl, rfl⟩

example : ∃ s0 s, Detaches s0 [nameA, ['c'], nameB] [.detachNext, .srv (.start 0), .detachNext, .srv (.start 1), .detachNext]
    [['c']] [nameA] s := ⟨_, _, ⟨⟨twoCome, rfl⟩, by decide, rfl, rfl⟩⟩

end Shpool.Sections
