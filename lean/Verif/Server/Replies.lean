import Verif.Server.Exact
/-! # Exactly when kill and detach requests are answered, and what with (C45); exactly what takes a session from the table (C47) -/

namespace Shpool.Server

/-! ## C45: kill -/

private theorem killLoop_ok_iff (tb : Table) (names : List Name) : ∀ (σ : Nat → Sess) (fail : Option Nat),
    (killLoop tb σ names fail).ok = true ↔ ∀ k, fail = some k → (names.filter fun n => (find n tb).isSome).length ≤ k := by
  induction names with
  | nil => intro σ fail; simp [killLoop]
  | cons n ns ih =>
    intro σ fail
    unfold killLoop
    cases hf : find n tb with
    | none =>
      dsimp only
      rw [ih, List.filter_cons, if_neg (by simp [hf])]
    | some x =>
      dsimp only
      rw [List.filter_cons, if_pos (by simp [hf])]
      cases fail with
      | none => simp only [Option.map_none, reduceCtorEq, false_implies, implies_true, iff_true]; exact killLoop_ok_of_none tb ns _
      | some k =>
        cases k with
        | zero => simp
        | succ k => simp only [Option.map_some]; rw [ih]; simp

/-- **C45** (exactly when, kill): a request to kill is answered exactly if no kill fails among those of the sessions it names; the answer
is then exactly the names without a session. -/
theorem C45_kill_exact (s : St) (names : List Name) (fail : Option Nat) :
    (kill s names fail).2 =
      if ∃ k, fail = some k ∧ k < (names.filter fun n => (find n s.table).isSome).length then none
      else some (names.filter fun n => (find n s.table).isNone) := by
  have h1 := killLoop_ok_iff s.table names s.sess fail
  by_cases hk : ∃ k, fail = some k ∧ k < (names.filter fun n => (find n s.table).isSome).length
  · rw [if_pos hk]
    obtain ⟨k, e, hlt⟩ := hk
    have : (killLoop s.table s.sess names fail).ok = false := by
      rw [← Bool.not_eq_true, h1]
      intro h
      have := h k e
      omega
    unfold kill
    dsimp only
    rw [this]
    rfl
  · rw [if_neg hk]
    have hok : (killLoop s.table s.sess names fail).ok = true := by
      rw [h1]
      intro k e
      exact Nat.le_of_not_lt fun h => hk ⟨k, e, h⟩
    obtain ⟨-, h3, -⟩ := killLoop_ok s.table names s.sess fail hok
    unfold kill
    dsimp only
    rw [if_pos hok, h3]

private theorem killLoop_dead (tb : Table) (names : List Name) : ∀ (σ : Nat → Sess) (fail : Option Nat) (x : Nat),
    ((killLoop tb σ names fail).sess x).alive =
      ((σ x).alive && !((names.filter fun n => (find n tb).isSome).take (fail.getD names.length)).any (fun n => decide (find n tb = some x))) := by
  induction names with
  | nil => intro σ fail x; simp [killLoop]
  | cons n ns ih =>
    intro σ fail x
    unfold killLoop
    cases hf : find n tb with
    | none =>
      dsimp only
      rw [ih, List.filter_cons, if_neg (by simp [hf])]
      cases fail with
      | some k => rfl
      | none =>
        simp only [Option.getD_none]
        rw [List.take_of_length_le (List.length_filter_le _ _),
          List.take_of_length_le (Nat.le_trans (List.length_filter_le _ _) (by simp))]
    | some y =>
      dsimp only
      rw [List.filter_cons, if_pos (by simp [hf])]
      have key : ∀ (m : Nat), ((upd σ y { σ y with alive := false } x).alive &&
            !((ns.filter fun n => (find n tb).isSome).take m).any (fun n => decide (find n tb = some x))) =
          ((σ x).alive && !((n :: ns.filter fun n => (find n tb).isSome).take (m + 1)).any (fun n => decide (find n tb = some x))) := by
        intro m
        rw [List.take_succ_cons, List.any_cons, hf]
        by_cases e : x = y
        · subst e; simp
        · have : ¬ y = x := fun h => e h.symm
          simp [upd_ne _ _ e, this]
      cases fail with
      | none =>
        simp only [Option.map_none]
        rw [ih]
        exact key _
      | some k =>
        cases k with
        | zero => simp
        | succ k =>
          simp only [Option.map_some]
          rw [ih]
          exact key k

/-- **C45** (exactly what, kill): a request that gets no answer leaves the list of sessions as it was and publishes nothing; exactly
the shells of the sessions named before the one that could not be killed are dead. -/
theorem C45_kill_unanswered (s : St) (names : List Name) (fail : Option Nat) (h : (kill s names fail).2 = none) :
    (kill s names fail).1.table = s.table ∧ (kill s names fail).1.events = s.events ∧
    ∃ k, fail = some k ∧ ∀ x, ((kill s names fail).1.sess x).alive = true ↔ (s.sess x).alive = true ∧
      ∀ n ∈ (names.filter fun n => (find n s.table).isSome).take k, find n s.table ≠ some x := by
  rw [C45_kill_exact] at h
  split at h
  · rename_i hk
    obtain ⟨k, e, hlt⟩ := hk
    have hok : (killLoop s.table s.sess names fail).ok = false := by
      rw [← Bool.not_eq_true, killLoop_ok_iff]
      intro h
      have := h k e
      omega
    have hkill : kill s names fail = ({ s with sess := (killLoop s.table s.sess names fail).sess }, none) := by
      unfold kill; dsimp only; rw [hok]; rfl
    rw [hkill]
    refine ⟨rfl, rfl, k, e, ?_⟩
    intro x
    dsimp only
    rw [killLoop_dead, e]
    simp
  · cases h

example : ∃ s, Run [.select 0 a false, .spawn 0, .insert 0, .select 1 b false, .spawn 1, .insert 1] s ∧
    (kill s [a, "c".toList, b] (some 1)).2 = none ∧ ((kill s [a, "c".toList, b] (some 1)).1.sess 0).alive = false ∧
    ((kill s [a, "c".toList, b] (some 1)).1.sess 1).alive = true ∧ (kill s [a, "c".toList, b] (some 2)).2 = some ["c".toList] :=
  ⟨_, rfl, by decide, by decide, by decide, by decide⟩

/-! ## C45: detach -/

/-- The requested names with a session whose client is not there (any more) when it is their turn: it had none, or the name was given before. -/
def withoutClient (s : St) : List Name → List Name → List Name
  | _, [] => []
  | before, n :: ns =>
    if ∃ x, find n s.table = some x ∧ ((s.sess x).conn = false ∨ n ∈ before) then n :: withoutClient s (n :: before) ns
    else withoutClient s (n :: before) ns

private theorem detachLoop_exact {s : St} (hi : Inv s) (names : List Name) : ∀ (σ : Nat → Sess) (before : List Name),
    (∀ x, (σ x).s2c = (s.sess x).s2c) →
    (∀ n x, find n s.table = some x → (s.sess x).s2c = true → ((σ x).conn = true ↔ (s.sess x).conn = true ∧ n ∉ before)) →
    let r := detachLoop s.table s.now σ names
    (r.ok = true ↔ ∀ n ∈ names, ∀ x, find n s.table = some x → (s.sess x).s2c = true) ∧
    (r.ok = true → r.notFound = names.filter (fun n => (find n s.table).isNone) ∧ r.notAttached = withoutClient s before names) := by
  induction names with
  | nil => intro σ before _ _; simp [detachLoop, withoutClient]
  | cons n ns ih =>
    intro σ before hs hc
    unfold detachLoop
    cases hf : find n s.table with
    | none =>
      dsimp only
      obtain ⟨h1, h2⟩ := ih σ (n :: before) hs (by
        intro m x hm h'
        rw [hc m x hm h']
        have : m ≠ n := by rintro rfl; rw [hf] at hm; cases hm
        simp [this])
      refine ⟨?_, ?_⟩
      · rw [h1]
        constructor
        · intro h m hm x hx
          rcases List.mem_cons.mp hm with rfl | hm
          · rw [hf] at hx; cases hx
          · exact h m hm x hx
        · intro h m hm; exact h m (List.mem_cons_of_mem _ hm)
      · intro hok
        obtain ⟨e1, e2⟩ := h2 hok
        refine ⟨by rw [e1, List.filter_cons, if_pos (by simp [hf])], ?_⟩
        rw [e2]
        conv => rhs; unfold withoutClient
        rw [if_neg (by simp [hf])]
    | some x =>
      dsimp only
      by_cases h0 : (s.sess x).s2c = true
      · rw [if_neg (by rw [hs, h0]; simp)]
        have hcx := hc n x hf h0
        by_cases hconn : (σ x).conn = true
        · rw [if_pos hconn]
          obtain ⟨h1, h2⟩ := ih (upd σ x { (σ x).recordDetached s.now with conn := false }) (n :: before) (by
              intro y
              by_cases e : y = x
              · subst e; simp [Sess.recordDetached, hs]
              · rw [upd_ne _ _ e, hs]) (by
              intro m y hm h'
              by_cases e : y = x
              · subst e
                have : m = n := by rw [← (hi.tbl m y hm).2, (hi.tbl n y hf).2]
                subst this
                simp
              · rw [upd_ne _ _ e, hc m y hm h']
                have : m ≠ n := by rintro rfl; rw [hf] at hm; cases hm; exact e rfl
                simp [this])
          refine ⟨?_, ?_⟩
          · rw [h1]
            constructor
            · intro h m hm y hy
              rcases List.mem_cons.mp hm with rfl | hm
              · rw [hf] at hy; cases hy; exact h0
              · exact h m hm y hy
            · intro h m hm; exact h m (List.mem_cons_of_mem _ hm)
          · intro hok
            obtain ⟨e1, e2⟩ := h2 hok
            refine ⟨by rw [e1, List.filter_cons, if_neg (by simp [hf])], ?_⟩
            rw [e2]
            conv => rhs; unfold withoutClient
            rw [if_neg]
            rintro ⟨y, hy, hor⟩
            rw [hf] at hy; cases hy
            obtain ⟨c1, c2⟩ := hcx.mp hconn
            rcases hor with h | h
            · rw [c1] at h; cases h
            · exact c2 h
        · rw [if_neg hconn]
          dsimp only
          obtain ⟨h1, h2⟩ := ih σ (n :: before) hs (by
            intro m y hm h'
            rw [hc m y hm h']
            by_cases e : m = n
            · subst e
              rw [hf] at hm; cases hm
              simp only [List.mem_cons, true_or, not_true_eq_false, and_false, iff_false]
              exact fun h => hconn (hcx.mpr h)
            · simp [e])
          refine ⟨?_, ?_⟩
          · rw [h1]
            constructor
            · intro h m hm y hy
              rcases List.mem_cons.mp hm with rfl | hm
              · rw [hf] at hy; cases hy; exact h0
              · exact h m hm y hy
            · intro h m hm; exact h m (List.mem_cons_of_mem _ hm)
          · intro hok
            obtain ⟨e1, e2⟩ := h2 hok
            refine ⟨by rw [e1, List.filter_cons, if_neg (by simp [hf])], ?_⟩
            rw [e2]
            conv => rhs; unfold withoutClient
            rw [if_pos]
            refine ⟨x, hf, ?_⟩
            by_cases hb : n ∈ before
            · exact .inr hb
            · left
              cases hcc : (s.sess x).conn with
              | false => rfl
              | true => exact absurd (hcx.mpr ⟨hcc, hb⟩) hconn
      · rw [if_pos (by rw [hs]; simpa using h0)]
        refine ⟨?_, by intro h; cases h⟩
        constructor
        · intro h; cases h
        · intro h; exact absurd (h n (by simp) x hf) h0

/-- **C45** (exactly when, detach): a request to detach is answered exactly if the thread to the client runs in every session it names; the
answer is then exactly the names without a session and those whose client was not there when it was their turn, names given twice included. -/
theorem C45_detach_exact {ls : List Label} {s : St} (h : Run ls s) (names : List Name) :
    (detach s names).2 =
      if ∃ n ∈ names, ∃ x, find n s.table = some x ∧ (s.sess x).s2c = false then none
      else some (names.filter (fun n => (find n s.table).isNone), withoutClient s [] names) := by
  obtain ⟨h1, h2⟩ := detachLoop_exact (inv_of_run h) names s.sess [] (fun _ => rfl) (by simp)
  by_cases hk : ∃ n ∈ names, ∃ x, find n s.table = some x ∧ (s.sess x).s2c = false
  · rw [if_pos hk]
    obtain ⟨n, hn, x, hx, hc⟩ := hk
    have : (detachLoop s.table s.now s.sess names).ok ≠ true := by
      intro hok
      have := h1.mp hok n hn x hx
      rw [hc] at this; cases this
    unfold detach
    dsimp only
    rw [if_neg this]
  · rw [if_neg hk]
    have hok : (detachLoop s.table s.now s.sess names).ok = true := by
      rw [h1]
      intro n hn x hx
      cases hc : (s.sess x).s2c with
      | true => rfl
      | false => exact absurd ⟨n, hn, x, hx, hc⟩ hk
    obtain ⟨e1, e2⟩ := h2 hok
    unfold detach
    dsimp only
    rw [if_pos hok, e1, e2]

example : ∃ s, Run [.select 0 a false, .spawn 0, .insert 0, .lookup 0, .start 0] s ∧
    withoutClient s [] [a, b, a] = [a] ∧ (detach s [a, b, a]).2 = some ([b], [a]) ∧ (detach s [b, a]).2 = some ([b], []) :=
  ⟨_, rfl, by decide, by decide, by decide⟩

/-! ## C47 -/

/-- **C47** (exactly what): a session leaves the table exactly in these four ways: a request to kill it that is answered, the end of its
time, a request that puts another session of its name in its place, and the end of a request that served a session of its name whose
shell has exited. -/
theorem C47_exact {ls : List Label} {s s' : St} {l : Label} (h : Run ls s) (hs : step s l = some s') {n : Name} {x : Nat}
    (hf : find n s.table = some x) :
    find n s'.table ≠ some x ↔
      (∃ names fail, l = .kill names fail ∧ n ∈ names ∧
        ∀ k, fail = some k → (names.filter fun n => (find n s.table).isSome).length ≤ k) ∨
      (∃ fails, l = .reap n fails) ∨
      (∃ t y, l = .insert t ∧ s.thr t = .spawned n y) ∨
      (∃ t y, l = .unlink t ∧ s.thr t = .ending n y true) := by
  have hi := inv_of_run h
  have he := step_eff hs
  clear hs
  cases he
  case insert t m y ht hl =>
    dsimp only
    rw [find_insert]
    constructor
    · intro hne
      by_cases e : n = m
      · subst e; exact .inr (.inr (.inl ⟨t, y, rfl, ht⟩))
      · rw [if_neg e] at hne; exact absurd hf hne
    · rintro (⟨_, _, e, _⟩ | ⟨_, e⟩ | ⟨t', y', e, ht'⟩ | ⟨_, _, e, _⟩)
      · cases e
      · cases e
      · cases e
        rw [ht] at ht'
        cases ht'
        rw [if_pos rfl]
        intro e
        cases e
        exact (hi.spawned t n x ht).2.2.2.2 n hf
      · cases e
  case unlinkDone t m y ht hl =>
    dsimp only
    rw [find_erase]
    constructor
    · intro hne
      by_cases e : n = m
      · subst e; exact .inr (.inr (.inr ⟨t, y, rfl, ht⟩))
      · rw [if_neg e] at hne; exact absurd hf hne
    · rintro (⟨_, _, e, _⟩ | ⟨_, e⟩ | ⟨_, _, e, _⟩ | ⟨t', y', e, ht'⟩)
      · cases e
      · cases e
      · cases e
      · cases e
        rw [ht] at ht'
        cases ht'
        rw [if_pos rfl]
        simp
  case reap m fails y hl hm =>
    dsimp only [setSess]
    rw [find_erase]
    constructor
    · intro hne
      by_cases e : n = m
      · subst e; exact .inr (.inl ⟨fails, rfl⟩)
      · rw [if_neg e] at hne; exact absurd hf hne
    · rintro (⟨_, _, e, _⟩ | ⟨_, e⟩ | ⟨_, _, e, _⟩ | ⟨_, _, e, _⟩)
      · cases e
      · cases e
        rw [if_pos rfl]
        simp
      · cases e
      · cases e
  case reapNone m fails hl hm =>
    constructor
    · intro hne; exact absurd hf hne
    · rintro (⟨_, _, e, _⟩ | ⟨_, e⟩ | ⟨_, _, e, _⟩ | ⟨_, _, e, _⟩)
      · cases e
      · cases e
        rw [hf] at hm; cases hm
      · cases e
      · cases e
  case kill names fail hl =>
    constructor
    · intro hne
      left
      refine ⟨names, fail, rfl, ?_, ?_⟩
      · rcases kill_find s names fail n with e | ⟨-, e⟩
        · rw [e] at hne; exact absurd hf hne
        · exact e
      · intro k hk
        refine Nat.le_of_not_lt fun hlt => hne ?_
        have hu := C45_kill_exact s names fail
        rw [if_pos ⟨k, hk, hlt⟩] at hu
        rw [(C45_kill_unanswered s names fail hu).1]
        exact hf
    · rintro (⟨_, _, e, hn, hk⟩ | ⟨_, e⟩ | ⟨_, _, e, _⟩ | ⟨_, _, e, _⟩)
      · cases e
        have hok := (killLoop_ok_iff s.table names s.sess fail).mpr hk
        obtain ⟨h1, -⟩ := killLoop_ok s.table names s.sess fail hok
        have : (kill s names fail).1.table = eraseAll (names.filter fun n => (find n s.table).isSome) s.table := by
          unfold kill
          dsimp only
          rw [if_pos hok, h1]
        rw [this, find_eraseAll, if_pos (by simp [hn, hf])]
        simp
      · cases e
      · cases e
      · cases e
  case unlinkGone t m y z ht hl hm =>
    constructor
    · intro hne; exact absurd hf hne
    · rintro (⟨_, _, e, _⟩ | ⟨_, e⟩ | ⟨_, _, e, _⟩ | ⟨t', y', e, ht'⟩)
      · cases e
      · cases e
      · cases e
      · cases e
        rw [ht] at ht'; cases ht'
  case unlinkNone t m y ht hl hm =>
    constructor
    · intro hne; exact absurd hf hne
    · rintro (⟨_, _, e, _⟩ | ⟨_, e⟩ | ⟨_, _, e, _⟩ | ⟨t', y', e, ht'⟩)
      · cases e
      · cases e
      · cases e
      · cases e
        rw [ht] at ht'; cases ht'
  all_goals
    constructor
    · intro hne; exact absurd hf hne
    · rintro (⟨_, _, e, _⟩ | ⟨_, e⟩ | ⟨_, _, e, _⟩ | ⟨_, _, e, _⟩) <;> cases e

example : ∃ s s', Run (race.take 5) s ∧ step s (.insert 1) = some s' ∧ find a s.table = some 0 ∧ find a s'.table ≠ some 0 :=
  ⟨_, _, rfl, rfl, by decide, by decide⟩

end Shpool.Server
