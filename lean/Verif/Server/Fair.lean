import Verif.Server.Props
import Verif.Util.Fair

/-! # In every fair execution an attach request ends after its client has gone or its shell has exited -/

namespace Shpool.Server

/-- A step of the thread serving attach request `t` that it makes on its own. -/
def own (t : Nat) : Label → Bool
  | .spawn u | .spawnFails u | .insert u | .lookup u | .acquire u | .start u | .abort u | .unlink u | .release u => u == t
  | _ => false

/-- The streaming of request `t` ends. -/
def leaves (t : Nat) : Label → Bool
  | .clientGone u | .childDone u => u == t
  | _ => false

/-- How far a request is from its end. -/
def Phase.left : Phase → Nat
  | .making _ => 8
  | .spawned _ _ => 7
  | .inserted _ _ => 6
  | .blocked _ _ => 5
  | .owns _ _ => 4
  | .streaming _ _ => 3
  | .ending _ _ _ => 2
  | .leaving _ => 1
  | .idle | .done _ => 0

/-- A request under way is moved on by its own steps and by the end of its streaming, and by nothing else. -/
theorem thr_step {s s' : St} {l : Label} {t : Nat} (hb : (s.thr t).busyWith = true) (hs : step s l = some s') :
    (own t l = true ∨ leaves t l = true → (s'.thr t).left < (s.thr t).left ∧ s'.thr t ≠ .idle) ∧
    (own t l = false → leaves t l = false → s'.thr t = s.thr t) := by
  have he := step_eff hs
  clear hs
  cases he
  case kill => exact ⟨by simp [own, leaves], fun _ _ => by rw [kill_thr]⟩
  case detach => exact ⟨by simp [own, leaves], fun _ _ => rfl⟩
  all_goals
    (simp only [own, leaves, setThr, setSess, upd_apply, beq_iff_eq, beq_eq_false_iff_ne] <;> grind [Phase.left, Phase.busyWith])

/-- The threads serving attach requests are treated fairly: one whose next step is possible again and again (the step may have to wait for
the table's lock) makes it; and no client streams for ever. -/
structure Fair (σ : Nat → St) (lab : Nat → Option Label) : Prop where
  own : ∀ t, StrongFair step σ lab (own t)
  leaves : ∀ t, WeakFair step σ lab (leaves t)

/-- The table's lock, once held, is held by the same request until it has got its session. -/
theorem lock_step {s s' : St} {l : Label} {o : Nat} (hi : Inv s) (hl : s.lock = some o) (hs : step s l = some s') :
    s'.lock = none ∨ (s'.lock = some o ∧ s'.thr o = s.thr o) := by
  have he := step_eff hs
  obtain ⟨m, z, hb⟩ := hi.lock o hl
  clear hs hi
  cases he
  case kill h => rw [h] at hl; cases hl
  case detach h => rw [h] at hl; cases hl
  all_goals
    simp only [setThr, setSess, upd_apply] <;> grind

/-- While nobody holds the table's lock a request that does not stream can make a step on its own. -/
theorem own_can {s : St} {t : Nat} (hb : (s.thr t).busyWith = true) (hl : s.lock = none) (hi : Inv s) (hst : ∀ n x, s.thr t ≠ .streaming n x) :
    Can step (own t) s := by
  have hnb : ∀ n x, s.thr t ≠ .blocked n x := fun n x h => by
    have := (hi.blk t n x h).1
    rw [hl] at this; cases this
  cases hp : s.thr t with
  | idle => rw [hp] at hb; cases hb
  | done r => rw [hp] at hb; cases hb
  | making n => exact ⟨.spawn t, by simp [own], by simp [step, hp]⟩
  | spawned n x => exact ⟨.insert t, by simp [own], by simp [step, hp, hl]⟩
  | inserted n x =>
    refine ⟨.lookup t, by simp [own], ?_⟩
    simp only [step, hp, hl, if_true]
    (repeat' split) <;> rfl
  | blocked n x => exact absurd hp (hnb n x)
  | owns n x => exact ⟨.start t, by simp [own], by simp [step, hp]⟩
  | streaming n x => exact absurd hp (hst n x)
  | ending n x d =>
    refine ⟨.unlink t, by simp [own], ?_⟩
    cases d <;> simp only [step, hp, hl, if_true]
    · (repeat' split) <;> rfl
    · rfl
  | leaving x => exact ⟨.release t, by simp [own], by simp [step, hp]⟩

/-- **C48** over time, without any condition on the requests: in every fair execution an attach request under way ends, unless from some
instant on one request holds the table's lock for ever, waiting for a session. -/
theorem C48_fair {σ : Nat → St} {lab : Nat → Option Label} (hx : Exec step σ lab) (h0 : σ 0 = init) (hf : Fair σ lab) {m t : Nat}
    (hb : ((σ m).thr t).busyWith = true) :
    (∃ i r, m ≤ i ∧ (σ i).thr t = .done r) ∨
      ∃ k o n x, m ≤ k ∧ ∀ i, k ≤ i → (σ i).lock = some o ∧ (σ i).thr o = .blocked n x := by
  have hI : ∀ i, Inv (σ i) := fun i => inv_of_run (ls := performed lab i) (by
    have h := exec_run hx i
    rw [h0] at h
    exact h)
  have hat : ∀ {i l}, lab i = some l → step (σ i) l = some (σ (i + 1)) := fun {i l} hl => by
    rcases hx i with ⟨h1, _⟩ | ⟨l', h1, h2⟩
    · rw [h1] at hl; cases hl
    · rw [hl] at h1; cases h1; exact h2
  refine Classical.byContradiction fun hno => ?_
  have hnd : ∀ i r, m ≤ i → (σ i).thr t ≠ .done r := fun i r hi h => hno (.inl ⟨i, r, hi, h⟩)
  have hbusy : ∀ i, m ≤ i → ((σ i).thr t).busyWith = true := by
    intro i hi
    refine exec_stays hx (p := fun s => (s.thr t).busyWith = true) (fun i l hi _ hp h => ?_) hb i hi
    have h1 := thr_step hp h
    by_cases ho : own t l = true ∨ leaves t l = true
    · have h2 := (h1.1 ho).2
      have h3 := fun r => hnd (i + 1) r (by omega)
      cases h4 : (σ (i + 1)).thr t with
      | idle => exact absurd h4 h2
      | done r => exact absurd h4 (h3 r)
      | _ => rfl
    · simp only [not_or, Bool.not_eq_true] at ho
      rw [h1.2 ho.1 ho.2]
      exact hp
  -- the lock becomes free again and again
  have hfree : ∀ k, m ≤ k → ∃ i, k ≤ i ∧ (σ i).lock = none := by
    intro k hk
    refine Classical.byContradiction fun hne => ?_
    have hheld : ∀ i, k ≤ i → (σ i).lock ≠ none := fun i hi h => hne ⟨i, hi, h⟩
    obtain ⟨o, ho⟩ := Option.ne_none_iff_exists'.mp (hheld k (Nat.le_refl _))
    obtain ⟨n, x, hbl⟩ := (hI k).lock o ho
    refine hno (.inr ⟨k, o, n, x, hk, exec_stays hx (p := fun s => s.lock = some o ∧ s.thr o = .blocked n x) (fun i l hi _ hp h => ?_) ⟨ho, hbl⟩⟩)
    rcases lock_step (hI i) hp.1 h with h1 | ⟨h1, h2⟩
    · exact absurd h1 (hheld (i + 1) (by omega))
    · exact ⟨h1, h2.trans hp.2⟩
  -- so the request does not stay where it is
  obtain ⟨_, _, h⟩ := reaches (σ := σ) (Goal := fun _ => False) (fun s => (s.thr t).left) (m := m) (fun i hi _ => by
    rcases hx i with ⟨_, h3⟩ | ⟨l, hl, h3⟩
    · rw [h3]; exact Nat.le_refl _
    · have h1 := thr_step (hbusy i hi) h3
      by_cases ho : own t l = true ∨ leaves t l = true
      · exact Nat.le_of_lt (h1.1 ho).1
      · simp only [not_or, Bool.not_eq_true] at ho
        rw [h1.2 ho.1 ho.2]
        exact Nat.le_refl _) (fun k hk hrest => by
    have same : ∀ i, k ≤ i → ((σ i).thr t).left = ((σ k).thr t).left := fun i hi => (hrest i hi).2
    by_cases hs : ∃ n x, (σ k).thr t = .streaming n x
    · obtain ⟨n, x, hs⟩ := hs
      obtain ⟨i, l, hi, hl, ha⟩ := hf.leaves t ⟨k, fun i hi => by
        have h1 := same i hi
        rw [hs] at h1
        cases h2 : (σ i).thr t <;> simp only [h2, Phase.left] at h1 <;> try contradiction
        exact ⟨.clientGone t, by simp [leaves], by simp [step, h2]⟩⟩ k
      have h1 := ((thr_step (hbusy i (by omega)) (hat hl)).1 (.inr ha)).1
      have h2 := same i hi
      have h3 := same (i + 1) (by omega)
      omega
    · obtain ⟨i, l, hi, hl, ha⟩ := hf.own t (fun j => by
        obtain ⟨i, hi, hl⟩ := hfree (max j k) (by omega)
        refine ⟨i, by omega, own_can (hbusy i (by omega)) hl (hI i) (fun n x h2 => hs ?_)⟩
        have h1 := same i (by omega)
        rw [h2] at h1
        cases h3 : (σ k).thr t <;> simp only [h3, Phase.left] at h1 <;> try contradiction
        exact ⟨_, _, rfl⟩) k
      have h1 := ((thr_step (hbusy i (by omega)) (hat hl)).1 (.inl ha)).1
      have h2 := same i hi
      have h3 := same (i + 1) (by omega)
      omega)
  exact h

/-- **C48** over time, as long as an attach request starts only while no other request is creating a session of that name: in every fair
execution every attach request under way ends. -/
theorem C48_fair_partial {σ : Nat → St} {lab : Nat → Option Label} (hx : Exec step σ lab) (h0 : σ 0 = init) (hf : Fair σ lab)
    (hq : ∀ i l, lab i = some l → Quiet1 (σ i) l) {m t : Nat} (hb : ((σ m).thr t).busyWith = true) :
    ∃ i r, m ≤ i ∧ (σ i).thr t = .done r := by
  refine (C48_fair hx h0 hf hb).resolve_right fun ⟨k, o, n, x, _, h⟩ => ?_
  have hI : ∀ i, Inv (σ i) ∧ Ord1 (σ i) := fun i => exec_stays hx (m := 0) (p := fun s => Inv s ∧ Ord1 s) (fun i l _ hl hp h =>
    ⟨inv_step hp.1 (step_eff h), ord1_step hp.1 hp.2 (hq i l hl) (step_eff h)⟩) (h0 ▸ ⟨inv_init, ord1_init⟩) i (Nat.zero_le _)
  have h1 := (hI k).2.lock
  rw [(h k (Nat.le_refl _)).1] at h1
  cases h1

theorem quiet_thread {s : St} {t : Nat} (h : (s.thr t).busyWith = false) (l : Label) (hl : own t l = true ∨ leaves t l = true) : step s l = none := by
  cases l <;> simp only [own, leaves, beq_iff_eq, Bool.false_eq_true, or_self, or_false, false_or] at hl <;> subst hl <;>
    (cases hp : s.thr _ <;> rw [hp] at h <;> first | (simp [step, hp]; done) | cases h)

/-- A session is made, its client leaves, another client attaches, and the shell exits. -/
def usual : List Label := [.select 0 a false, .spawn 0, .insert 0, .lookup 0, .start 0, .clientGone 0, .unlink 0, .release 0,
  .select 1 a false, .start 1, .exit 0, .childDone 1, .unlink 1, .release 1]

example : Exec step (thenRests step init usual) (fun i => usual[i]?) ∧ Fair (thenRests step init usual) (fun i => usual[i]?) ∧
    (∀ (i : Nat) (l : Label), usual[i]? = some l → Quiet1 (thenRests step init usual i) l) ∧ ((thenRests step init usual 9).thr 1).busyWith = true := by
  have hrun : ∃ s', runSteps step init usual = some s' ∧ ∀ t, (s'.thr t).busyWith = false := by
    refine ⟨_, rfl, fun t => ?_⟩
    match t with
    | 0 => rfl
    | 1 => rfl
    | _ + 2 => rfl
  obtain ⟨s', hr, hb⟩ := hrun
  obtain ⟨h1, h2⟩ := thenRests_exec hr
  refine ⟨h1, ⟨fun t => (fair_at_rest h2 (fun l hl => quiet_thread (hb t) l (.inl hl))).2,
    fun t => (fair_at_rest h2 (fun l hl => quiet_thread (hb t) l (.inr hl))).1⟩, fun i l hl => ?_, rfl⟩
  match i with
  | 0 => cases hl; intro t'; cases t' <;> nofun
  | 8 => cases hl; intro t'; match t' with | 0 => nofun | _ + 1 => nofun
  | 1 | 2 | 3 | 4 | 5 | 6 | 7 | 9 | 10 | 11 | 12 | 13 => cases hl; trivial
  | _ + 14 => cases hl

/-- The second alternative of `C48_fair` is possible: fairness does not help the two requests waiting for each other. -/
example : Exec step (thenRests step init stuck) (fun i => stuck[i]?) ∧ Fair (thenRests step init stuck) (fun i => stuck[i]?) ∧
    ∀ i, 7 ≤ i → (thenRests step init stuck i).lock = some 0 ∧ (thenRests step init stuck i).thr 0 = .blocked a 0 ∧
      (thenRests step init stuck i).thr 1 = .ending a 0 false := by
  have hrun : ∃ s', runSteps step init stuck = some s' ∧ Dead s' ∧ ∀ t, 2 ≤ t → (s'.thr t).busyWith = false := by
    refine ⟨_, rfl, ⟨rfl, rfl, rfl, rfl, by decide⟩, fun t ht => ?_⟩
    match t with
    | _ + 2 => rfl
  obtain ⟨s', hr, ⟨d1, d2, d3, d4, _⟩, hb⟩ := hrun
  obtain ⟨h1, h2⟩ := thenRests_exec hr
  have hno : ∀ t l, own t l = true ∨ leaves t l = true → step s' l = none := by
    intro t l hl
    match t with
    | 0 => cases l <;> simp only [own, leaves, beq_iff_eq, Bool.false_eq_true, or_self, or_false, false_or] at hl <;> subst hl <;> simp [step, d2, d4]
    | 1 => cases l <;> simp only [own, leaves, beq_iff_eq, Bool.false_eq_true, or_self, or_false, false_or] at hl <;> subst hl <;> simp [step, d3, d1]
    | t + 2 => exact quiet_thread (hb (t + 2) (by omega)) l hl
  refine ⟨h1, ⟨fun t => (fair_at_rest h2 (fun l hl => hno t l (.inl hl))).2, fun t => (fair_at_rest h2 (fun l hl => hno t l (.inr hl))).1⟩,
    fun i hi => ?_⟩
  rw [h2 i hi]
  exact ⟨d1, d2, d3⟩

end Shpool.Server
