import Verif.Server.Inv
/-!
# What holds as long as attach requests for one name do not race

`Quiet1`: an attach request starts only while no other request is creating a session of that name.
`Quiet2`: … and while every request still serving that name serves the session that is in the table.
-/

namespace Shpool.Server

def Quiet1 (s : St) : Label → Prop
  | .select _ n _ => ∀ t', (s.thr t').creates ≠ some n
  | _ => True

def Quiet2 (s : St) : Label → Prop
  | .select _ n _ => ∀ t' x, (s.thr t').serves = some (n, x) → find n s.table = some x
  | _ => True

structure Ord1 (s : St) : Prop where
  lock : s.lock = none
  uniq : ∀ t t' n, (s.thr t).creates = some n → (s.thr t').creates = some n → t = t'
  inserted : ∀ t n x, s.thr t = .inserted n x → x < s.next ∧ (s.sess x).name = n ∧ (s.sess x).owner = none ∧
    (s.sess x).stream = some t ∧ ∀ y, find n s.table = some y → y = x
  stream : ∀ t n x, (s.thr t).serves = some (n, x) → (s.sess x).stream = some t

theorem ord1_init : Ord1 init where
  lock := rfl
  uniq := by simp [init, Phase.creates]
  inserted := by simp [init]
  stream := by simp [init, Phase.serves]

theorem holds_of_serves {p : Phase} {n : Name} {x : Nat} (h : p.serves = some (n, x)) : p.holds x := by
  cases p <;> simp_all [Phase.serves, Phase.holds]

set_option maxHeartbeats 2000000 in
theorem ord1_step {s s' : St} {l : Label} (hi : Inv s) (h : Ord1 s) (hq : Quiet1 s l) (he : Eff s l s') : Ord1 s' := by
  obtain ⟨b1, b2, b3, b4⟩ := h
  have ho := hi.own
  have hs := hi.spawned
  have ht := hi.tbl
  have hblk : ∀ t n x, s.thr t ≠ .blocked n x := fun t n x e => by
    have := (hi.blk t n x e).1
    rw [b1] at this
    cases this
  have hso : ∀ t n x, (s.thr t).serves = some (n, x) → (s.sess x).owner = some t :=
    fun t n x e => (ho t x).mp (holds_of_serves e)
  have hlt : ∀ x t, (s.sess x).owner = some t → x < s.next := fun x t e => by
    by_cases hx : s.next ≤ x
    · rw [hi.blank x hx] at e; cases e
    · omega
  have c2 : ∀ t n x, s.thr t = .spawned n x → (s.thr t).creates = some n := fun t n x e => by rw [e]; rfl
  have c3 : ∀ t n x, s.thr t = .inserted n x → (s.thr t).creates = some n := fun t n x e => by rw [e]; rfl
  clear hi ho
  cases he
  case kill names fail _ =>
    have k1 := kill_fields s names fail
    have k2 := kill_find s names fail
    have k3 := kill_thr s names fail
    have k4 := kill_next s names fail
    have k5 := kill_lock s names fail
    refine ⟨by rw [k5]; exact b1, by rw [k3]; exact b2, ?_, ?_⟩
    all_goals
      simp only [k3, k4]
      grind
  case detach names _ =>
    have k1 := detach_fields s names
    have k3 : (detach s names).1.thr = s.thr := rfl
    have k4 : (detach s names).1.next = s.next := rfl
    have k6 : (detach s names).1.table = s.table := rfl
    refine ⟨b1, b2, ?_, ?_⟩
    all_goals
      simp only [k3, k4, k6]
      grind
  case block t n x y o h1 h2 h3 h4 =>
    exfalso
    have := b3 t n x h1
    grind
  all_goals
    refine ⟨?_, ?_, ?_, ?_⟩
    all_goals
      simp only [Quiet1] at hq
      (try simp only [setThr, setSess, upd_apply, Sess.recordAttached, Sess.recordDetached, find_insert, find_erase]) <;>
      first
        | assumption
        | grind [Phase.creates, Phase.serves]

structure Ord2 (s : St) : Prop where
  apart : ∀ t t' n x, (s.thr t').creates = some n → (s.thr t).serves = some (n, x) → False
  same : ∀ t n x, (s.thr t).serves = some (n, x) → ∀ y, find n s.table = some y → y = x

theorem ord2_init : Ord2 init where
  apart := by simp [init, Phase.creates]
  same := by simp [init, Phase.serves]

set_option maxHeartbeats 2000000 in
theorem ord2_step {s s' : St} {l : Label} (hi : Inv s) (h1 : Ord1 s) (h : Ord2 s) (hq1 : Quiet1 s l) (hq : Quiet2 s l)
    (he : Eff s l s') : Ord2 s' := by
  obtain ⟨b1, b2, b3, b4⟩ := h1
  obtain ⟨d1, d2⟩ := h
  have ho := hi.own
  have hblk : ∀ t n x, s.thr t ≠ .blocked n x := fun t n x e => by
    have := (hi.blk t n x e).1
    rw [b1] at this
    cases this
  have hso : ∀ t n x, (s.thr t).serves = some (n, x) → (s.sess x).owner = some t :=
    fun t n x e => (ho t x).mp (holds_of_serves e)
  have c1 : ∀ t n, s.thr t = .making n → (s.thr t).creates = some n := fun t n e => by rw [e]; rfl
  have c2 : ∀ t n x, s.thr t = .spawned n x → (s.thr t).creates = some n := fun t n x e => by rw [e]; rfl
  have c3 : ∀ t n x, s.thr t = .inserted n x → (s.thr t).creates = some n := fun t n x e => by rw [e]; rfl
  clear hi ho
  cases he
  case kill names fail _ =>
    have k2 := kill_find s names fail
    have k3 := kill_thr s names fail
    refine ⟨by rw [k3]; exact d1, ?_⟩
    rw [k3]
    grind
  case detach names _ => exact ⟨d1, d2⟩
  case block t n x y o h1 h2 h3 h4 =>
    exfalso
    have := b3 t n x h1
    grind
  all_goals
    refine ⟨?_, ?_⟩
    all_goals
      simp only [Quiet1, Quiet2] at hq hq1
      (try simp only [setThr, setSess, upd_apply, Sess.recordAttached, Sess.recordDetached, find_insert, find_erase]) <;>
      first
        | assumption
        | grind [Phase.creates, Phase.serves]

/-- A session's shell-to-client thread ends only after its shell. -/
def Healthy (s : St) : Label → Prop
  | .s2cEnds x => (s.sess x).alive = false
  | _ => True

structure Live (s : St) : Prop where
  s2c : ∀ x, (s.sess x).alive = true → (s.sess x).s2c = true
  making : ∀ t n, s.thr t = .making n → ∀ y, find n s.table = some y → (s.sess y).alive = false
  spawned : ∀ t n x, s.thr t = .spawned n x → ∀ y, find n s.table = some y → (s.sess y).alive = false

theorem live_init : Live init where
  s2c := by simp [init, blank]
  making := by simp [init]
  spawned := by simp [init]

theorem detach_s2c (s : St) (names : List Name) (x : Nat) : ((detach s names).1.sess x).s2c = (s.sess x).s2c := by
  rcases detach_sess s names x with e | ⟨e, -⟩ <;> simp [e, Sess.recordDetached]

set_option maxHeartbeats 2000000 in
theorem live_step {s s' : St} {l : Label} (hi : Inv s) (h1 : Ord1 s) (h : Live s) (hq1 : Quiet1 s l) (hq : Healthy s l)
    (he : Eff s l s') : Live s' := by
  have b2 := h1.uniq
  obtain ⟨d1, d2, d3⟩ := h
  have ht := hi.tbl
  have c1 : ∀ t n, s.thr t = .making n → (s.thr t).creates = some n := fun t n e => by rw [e]; rfl
  have c2 : ∀ t n x, s.thr t = .spawned n x → (s.thr t).creates = some n := fun t n x e => by rw [e]; rfl
  have hlt : ∀ x, (s.sess x).alive = true → x < s.next := fun x e => by
    by_cases hx : s.next ≤ x
    · rw [hi.blank x hx] at e; cases e
    · omega
  clear hi h1
  cases he
  case kill names fail _ =>
    have k1 := kill_sess s names fail
    have k0 := kill_fields s names fail
    have k2 := kill_find s names fail
    have k3 := kill_thr s names fail
    refine ⟨?_, ?_, ?_⟩
    · intro x hx
      rcases k1 x with e | e
      · rw [e] at hx ⊢; exact d1 x hx
      · rw [e] at hx; cases hx
    all_goals
      rw [k3]
      clear k1
      grind
  case detach names _ =>
    have k1 := detach_fields s names
    have k2 := detach_s2c s names
    have k3 : (detach s names).1.thr = s.thr := rfl
    have k6 : (detach s names).1.table = s.table := rfl
    refine ⟨?_, ?_, ?_⟩
    all_goals
      try simp only [k3, k6]
      grind
  all_goals
    refine ⟨?_, ?_, ?_⟩
    all_goals
      try simp only [Quiet1, Healthy] at hq hq1
      (try simp only [setThr, setSess, upd_apply, Sess.recordAttached, Sess.recordDetached, find_insert, find_erase]) <;>
      first
        | assumption
        | grind [Phase.creates, Phase.serves]

/-! ## Histories -/

/-- Every step of the history satisfies the condition in the state it is made from. -/
def Always (P : St → Label → Prop) (ls : List Label) : Prop :=
  ∀ pre l post s, ls = pre ++ l :: post → Run pre s → P s l

theorem always_snoc {P : St → Label → Prop} {ls : List Label} {l : Label} (h : Always P (ls ++ [l])) : Always P ls := by
  intro pre l' post s e hr
  exact h pre l' (post ++ [l]) s (by rw [e]; simp) hr

theorem always_last {P : St → Label → Prop} {ls : List Label} {l : Label} {s : St} (h : Always P (ls ++ [l])) (hr : Run ls s) :
    P s l := h ls l [] s rfl hr

theorem run_snoc {ls : List Label} {l : Label} {s s' : St} (h : Run ls s) (hs : step s l = some s') : Run (ls ++ [l]) s' := by
  unfold Run at h ⊢
  rw [run_append, h]
  simp [runSteps, hs]

/-- An invariant of the histories satisfying a condition at every step. -/
theorem hist_inv {P : St → Label → Prop} {I : St → Prop} (h0 : I init)
    (hstep : ∀ ls s l s', Run ls s → Always P ls → I s → P s l → step s l = some s' → I s') {ls : List Label} {s : St}
    (hr : Run ls s) (hp : Always P ls) : I s := by
  have : (fun ls s => Run ls s ∧ (Always P ls → I s)) ls s :=
    run_hist (I := fun ls s => Run ls s ∧ (Always P ls → I s))
      (fun ls s l s' hi hs => ⟨run_snoc hi.1 hs, fun hp => hstep ls s l s' hi.1 (always_snoc hp) (hi.2 (always_snoc hp))
        (always_last hp hi.1) hs⟩) ⟨rfl, fun _ => h0⟩ hr
  exact this.2 hp

theorem ord1_of_run {ls : List Label} {s : St} (hr : Run ls s) (hp : Always Quiet1 ls) : Ord1 s :=
  hist_inv ord1_init (fun _ _ _ _ hr _ hi hq hs => ord1_step (inv_of_run hr) hi hq (step_eff hs)) hr hp

/-- Attach requests for one name do not race. -/
def Quiet (s : St) (l : Label) : Prop := Quiet1 s l ∧ Quiet2 s l

theorem Always.mono {P Q : St → Label → Prop} (h : ∀ s l, P s l → Q s l) {ls : List Label} (hp : Always P ls) : Always Q ls :=
  fun pre l post s e hr => h s l (hp pre l post s e hr)

theorem ord2_of_run {ls : List Label} {s : St} (hr : Run ls s) (hp : Always Quiet ls) : Ord2 s :=
  hist_inv ord2_init (fun _ _ _ _ hr hp hi hq hs => ord2_step (inv_of_run hr) (ord1_of_run hr (hp.mono fun _ _ h => h.1)) hi hq.1 hq.2
    (step_eff hs)) hr hp

theorem live_of_run {ls : List Label} {s : St} (hr : Run ls s) (hp : Always (fun s l => Quiet1 s l ∧ Healthy s l) ls) : Live s :=
  hist_inv live_init (fun _ _ _ _ hr hp hi hq hs => live_step (inv_of_run hr) (ord1_of_run hr (hp.mono fun _ _ h => h.1)) hi hq.1 hq.2
    (step_eff hs)) hr hp

end Shpool.Server
