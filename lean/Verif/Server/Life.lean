import Verif.Server.Order
/-!
# The recorded attachments and times
-/

namespace Shpool.Server

theorem kill_times (s : St) (names : List Name) (fail : Option Nat) (x : Nat) :
    ((kill s names fail).1.sess x).lastConn = (s.sess x).lastConn ∧ ((kill s names fail).1.sess x).lastDisc = (s.sess x).lastDisc ∧
    ((kill s names fail).1.sess x).attachment = (s.sess x).attachment ∧
    ((kill s names fail).1.sess x).conn = (s.sess x).conn := by
  rcases kill_sess s names fail x with e | e <;> simp [e]

/-- What a step does to the record of a session. -/
inductive Rec (s s' : St) (l : Label) (x : Nat) : Prop
  | same : x < s.next → (s'.sess x).lastConn = (s.sess x).lastConn → (s'.sess x).lastDisc = (s.sess x).lastDisc →
      (s'.sess x).attachment = (s.sess x).attachment → Rec s s' l x
  | att (t n j) : x < s.next → l = .select t n j → find n s.table = some x → (s.sess x).alive = true →
      (s'.sess x).lastConn = some s.now →
      (s'.sess x).lastDisc = (s.sess x).lastDisc → (s'.sess x).attachment = some t → Rec s s' l x
  | new (t) : l = .spawn t → x = s.next → (s'.sess x).lastConn = some s.now → (s'.sess x).lastDisc = none →
      (s'.sess x).attachment = some t → Rec s s' l x
  | det : x < s.next → ((∃ t n y, l = .unlink t ∧ s.thr t = .ending n y false ∧ find n s.table = some x) ∨
      (∃ names, l = .detach names ∧ (s.sess x).conn = true ∧ ∃ n ∈ names, find n s.table = some x)) →
      (s'.sess x).lastConn = (s.sess x).lastConn → (s'.sess x).lastDisc = some s.now → (s'.sess x).attachment = none →
      Rec s s' l x

theorem rec_upd {s s' : St} {l : Label} {x0 : Nat} {v : Sess} (hs : s'.sess = upd s.sess x0 v)
    (hc : v.lastConn = (s.sess x0).lastConn) (hd : v.lastDisc = (s.sess x0).lastDisc)
    (ha : v.attachment = (s.sess x0).attachment) (x : Nat) (hx : x < s.next) : Rec s s' l x := by
  by_cases h : x = x0
  · subst h
    exact .same hx (by rw [hs, upd_self, hc]) (by rw [hs, upd_self, hd]) (by rw [hs, upd_self, ha])
  · exact .same hx (by rw [hs, upd_ne _ _ h]) (by rw [hs, upd_ne _ _ h]) (by rw [hs, upd_ne _ _ h])

theorem rec_step {s s' : St} {l : Label} (he : Eff s l s') (x : Nat) (hx : x < s'.next) : Rec s s' l x := by
  cases he
  case kill names fail _ =>
    obtain ⟨h1, h2, h3, -⟩ := kill_times s names fail x
    rw [kill_next] at hx
    exact .same hx h1 h2 h3
  case detach names _ =>
    rcases detach_sess s names x with e | ⟨e, hc, n, hn, hf⟩
    · exact .same hx (by rw [e]) (by rw [e]) (by rw [e])
    · exact .det hx (.inr ⟨names, rfl, hc, n, hn, hf⟩) (by rw [e]; rfl) (by rw [e]; rfl) (by rw [e]; rfl)
  case reattach t n j x0 h1 h2 h3 h4 h5 h6 =>
    by_cases h : x = x0
    · subst h
      exact .att t n j hx rfl h3 h5 (by simp [setThr, setSess, Sess.recordAttached]) (by simp [setThr, setSess, Sess.recordAttached])
        (by simp [setThr, setSess, Sess.recordAttached])
    · exact .same hx (by simp [setThr, setSess, upd_ne _ _ h]) (by simp [setThr, setSess, upd_ne _ _ h])
        (by simp [setThr, setSess, upd_ne _ _ h])
  case clobber t n j x0 p h1 h2 h3 h4 h5 h6 h7 =>
    by_cases h : x = x0
    · subst h
      exact .att t n j hx rfl h3 h5 (by simp [setThr, setSess, Sess.recordAttached]) (by simp [setThr, setSess, Sess.recordAttached])
        (by simp [setThr, setSess, Sess.recordAttached])
    · exact .same hx (by simp [setThr, setSess, upd_ne _ _ h]) (by simp [setThr, setSess, upd_ne _ _ h])
        (by simp [setThr, setSess, upd_ne _ _ h])
  case unlinkGone t n y0 x0 h1 h2 h3 =>
    by_cases h : x = x0
    · subst h
      exact .det hx (.inl ⟨t, n, y0, rfl, h1, h3⟩) (by simp [setThr, setSess, Sess.recordDetached])
        (by simp [setThr, setSess, Sess.recordDetached]) (by simp [setThr, setSess, Sess.recordDetached])
    · exact .same hx (by simp [setThr, setSess, upd_ne _ _ h]) (by simp [setThr, setSess, upd_ne _ _ h])
        (by simp [setThr, setSess, upd_ne _ _ h])
  case spawn t n h1 =>
    have hx : x < s.next + 1 := hx
    by_cases h : x = s.next
    · subst h
      exact .new t rfl rfl (by simp) (by simp) (by simp)
    · exact .same (by omega) (by simp [upd_ne _ _ h]) (by simp [upd_ne _ _ h]) (by simp [upd_ne _ _ h])
  case stale t n j x0 v p h1 h2 h3 h4 h5 h6 h7 =>
    exact rec_upd (s := s) rfl (by rcases h6 with e | e <;> rw [e]) (by rcases h6 with e | e <;> rw [e])
      (by rcases h6 with e | e <;> rw [e]) x hx
  all_goals
    first
      | exact .same hx rfl rfl rfl
      | (apply rec_upd (s := s) (hx := hx)
         case hs => exact rfl
         all_goals rfl)

structure Times (s : St) : Prop where
  conn : ∀ x a, x < s.next → (s.sess x).lastConn = some a → a ≤ s.now
  disc : ∀ x a, x < s.next → (s.sess x).lastDisc = some a → a ≤ s.now
  conn_some : ∀ x, x < s.next → ∃ a, (s.sess x).lastConn = some a
  attached : ∀ x t a b, x < s.next → (s.sess x).attachment = some t → (s.sess x).lastConn = some a → (s.sess x).lastDisc = some b → b ≤ a
  detached : ∀ x a, x < s.next → (s.sess x).attachment = none → (s.sess x).lastConn = some a →
    ∃ b, (s.sess x).lastDisc = some b ∧ a ≤ b

theorem times_init : Times init where
  conn := by simp [init, blank]
  disc := by simp [init, blank]
  conn_some := by simp [init]
  attached := by simp [init, blank]
  detached := by simp [init]

theorem eff_now {s s' : St} {l : Label} (he : Eff s l s') : s.now ≤ s'.now := by
  cases he
  case kill names fail _ => rw [kill_now]; exact Nat.le_refl _
  case tick d => exact Nat.le_add_right _ _
  all_goals exact Nat.le_refl _

theorem times_step {s s' : St} {l : Label} (h : Times s) (he : Eff s l s') : Times s' := by
  obtain ⟨d1, d2, d3, d4, d5⟩ := h
  have hn := eff_now he
  have hr := rec_step he
  clear he
  refine ⟨fun x a hx => ?_, fun x a hx => ?_, fun x hx => ?_, fun x t a b hx => ?_, fun x a hx => ?_⟩
  all_goals
    have g1 := d1 x
    have g2 := d2 x
    have g3 := d3 x
    have g4 := d4 x
    have g5 := d5 x
    clear d1 d2 d3 d4 d5
    rcases hr x hx with ⟨h0, h1, h2, h3⟩ | ⟨t', n, j, h0, -, -, -, h1, h2, h3⟩ | ⟨t', -, h0, h1, h2, h3⟩ | ⟨h0, -, h1, h2, h3⟩ <;>
      first
        | (intros; grind)
        | (intro ha hc
           rw [h3] at ha
           rw [h1] at hc
           rw [h2]
           exact g5 a h0 ha hc)

theorem times_of_run {ls : List Label} {s : St} (h : Run ls s) : Times s :=
  run_inv (fun _ _ _ hi hs => times_step hi (step_eff hs)) times_init h

def Conn (s : St) : Prop := ∀ x, (s.sess x).conn = true → ∃ t n, s.thr t = .streaming n x

set_option maxHeartbeats 2000000 in
theorem conn_step {s s' : St} {l : Label} (h : Conn s) (he : Eff s l s') : Conn s' := by
  have key : ∀ (p : Nat → Phase) (σ : Nat → Sess), (∀ x, (σ x).conn = true → (s.sess x).conn = true) →
      (∀ t n x, s.thr t = .streaming n x → (σ x).conn = true → p t = .streaming n x) →
      ∀ x, (σ x).conn = true → ∃ t n, p t = .streaming n x := by
    intro p σ h1 h2 x hx
    obtain ⟨t, n, e⟩ := h x (h1 x hx)
    exact ⟨t, n, h2 t n x e hx⟩
  cases he
  case kill names fail _ =>
    have k1 := kill_times s names fail
    have k3 := kill_thr s names fail
    refine key _ _ (by grind) ?_
    rw [k3]
    exact fun _ _ _ e _ => e
  case detach names _ =>
    have k1 := detach_sess s names
    refine key _ _ ?_ (fun _ _ _ e _ => e)
    intro x hx
    rcases k1 x with e | ⟨e, -⟩
    · rw [e] at hx; exact hx
    · rw [e] at hx; cases hx
  case start t n x h1 =>
    intro y hy
    by_cases hyx : y = x
    · subst hyx
      exact ⟨t, n, by simp [setThr]⟩
    · simp only [setThr, setSess, upd_ne _ _ hyx] at hy
      obtain ⟨t', n', e⟩ := h y hy
      refine ⟨t', n', ?_⟩
      by_cases htt : t' = t
      · subst htt; rw [h1] at e; cases e
      · simp only [setThr, upd_ne _ _ htt]; exact e
  all_goals
    refine key _ _ ?_ ?_
    all_goals
      (try simp only [setThr, setSess, upd_apply, Sess.recordAttached, Sess.recordDetached]) <;> grind

theorem conn_of_run {ls : List Label} {s : St} (h : Run ls s) : Conn s :=
  run_inv (I := Conn) (fun _ _ _ hi hs => conn_step hi (step_eff hs)) (fun x hx => by cases hx) h

/-- No attach request ends early, between attaching and streaming. -/
def NoAbort (_ : St) : Label → Prop
  | .abort _ => False
  | _ => True

structure Tidy (s : St) : Prop where
  attachment : ∀ n x t, find n s.table = some x → (s.sess x).attachment = some t →
    (s.thr t).serves = some (n, x) ∨ s.thr t = .inserted n x
  owns : ∀ t n x, s.thr t = .owns n x → (s.sess x).attachment = some t
  streaming : ∀ t n x, s.thr t = .streaming n x → (s.sess x).conn = true → (s.sess x).attachment = some t
  spawned : ∀ t n x, s.thr t = .spawned n x → (s.sess x).attachment = some t
  inserted : ∀ t n x, s.thr t = .inserted n x → (s.sess x).attachment = some t

theorem tidy_init : Tidy init where
  attachment := by simp [init]
  owns := by simp [init]
  streaming := by simp [init]
  spawned := by simp [init]
  inserted := by simp [init]

set_option maxHeartbeats 4000000 in
theorem tidy_step {s s' : St} {l : Label} (hi : Inv s) (hc : Conn s) (h1 : Ord1 s) (h2 : Ord2 s) (h3 : Live s) (h : Tidy s)
    (hq1 : Quiet1 s l) (hq : NoAbort s l) (he : Eff s l s') : Tidy s' := by
  obtain ⟨d1, d2, d3, d4, d5⟩ := h
  have ht := hi.tbl
  have hsp := hi.spawned
  have hins := h1.inserted
  have hsame := h2.same
  have hs2c := h3.s2c
  have hso : ∀ t n x, (s.thr t).serves = some (n, x) → (s.sess x).owner = some t :=
    fun t n x e => (hi.own t x).mp (holds_of_serves e)
  have hlt : ∀ x t, (s.sess x).owner = some t → x < s.next := fun x t e => by
    by_cases hx : s.next ≤ x
    · rw [hi.blank x hx] at e; cases e
    · omega
  have e1 : ∀ t n x, s.thr t = .owns n x → (s.thr t).serves = some (n, x) := fun t n x e => by rw [e]; rfl
  have e2 : ∀ t n x, s.thr t = .streaming n x → (s.thr t).serves = some (n, x) := fun t n x e => by rw [e]; rfl
  have e3 : ∀ t n x b, s.thr t = .ending n x b → (s.thr t).serves = some (n, x) := fun t n x b e => by rw [e]; rfl
  have c2 : ∀ t n x, s.thr t = .spawned n x → (s.thr t).creates = some n := fun t n x e => by rw [e]; rfl
  have c3 : ∀ t n x, s.thr t = .inserted n x → (s.thr t).creates = some n := fun t n x e => by rw [e]; rfl
  have hblk := hi.blk
  have hlock := h1.lock
  clear h1 h2 h3
  cases he
  case abort => exact absurd hq (by simp [NoAbort])
  case block t n x y o g1 g2 g3 g4 =>
    exfalso
    have := hins t n x g1
    grind
  case kill names fail _ =>
    have k1 := kill_times s names fail
    have k2 := kill_find s names fail
    have k3 := kill_thr s names fail
    refine ⟨?_, ?_, ?_, ?_, ?_⟩
    all_goals
      simp only [k3]
      grind
  case detach names _ =>
    have k1 := detach_sess s names
    have k3 : (detach s names).1.thr = s.thr := rfl
    have k6 : (detach s names).1.table = s.table := rfl
    refine ⟨?_, ?_, ?_, ?_, ?_⟩
    · intro n x t hf ha
      rw [k6] at hf
      rcases k1 x with e | ⟨e, -⟩
      · rw [e] at ha; rw [k3]; exact d1 n x t hf ha
      · rw [e] at ha; cases ha
    · intro t n x e
      rw [k3] at e
      rcases k1 x with e' | ⟨-, e', -⟩
      · rw [e']; exact d2 t n x e
      · obtain ⟨t', n', e''⟩ := hc x e'
        grind
    · intro t n x e hcn
      rw [k3] at e
      rcases k1 x with e' | ⟨e', -⟩
      · rw [e'] at hcn ⊢; exact d3 t n x e hcn
      · rw [e'] at hcn; cases hcn
    · intro t n x e
      rw [k3] at e
      rcases k1 x with e' | ⟨-, e', -⟩
      · rw [e']; exact d4 t n x e
      · obtain ⟨t', n', e''⟩ := hc x e'
        grind
    · intro t n x e
      rw [k3] at e
      rcases k1 x with e' | ⟨-, e', -⟩
      · rw [e']; exact d5 t n x e
      · obtain ⟨t', n', e''⟩ := hc x e'
        grind
  all_goals
    refine ⟨?_, ?_, ?_, ?_, ?_⟩
    all_goals
      simp only [Quiet1] at hq1
      clear hq hi hc
      (try simp only [setThr, setSess, upd_apply, Sess.recordAttached, Sess.recordDetached, find_insert, find_erase]) <;>
      first
        | assumption
        | grind [Phase.serves]

/-- What makes the recorded attachments trustworthy. -/
def Orderly (s : St) (l : Label) : Prop := Quiet1 s l ∧ Quiet2 s l ∧ Healthy s l ∧ NoAbort s l

theorem tidy_of_run {ls : List Label} {s : St} (hr : Run ls s) (hp : Always Orderly ls) : Tidy s :=
  hist_inv tidy_init (fun _ _ _ _ hr hp hi hq hs => tidy_step (inv_of_run hr) (conn_of_run hr)
    (ord1_of_run hr (hp.mono fun _ _ h => h.1)) (ord2_of_run hr (hp.mono fun _ _ h => ⟨h.1, h.2.1⟩))
    (live_of_run hr (hp.mono fun _ _ h => ⟨h.1, h.2.2.1⟩)) hi hq.1 hq.2.2.2 (step_eff hs)) hr hp

end Shpool.Server
