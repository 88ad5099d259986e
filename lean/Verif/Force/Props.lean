import Verif.Force.Model
import Verif.Background.Props
/-!
# Properties of forced attaches: C152
-/

namespace Shpool.Force

open Server (Name Phase find)

/-- What is claimed: when client `p`'s first request for `n` is refused because request `o` has session `x`, every later refusal of one of `p`'s
requests is because `o` still has it. -/
def C152_statement : Prop :=
  ∀ ls s0 ls' s s' p n t t' o x j j', Run ls s0 → s0.mine t = some (p, n) → find n s0.srv.table = some x → (s0.srv.thr o).holds x →
    runSteps step s0 (.daemon (.select t n j) :: ls') = some s → s.mine t' = some (p, n) → step s (.daemon (.select t' n j')) = some s' →
    s'.srv.thr t' = .done .busy → (s.srv.thr o).holds x

def a : Name := ['a']

/-- The session is attached to; a client wants it by force. -/
def before : List Label :=
  [.daemon (.select 0 a false), .daemon (.spawn 0), .daemon (.insert 0), .daemon (.lookup 0), .daemon (.start 0), .begin 7 a 1]

/-- It is refused, and has the session detached; the daemon notices and frees the session; before the client tries again, someone else attaches. -/
def overtaken : List Label :=
  [.refused 7, .detach 7, .daemon (.clientGone 0), .daemon (.unlink 0), .daemon (.release 0), .daemon (.select 2 a false), .daemon (.start 2), .again 7 3]

/-- C152 does not hold: the session is detached once only, and whoever attaches before the client tries again keeps it out. -/
theorem C152_false : ¬ C152_statement := by
  intro h
  have := h before _ overtaken _ _ 7 a 1 3 0 0 false false rfl rfl rfl rfl rfl rfl rfl rfl
  exact this

/-! ## What the steps do -/

/-- What a step does to the clients and to whose requests the threads serve. -/
inductive Cli (s s' : St) : Label → Prop
  | begin (p n t) : s.cl p = .other → fresh s t → s'.srv = s.srv → s'.cl = Server.upd s.cl p (.waiting n 0 false t) →
      s'.mine = Server.upd s.mine t (some (p, n)) → Cli s s' (.begin p n t)
  | refused (p n k d t) : s.cl p = .waiting n k d t → s.srv.thr t = .done .busy → s'.srv = s.srv → s'.cl = Server.upd s.cl p (.told n k d) →
      s'.mine = s.mine → Cli s s' (.refused p)
  | detach (p n k) : s.cl p = .told n k false → Server.step s.srv (.detach [n]) = some s'.srv → s'.cl = Server.upd s.cl p (.told n k true) →
      s'.mine = s.mine → Cli s s' (.detach p)
  | again (p n k t) : s.cl p = .told n k true → k ≤ 20 → fresh s t → s'.srv = s.srv → s'.cl = Server.upd s.cl p (.waiting n (k + 1) true t) →
      s'.mine = Server.upd s.mine t (some (p, n)) → Cli s s' (.again p t)
  | giveUp (p n k) : s.cl p = .told n k true → 20 < k → s'.srv = s.srv → s'.cl = Server.upd s.cl p (.failed n) → s'.mine = s.mine →
      Cli s s' (.giveUp p)
  | got (p n k d t) : s.cl p = .waiting n k d t → Background.replied (s.srv.thr t) = true → s'.srv = s.srv → s'.cl = Server.upd s.cl p (.got n t) →
      s'.mine = s.mine → Cli s s' (.got p)
  | daemon (l) : allowed s.mine l = true → Server.step s.srv l = some s'.srv → s'.cl = s.cl → s'.mine = s.mine → Cli s s' (.daemon l)

theorem step_cli {s s' : St} {l : Label} (h : step s l = some s') : Cli s s' l := by
  cases l with
  | begin p n t =>
    simp only [step] at h
    split at h
    · rename_i hc; cases h; exact .begin p n t hc.1 hc.2 rfl rfl rfl
    · cases h
  | refused p =>
    simp only [step] at h
    split at h
    · rename_i n k d t hc
      split at h
      · rename_i hb; cases h; exact .refused p n k d t hc hb rfl rfl rfl
      · cases h
    · cases h
  | detach p =>
    simp only [step] at h
    split at h
    · rename_i n k hc
      split at h
      · rename_i v hv; cases h; exact .detach p n k hc hv rfl rfl
      · cases h
    · cases h
  | again p t =>
    simp only [step] at h
    split at h
    · rename_i n k hc
      split at h
      · rename_i hk; cases h; exact .again p n k t hc hk.1 hk.2 rfl rfl rfl
      · cases h
    · cases h
  | giveUp p =>
    simp only [step] at h
    split at h
    · rename_i n k hc
      split at h
      · rename_i hk; cases h; exact .giveUp p n k hc hk rfl rfl rfl
      · cases h
    · cases h
  | got p =>
    simp only [step] at h
    split at h
    · rename_i n k d t hc
      split at h
      · rename_i hb; cases h; exact .got p n k d t hc hb rfl rfl rfl
      · cases h
    · cases h
  | daemon k =>
    simp only [step] at h
    split at h
    · rename_i ha
      split at h
      · rename_i v hv; cases h; exact .daemon k ha hv rfl rfl
      · cases h
    · cases h

/-- The daemon's part of a step. -/
theorem srv_step {s s' : St} {l : Label} (h : Cli s s' l) :
    s'.srv = s.srv ∨ ∃ k, Server.step s.srv k = some s'.srv ∧ (l = .daemon k ∨ ∃ ns, k = .detach ns) := by
  cases h
  case detach h1 h2 h3 h4 => exact .inr ⟨_, h2, .inr ⟨_, rfl⟩⟩
  case daemon h1 h2 h3 h4 => exact .inr ⟨_, h2, .inl rfl⟩
  all_goals (left; assumption)

theorem inv_step {s s' : St} {l : Label} (hi : Server.Inv s.srv) (h : step s l = some s') : Server.Inv s'.srv := by
  rcases srv_step (step_cli h) with e | ⟨k, hk, -⟩
  · rw [e]; exact hi
  · exact Server.inv_step hi (Server.step_eff hk)

theorem inv_of_run {ls : List Label} {s : St} (h : Run ls s) : Server.Inv s.srv :=
  run_inv (I := fun s => Server.Inv s.srv) (fun _ _ _ hi hs => inv_step hi hs) Server.inv_init h

theorem done_stays {s s' : St} {l : Label} {t : Nat} {r : Server.Result} (h : Cli s s' l) (hd : s.srv.thr t = .done r) : s'.srv.thr t = .done r := by
  rcases srv_step h with e | ⟨k, hk, -⟩
  · rw [e]; exact hd
  · exact Background.done_stays hd hk

/-- Whose request a thread serves does not change, once it serves one. -/
theorem mine_stays {s s' : St} {l : Label} {t : Nat} {q : Nat × Name} (h : Cli s s' l) (hm : s.mine t = some q) : s'.mine t = some q := by
  cases h
  case begin p n u h1 h2 h3 h4 h5 =>
    have : t ≠ u := fun e => by subst e; rw [h2.2] at hm; cases hm
    rw [h5, Server.upd_ne _ _ this]; exact hm
  case again p n k u h1 h2 h3 h4 h5 h6 =>
    have : t ≠ u := fun e => by subst e; rw [h3.2] at hm; cases hm
    rw [h6, Server.upd_ne _ _ this]; exact hm
  all_goals
    rename_i hmm
    rw [hmm]; exact hm

/-! ## How often a client tries -/

/-- The requests of client `p` that were refused so far. -/
structure Refusals (s : St) (p : Nat) (n : Name) (us : List Nat) : Prop where
  nodup : us.Nodup
  mine : ∀ u ∈ us, s.mine u = some (p, n) ∧ s.srv.thr u = .done .busy

/-- What holds of each client. -/
def Count (s : St) : Prop :=
  ∀ p, match s.cl p with
    | .other => True
    | .waiting n k _ t => k ≤ 21 ∧ ∃ us, Refusals s p n us ∧ us.length = k ∧ t ∉ us ∧ s.mine t = some (p, n)
    | .told n k _ => k ≤ 21 ∧ ∃ us, Refusals s p n us ∧ us.length = k + 1
    | .got n t => s.mine t = some (p, n)
    | .failed n => ∃ us, Refusals s p n us ∧ us.length = 22

theorem refusals_step {s s' : St} {l : Label} {p : Nat} {n : Name} {us : List Nat} (h : Cli s s' l) (hr : Refusals s p n us) : Refusals s' p n us :=
  ⟨hr.nodup, fun u hu => ⟨mine_stays h (hr.mine u hu).1, done_stays h (hr.mine u hu).2⟩⟩

/-- A client that does not move keeps what it has. -/
theorem count_same {s s' : St} {l : Label} {p : Nat} (h : Cli s s' l) (hc : Count s) (he : s'.cl p = s.cl p) :
    match s'.cl p with
    | .other => True
    | .waiting n k _ t => k ≤ 21 ∧ ∃ us, Refusals s' p n us ∧ us.length = k ∧ t ∉ us ∧ s'.mine t = some (p, n)
    | .told n k _ => k ≤ 21 ∧ ∃ us, Refusals s' p n us ∧ us.length = k + 1
    | .got n t => s'.mine t = some (p, n)
    | .failed n => ∃ us, Refusals s' p n us ∧ us.length = 22 := by
  have := hc p
  rw [he]
  cases hcl : s.cl p <;> simp only [hcl] at this ⊢
  · obtain ⟨h1, us, h2, h3, h4, h5⟩ := this
    exact ⟨h1, us, refusals_step h h2, h3, h4, mine_stays h h5⟩
  · obtain ⟨h1, us, h2, h3⟩ := this
    exact ⟨h1, us, refusals_step h h2, h3⟩
  · exact mine_stays h this
  · obtain ⟨us, h2, h3⟩ := this
    exact ⟨us, refusals_step h h2, h3⟩

theorem count_step {s s' : St} {l : Label} (hc : Count s) (h : Cli s s' l) : Count s' := by
  intro q
  by_cases he : s'.cl q = s.cl q
  · exact count_same h hc he
  · have hcl := h
    cases hcl
    case begin p n t h1 h2 h3 h4 h5 =>
      have : q = p := Classical.byContradiction fun e => he (by rw [h4, Server.upd_ne _ _ e])
      subst this
      simp only [h4, Server.upd_self]
      exact ⟨by omega, [], ⟨List.nodup_nil, nofun⟩, rfl, nofun, by rw [h5, Server.upd_self]⟩
    case refused p n k d t h1 h2 h3 h4 h5 =>
      have : q = p := Classical.byContradiction fun e => he (by rw [h4, Server.upd_ne _ _ e])
      subst this
      have hq := hc q
      simp only [h1] at hq
      obtain ⟨k1, us, k2, k3, k4, k5⟩ := hq
      simp only [h4, Server.upd_self]
      have k2' := refusals_step h k2
      refine ⟨k1, t :: us, ⟨List.nodup_cons.mpr ⟨k4, k2'.nodup⟩, fun u hu => ?_⟩, by simp [k3]⟩
      rcases List.mem_cons.mp hu with e | hu
      · subst e
        exact ⟨mine_stays h k5, done_stays h h2⟩
      · exact k2'.mine u hu
    case detach p n k h1 h2 h3 h4 =>
      have : q = p := Classical.byContradiction fun e => he (by rw [h3, Server.upd_ne _ _ e])
      subst this
      have hq := hc q
      simp only [h1] at hq
      obtain ⟨k1, us, k2, k3⟩ := hq
      simp only [h3, Server.upd_self]
      exact ⟨k1, us, refusals_step h k2, k3⟩
    case again p n k t h1 h2 h3 h4 h5 h6 =>
      have : q = p := Classical.byContradiction fun e => he (by rw [h5, Server.upd_ne _ _ e])
      subst this
      have hq := hc q
      simp only [h1] at hq
      obtain ⟨k1, us, k2, k3⟩ := hq
      simp only [h5, Server.upd_self]
      refine ⟨by omega, us, refusals_step h k2, k3, fun hm => ?_, by rw [h6, Server.upd_self]⟩
      have := (k2.mine t hm).1
      rw [h3.2] at this
      cases this
    case giveUp p n k h1 h2 h3 h4 h5 =>
      have : q = p := Classical.byContradiction fun e => he (by rw [h4, Server.upd_ne _ _ e])
      subst this
      have hq := hc q
      simp only [h1] at hq
      obtain ⟨k1, us, k2, k3⟩ := hq
      simp only [h4, Server.upd_self]
      exact ⟨us, refusals_step h k2, by omega⟩
    case got p n k d t h1 h2 h3 h4 h5 =>
      have : q = p := Classical.byContradiction fun e => he (by rw [h4, Server.upd_ne _ _ e])
      subst this
      have hq := hc q
      simp only [h1] at hq
      obtain ⟨k1, us, k2, k3, k4, k5⟩ := hq
      simp only [h4, Server.upd_self]
      exact mine_stays h k5
    case daemon h1 h2 h3 h4 => exact absurd (by rw [h3]) he

theorem count_of_run {ls : List Label} {s : St} (h : Run ls s) : Count s :=
  run_inv (I := Count) (fun _ _ _ hi hs => count_step hi (step_cli hs)) (fun _ => trivial) h

/-- **C152** (tries).  A client that has given up has had twenty-two requests for that session refused. -/
theorem C152_tries {ls : List Label} {s : St} (h : Run ls s) {p : Nat} {n : Name} (hf : s.cl p = .failed n) :
    ∃ us : List Nat, us.Nodup ∧ us.length = 22 ∧ ∀ u ∈ us, s.mine u = some (p, n) ∧ s.srv.thr u = .done .busy := by
  have := count_of_run h p
  simp only [hf] at this
  obtain ⟨us, h1, h2⟩ := this
  exact ⟨us, h1.nodup, h2, h1.mine⟩

/-- A client whose session stays with request 0, although detached, gives up. -/
def inVain : List Label :=
  before ++ [.daemon (.select 1 a false), .refused 7, .detach 7] ++
    ((List.range 21).flatMap fun i => [.again 7 (i + 2), .daemon (.select (i + 2) a false), .refused 7]) ++ [.giveUp 7]

example : ∃ s, Run inVain s ∧ s.cl 7 = .failed a ∧ s.mine 22 = some (7, a) ∧ s.mine 23 = none := ⟨_, rfl, rfl, rfl, rfl⟩

/-! ## Who keeps a client out -/

/-- A client has one request under way at a time: the others were refused. -/
def Own (s : St) : Prop :=
  ∀ u p m, s.mine u = some (p, m) → s.srv.thr u = .done .busy ∨ (∃ k d, s.cl p = .waiting m k d u) ∨ s.cl p = .got m u

theorem own_step {s s' : St} {l : Label} (ho : Own s) (h : Cli s s' l) : Own s' := by
  intro u q m hm
  have hd : s.srv.thr u = .done .busy → s'.srv.thr u = .done .busy := done_stays h
  cases h
  case begin p n t h1 h2 h3 h4 h5 =>
    rw [h5] at hm
    rw [h4, h3]
    by_cases hu : u = t
    · subst hu
      rw [Server.upd_self] at hm
      cases hm
      exact .inr (.inl ⟨_, _, by rw [Server.upd_self]⟩)
    · rw [Server.upd_ne _ _ hu] at hm
      have := ho u q m hm
      by_cases hq : q = p
      · subst hq
        rw [h1] at this
        simp at this
        exact .inl this
      · rw [Server.upd_ne _ _ hq]
        exact this
  case refused p n k d t h1 h2 h3 h4 h5 =>
    rw [h5] at hm
    rw [h4, h3]
    have := ho u q m hm
    by_cases hq : q = p
    · subst hq
      rw [h1] at this
      rcases this with e | ⟨_, _, e⟩ | e
      · exact .inl e
      · cases e; exact .inl h2
      · cases e
    · rw [Server.upd_ne _ _ hq]
      exact this
  case detach p n k h1 h2 h3 h4 =>
    rw [h4] at hm
    rw [h3]
    have := ho u q m hm
    by_cases hq : q = p
    · subst hq
      rw [h1] at this
      simp at this
      exact .inl (hd this)
    · rw [Server.upd_ne _ _ hq]
      rcases this with e | e
      · exact .inl (hd e)
      · exact .inr e
  case again p n k t h1 h2 h3 h4 h5 h6 =>
    rw [h6] at hm
    rw [h5, h4]
    by_cases hu : u = t
    · subst hu
      rw [Server.upd_self] at hm
      cases hm
      exact .inr (.inl ⟨_, _, by rw [Server.upd_self]⟩)
    · rw [Server.upd_ne _ _ hu] at hm
      have := ho u q m hm
      by_cases hq : q = p
      · subst hq
        rw [h1] at this
        simp at this
        exact .inl this
      · rw [Server.upd_ne _ _ hq]
        exact this
  case giveUp p n k h1 h2 h3 h4 h5 =>
    rw [h5] at hm
    rw [h4, h3]
    have := ho u q m hm
    by_cases hq : q = p
    · subst hq
      rw [h1] at this
      simp at this
      exact .inl this
    · rw [Server.upd_ne _ _ hq]
      exact this
  case got p n k d t h1 h2 h3 h4 h5 =>
    rw [h5] at hm
    rw [h4, h3]
    have := ho u q m hm
    by_cases hq : q = p
    · subst hq
      rw [h1] at this
      rcases this with e | ⟨_, _, e⟩ | e
      · exact .inl e
      · cases e; exact .inr (.inr (by rw [Server.upd_self]))
      · cases e
    · rw [Server.upd_ne _ _ hq]
      exact this
  case daemon l h1 h2 h3 h4 =>
    rw [h4] at hm
    rw [h3]
    rcases ho u q m hm with e | e
    · exact .inl (hd e)
    · exact .inr e

theorem own_of_run {ls : List Label} {s : St} (h : Run ls s) : Own s :=
  run_inv (I := Own) (fun _ _ _ hi hs => own_step hi (step_cli hs)) (fun u p m hm => by cases hm) h

/-- The request of a client that has not been taken up is its only one that was not refused. -/
theorem own_idle {s : St} (ho : Own s) {t u p : Nat} {m n : Name} (ht : s.mine t = some (p, n)) (hi : s.srv.thr t = .idle)
    (hu : s.mine u = some (p, m)) : u = t ∨ s.srv.thr u = .done .busy := by
  rcases ho t p n ht with e | ⟨_, _, e⟩ | e
  · rw [hi] at e; cases e
  · rcases ho u p m hu with e' | ⟨_, _, e'⟩ | e'
    · exact .inr e'
    · rw [e] at e'; cases e'; exact .inl rfl
    · rw [e] at e'; cases e'
  · rcases ho u p m hu with e' | ⟨_, _, e'⟩ | e'
    · exact .inr e'
    · rw [e] at e'; cases e'
    · rw [e] at e'; cases e'; exact .inl rfl

set_option maxHeartbeats 2000000 in
/-- The daemon works on; all further requests for `n` are of the set `M`. -/
theorem sole_srv {M : Nat → Prop} {n : Name} {o x : Nat} {s s' : Server.St} {k : Server.Label} (hi : Server.Inv s)
    (hb : s.thr o ≠ .idle) (hy : ∀ y, (s.thr o).holds y → y = x) (hl : (s.thr o).creates = none)
    (hc : ∀ u, ¬ M u → (s.thr u).creates ≠ some n)
    (hf : ∀ u y, ¬ M u → find n s.table = some y → (s.thr u).holds y → u = o) (hk : ∀ u j, k = .select u n j → M u) (hs : Server.step s k = some s') :
    (∀ y, (s'.thr o).holds y → y = x) ∧ (s'.thr o).creates = none ∧ (∀ u, ¬ M u → (s'.thr u).creates ≠ some n) ∧
      ∀ u y, ¬ M u → find n s'.table = some y → (s'.thr u).holds y → u = o := by
  have he := Server.step_eff hs
  obtain ⟨a1, a2, a3, a4, a5, a6, a7, a8, a9, a10, a11, a12⟩ := hi
  have hk' : ∀ u m j, k = .select u m j → m ≠ n ∨ M u := fun u m j e => by
    by_cases hm : m = n
    · subst hm; exact .inr (hk u j e)
    · exact .inl hm
  have y1 : ∀ m y, s.thr o = .owns m y → y = x := fun m y e => hy y (by rw [e]; rfl)
  have y2 : ∀ m y, s.thr o = .streaming m y → y = x := fun m y e => hy y (by rw [e]; rfl)
  have y3 : ∀ m y b, s.thr o = .ending m y b → y = x := fun m y b e => hy y (by rw [e]; rfl)
  have y4 : ∀ y, s.thr o = .leaving y → y = x := fun y e => hy y (by rw [e]; rfl)
  clear hs hk
  cases he
  case fresh u m j _ _ _ =>
    have := hk' u m j rfl
    clear hk'
    simp only [Server.setThr, Server.upd_apply]
    refine ⟨?_, ?_, ?_, ?_⟩ <;> grind [Phase.creates, Phase.holds]
  case busy u m j _ _ _ _ _ _ =>
    have := hk' u m j rfl
    clear hk'
    simp only [Server.setThr, Server.upd_apply]
    refine ⟨?_, ?_, ?_, ?_⟩ <;> grind [Phase.creates, Phase.holds]
  case reattach u m j _ _ _ _ _ _ _ =>
    have := hk' u m j rfl
    clear hk'
    simp only [Server.setThr, Server.setSess, Server.upd_apply]
    refine ⟨?_, ?_, ?_, ?_⟩ <;> grind [Phase.creates, Phase.holds]
  case clobber u m j _ _ _ _ _ _ _ _ _ =>
    have := hk' u m j rfl
    clear hk'
    simp only [Server.setThr, Server.setSess, Server.upd_apply]
    refine ⟨?_, ?_, ?_, ?_⟩ <;> grind [Phase.creates, Phase.holds]
  case stale u m j _ _ _ _ _ _ _ _ _ _ =>
    have := hk' u m j rfl
    clear hk'
    simp only [Server.setThr, Server.setSess, Server.upd_apply]
    refine ⟨?_, ?_, ?_, ?_⟩ <;> grind [Phase.creates, Phase.holds]
  case kill names fail h =>
    rw [Server.kill_thr]
    refine ⟨hy, hl, hc, fun u y hu hx => ?_⟩
    refine hf u y hu ?_
    rcases Server.kill_find s names fail n with e | ⟨e, -⟩ <;> rw [e] at hx
    · exact hx
    · cases hx
  case detach names h => exact ⟨hy, hl, hc, hf⟩
  all_goals
    (try simp only [Server.setThr, Server.setSess, Server.upd_apply, Server.find_insert, Server.find_erase])
    refine ⟨?_, ?_, ?_, ?_⟩ <;> grind [Phase.creates, Phase.holds]

/-- Request `u` is none of client `p`'s. -/
def NotOf (p : Nat) (s : St) (u : Nat) : Prop := ∀ m, s.mine u ≠ some (p, m)

/-- Since request `o` was found having session `x` nobody but client `p` asks for `n`. -/
structure Sole (p : Nat) (n : Name) (o x : Nat) (s : St) : Prop where
  inv : Server.Inv s.srv
  own : Own s
  begun : s.srv.thr o ≠ .idle
  other : NotOf p s o
  only : ∀ y, (s.srv.thr o).holds y → y = x
  late : (s.srv.thr o).creates = none
  creating : ∀ u, NotOf p s u → (s.srv.thr u).creates ≠ some n
  free : ∀ u y, NotOf p s u → find n s.srv.table = some y → (s.srv.thr u).holds y → u = o

/-- A thread that served none of `p`'s requests and now serves one had not begun. -/
theorem notOf_step {s s' : St} {l : Label} {p u : Nat} (h : Cli s s' l) (hn : NotOf p s u) : NotOf p s' u ∨ s.srv.thr u = .idle := by
  cases h
  case begin q n t h1 h2 h3 h4 h5 =>
    by_cases hu : u = t
    · subst hu; exact .inr h2.1
    · exact .inl fun m => by rw [h5, Server.upd_ne _ _ hu]; exact hn m
  case again q n k t h1 h2 h3 h4 h5 h6 =>
    by_cases hu : u = t
    · subst hu; exact .inr h3.1
    · exact .inl fun m => by rw [h6, Server.upd_ne _ _ hu]; exact hn m
  all_goals
    rename_i hmm
    exact .inl fun m => by rw [hmm]; exact hn m

theorem notOf_back {s s' : St} {l : Label} {p u : Nat} (h : Cli s s' l) (hn : NotOf p s' u) : NotOf p s u :=
  fun m hm => hn m (mine_stays h hm)

theorem begun_stays {s s' : St} {l : Label} {t : Nat} (h : Cli s s' l) (hd : s.srv.thr t ≠ .idle) : s'.srv.thr t ≠ .idle := by
  rcases srv_step h with e | ⟨k, hk, -⟩
  · rw [e]; exact hd
  · exact Background.begun_stays hd hk

theorem sole_step {p : Nat} {n : Name} {o x : Nat} {s s' : St} {l : Label} (hS : Sole p n o x s) (h : step s l = some s')
    (hl : ∀ u j, l = .daemon (.select u n j) → ¬ NotOf p s u) : Sole p n o x s' := by
  have hc := step_cli h
  have key : (∀ y, (s'.srv.thr o).holds y → y = x) ∧ (s'.srv.thr o).creates = none ∧ (∀ u, NotOf p s u → (s'.srv.thr u).creates ≠ some n) ∧
      ∀ u y, NotOf p s u → find n s'.srv.table = some y → (s'.srv.thr u).holds y → u = o := by
    rcases srv_step hc with e | ⟨k, hk, hk'⟩
    · rw [e]; exact ⟨hS.only, hS.late, hS.creating, hS.free⟩
    · have := sole_srv (M := fun u => ¬ NotOf p s u) hS.inv hS.begun hS.only hS.late (fun u hu => hS.creating u (Classical.not_not.mp hu))
        (fun u y hu => hS.free u y (Classical.not_not.mp hu)) (fun u j e => by
          subst e
          rcases hk' with e | ⟨_, e⟩
          · exact hl u j e
          · cases e) hk
      exact ⟨this.1, this.2.1, fun u hu => this.2.2.1 u (Classical.not_not.mpr hu), fun u y hu => this.2.2.2 u y (Classical.not_not.mpr hu)⟩
  exact ⟨inv_step hS.inv h, own_step hS.own hc, begun_stays hc hS.begun, (notOf_step hc hS.other).resolve_right hS.begun, key.1, key.2.1,
    fun u hu => key.2.2.1 u (notOf_back hc hu), fun u y hu => key.2.2.2 u y (notOf_back hc hu)⟩

/-- Only a session someone has is refused. -/
theorem refused_held {s s' : Server.St} {t : Nat} {n : Name} {j : Bool} (h : Server.step s (.select t n j) = some s') (hb : s'.thr t = .done .busy) :
    s.thr t = .idle ∧ ∃ y w, find n s.table = some y ∧ (s.sess y).owner = some w := by
  have he := Server.step_eff h
  clear h
  cases he
  case busy y w h1 h2 h3 h4 =>
    exact ⟨by assumption, y, w, by assumption, by assumption⟩
  all_goals
    (simp only [Server.setThr, Server.setSess, Server.upd_apply] at hb) <;> grind

theorem daemon_step {s s' : St} {k : Server.Label} (h : step s (.daemon k) = some s') : Server.step s.srv k = some s'.srv := by
  cases step_cli h with
  | daemon _ _ h2 _ _ => exact h2

/-- **C152**, as long as from the moment client `p` finds that request `o` has the session nobody else asks for that name (is creating a session
at that moment, or is taken up later): whenever a later request of `p` for that name is refused, `o` still has the very same session. -/
theorem C152_same_partial {ls ls' : List Label} {s0 s s' : St} {p t t' o x : Nat} {n : Name} {j j' : Bool} (h0 : Run ls s0)
    (hm : s0.mine t = some (p, n)) (hf : find n s0.srv.table = some x) (ho : (s0.srv.thr o).holds x)
    (hq : ∀ u, (s0.srv.thr u).creates ≠ some n) (h : runSteps step s0 (.daemon (.select t n j) :: ls') = some s)
    (hl : ∀ u i, .daemon (.select u n i) ∈ ls' → s.mine u = some (p, n)) (hm' : s.mine t' = some (p, n))
    (hs : step s (.daemon (.select t' n j')) = some s') (hb : s'.srv.thr t' = .done .busy) :
    (s.srv.thr o).holds x ∧ find n s.srv.table = some x := by
  have hI := inv_of_run h0
  have hO := own_of_run h0
  have hidle : s0.srv.thr t = .idle := by
    obtain ⟨s1, h1, -⟩ := run_cons_some h
    have := daemon_step h1
    simp only [Server.step] at this
    split at this
    · rename_i hc; exact hc.1
    · cases this
  have hno : NotOf p s0 o := fun m hm2 => by
    rcases own_idle hO hm hidle hm2 with e | e
    · subst e; rw [hidle] at ho; exact ho
    · rw [e] at ho; exact ho
  have honly : ∀ y, (s0.srv.thr o).holds y → y = x := fun y hy => by
    have e1 := (hI.own o x).mp ho
    cases hp : s0.srv.thr o <;> rw [hp] at hy ho <;> first | exact hy.symm.trans ho | exact ho.elim
  have hlate : (s0.srv.thr o).creates = none := by
    cases hp : s0.srv.thr o <;> rw [hp] at ho <;> first | rfl | exact ho.elim
  have hS0 : Sole p n o x s0 := ⟨hI, hO, fun e => by rw [e] at ho; exact ho, hno, honly, hlate, fun u _ => hq u, fun u y _ hy hu => by
      rw [hf] at hy
      cases hy
      have e1 := (hI.own u x).mp hu
      rw [(hI.own o x).mp ho] at e1
      exact (Option.some.inj e1).symm⟩
  have hl' : ∀ u i, Label.daemon (.select u n i) ∈ (.daemon (.select t n j) :: ls') → s.mine u = some (p, n) := by
    intro u i hmem
    rcases List.mem_cons.mp hmem with e | e
    · cases e
      exact run_inv (I := fun s => s.mine t = some (p, n)) (fun _ _ _ hi h3 => mine_stays (step_cli h3) hi) hm h
    · exact hl u i e
  have hS : Sole p n o x s := by
    clear hf ho hq hidle hno honly hlate hO hI h0 hm hl
    generalize (Label.daemon (.select t n j) :: ls') = L at h hl'
    induction L generalizing s0 with
    | nil => cases h; exact hS0
    | cons l L ih =>
      obtain ⟨s1, h1, h2⟩ := run_cons_some h
      refine ih (sole_step hS0 h1 fun u i e hn => ?_) h2 (fun u i hmem => hl' u i (List.mem_cons_of_mem _ hmem))
      -- were it somebody else's request, it would still be in the end
      have hfin := hl' u i (by rw [e]; exact List.mem_cons_self)
      have hn1 : NotOf p s1 u ∧ s1.srv.thr u ≠ .idle := by
        subst e
        refine ⟨fun m => ?_, ?_⟩
        · cases step_cli h1 with
          | daemon _ _ _ _ h4 => rw [h4]; exact hn m
        · have he := Server.step_eff (daemon_step h1)
          generalize s1.srv = w at he
          cases he <;> simp only [Server.setThr, Server.setSess, Server.upd_apply] <;> grind
      have : NotOf p s u := (run_inv (I := fun s => NotOf p s u ∧ s.srv.thr u ≠ .idle) (fun _ _ _ hi h3 =>
        ⟨(notOf_step (step_cli h3) hi.1).resolve_right hi.2, begun_stays (step_cli h3) hi.2⟩) hn1 h2).1
      exact this n hfin
  obtain ⟨k1, y, w, k2, k3⟩ := refused_held (daemon_step hs) hb
  have hw := (hS.inv.own w y).mpr k3
  have hnw : NotOf p s w := fun m hm2 => by
    rcases own_idle hS.own hm' k1 hm2 with e | e
    · subst e; rw [k1] at hw; exact hw
    · rw [e] at hw; exact hw
  have := hS.free w y hnw k2 hw
  subst this
  have hyx := hS.only y hw
  subst hyx
  exact ⟨hw, k2⟩

/-- The one that was attached takes its time; the client's second request is refused too. -/
example : ∃ s0 s s', Run before s0 ∧ s0.mine 1 = some (7, a) ∧ find a s0.srv.table = some 0 ∧ (s0.srv.thr 0).holds 0 ∧
    runSteps step s0 [.daemon (.select 1 a false), .refused 7, .detach 7, .again 7 3] = some s ∧ s.mine 3 = some (7, a) ∧
    step s (.daemon (.select 3 a false)) = some s' ∧ s'.srv.thr 3 = .done .busy ∧ (s.srv.sess 0).conn = false :=
  ⟨_, _, _, rfl, rfl, rfl, rfl, rfl, rfl, rfl, rfl, rfl⟩

/-- A step of client `p`. -/
def ofClient (p : Nat) : Label → Bool
  | .begin q _ _ | .refused q | .detach q | .again q _ | .giveUp q | .got q => q == p
  | .daemon _ => false

/-- A request of client `p`. -/
def asks (p : Nat) : Label → Bool
  | .begin q _ _ | .again q _ => q == p
  | _ => false

private def Steps (p : Nat) (ls : List Label) (s : St) : Prop :=
  match s.cl p with
  | .other => (ls.filter (ofClient p)).length = 0 ∧ (ls.filter (asks p)).length = 0
  | .waiting _ k d _ => (ls.filter (asks p)).length = k + 1 ∧ (ls.filter (ofClient p)).length = 2 * k + 1 + d.toNat ∧ k ≤ 21
  | .told _ k d => (ls.filter (asks p)).length = k + 1 ∧ (ls.filter (ofClient p)).length = 2 * k + 2 + d.toNat ∧ k ≤ 21
  | .got _ _ | .failed _ => (ls.filter (asks p)).length ≤ 22 ∧ (ls.filter (ofClient p)).length ≤ 46

/-- **C152** (bound).  A client makes at most twenty-two requests, and at most forty-six steps in all: it does not try for ever. -/
theorem C152_bound {ls : List Label} {s : St} (h : Run ls s) (p : Nat) :
    (ls.filter (asks p)).length ≤ 22 ∧ (ls.filter (ofClient p)).length ≤ 46 := by
  have key : Steps p ls s := by
    refine run_hist (step := step) (s := init) (I := Steps p) (fun ls s l s' hI hs => ?_) ⟨rfl, rfl⟩ h
    have hb : ∀ d : Bool, d.toNat ≤ 1 := by decide
    have other : ofClient p l = false → asks p l = false → s'.cl p = s.cl p → Steps p (ls ++ [l]) s' := by
      intro h1 h2 h3
      unfold Steps at hI ⊢
      rw [h3]
      simpa [List.filter_append, h1, h2] using hI
    cases step_cli hs with
    | begin q n t h1 h2 h3 h4 h5 =>
      by_cases e : p = q
      · subst e
        simp only [Steps, h1] at hI
        simp only [Steps, h4, Server.upd_apply, if_true, List.filter_append, List.length_append, hI.1, hI.2]
        simp [ofClient, asks]
      · exact other (by simp [ofClient, Ne.symm e]) (by simp [asks, Ne.symm e]) (by rw [h4, Server.upd_ne _ _ e])
    | refused q n k d t h1 h2 h3 h4 h5 =>
      by_cases e : p = q
      · subst e
        simp [Steps, h1] at hI
        simp [Steps, h4, Server.upd_apply, List.filter_append, ofClient, asks, hI]
        omega
      · exact other (by simp [ofClient, Ne.symm e]) rfl (by rw [h4, Server.upd_ne _ _ e])
    | detach q n k h1 h2 h3 h4 =>
      by_cases e : p = q
      · subst e
        simp [Steps, h1] at hI
        simp [Steps, h3, Server.upd_apply, List.filter_append, ofClient, asks, hI]
      · exact other (by simp [ofClient, Ne.symm e]) rfl (by rw [h3, Server.upd_ne _ _ e])
    | again q n k t h1 h2 h3 h4 h5 h6 =>
      by_cases e : p = q
      · subst e
        simp [Steps, h1] at hI
        simp [Steps, h5, Server.upd_apply, List.filter_append, ofClient, asks, hI]
        omega
      · exact other (by simp [ofClient, Ne.symm e]) (by simp [asks, Ne.symm e]) (by rw [h5, Server.upd_ne _ _ e])
    | giveUp q n k h1 h2 h3 h4 h5 =>
      by_cases e : p = q
      · subst e
        simp [Steps, h1] at hI
        simp [Steps, h4, Server.upd_apply, List.filter_append, ofClient, asks, hI]
        omega
      · exact other (by simp [ofClient, Ne.symm e]) rfl (by rw [h4, Server.upd_ne _ _ e])
    | got q n k d t h1 h2 h3 h4 h5 =>
      by_cases e : p = q
      · subst e
        have := hb d
        simp [Steps, h1] at hI
        simp [Steps, h4, Server.upd_apply, List.filter_append, ofClient, asks, hI]
        omega
      · exact other (by simp [ofClient, Ne.symm e]) rfl (by rw [h4, Server.upd_ne _ _ e])
    | daemon k h1 h2 h3 h4 => exact other rfl rfl (by rw [h3])
  unfold Steps at key
  have hb : ∀ d : Bool, d.toNat ≤ 1 := by decide
  split at key
  · omega
  · next d _ _ => have := hb d; omega
  · next d _ => have := hb d; omega
  · exact key
  · exact key

/-- **C152** (free).  A request for a session that nobody has is not refused. -/
theorem C152_free {ls : List Label} {s s' : St} {t : Nat} {n : Name} {j : Bool} (h : Run ls s) (hs : step s (.daemon (.select t n j)) = some s')
    (hn : ∀ x u, find n s.srv.table = some x → ¬ (s.srv.thr u).holds x) : s'.srv.thr t ≠ .done .busy := by
  intro hb
  obtain ⟨-, y, w, h1, h2⟩ := refused_held (daemon_step hs) hb
  exact hn y w h1 (((inv_of_run h).own w y).mpr h2)

/-- **C152**, exactly: a request is refused iff some request, whichever, has the session of that name at that moment; so what a client that gives up says of the
terminal it was to replace is true iff that request is the one that was found at first. -/
theorem C152_exact {ls : List Label} {s s' : St} {t : Nat} {n : Name} {j : Bool} (h : Run ls s) (hs : step s (.daemon (.select t n j)) = some s') :
    (s'.srv.thr t = .done .busy ↔ ∃ x u, find n s.srv.table = some x ∧ (s.srv.thr u).holds x) ∧
    ∀ o x, (s.srv.thr o).holds x → find n s.srv.table = some x → ∀ u, (s.srv.thr u).holds x → u = o := by
  have hI := inv_of_run h
  refine ⟨⟨fun hb => ?_, ?_⟩, fun o x ho _ u hu => ?_⟩
  · obtain ⟨-, y, w, h1, h2⟩ := refused_held (daemon_step hs) hb
    exact ⟨y, w, h1, (hI.own w y).mpr h2⟩
  · rintro ⟨x, u, hf, hu⟩
    have ho := (hI.own u x).mp hu
    have hd := daemon_step hs
    simp only [Server.step] at hd
    split at hd
    · have := Option.some.inj hd
      rw [← this]
      simp [Server.select, hf, ho, Server.setThr, Server.upd_apply]
    · cases hd
  · have h1 := (hI.own u x).mp hu
    have h2 := (hI.own o x).mp ho
    rw [h1] at h2
    exact Option.some.inj h2

/-- The one that was attached leaves; the client's second request gets the session. -/
example : ∃ s, Run (before ++ [.daemon (.select 1 a false), .refused 7, .detach 7, .daemon (.clientGone 0), .daemon (.unlink 0), .daemon (.release 0), .again 7 3,
    .daemon (.select 3 a false), .got 7]) s ∧ s.cl 7 = .got a 3 ∧ (s.srv.sess 0).owner = some 3 := ⟨_, rfl, rfl, rfl⟩

/-! ## Which session it has -/

theorem about_of_run {ls : List Label} {s : St} (h : Run ls s) : ∀ t p n, s.mine t = some (p, n) → Server.About s.srv n (s.srv.thr t) := by
  refine (run_inv (I := fun s => Server.Inv s.srv ∧ ∀ t p n, s.mine t = some (p, n) → Server.About s.srv n (s.srv.thr t))
    (fun s l s' hI hs => ⟨inv_step hI.1 hs, ?_⟩) ⟨Server.inv_init, fun t p n h => by simp [init] at h⟩ h).2
  obtain ⟨hi, hA⟩ := hI
  intro t p n hn
  cases step_cli hs
  case begin q m u h1 h2 h3 h4 h5 =>
    rw [h5] at hn; rw [h3]
    by_cases hu : t = u
    · subst hu; rw [h2.1]; trivial
    · rw [Server.upd_ne _ _ hu] at hn; exact hA t p n hn
  case again q m k u h1 h2 h3 h4 h5 h6 =>
    rw [h6] at hn; rw [h4]
    by_cases hu : t = u
    · subst hu; rw [h3.1]; trivial
    · rw [Server.upd_ne _ _ hu] at hn; exact hA t p n hn
  case refused h1 h2 h3 h4 h5 => rw [h5] at hn; rw [h3]; exact hA t p n hn
  case giveUp h1 h2 h3 h4 h5 => rw [h5] at hn; rw [h3]; exact hA t p n hn
  case got h1 h2 h3 h4 h5 => rw [h5] at hn; rw [h3]; exact hA t p n hn
  case detach h1 h2 h3 h4 =>
    rw [h4] at hn
    exact Server.about_step hi (Server.step_eff h2) (hA t p n hn) (by simp)
  case daemon k h1 h2 h3 h4 =>
    rw [h4] at hn
    refine Server.about_step hi (Server.step_eff h2) (hA t p n hn) (fun m j e => ?_)
    subst e
    simp only [allowed, hn, beq_iff_eq] at h1
    exact h1.symm

/-- The request by which a client has got its session is its own. -/
theorem got_mine {ls : List Label} {s : St} (h : Run ls s) : ∀ p n t,
    (s.cl p = .got n t ∨ ∃ k d, s.cl p = .waiting n k d t) → s.mine t = some (p, n) := by
  refine run_inv (I := fun s => ∀ p n t, (s.cl p = .got n t ∨ ∃ k d, s.cl p = .waiting n k d t) → s.mine t = some (p, n))
    (fun s l s' hI hs => ?_) (fun p n t h => by simp [init] at h) h
  intro p n t hp
  have key : ∀ q (c : Cl) (_ : s'.cl = Server.upd s.cl q c), (s'.cl p = c ∧ p = q) ∨ s'.cl p = s.cl p := by
    intro q c hc
    by_cases hu : p = q
    · subst hu; exact .inl ⟨by rw [hc, Server.upd_self], rfl⟩
    · exact .inr (by rw [hc, Server.upd_ne _ _ hu])
  have keep : ∀ q m u (_ : s.mine u = none) (_ : s'.mine = Server.upd s.mine u (some (q, m))),
      s.mine t = some (p, n) → s'.mine t = some (p, n) := by
    intro q m u h0 hm h1
    rw [hm, Server.upd_ne _ _ (by rintro rfl; rw [h0] at h1; cases h1)]; exact h1
  cases step_cli hs
  case begin q m u h1 h2 h3 h4 h5 =>
    rcases key _ _ h4 with ⟨e, rfl⟩ | e <;> rw [e] at hp
    · simp only [reduceCtorEq, false_or, Cl.waiting.injEq] at hp
      obtain ⟨_, _, rfl, -, -, rfl⟩ := hp
      rw [h5, Server.upd_self]
    · exact keep _ _ _ h2.2 h5 (hI p n t hp)
  case again q m k u h1 h2 h3 h4 h5 h6 =>
    rcases key _ _ h5 with ⟨e, rfl⟩ | e <;> rw [e] at hp
    · simp only [reduceCtorEq, false_or, Cl.waiting.injEq] at hp
      obtain ⟨_, _, rfl, -, -, rfl⟩ := hp
      rw [h6, Server.upd_self]
    · exact keep _ _ _ h3.2 h6 (hI p n t hp)
  case refused h1 h2 h3 h4 h5 =>
    rw [h5]
    rcases key _ _ h4 with ⟨e, rfl⟩ | e <;> rw [e] at hp
    · simp at hp
    · exact hI p n t hp
  case giveUp h1 h2 h3 h4 h5 =>
    rw [h5]
    rcases key _ _ h4 with ⟨e, rfl⟩ | e <;> rw [e] at hp
    · simp at hp
    · exact hI p n t hp
  case detach h1 h2 h3 h4 =>
    rw [h4]
    rcases key _ _ h3 with ⟨e, rfl⟩ | e <;> rw [e] at hp
    · simp at hp
    · exact hI p n t hp
  case got q k d u h1 h2 h3 h4 h5 =>
    rw [h5]
    rcases key _ _ h4 with ⟨e, rfl⟩ | e <;> rw [e] at hp
    · simp only [Cl.got.injEq, reduceCtorEq, exists_const, or_false] at hp
      obtain ⟨rfl, rfl⟩ := hp
      exact hI _ _ _ (.inr ⟨_, _, h1⟩)
    · exact hI p n t hp
  case daemon h1 h2 h3 h4 => rw [h4]; rw [h3] at hp; exact hI p n t hp

/-- **C152** (which).  The session a client has got is of the name it wanted. -/
theorem C152_which {ls : List Label} {s : St} {p t x : Nat} {n : Name} (h : Run ls s) (hc : s.cl p = .got n t)
    (hx : (s.srv.sess x).owner = some t) : (s.srv.sess x).name = n := by
  have hA := about_of_run h t p n (got_mine h p n t (.inl hc))
  have hh := ((inv_of_run h).own t x).mpr hx
  cases hp : s.srv.thr t <;> simp only [hp, Server.Phase.holds] at hh <;> subst hh <;> rw [hp] at hA <;> exact hA

/-- The one that was attached leaves; the client's second request gets session `a`. -/
example : ∃ s, Run (before ++ [.daemon (.select 1 a false), .refused 7, .detach 7, .daemon (.clientGone 0), .daemon (.unlink 0), .daemon (.release 0), .again 7 3,
    .daemon (.select 3 a false), .got 7]) s ∧ s.cl 7 = .got a 3 ∧ (s.srv.sess 0).owner = some 3 ∧ (s.srv.sess 0).name = a := ⟨_, rfl, rfl, rfl, rfl⟩

end Shpool.Force
