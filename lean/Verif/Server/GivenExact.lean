import Verif.Server.LostExact
/-! # C44 and C50, exactly: to whose client a session's output goes, and whom its record shows -/

namespace Shpool.Server
open Shpool

/-- Spec: in the step, the request `t` is given the session `x` for its client: it has just made it, or it has found it running under the name
it asks for, and nobody has it. -/
def Given (s : St) (l : Label) (t x : Nat) : Prop :=
  (∃ n, l = .spawn t ∧ s.thr t = .making n ∧ x = s.next) ∨
  (∃ n j, l = .select t n j ∧ find n s.table = some x ∧ (s.sess x).owner = none ∧ (s.sess x).alive = true)

/-- Spec: a detach request for these names gets to the session `x` while its client is connected: all sessions up to it have their thread. -/
def Reaches (tb : Table) (σ : Nat → Sess) (x : Nat) : List Name → Prop
  | [] => False
  | n :: ns => match find n tb with
    | none => Reaches tb σ x ns
    | some y => (σ y).s2c = true ∧ ((y = x ∧ (σ x).conn = true) ∨ Reaches tb σ x ns)

/-- Spec: in the step, somebody is recorded to have left the session `x`: the client of a request for its name is gone, or a detach request gets
to it. -/
def Left (s : St) (l : Label) (x : Nat) : Prop :=
  (∃ t n y, l = .unlink t ∧ s.thr t = .ending n y false ∧ find n s.table = some x) ∨
  (∃ names, l = .detach names ∧ Reaches s.table s.sess x names)

/-- Spec: what `p` says of the steps of `ls` after the first `k`. -/
def After (ls : List Label) (k : Nat) (p : St → Label → Prop) : Prop :=
  ∀ pre l post s, ls = pre ++ l :: post → k < pre.length → Run pre s → p s l

/-- Spec: the last of the steps of `ls` at which `sets` says something, says `t`. -/
def LastSays (sets : St → Label → Option Nat → Prop) (ls : List Label) (t : Nat) : Prop :=
  ∃ pre l post s, ls = pre ++ l :: post ∧ Run pre s ∧ sets s l (some t) ∧ After ls pre.length (fun s l => ∀ o, ¬ sets s l o)

private theorem snoc_split {ls : List Label} {l l' : Label} {pre post : List Label} (h : ls ++ [l] = pre ++ l' :: post) :
    (pre = ls ∧ l' = l ∧ post = []) ∨ ∃ post', post = post' ++ [l] ∧ ls = pre ++ l' :: post' := by
  rcases List.eq_nil_or_concat post with rfl | ⟨post', x, rfl⟩
  · have := List.append_inj' h rfl
    exact .inl ⟨this.1.symm, (by have := this.2; cases this; rfl), rfl⟩
  · have h' : ls ++ [l] = (pre ++ l' :: post') ++ [x] := by rw [h]; simp
    have := List.append_inj' h' rfl
    exact .inr ⟨post', (by have := this.2; cases this; simp), this.1⟩

private theorem run_one {ls : List Label} {s s' : St} (h : Run ls s) (h' : Run ls s') : s = s' := by
  unfold Run at h h'
  rw [h] at h'
  exact Option.some.inj h'

/-- Whatever is set by steps, and by nothing else, is what the last of these steps said. -/
private theorem last_exact {v : St → Option Nat} {sets : St → Label → Option Nat → Prop} (h0 : v init = none)
    (hone : ∀ s l o o', sets s l o → sets s l o' → o = o')
    (hstep : ∀ ls s l s', Run ls s → step s l = some s' → (∃ o, sets s l o ∧ v s' = o) ∨ ((∀ o, ¬ sets s l o) ∧ v s' = v s))
    {ls : List Label} {s : St} (h : Run ls s) (t : Nat) : v s = some t ↔ LastSays sets ls t := by
  have key : Run ls s ∧ (v s = some t ↔ LastSays sets ls t) := by
    refine run_hist (I := fun ls s => Run ls s ∧ (v s = some t ↔ LastSays sets ls t)) ?_ ⟨rfl, ?_⟩ h
    · intro ls s l s' ⟨hr, hI⟩ hs
      have hr' := run_snoc hr hs
      refine ⟨hr', ?_⟩
      rcases hstep ls s l s' hr hs with ⟨o, ho, hv⟩ | ⟨hn, hv⟩
      · rw [hv]
        constructor
        · rintro rfl
          refine ⟨ls, l, [], s, rfl, hr, ho, fun pre l' post s1 e hk _ => ?_⟩
          have := congrArg List.length e
          simp at this
          omega
        · rintro ⟨pre, l', post, s1, e, h1, h2, h3⟩
          rcases snoc_split e with ⟨rfl, rfl, rfl⟩ | ⟨post', rfl, rfl⟩
          · cases run_one h1 hr
            exact hone _ _ _ _ ho h2
          · exact absurd ho (h3 _ l [] s (by simp) (by simp) hr o)
      · rw [hv, hI]
        constructor
        · rintro ⟨pre, l', post, s1, rfl, h1, h2, h3⟩
          refine ⟨pre, l', post ++ [l], s1, by simp, h1, h2, fun pre2 l2 post2 s2 e hk hr2 => ?_⟩
          rcases snoc_split e with ⟨rfl, rfl, rfl⟩ | ⟨post', rfl, e⟩
          · cases run_one hr hr2
            exact hn
          · next e' => exact h3 pre2 l2 post' s2 e' hk hr2
        · rintro ⟨pre, l', post, s1, e, h1, h2, h3⟩
          rcases snoc_split e with ⟨rfl, rfl, rfl⟩ | ⟨post', rfl, rfl⟩
          · cases run_one h1 hr
            exact absurd h2 (hn _)
          · exact ⟨pre, l', post', s1, rfl, h1, h2, fun pre2 l2 post2 s2 e hk hr2 => h3 pre2 l2 (post2 ++ [l]) s2 (by rw [e]; simp) hk hr2⟩
    · rw [h0]
      refine ⟨nofun, ?_⟩
      rintro ⟨pre, l, post, s, e, _⟩
      cases pre <;> cases e
  exact key.2

private theorem given_one {s : St} {l : Label} {t t' x : Nat} (h : Given s l t x) (h' : Given s l t' x) : t = t' := by
  rcases h with ⟨n, rfl, _⟩ | ⟨n, j, rfl, _⟩ <;> rcases h' with ⟨n', e, _⟩ | ⟨n', j', e, _⟩ <;> cases e <;> rfl

private theorem stream_step {s s' : St} {l : Label} (x : Nat) (hi : Inv s) (hs : step s l = some s') :
    (∃ t, Given s l t x ∧ (s'.sess x).stream = some t) ∨ ((∀ t, ¬ Given s l t x) ∧ (s'.sess x).stream = (s.sess x).stream) := by
  have he := step_eff hs
  clear hs
  have hlt : ∀ n x, find n s.table = some x → x < s.next := fun n x h => (hi.tbl n x h).1
  clear hi
  cases he
  case kill names fail _ => exact .inr ⟨(by rintro t (⟨_, h, _⟩ | ⟨_, _, h, _⟩) <;> cases h), (kill_fields s names fail x).2.2.1⟩
  case detach names _ => exact .inr ⟨(by rintro t (⟨_, h, _⟩ | ⟨_, _, h, _⟩) <;> cases h), (detach_fields s names x).2.2.1⟩
  all_goals
    (try simp only [setThr, setSess, upd_apply, Sess.recordAttached, Sess.recordDetached])
    unfold Given
    grind

/-- **C44, exactly**: whichever requests race, a request streams a session's output to its own client if and only if it is the last one that was
given the session. -/
theorem C44_exact {ls : List Label} {s : St} (h : Run ls s) (t x : Nat) :
    (s.sess x).stream = some t ↔ LastSays (fun s l o => ∃ t, o = some t ∧ Given s l t x) ls t := by
  refine last_exact (v := fun s => (s.sess x).stream) (sets := fun s l o => ∃ t, o = some t ∧ Given s l t x) rfl ?_ ?_ h t
  · rintro s l o o' ⟨t, rfl, h1⟩ ⟨t', rfl, h2⟩
    rw [given_one h1 h2]
  · intro ls s l s' hr hs
    rcases stream_step x (inv_of_run hr) hs with ⟨t, h1, h2⟩ | ⟨h1, h2⟩
    · exact .inl ⟨_, ⟨t, rfl, h1⟩, h2⟩
    · exact .inr ⟨by rintro o ⟨t, _, h⟩; exact h1 t h, h2⟩

private theorem reaches_record (tb : Table) (now x : Nat) (names : List Name) : ∀ σ : Nat → Sess,
    (Reaches tb σ x names → ((detachLoop tb now σ names).sess x).attachment = none) ∧
    (¬ Reaches tb σ x names → ((detachLoop tb now σ names).sess x).attachment = (σ x).attachment) := by
  have hno : ∀ (names : List Name) (σ : Nat → Sess), (σ x).conn = false → ¬ Reaches tb σ x names := by
    intro names
    induction names with
    | nil => exact fun _ _ h => h
    | cons n ns ih =>
      intro σ hc
      unfold Reaches
      split
      · exact ih σ hc
      · rintro ⟨_, ⟨_, h⟩ | h⟩
        · rw [hc] at h; cases h
        · exact ih σ hc h
  have hcongr : ∀ (names : List Name) (σ σ' : Nat → Sess), (∀ y, (σ' y).s2c = (σ y).s2c) → (σ' x).conn = (σ x).conn →
      (Reaches tb σ' x names ↔ Reaches tb σ x names) := by
    intro names
    induction names with
    | nil => exact fun _ _ _ _ => Iff.rfl
    | cons n ns ih =>
      intro σ σ' h1 h2
      unfold Reaches
      split
      · exact ih σ σ' h1 h2
      · rw [h1, h2, ih σ σ' h1 h2]
  induction names with
  | nil => exact fun σ => ⟨fun h => h.elim, fun _ => rfl⟩
  | cons n ns ih =>
    intro σ
    rw [detachLoop, Reaches]
    cases hf : find n tb with
    | none => exact ih σ
    | some y =>
      dsimp only
      split
      · next h => exact ⟨fun h' => (by rw [h'.1] at h; cases h), fun _ => rfl⟩
      · next h =>
        have hs2c : (σ y).s2c = true := by cases e : (σ y).s2c <;> simp_all
        split
        · next hc =>
          have := ih (upd σ y { (σ y).recordDetached now with conn := false })
          by_cases hx : y = x
          · subst hx
            have h2 := this.2 (hno _ _ (by rw [upd_self]))
            rw [h2, upd_self]
            exact ⟨fun _ => rfl, fun h => absurd ⟨hs2c, .inl ⟨rfl, hc⟩⟩ h⟩
          · have hx' : x ≠ y := fun e => hx e.symm
            rw [hcongr ns σ _ (by
                intro z
                by_cases hz : z = y
                · subst hz; rw [upd_self]; rfl
                · rw [upd_ne _ _ hz]) (by rw [upd_ne _ _ hx']), upd_ne _ _ hx'] at this
            exact ⟨fun h => this.1 (h.2.resolve_left (fun h => hx h.1)), fun h => this.2 (fun h' => h ⟨hs2c, .inr h'⟩)⟩
        · next hc =>
          refine ⟨fun h => (ih σ).1 (h.2.resolve_left fun h => ?_), fun h => (ih σ).2 fun h' => h ⟨hs2c, .inr h'⟩⟩
          obtain ⟨rfl, h⟩ := h
          exact hc h

private theorem attachment_step {s s' : St} {l : Label} (x : Nat) (hi : Inv s) (hs : step s l = some s') :
    (∃ t, Given s l t x ∧ (s'.sess x).attachment = some t) ∨ (Left s l x ∧ (s'.sess x).attachment = none) ∨
      ((∀ t, ¬ Given s l t x) ∧ ¬ Left s l x ∧ (s'.sess x).attachment = (s.sess x).attachment) := by
  have he := step_eff hs
  clear hs
  have hlt : ∀ n x, find n s.table = some x → x < s.next := fun n x h => (hi.tbl n x h).1
  clear hi
  cases he
  case kill names fail _ =>
    refine .inr (.inr ⟨(by rintro t (⟨_, h, _⟩ | ⟨_, _, h, _⟩) <;> cases h), (by rintro (⟨_, _, _, h, _⟩ | ⟨_, h, _⟩) <;> cases h), ?_⟩)
    rcases kill_sess s names fail x with e | e <;> rw [e]
  case detach names _ =>
    have := reaches_record s.table s.now x names s.sess
    by_cases hr : Reaches s.table s.sess x names
    · exact .inr (.inl ⟨.inr ⟨names, rfl, hr⟩, this.1 hr⟩)
    · refine .inr (.inr ⟨(by rintro t (⟨_, h, _⟩ | ⟨_, _, h, _⟩) <;> cases h), ?_, this.2 hr⟩)
      rintro (⟨_, _, _, h, _⟩ | ⟨_, h, h'⟩) <;> cases h
      exact hr h'
  all_goals
    (try simp only [setThr, setSess, upd_apply, Sess.recordAttached, Sess.recordDetached])
    unfold Given Left
    grind

/-- **C50, exactly**: in every history, the record shows the client of request `t` as attached to the session `x` if and only if `t` was given the
session, and since then nobody else has been, and nobody has been recorded to have left it. -/
theorem C50_exact {ls : List Label} {s : St} (h : Run ls s) (t x : Nat) :
    (s.sess x).attachment = some t ↔
      LastSays (fun s l o => (∃ t, o = some t ∧ Given s l t x) ∨ (o = none ∧ Left s l x)) ls t := by
  refine last_exact (v := fun s => (s.sess x).attachment)
    (sets := fun s l o => (∃ t, o = some t ∧ Given s l t x) ∨ (o = none ∧ Left s l x)) rfl ?_ ?_ h t
  · have hnot : ∀ {s l t}, Given s l t x → ¬ Left s l x := by
      rintro s l t (⟨_, rfl, _⟩ | ⟨_, _, rfl, _⟩) (⟨_, _, _, h, _⟩ | ⟨_, h, _⟩) <;> cases h
    rintro s l o o' (⟨t, rfl, h1⟩ | ⟨rfl, h1⟩) (⟨t', rfl, h2⟩ | ⟨rfl, h2⟩)
    · rw [given_one h1 h2]
    · exact absurd h2 (hnot h1)
    · exact absurd h1 (hnot h2)
    · rfl
  · intro ls s l s' hr hs
    rcases attachment_step x (inv_of_run hr) hs with ⟨t, h1, h2⟩ | ⟨h1, h2⟩ | ⟨h1, h2, h3⟩
    · exact .inl ⟨_, .inl ⟨t, rfl, h1⟩, h2⟩
    · exact .inl ⟨_, .inr ⟨rfl, h1⟩, h2⟩
    · refine .inr ⟨?_, h3⟩
      rintro o (⟨t, _, h⟩ | ⟨_, h⟩)
      · exact h1 t h
      · exact h2 h

/-- In the race of `C44_false` the session was given last to the other request. -/
example : ∃ s s', Run (race.take 4) s ∧ Given s (.spawn 1) 1 1 ∧ Run race s' ∧ s'.thr 0 = .streaming a 1 :=
  ⟨_, _, rfl, .inl ⟨a, rfl, rfl, rfl⟩, rfl, rfl⟩

/-- A session is left at the end of its request, and by a detach request. -/
example : ∃ s s', Run (calm.take 8) s ∧ Left s (.unlink 0) 0 ∧ Run calm s' ∧ Left s' (.detach [a]) 0 :=
  ⟨_, _, rfl, .inl ⟨0, a, 0, rfl, rfl, rfl⟩, rfl, .inr ⟨[a], rfl, rfl, .inl ⟨rfl, rfl⟩⟩⟩

end Shpool.Server
