import Verif.Perms.Props
/-! # Exactly when shells have the umask the daemon was started with (C87), and when others can read a session's variables (C99) -/

namespace Shpool.Perms
open Shpool

/-- **C87** (exactly when): shells have the umask exactly if the daemon was not launched by a client, or that umask takes nothing away. -/
theorem C87_exact (how : Start) (mask : Mode) : shellMask how mask = mask ↔ how ≠ .auto ∨ mask = 0 := by
  cases how
  · simp only [shellMask, daemonMask, ne_eq, not_true_eq_false, false_or]
    exact eq_comm
  · simp [shellMask, daemonMask]

/-- In the course of `ls`, from `s`, some request took this step. -/
def Did (s : St) (ls : List Label) (op : Op) : Prop :=
  ∃ pre t post s1 rest, ls = pre ++ .step t :: post ∧ runSteps step s pre = some s1 ∧ s1.thr t = op :: rest

private theorem did_snoc {s0 s : St} {ls : List Label} (h : runSteps step s0 ls = some s) (l : Label) (op : Op) :
    Did s0 (ls ++ [l]) op ↔ Did s0 ls op ∨ ∃ t rest, l = .step t ∧ s.thr t = op :: rest := by
  constructor
  · rintro ⟨pre, t, post, s1, rest, e, h1, ht⟩
    rcases List.eq_nil_or_concat post with rfl | ⟨post', x, rfl⟩
    · obtain ⟨e1, e2⟩ := List.append_inj' e rfl
      subst e1
      cases e2
      rw [h] at h1
      cases h1
      exact .inr ⟨t, rest, rfl, ht⟩
    · rw [List.concat_eq_append, ← List.cons_append, ← List.append_assoc] at e
      obtain ⟨e1, _⟩ := List.append_inj' e rfl
      exact .inl ⟨pre, t, post', s1, rest, e1, h1, ht⟩
  · rintro (⟨pre, t, post, s1, rest, e, h1, ht⟩ | ⟨t, rest, rfl, ht⟩)
    · exact ⟨pre, t, post ++ [l], s1, rest, by simp [e], h1, ht⟩
    · exact ⟨ls, t, [], s, rest, rfl, h, ht⟩

/-- What the history says of the files. -/
private structure Told (s0 : St) (ls : List Label) (s : St) : Prop where
  run : runSteps step s0 ls = some s
  mask : s.mask = s0.mask
  outer : s.outer = s0.outer
  rest : ∀ t, Rest s (s.thr t)
  dirs : ∀ t n r, s.thr t = .write n :: r → s.sessions.isSome = true ∧ (s.dir n).isSome = true
  lock : Did s0 ls .lock → s.sessions = some 0o700#9
  open_ : ¬ Did s0 ls .lock → ∀ m, s.sessions = some m → m = create s0.mask dirReq
  dir : ∀ n m, s.dir n = some m → m = create s0.mask dirReq
  wrote : ∀ n, Did s0 ls (.write n) → s.env n = some (create s0.mask fileReq) ∧ s.sessions.isSome = true ∧ (s.dir n).isSome = true
  not : ∀ n, ¬ Did s0 ls (.write n) → s.env n = none

private theorem told_step {s0 s s' : St} {ls : List Label} {l : Label} (h : Told s0 ls s) (hs : step s l = some s') :
    Told s0 (ls ++ [l]) s' := by
  have hrun : runSteps step s0 (ls ++ [l]) = some s' := by
    rw [run_append, h.run]
    show runSteps step s [l] = _
    simp only [runSteps, hs]
  have hrest := rest_step h.rest hs
  obtain ⟨ho, hm⟩ := step_outer hs
  have hd := fun op => did_snoc h.run l op
  cases l with
  | request t n a b =>
    have hd' : ∀ op, Did s0 (ls ++ [.request t n a b]) op ↔ Did s0 ls op := fun op => by rw [hd op]; simp
    simp only [step] at hs
    split at hs <;> cases hs
    refine ⟨hrun, hm.trans h.mask, ho.trans h.outer, hrest, fun t' n' r e => ?_, fun e => h.lock ((hd' _).mp e), fun e => h.open_ (fun e' => e ((hd' _).mpr e')), h.dir,
      fun n e => h.wrote n ((hd' _).mp e), fun n e => h.not n (fun e' => e ((hd' _).mpr e'))⟩
    simp only [upd_apply] at e
    split at e
    · cases a <;> cases b <;> simp [attachOps] at e
    · exact h.dirs t' n' r e
  | fail t =>
    have hd' : ∀ op, Did s0 (ls ++ [.fail t]) op ↔ Did s0 ls op := fun op => by rw [hd op]; simp
    simp only [step] at hs
    cases hs
    refine ⟨hrun, hm.trans h.mask, ho.trans h.outer, hrest, fun t' n' r e => ?_, fun e => h.lock ((hd' _).mp e), fun e => h.open_ (fun e' => e ((hd' _).mpr e')), h.dir,
      fun n e => h.wrote n ((hd' _).mp e), fun n e => h.not n (fun e' => e ((hd' _).mpr e'))⟩
    simp only [upd_apply] at e
    split at e
    · cases e
    · exact h.dirs t' n' r e
  | step t =>
    simp only [step] at hs
    cases ht : s.thr t with
    | nil => simp only [ht] at hs; cases hs
    | cons op rest =>
      have hd' : ∀ op', Did s0 (ls ++ [.step t]) op' ↔ Did s0 ls op' ∨ op' = op := fun op' => by
        rw [hd op']
        refine or_congr Iff.rfl ⟨?_, ?_⟩
        · rintro ⟨t', r, e, e'⟩
          cases e
          rw [ht] at e'
          cases e'
          rfl
        · rintro rfl
          exact ⟨t, rest, rfl, ht⟩
      simp only [ht] at hs
      cases hs
      have hr := h.rest t
      rw [ht] at hr
      cases op with
      | mkdirs k =>
        have e1 : ∀ n, Did s0 (ls ++ [.step t]) (.write n) ↔ Did s0 ls (.write n) := fun n => by rw [hd']; simp
        have e2 : Did s0 (ls ++ [.step t]) .lock ↔ Did s0 ls .lock := by rw [hd']; simp
        refine ⟨hrun, hm.trans h.mask, ho.trans h.outer, hrest, fun t' n r e => ?_, fun e => ?_, fun e m em => ?_, fun n m em => ?_, fun n e => ?_, fun n e => ?_⟩
        · simp only [upd_apply] at e
          simp only [exec, upd_apply]
          split at e
          · subst e
            obtain ⟨j, e | ⟨e, _⟩ | e | e | e⟩ := hr <;> cases e
            simp
          · have := h.dirs t' n r e
            refine ⟨by simp, ?_⟩
            split
            · simp
            · exact this.2
        · simp only [exec, h.lock (e2.mp e), Option.getD_some]
        · simp only [exec, Option.some.injEq] at em
          subst em
          cases hv : s.sessions with
          | none => rw [h.mask]; rfl
          | some v => exact h.open_ (fun e' => e (e2.mpr e')) v hv
        · simp only [exec, upd_apply] at em
          split at em
          · cases em
            cases hv : s.dir k with
            | none => rw [h.mask]; rfl
            | some v => exact h.dir k v hv
          · exact h.dir n m em
        · obtain ⟨w1, w2, w3⟩ := h.wrote n ((e1 n).mp e)
          refine ⟨w1, by simp [exec], ?_⟩
          simp only [exec, upd_apply]
          split
          · simp
          · exact w3
        · exact h.not n (fun e' => e ((e1 n).mpr e'))
      | lock =>
        have hsome : s.sessions.isSome = true := by
          obtain ⟨j, e | ⟨e, f⟩ | e | e | e⟩ := hr <;> cases e
          exact f
        have e1 : ∀ n, Did s0 (ls ++ [.step t]) (.write n) ↔ Did s0 ls (.write n) := fun n => by rw [hd']; simp
        refine ⟨hrun, hm.trans h.mask, ho.trans h.outer, hrest, fun t' n r e => ?_, fun e => ?_, fun e m em => ?_, h.dir, fun n e => ?_, fun n e => ?_⟩
        · simp only [upd_apply] at e
          simp only [exec, Option.isSome_map]
          split at e
          · subst e
            obtain ⟨j, e | ⟨e, _⟩ | e | e | e⟩ := hr <;> cases e
          · exact h.dirs t' n r e
        · obtain ⟨v, hv⟩ := Option.isSome_iff_exists.mp hsome
          simp [exec, hv]
        · exact absurd ((hd' _).mpr (.inr rfl)) e
        · obtain ⟨w1, w2, w3⟩ := h.wrote n ((e1 n).mp e)
          exact ⟨w1, by simpa [exec] using w2, w3⟩
        · exact h.not n (fun e' => e ((e1 n).mpr e'))
      | write k =>
        have e2 : Did s0 (ls ++ [.step t]) .lock ↔ Did s0 ls .lock := by rw [hd']; simp
        refine ⟨hrun, hm.trans h.mask, ho.trans h.outer, hrest, fun t' n r e => ?_, fun e => h.lock (e2.mp e), fun e => h.open_ (fun e' => e (e2.mpr e')), h.dir,
          fun n e => ?_, fun n e => ?_⟩
        · simp only [upd_apply] at e
          split at e
          · subst e
            obtain ⟨j, e | ⟨e, _⟩ | e | e | e⟩ := hr <;> cases e
          · exact h.dirs t' n r e
        · have hk := h.dirs t k rest ht
          by_cases hn : n = k
          · subst hn
            refine ⟨?_, hk⟩
            simp only [exec, upd_apply, if_pos rfl]
            by_cases hw : Did s0 ls (.write n)
            · rw [(h.wrote n hw).1]; rfl
            · rw [h.not n hw, h.mask]; rfl
          · rcases (hd' _).mp e with e | e
            · obtain ⟨w1, w2, w3⟩ := h.wrote n e
              exact ⟨by simp only [exec, upd_apply, if_neg hn]; exact w1, w2, w3⟩
            · cases e
              exact absurd rfl hn
        · have hn : n ≠ k := by
            rintro rfl
            exact e ((hd' _).mpr (.inr rfl))
          simp only [exec, upd_apply, if_neg hn]
          exact h.not n (fun e' => e ((hd' _).mpr (.inl e')))

private theorem shift_lt (u : Other) : u.shift + 2 < 9 := by unfold Other.shift; split <;> omega

private theorem open_dir (u : Other) (m : Mode) : mayUse u (create m dirReq) = !mayUse u m := by
  have h := shift_lt u
  have : dirReq.getLsbD u.shift = true := by cases u with | mk g => cases g <;> decide
  simp [mayUse, create, this, show u.shift < 9 by omega]

private theorem open_file (u : Other) (m : Mode) : mayRead u (create m fileReq) = !mayRead u m := by
  have h := shift_lt u
  have : fileReq.getLsbD (u.shift + 2) = true := by cases u with | mk g => cases g <;> decide
  simp [mayRead, create, this, h]

/-- **C99, exactly**: after any history of a daemon started in a new runtime directory, another user can read the variables forwarded to session
`n` if and only if they can use all directories above, the daemon's umask takes neither the right to use directories nor the right to read files
from them, the variables of `n` were written, and no request has got to the point where the sessions directory is closed. -/
theorem C99_exact {how : Start} {mask : Mode} {outer : List Mode} {ls : List Label} {s : St}
    (h : runSteps step (fresh how mask outer) ls = some s) (u : Other) (n : Nat) :
    canReadEnv u s n = true ↔ (∀ d ∈ outer, mayUse u d = true) ∧
      mayUse u (daemonMask how mask) = false ∧ mayRead u (daemonMask how mask) = false ∧
      Did (fresh how mask outer) ls (.write n) ∧ ¬ Did (fresh how mask outer) ls .lock := by
  have hT : Told (fresh how mask outer) ls s := by
    refine run_hist (I := Told (fresh how mask outer)) (fun _ _ _ _ hi hs => told_step hi hs) ?_ h
    have nd : ∀ op, ¬ Did (fresh how mask outer) [] op := fun op ⟨pre, t, post, _, _, e, _⟩ => by cases pre <;> cases e
    exact ⟨rfl, rfl, rfl, idle_rest (fun _ => rfl), fun _ _ _ e => (by cases e), fun e => absurd e (nd _), fun _ _ e => (by cases e), fun _ _ e => (by cases e),
      fun _ e => absurd e (nd _), fun _ _ => rfl⟩
  have hall : s.outer.all (mayUse u) = true ↔ ∀ d ∈ outer, mayUse u d = true := by
    rw [hT.outer, List.all_eq_true]
    exact Iff.rfl
  by_cases hl : Did (fresh how mask outer) ls .lock
  · simp [locked_closed (hT.lock hl) u n, hl]
  · by_cases hw : Did (fresh how mask outer) ls (.write n)
    · obtain ⟨w1, w2, w3⟩ := hT.wrote n hw
      obtain ⟨a, ha⟩ := Option.isSome_iff_exists.mp w2
      obtain ⟨b, hb⟩ := Option.isSome_iff_exists.mp w3
      have ea := hT.open_ hl a ha
      have eb := hT.dir n b hb
      subst ea eb
      unfold canReadEnv
      rw [ha, hb, w1]
      simp only [Bool.and_eq_true, hall, open_dir, open_file, Bool.not_eq_true', hl, hw]
      show _ ∧ mayRead u (daemonMask how mask) = false ↔ _
      constructor
      · rintro ⟨⟨⟨h1, h2⟩, _⟩, h3⟩
        exact ⟨h1, h2, h3, trivial, not_false⟩
      · rintro ⟨h1, h2, h3, _⟩
        exact ⟨⟨⟨h1, h2⟩, h2⟩, h3⟩
    · have : canReadEnv u s n = false := by
        unfold canReadEnv
        rw [hT.not n hw]
        split <;> simp_all
      simp [this, hw]

/-- Two requests, the second with an agent: the first session's variables can be read until the second request closes the directory. -/
example : (∃ s, runSteps step (fresh .auto 0o022#9 [0o755#9]) [.request 0 0 false false, .step 0, .step 0, .request 1 1 true false, .step 1] = some s ∧
      canReadEnv ⟨false⟩ s 0 = true) ∧
    ∃ s, runSteps step (fresh .auto 0o022#9 [0o755#9]) [.request 0 0 false false, .step 0, .step 0, .request 1 1 true false, .step 1, .step 1] = some s ∧
      canReadEnv ⟨false⟩ s 0 = false := ⟨⟨_, rfl, by decide⟩, ⟨_, rfl, by decide⟩⟩

end Shpool.Perms
