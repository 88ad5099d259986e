import Verif.Locks.Props
/-!
# A repair of the order of the locks

* C145: no circle of waiting, if an attach that makes a session tried it like one that finds a session.

What it would take is not in /repo; the programs below are those of the code but for this.
-/

namespace Shpool.Locks

/-- `create`, but for server.rs 563: `try_lock_arc` instead of `lock_arc`, and the session counts as busy if that fails. -/
def createR (i : Ids) : Prog :=
  .work (.choice .done (touch (.life i.fresh) (touch .shells (.acq .shells (.choice
    (.attempt (.inner i.third) (.rel .shells (serve i.third i)) (.work (.rel .shells .done)))
    (.rel .shells .done))))))

/-- `stale`, with `createR`. -/
def staleR (i : Ids) : Prog :=
  .choice (.rel (.inner i.found) (.rel .shells (createR i)))
    (.work (.choice (.rel (.inner i.found) (.rel .shells .done)) (.rel (.inner i.found) (.rel .shells (createR i)))))

/-- `attach`, with `createR`. -/
def attachR (i : Ids) : Prog :=
  .choice .done (.work (.acq .shells (.choice
    (.attempt (.inner i.found)
      (touch (.slot i.found) (.choice
        (.choice (.rel (.inner i.found) (.rel .shells .done))
          (touch (.life i.found) (.choice (staleR i) (.work (.rel .shells (serve i.found i))))))
        (staleR i)))
      (.work (.rel .shells .done)))
    (.rel .shells (createR i)))))

/-- The programs of the daemon, with `attachR` in place of `attach`. -/
inductive ThreadR (f : Nat → Prog) : Prog → Prop
  | attach (i : Ids) : Helper (f i.c2s) → Helper (f i.heart) → Helper (f i.sup) → Helper (f i.out) → ThreadR f (attachR i)
  | other {p} : Thread f p → (∀ i, p ≠ attach i) → ThreadR f p

theorem ok_attachR {f : Nat → Prog} {i : Ids} (h1 : Helper (f i.c2s)) (h2 : Helper (f i.heart)) (h3 : Helper (f i.sup))
    (h4 : Helper (f i.out)) : Ok f nil (attachR i) := by
  simp [attachR, staleR, createR, touch, Ok, rank, ok_serve i.found h1 h2 h3 h4, ok_serve i.third h1 h2 h3 h4]

theorem calm_threadR {f : Nat → Prog} {p : Prog} (h : ThreadR f p) : Calm (fun _ => False) p := by
  cases h with
  | attach i => simp [attachR, staleR, createR, serve, showPager, bidi, tell, joins, ended, left, touch, Calm]
  | other h hn => exact calm_thread h (fun i hi => hn i hi)

theorem calm_mono {A B : Nat → Prop} (hab : ∀ x, A x → B x) {p : Prog} (h : Calm A p) : Calm B p := by
  induction p with
  | done | again => exact h
  | grab l p ih => obtain ⟨⟨x, hx, ha⟩, h⟩ := h; exact ⟨⟨x, hx, hab x ha⟩, ih h⟩
  | attempt l p q ihp ihq => exact ⟨ihp h.1, ihq h.2⟩
  | choice p q ihp ihq => exact ⟨ihp h.1, ihq h.2⟩
  | acq l p ih => exact ih h
  | rel l p ih => exact ih h
  | work p ih => exact ih h
  | idle p ih => exact ih h
  | join u p ih => exact ih h

theorem ok_threadR {f : Nat → Prog} {p : Prog} (h : ThreadR f p) : Ok f nil p := by
  cases h with
  | attach i h1 h2 h3 h4 => exact ok_attachR h1 h2 h3 h4
  | other h _ => exact ok_thread h

/-- What a run keeps; and no thread is at the place where it waits for a session. -/
theorem invR_run {f : Nat → Prog} {ls : List Label} {s : St} (hd : ∀ t, ThreadR f (f t)) (h : Run f ls s) :
    Inv' f (fun _ _ => True) s ∧ ∀ t, Calm (fun _ => False) (s.thr t) := by
  have h0 : ∀ t, has (start f) t = nil := by
    intro t; funext k; simp [has, start]
  have hc : ∀ t, Calm (fun x => ∃ i, f t = attach i ∧ x = i.third) (f t) := fun t => calm_mono (fun _ => False.elim) (calm_threadR (hd t))
  refine run_inv (I := fun s => Inv' f (fun _ _ => True) s ∧ ∀ t, Calm (fun _ => False) (s.thr t)) (fun s l s' hi hs => ⟨inv_step hi.1 hs, fun u => ?_⟩)
    ⟨⟨rfl, fun t => ⟨ok_threadR (hd t), keeps_all, low_helper, hc t⟩, fun t => ?_, fun t => keeps_all, fun u hu => low_helper hu, hc⟩,
      fun t => calm_threadR (hd t)⟩ h
  · obtain ⟨p, hm⟩ := step_moves hs
    rw [moves_thr hm]
    by_cases hut : u = who l
    · subst hut
      simp only [if_pos]
      exact moves_calm hm (by rw [hi.1.code]; exact calm_threadR (hd _)) (hi.2 _)
    · simp only [if_neg hut]
      exact hi.2 u
  · rw [h0]; exact ok_threadR (hd t)

/-- **C145** (repaired).  If an attach that has made a session tried to get it, instead of waiting for it with the table locked, there would be no circle
of waiting, whatever is asked at the same time; when nothing can go on any more, everything has finished and no lock is held. -/
theorem C145_repaired {f : Nat → Prog} {ls : List Label} {s : St} (hd : ∀ t, ThreadR f (f t)) (h : Run f ls s) :
    (∀ t, s.thr t ≠ .done → ∃ u, Chain s t u ∧ Can s u) ∧
    ((∀ u, ¬ Can s u) → (∀ t, s.thr t = .done) ∧ ∀ l, s.held l = none) := by
  obtain ⟨hi, hc⟩ := invR_run hd h
  have key : ∀ t, s.thr t ≠ .done → ∃ u, Chain s t u ∧ Can s u := fun t ht => by
    obtain ⟨u, hcu, hu | ⟨x, p, v, hj, _⟩⟩ := chain_ends hi _ t ht (Nat.le_refl _)
    · exact ⟨u, hcu, hu⟩
    · have := hc u
      rw [hj] at this
      obtain ⟨⟨_, _, hf⟩, _⟩ := this
      exact hf.elim
  refine ⟨key, fun hq => ?_⟩
  have hall : ∀ t, s.thr t = .done := fun t => Classical.byContradiction fun ht => by
    obtain ⟨u, _, hu⟩ := key t ht
    exact hq u hu
  refine ⟨hall, fun l => ?_⟩
  cases hl : s.held l with
  | none => rfl
  | some v => exact (holder_busy hi hl (hall v)).elim

/-- The two attaches of `twoAttach`, with the repair. -/
def twoAttachR : Nat → Prog := fun t =>
  if t = 0 then attachR { found := 1, fresh := 0, third := 0, last := 0, c2s := 2, heart := 3, sup := 4, out := 5 }
  else if t = 1 then attachR { found := 0, fresh := 1, third := 1, last := 0, c2s := 2, heart := 3, sup := 4, out := 5 }
  else c2s 0

example : ∀ t, ThreadR twoAttachR (twoAttachR t) := by
  intro t
  by_cases h0 : t = 0
  · subst h0; exact .attach _ (.c2s 0) (.c2s 0) (.c2s 0) (.c2s 0)
  · by_cases h1 : t = 1
    · subst h1; exact .attach _ (.c2s 0) (.c2s 0) (.c2s 0) (.c2s 0)
    · simp only [twoAttachR, h0, h1, if_false]
      exact .other (.helper (.c2s 0)) (by intro i; simp [c2s, attach])

-- The steps that lead to the circle in the code: here the first attach goes on, and finds the session busy.
example : ∃ s, Run twoAttachR (jam ++ [.go 0 true]) s ∧ s.thr 0 = .work (.rel .shells .done) := ⟨_, rfl, rfl⟩

end Shpool.Locks
