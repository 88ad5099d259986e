import Verif.Disp.Model
/-!
# C165: sessions start with default signal settings, whoever started the daemon
-/

namespace Shpool.Disp

/-- **C165**, as stated: every signal has its default and none is blocked, however the daemon was started. -/
def C165_statement : Prop := ∀ (p : Proc) (auto : Bool), p.possible → ∀ g, (shell p auto).act g = .default ∧ (shell p auto).blocked g = false

/-- The four signals the daemon does not pass on as ignored. -/
def cleared (g : Sig) : Bool := g = .term ∨ g = .int ∨ g = .quit ∨ g = .pipe

/-- **C165** (exact): a signal is ignored in a session exactly if whoever started the daemon, or ran the client that started it, ignored it
and it is none of SIGTERM, SIGINT, SIGQUIT and SIGPIPE. -/
theorem C165_exact (p : Proc) (auto : Bool) (g : Sig) : (shell p auto).act g = if p.act g = .ignored ∧ cleared g = false then .ignored else .default := by
  cases auto <;> cases g <;> simp [shell, daemon, direct, byClient, daemonOps, shellOps, applyAll, apply, set, termSignals, cleared] <;> grind

/-- **C165** (mask): no signal is blocked in a session, whatever whoever started the daemon blocked. -/
theorem C165_mask (p : Proc) (auto : Bool) (g : Sig) : (shell p auto).blocked g = false := by
  cases auto <;> rfl

/-- **C165**, if whoever started the daemon ignores at most SIGTERM, SIGINT, SIGQUIT and SIGPIPE; such as a login shell, or systemd. -/
theorem C165_partial (p : Proc) (auto : Bool) (hp : ∀ g, p.act g = .ignored → g ∈ [.term, .int, .quit, .pipe]) (g : Sig) :
    (shell p auto).act g = .default ∧ (shell p auto).blocked g = false := by
  refine ⟨?_, C165_mask p auto g⟩
  rw [C165_exact, if_neg]
  rintro ⟨h1, h2⟩
  have := hp g h1
  simp [cleared] at h2
  simp at this
  grind

/-- A process that ignores one signal. -/
def ignoring (g : Sig) : Proc := ⟨fun x => if x = g then .ignored else .default, fun _ => false⟩

/-- A background job of a shell without job control ignores SIGINT and SIGQUIT: it does not matter. -/
example : ∀ g, (⟨fun x => if x = .int ∨ x = .quit then .ignored else .default, fun _ => false⟩ : Proc).act g = .ignored →
    g ∈ [Sig.term, .int, .quit, .pipe] := by
  intro g h
  by_cases e : g = .int
  · simp [e]
  · simp [e] at h; simp [h]

/-- **C165 is false**: `nohup shpool daemon`, or `nohup shpool attach` if it starts the daemon. -/
theorem C165_false : ¬ C165_statement := by
  intro h
  have := (h (ignoring .hup) false (by simp [ignoring, Proc.possible]) .hup).1
  rw [C165_exact] at this
  simp [ignoring, cleared] at this

/-- For both ways of starting it, and any signal that can be ignored but the four. -/
theorem C165_false_each (auto : Bool) {g : Sig} (hk : g ≠ .kill) (hs : g ≠ .stop) (hc : g ∉ [.term, .int, .quit, .pipe]) :
    (ignoring g).possible ∧ (shell (ignoring g) auto).act g = .ignored := by
  have e1 : Sig.kill ≠ g := fun h => hk h.symm
  have e2 : Sig.stop ≠ g := fun h => hs h.symm
  refine ⟨by simp [ignoring, Proc.possible, e1, e2], ?_⟩
  rw [C165_exact, if_pos]
  refine ⟨by simp [ignoring], ?_⟩
  simp at hc
  simp [cleared, hc]

/-! ## What follows -/

/-- **C165** (kill): a program that leaves its settings alone ends with the hangup of `shpool kill` exactly if whoever started the daemon
did not ignore SIGHUP; otherwise it is killed without having been able to clean up. -/
theorem C165_kill (p : Proc) (auto : Bool) : .kill ∈ killSends (shell p auto) ↔ p.act .hup = .ignored := by
  have h := C165_exact p auto .hup
  have hb := C165_mask p auto .hup
  simp only [killSends, endsOnHup, h, hb]
  by_cases e : p.act .hup = .ignored <;> simp [e, cleared]

/-- **C165** (status): what clients are told of a program that ended with code `n` is `n`, unless whoever started the daemon ignored SIGCHLD:
then it is 1. -/
theorem C165_status (p : Proc) (auto : Bool) (n : Nat) : announced (daemon p auto) (.code n) = if p.act .chld = .ignored then 1 else n := by
  have : (daemon p auto).act .chld = .ignored ↔ p.act .chld = .ignored := by
    cases auto <;> simp [daemon, direct, byClient, daemonOps, applyAll, apply, set, termSignals] <;> grind
  simp only [announced, this]

/-- So success is told as failure. -/
theorem C165_false_status (auto : Bool) : (ignoring .chld).possible ∧ announced (daemon (ignoring .chld) auto) (.code 0) = 1 :=
  ⟨by simp [ignoring, Proc.possible], by rw [C165_status]; simp [ignoring]⟩

/-- **C165** (the daemon itself): it handles SIGTERM, SIGINT and SIGQUIT, whoever started it, and does not end from writing to a client that
left. -/
theorem C165_daemon (p : Proc) (auto : Bool) : (∀ g ∈ [Sig.term, .int, .quit], (daemon p auto).act g = .handled) ∧ (daemon p auto).act .pipe = .ignored := by
  cases auto <;> simp [daemon, direct, byClient, daemonOps, applyAll, apply, set, termSignals]

/-- **C165** (starting in a session): a daemon started in one of its own sessions passes on no more than the first did. -/
theorem C165_nested (p : Proc) (a b : Bool) (g : Sig) : (shell (shell p a) b).act g = (shell p a).act g := by
  rw [C165_exact, C165_exact]
  grind

/-! ## What the daemon could do -/

/-- Setting every signal to its default in the child, before the exec. -/
def resetAll (p : Proc) : Proc := { p with act := fun _ => .default }

/-- **C165** for a daemon that does. -/
theorem C165_repaired (p : Proc) (auto : Bool) (g : Sig) :
    (applyAll (resetAll (daemon p auto)) shellOps).act g = .default ∧ (applyAll (resetAll (daemon p auto)) shellOps).blocked g = false := by
  simp [applyAll, shellOps, apply, resetAll, set]

end Shpool.Disp
