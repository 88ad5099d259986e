import Verif.Main.Model
/-!
# C122: a broken configuration and running sessions; C123: when a daemon is started; C124: where it listens; C125: failures are explained
-/

namespace Shpool.Main

/-- The commands that talk to a daemon. -/
def Cmd.client : Cmd → Bool
  | .version | .daemon => false
  | _ => true

/-- The files a command needs besides the configuration can be had; `dir` is the directory of the default socket. -/
def Ready (a : Args) (w : World) (dir : Path) : Prop :=
  (a.logFile = true → w.logFileOk = true) ∧ runtimeDir w = some dir ∧ w.mkdirOk = true

/-- A command that can have its files and configuration goes on to start a daemon if wanted, and then to its work. -/
theorem run_ready {a : Args} {w : World} {dir : Path} {nd : Option Bool} (hr : Ready a w dir) (hc : w.config a.configFile = some nd)
    (hv : a.cmd.client = true) :
    run a w = if (!nd.getD false || a.daemonize) && !a.noDaemonize then
      (match maybeLaunch a w (sock a dir) with
        | (l, true) => perform a w (sock a dir) l
        | (l, false) => failed l)
      else perform a w (sock a dir) none := by
  obtain ⟨h1, h2, h3⟩ := hr
  have hl : (a.logFile && !w.logFileOk) = false := by
    cases h : a.logFile
    · rfl
    · simp [h1 h]
  have e1 : a.cmd ≠ .version := by intro h; rw [h] at hv; cases hv
  have e2 : a.cmd ≠ .daemon := by intro h; rw [h] at hv; cases hv
  unfold run
  rw [if_neg e1, if_neg (fun h => e2 h.1), hl, h2]
  simp only [Bool.false_eq_true, if_false, h3, Bool.not_true, hc, e2, decide_false, Bool.not_false, Bool.and_true]
  rcases maybeLaunch a w (sock a dir) with ⟨l, _ | _⟩ <;> rfl

theorem perform_worked {a : Args} {w : World} {s : Path} {l : Option Launch} (hv : a.cmd.client = true) :
    (perform a w s l).worked = some s ∧ (perform a w s l).launched = l := by
  have e1 : a.cmd ≠ .version := by intro h; rw [h] at hv; cases hv
  simp [perform, e1]

/-- A command whose configuration or files cannot be had says so and does nothing. -/
theorem run_not_ready {a : Args} {w : World} (hv : a.cmd.client = true)
    (h : w.config a.configFile = none ∨ ∀ dir, ¬ Ready a w dir) : run a w = failed none := by
  have e1 : a.cmd ≠ .version := by intro h; rw [h] at hv; cases hv
  have e2 : a.cmd ≠ .daemon := by intro h; rw [h] at hv; cases hv
  simp only [run, e1, e2, false_and, if_false]
  split
  · rfl
  · rename_i hl
    cases hd : runtimeDir w with
    | none => rfl
    | some dir =>
      simp only
      split
      · rfl
      · rename_i hm
        rcases h with h | h
        · rw [h]
        · refine absurd ⟨?_, hd, by simpa using hm⟩ (h dir)
          intro hlf
          simpa [hlf] using hl

/-! ## C122 -/

/-- C122: a user whose daemon runs gets to their sessions whatever the configuration files contain. -/
def C122_statement : Prop := ∀ (a : Args) (w : World) (dir : Path), a.cmd.client = true → Ready a w dir → w.probe = .connected →
  (run a w).worked = some (sock a dir)

/-- C122: with a configuration that cannot be read, no command does anything for a running session: none gets to its work, all of them fail,
and say so. -/
theorem C122_nothing_works (a : Args) (w : World) (hv : a.cmd.client = true) (h : w.config a.configFile = none) :
    (run a w).worked = none ∧ (run a w).launched = none ∧ (run a w).ending = .error ∧ 0 < (run a w).said := by
  rw [run_not_ready hv (.inl h)]
  simp [failed]

example : (run { cmd := .attach } { config := fun _ => none }).ending = .error ∧ (run { cmd := .list } { config := fun _ => none }).worked = none := by
  decide

/-- C122 is false. -/
theorem C122_false : ¬ C122_statement := by
  intro h
  have := h { cmd := .list } { config := fun _ => none } ⟨true, ["run".toList, "shpool".toList]⟩ rfl ⟨nofun, rfl, rfl⟩ rfl
  rw [(C122_nothing_works _ _ rfl rfl).1] at this
  cases this

/-- C122 for a configuration that can be read, which may be one given on the command line while the usual files are malformed. -/
theorem C122_readable_partial (a : Args) (w : World) (dir : Path) (hv : a.cmd.client = true) (hr : Ready a w dir) (hp : w.probe = .connected)
    (hc : (w.config a.configFile).isSome = true) : (run a w).worked = some (sock a dir) ∧ (run a w).launched = none := by
  obtain ⟨nd, hc⟩ := Option.isSome_iff_exists.mp hc
  rw [run_ready hr hc hv]
  have : maybeLaunch a w (sock a dir) = (none, true) := by simp [maybeLaunch, hp]
  rw [this]
  split <;> exact perform_worked hv

/-- C122, exactly: a command gets to a running daemon if and only if the configuration it loads can be read. -/
theorem C122_exact (a : Args) (w : World) (dir : Path) (hv : a.cmd.client = true) (hr : Ready a w dir) (hp : w.probe = .connected) :
    (run a w).worked = some (sock a dir) ↔ (w.config a.configFile).isSome = true := by
  refine ⟨fun h => ?_, fun h => (C122_readable_partial a w dir hv hr hp h).1⟩
  cases hc : w.config a.configFile with
  | some _ => rfl
  | none =>
    rw [(C122_nothing_works a w hv hc).1] at h
    cases h

/-- The usual files are malformed, but another file is given. -/
example : (run { cmd := .list, configFile := some ⟨true, ["dev".toList, "null".toList]⟩ } { config := fun f => if f.isSome then some none else none }).worked =
    some ⟨true, ["run".toList, "shpool".toList, "shpool.socket".toList]⟩ := by decide

/-! ## C123 -/

/-- C123: a command starts a daemon exactly if it talks to one, was not told not to (`-D`), was told to (`-d`) or the configuration does not
say otherwise, none answers on its socket, and starting it is possible at all. -/
theorem C123_exact (a : Args) (w : World) : (run a w).launched.isSome = true ↔
    a.cmd.client = true ∧ a.noDaemonize = false ∧ (∃ nd, w.config a.configFile = some nd ∧ (a.daemonize = true ∨ nd ≠ some true)) ∧
    w.probe ≠ .connected ∧ (∃ dir, Ready a w dir) ∧ w.spawnOk = true ∧ (w.probe = .refused → w.removeOk = true) := by
  cases hv : a.cmd.client with
  | false =>
    have : a.cmd = .version ∨ a.cmd = .daemon := by revert hv; cases a.cmd <;> simp [Cmd.client]
    simp only [Bool.false_eq_true, false_and, iff_false, Bool.not_eq_true]
    rcases this with h | h
    · simp [run, h]
    · unfold run
      simp only [h, reduceCtorEq, if_false, decide_true, Bool.not_true, Bool.and_false, Bool.false_eq_true]
      split
      · rfl
      · split
        · rfl
        · split
          · rfl
          · split
            · rfl
            · split
              · rfl
              · simp [perform, h]
  | true =>
    simp only [true_and]
    by_cases hR : ∃ dir, Ready a w dir
    · cases hc : w.config a.configFile with
      | none => rw [run_not_ready hv (.inl hc)]; simp [failed]
      | some nd =>
        obtain ⟨dir, hr⟩ := hR
        have hx : ∃ dir, Ready a w dir := ⟨dir, hr⟩
        rw [run_ready hr hc hv]
        have hp : ∀ l, (perform a w (sock a dir) l).launched = l := fun l => (perform_worked hv).2
        have hf : ∀ l, (failed l).launched = l := fun l => rfl
        have hm : (match maybeLaunch a w (sock a dir) with
            | (l, true) => perform a w (sock a dir) l
            | (l, false) => failed l).launched = (maybeLaunch a w (sock a dir)).1 := by
          rcases maybeLaunch a w (sock a dir) with ⟨l, b⟩
          cases b <;> simp [hp, hf]
        cases hnd : a.noDaemonize with
        | true => simp [hp]
        | false =>
          have hcond : ((!nd.getD false || a.daemonize) && !false) = true ↔ (a.daemonize = true ∨ nd ≠ some true) := by
            rcases nd with - | - | - <;> simp
          by_cases hd : a.daemonize = true ∨ nd ≠ some true
          · rw [if_pos (hcond.mpr hd), hm]
            simp only [hx, true_and, hd, Option.some.injEq, exists_eq_left']
            unfold maybeLaunch
            cases w.probe <;> cases w.spawnOk <;> cases w.removeOk <;> simp
          · rw [if_neg (fun h => hd (hcond.mp h)), hp]
            simp [hd]
    · rw [run_not_ready hv (.inr (fun d hd => hR ⟨d, hd⟩))]
      simp [failed, hR]

example : (run { cmd := .kill } { probe := .refused, dial := .connected }).launched.isSome = true ∧
    (run { cmd := .kill } { probe := .refused, config := fun _ => some (some true) }).launched = none ∧
    (run { cmd := .kill, daemonize := true } { probe := .refused, config := fun _ => some (some true) }).launched.isSome = true ∧
    (run { cmd := .kill, daemonize := true, noDaemonize := true } { probe := .refused }).launched = none := by decide

/-- C123: a daemon that is started is told to use the socket that the command uses and the configuration file that the command was given. -/
theorem C123_same (a : Args) (w : World) (l : Launch) (h : (run a w).launched = some l) :
    (∃ dir, Ready a w dir ∧ l.socket = sock a dir) ∧ l.configFile = a.configFile := by
  have h' := (C123_exact a w).mp (by rw [h]; rfl)
  obtain ⟨hv, hnd, ⟨nd, hc, hd⟩, hp, ⟨dir, hr⟩, hs, hrm⟩ := h'
  rw [run_ready hr hc hv] at h
  have hcond : ((!nd.getD false || a.daemonize) && !a.noDaemonize) = true := by
    rw [hnd]; rcases nd with - | - | - <;> simp_all
  rw [if_pos hcond] at h
  have hml : maybeLaunch a w (sock a dir) = (some ⟨a.configFile, sock a dir⟩, w.cameUp) := by
    unfold maybeLaunch
    revert hp hrm
    cases w.probe <;> simp_all
  rw [hml] at h
  have : l = ⟨a.configFile, sock a dir⟩ := by
    cases hu : w.cameUp <;> rw [hu] at h
    · simpa [failed] using h.symm
    · rw [(perform_worked hv).2] at h; exact (Option.some.inj h).symm
  subst this
  exact ⟨⟨dir, hr, rfl⟩, rfl⟩

/-- C123: a command that started a daemon goes on to its work only if the daemon has come up. -/
theorem C123_waits (a : Args) (w : World) (h : (run a w).launched.isSome = true) : (run a w).worked.isSome = true ↔ w.cameUp = true := by
  obtain ⟨hv, hnd, ⟨nd, hc, hd⟩, hp, ⟨dir, hr⟩, hs, hrm⟩ := (C123_exact a w).mp h
  rw [run_ready hr hc hv]
  have hcond : ((!nd.getD false || a.daemonize) && !a.noDaemonize) = true := by
    rw [hnd]; rcases nd with - | - | - <;> simp_all
  rw [if_pos hcond]
  have hml : maybeLaunch a w (sock a dir) = (some ⟨a.configFile, sock a dir⟩, w.cameUp) := by
    unfold maybeLaunch
    revert hp hrm
    cases w.probe <;> simp_all
  rw [hml]
  cases hu : w.cameUp
  · simp [failed]
  · simp [(perform_worked hv).1]

/-! ## C124 -/

/-- C124: a daemon that a command starts listens where the command looks for it. -/
def C124_statement : Prop := ∀ (a : Args) (w : World) (cwd : List Str) (l : Launch) (dir : Path), (run a w).launched = some l → Ready a w dir →
  l.listens = (sock a dir).at cwd

/-- C124, exactly: it does if the path of the socket is absolute or the command is used in the root directory. -/
theorem C124_exact_partial (a : Args) (w : World) (cwd : List Str) (l : Launch) (dir : Path) (h : (run a w).launched = some l)
    (hr : Ready a w dir) : l.listens = (sock a dir).at cwd ↔ ((sock a dir).abs = true ∨ cwd = []) := by
  obtain ⟨⟨dir', hr', hs⟩, -⟩ := C123_same a w l h
  have : dir' = dir := Option.some.inj (hr'.2.1.symm.trans hr.2.1)
  subst this
  unfold Launch.listens Path.at
  rw [hs]
  cases (sock a dir').abs
  · simp
  · simp

/-- C124 is false: the path given with `--socket` is relative. -/
theorem C124_false : ¬ C124_statement := by
  intro h
  have := h { cmd := .list, socket := some ⟨false, ["my.socket".toList]⟩ } { probe := .notFound } ["home".toList]
    ⟨none, ⟨false, ["my.socket".toList]⟩⟩ ⟨true, ["run".toList, "shpool".toList]⟩ (by decide) ⟨nofun, rfl, rfl⟩
  revert this
  decide

/-- C124: … so that the command, which waits for a daemon to answer on its own socket, fails. -/
theorem C124_false_fails (a : Args) (w : World) (cwd : List Str) (dir : Path) (hr : Ready a w dir) (hw : (run a w).launched.isSome = true)
    (ha : (sock a dir).abs = false) (hcwd : cwd ≠ [])
    (hup : ∀ l, (run a w).launched = some l → w.cameUp = true → l.listens = (sock a dir).at cwd) :
    (run a w).worked = none := by
  obtain ⟨l, hl⟩ := Option.isSome_iff_exists.mp hw
  have hne : ¬ l.listens = (sock a dir).at cwd := by
    rw [C124_exact_partial a w cwd l dir hl hr, ha]; simp [hcwd]
  have hc : w.cameUp ≠ true := fun hc => hne (hup l hl hc)
  have := mt (C123_waits a w hw).mp hc
  cases h : (run a w).worked with
  | none => rfl
  | some => rw [h] at this; exact absurd rfl this

example : (run { cmd := .list, socket := some ⟨false, ["my.socket".toList]⟩ } { probe := .notFound, cameUp := false }).worked = none := by decide

/-! ## C125 -/

/-- C125: a command that fails says something about it, on its standard error or in its log file. -/
def C125_statement : Prop := ∀ (a : Args) (w : World), (run a w).ending = .error → 0 < (run a w).said + (run a w).logged

/-- The reasons for which a command that talks to a daemon fails without a word. -/
def Silent (a : Args) (w : World) : Prop :=
  match a.cmd with
  | .version | .daemon => False
  | .events => w.dial ≠ .connected ∨ w.streamOk = false
  | .attach =>
    -- a template or a ttl that cannot be parsed
    w.tmplOk = false ∨ w.ttlOk = false ∨
    -- a daemon that is not there though its socket is, or that cannot be reached, or has a strange version
    w.dial = .refused ∨ w.dial = .other ∨ (w.dial = .connected ∧ w.hello = .nonsense) ∨
    -- a daemon of this version that hangs up, has an unexpected error, or a connection that breaks
    (w.dial = .connected ∧ w.hello = .same ∧
      (w.promptOk = false ∨ w.writeOk = false ∨ w.varsOk = false ∨
        (w.nameOk = true ∧ (w.attachReply = .none ∨ w.attachReply = .unexpected ∨
          ((w.attachReply = .attached 0 ∨ w.attachReply = .created 0) ∧ w.piped = .error)))))
  | c =>
    w.dial = .refused ∨ w.dial = .other ∨ (w.dial = .connected ∧ w.hello = .nonsense) ∨
    (w.dial = .connected ∧ w.hello = .same ∧ ((c = .kill ∨ c = .detach) → 0 < w.named ∨ w.inSession = true) ∧
      (w.writeOk = false ∨ w.reply = .none))

theorem resolve_iff (w : World) : resolveSessions w = true ↔ (0 < w.named ∨ w.inSession = true) := by simp [resolveSessions]

theorem connect_cases (w : World) : connect w = (0, true) ∧ w.dial = .connected ∧ w.hello = .same ∨
    connect w = (1, true) ∧ w.dial = .connected ∧ w.hello = .mismatch ∨
    connect w = (1, false) ∧ w.dial = .notFound ∨
    connect w = (0, false) ∧ (w.dial = .refused ∨ w.dial = .other ∨ (w.dial = .connected ∧ w.hello = .nonsense)) := by
  unfold connect
  cases w.dial <;> cases w.hello <;> simp

theorem request_silent (w : World) (t : Bool) (chk : Nat → Nat → Bool) :
    ((request w t chk).ending = .error ∧ (request w t chk).said = 0) ↔
      (w.dial = .refused ∨ w.dial = .other ∨ (w.dial = .connected ∧ w.hello = .nonsense) ∨
      (w.dial = .connected ∧ w.hello = .same ∧ (t = true → 0 < w.named ∨ w.inSession = true) ∧ (w.writeOk = false ∨ w.reply = .none))) := by
  rw [← resolve_iff]
  unfold request
  rcases connect_cases w with ⟨hc, hd, hh⟩ | ⟨hc, hd, hh⟩ | ⟨hc, hd⟩ | ⟨hc, hd⟩
  · rw [hc, hd, hh]
    simp only [Bool.not_true, Bool.false_eq_true, if_false, reduceCtorEq, false_or, and_false, true_and]
    cases t <;> cases hr : resolveSessions w <;> cases hw : w.writeOk <;> cases hp : w.reply <;> simp
    all_goals (split <;> simp)
  · rw [hc, hd, hh]
    simp only [Bool.not_true, Bool.false_eq_true, if_false, reduceCtorEq, false_or, and_false, true_and, iff_false, false_and, not_and]
    cases t <;> cases hr : resolveSessions w <;> cases hw : w.writeOk <;> cases hp : w.reply <;> simp
    all_goals (split <;> simp)
  · rw [hc, hd]; simp
  · rw [hc]
    rcases hd with hd | hd | ⟨hd, hh⟩
    · simp [hd]
    · simp [hd]
    · simp [hd, hh]

theorem attach_silent (w : World) : ((attach w).ending = .error ∧ (attach w).said = 0) ↔ Silent { cmd := .attach } w := by
  unfold attach
  simp only [Silent]
  cases ht : w.tmplOk
  · simp
  cases htt : w.ttlOk
  · simp
  rcases connect_cases w with ⟨hc, hd, hh⟩ | ⟨hc, hd, hh⟩ | ⟨hc, hd⟩ | ⟨hc, hd⟩
  · rw [hc, hd, hh]
    cases w.promptOk
    · simp
    cases w.writeOk
    · simp
    cases w.varsOk
    · simp
    cases w.nameOk
    · simp
    cases w.attachReply with
    | attached k => cases w.piped <;> simp
    | created k => cases w.piped <;> simp
    | _ => simp
  · rw [hc, hd, hh]
    cases w.promptOk
    · simp
    cases w.writeOk
    · simp
    cases w.varsOk
    · simp
    cases w.nameOk
    · simp
    cases w.attachReply with
    | attached k => cases w.piped <;> simp
    | created k => cases w.piped <;> simp
    | _ => simp
  · rw [hc, hd]; simp
  · rw [hc]
    rcases hd with hd | hd | ⟨hd, hh⟩
    · simp [hd]
    · simp [hd]
    · simp [hd, hh]

theorem dispatch_silent (w : World) (a : Args) (hv : a.cmd.client = true) :
    ((dispatch w a.cmd).ending = .error ∧ (dispatch w a.cmd).said = 0) ↔ Silent a w := by
  obtain ⟨cmd, lf, so, cf, d, nd⟩ := a
  simp only at *
  cases cmd with
  | version => cases hv
  | daemon => cases hv
  | attach => exact attach_silent w
  | detach => simpa [Silent, dispatch] using request_silent w true (fun a b => decide (0 < a) || decide (0 < b))
  | kill => simpa [Silent, dispatch] using request_silent w true (fun a _ => decide (0 < a))
  | list => simpa [Silent, dispatch] using request_silent w false (fun _ _ => false)
  | setLogLevel => simpa [Silent, dispatch] using request_silent w false (fun _ _ => false)
  | var => simpa [Silent, dispatch] using request_silent w false (fun _ _ => false)
  | events =>
    simp only [Silent, dispatch, events]
    cases w.dial <;> cases w.streamOk <;> simp

/-- A command that gets to its work. -/
theorem run_worked {a : Args} {w : World} (h : (run a w).worked.isSome = true) : a.cmd ≠ .version ∧ ∃ s l, run a w = perform a w s l := by
  unfold run at h ⊢
  by_cases e1 : a.cmd = .version
  · rw [if_pos e1] at h; cases h
  refine ⟨e1, ?_⟩
  rw [if_neg e1] at h ⊢
  split at h
  · cases h
  rename_i h1
  rw [if_neg h1]
  split at h
  · cases h
  rename_i h2
  rw [if_neg h2]
  cases hd : runtimeDir w with
  | none => rw [hd] at h; cases h
  | some dir =>
    rw [hd] at h
    simp only at h ⊢
    split at h
    · cases h
    rename_i h3
    rw [if_neg h3]
    cases hc : w.config a.configFile with
    | none => rw [hc] at h; cases h
    | some nd =>
      rw [hc] at h
      simp only at h ⊢
      split at h
      · rename_i h4
        rw [if_pos h4]
        rcases hm : maybeLaunch a w (sock a dir) with ⟨l, b⟩
        rw [hm] at h
        cases b
        · cases h
        · exact ⟨_, _, rfl⟩
      · rename_i h4
        rw [if_neg h4]
        exact ⟨_, _, rfl⟩

/-- A command that does not get to its work and fails does so with a message. -/
theorem run_not_worked {a : Args} {w : World} (h : (run a w).worked = none) : (run a w).ending = .ok ∨ ∃ l, run a w = failed l := by
  unfold run at h ⊢
  by_cases e1 : a.cmd = .version
  · rw [if_pos e1]; exact .inl rfl
  rw [if_neg e1] at h ⊢
  split
  · exact .inl rfl
  rename_i h1
  rw [if_neg h1] at h
  split
  · exact .inr ⟨_, rfl⟩
  rename_i h2
  rw [if_neg h2] at h
  cases hd : runtimeDir w with
  | none => exact .inr ⟨_, rfl⟩
  | some dir =>
    rw [hd] at h
    simp only at h ⊢
    split
    · exact .inr ⟨_, rfl⟩
    rename_i h3
    rw [if_neg h3] at h
    cases hc : w.config a.configFile with
    | none => exact .inr ⟨_, rfl⟩
    | some nd =>
      rw [hc] at h
      simp only at h ⊢
      split
      · rename_i h4
        rw [if_pos h4] at h
        rcases hm : maybeLaunch a w (sock a dir) with ⟨l, b⟩
        rw [hm] at h
        cases b
        · exact .inr ⟨_, rfl⟩
        · simp [perform, e1] at h
      · rename_i h4
        rw [if_neg h4] at h
        simp [perform, e1] at h

/-- C125, exactly: the commands that fail without a word are those that were given no log file and failed for one of the reasons listed in
`Silent`. -/
theorem C125_exact_partial (a : Args) (w : World) : ((run a w).ending = .error ∧ (run a w).said + (run a w).logged = 0) ↔
    ((run a w).worked.isSome = true ∧ a.logFile = false ∧ Silent a w) := by
  cases hw : (run a w).worked with
  | none =>
    simp only [Option.isSome_none, Bool.false_eq_true, false_and, iff_false]
    rintro ⟨he, hs⟩
    rcases run_not_worked hw with h | ⟨l, h⟩
    · rw [h] at he; cases he
    · rw [h] at hs; simp [failed] at hs
  | some s0 =>
    obtain ⟨hv, s, l, h⟩ := run_worked (a := a) (w := w) (by rw [hw]; rfl)
    rw [h]
    simp only [perform, if_neg hv, Option.isSome_some, true_and]
    by_cases hd : a.cmd = .daemon
    · have : ¬ Silent a w := by simp [Silent, hd]
      simp only [this, and_false, iff_false, not_and]
      intro he
      rw [hd] at he
      cases hl : a.logFile <;> simp [he, hd]
    · have hc : a.cmd.client = true := by
        revert hv hd; cases a.cmd <;> simp [Cmd.client]
      rw [← dispatch_silent w a hc]
      cases hl : a.logFile
      · simp [hd]
      · simp only [hd, and_true, Bool.true_eq_false, false_and, iff_false, not_and]
        intro he
        simp [he]

/-- C125: a command that fails before its work says so. -/
theorem C125_before (a : Args) (w : World) (hw : (run a w).worked = none) (h : (run a w).ending = .error) : 0 < (run a w).said := by
  rcases run_not_worked hw with h' | ⟨l, h'⟩
  · rw [h'] at h; cases h
  · rw [h']; simp [failed]

/-- C125 is false: a ttl that cannot be parsed … -/
theorem C125_false_ttl : (run { cmd := .attach } { ttlOk := false }).ending = .error ∧ (run { cmd := .attach } { ttlOk := false }).said = 0 ∧
    (run { cmd := .attach } { ttlOk := false }).logged = 0 := by decide

/-- … or a daemon that was killed and left its socket behind, for a user who wants no automatic daemon … -/
theorem C125_false_refused : ∀ c : Cmd, c.client = true → (run { cmd := c, noDaemonize := true } { dial := .refused }).ending = .error ∧
    (run { cmd := c, noDaemonize := true } { dial := .refused }).said = 0 := by
  intro c h; cases c <;> first | exact absurd h (by decide) | decide

/-- … are not explained. -/
theorem C125_false : ¬ C125_statement := by
  intro h
  have := h { cmd := .attach } { ttlOk := false } C125_false_ttl.1
  rw [C125_false_ttl.2.1, C125_false_ttl.2.2] at this
  omega

end Shpool.Main
