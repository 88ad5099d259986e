import Verif.Config.Model
import Verif.Util.List
/-!
# Properties C32, C33, C73, C74: configuration
-/

namespace Shpool.Config

/-! ## Specification vocabulary: settings by name -/

inductive Key where
  | norc
  | noecho
  | nosymlink_ssh_auth_sock
  | noread_etc_environment
  | nodaemonize
  | nodaemonize_timeout
  | shell
  | env
  | default_dir
  | forward_env
  | initial_path
  | session_restore_mode
  | session_restore_engine
  | output_spool_lines
  | vt100_output_spool_width
  | keybinding
  | prompt_prefix
  | motd
  | motd_args
  | var_default
  deriving DecidableEq, Repr

inductive Val where
  | bool (b : Bool) | str (s : Str) | strs (l : List Str) | table (l : List (Str × Str)) | nat (n : Nat)
  | mode (m : RestoreMode) | engine (e : RestoreEngine) | motd (m : Motd)
  deriving DecidableEq, Repr

/-- What a configuration says about a setting. -/
def Config.get (c : Config) : Key → Option Val
  | .norc => c.norc.map .bool
  | .noecho => c.noecho.map .bool
  | .nosymlink_ssh_auth_sock => c.nosymlink_ssh_auth_sock.map .bool
  | .noread_etc_environment => c.noread_etc_environment.map .bool
  | .nodaemonize => c.nodaemonize.map .bool
  | .nodaemonize_timeout => c.nodaemonize_timeout.map .bool
  | .shell => c.shell.map .str
  | .env => c.env.map .table
  | .default_dir => c.default_dir.map .str
  | .forward_env => c.forward_env.map .strs
  | .initial_path => c.initial_path.map .str
  | .session_restore_mode => c.session_restore_mode.map .mode
  | .session_restore_engine => c.session_restore_engine.map .engine
  | .output_spool_lines => c.output_spool_lines.map .nat
  | .vt100_output_spool_width => c.vt100_output_spool_width.map .nat
  | .keybinding => c.keybinding.map .table
  | .prompt_prefix => c.prompt_prefix.map .str
  | .motd => c.motd.map .motd
  | .motd_args => c.motd_args.map .strs
  | .var_default => c.var_default.map .table

/-- What a file says about a setting. -/
def File.get (f : File) (k : Key) : Option Val := match f with
  | .parsed c => c.get k
  | _ => none

/-- The last `some` of a list. -/
def lastSome : List (Option Val) → Option Val
  | [] => none
  | x :: xs => (lastSome xs).or x

theorem get_merge (a b : Config) (k : Key) : (a.merge b).get k = (a.get k).or (b.get k) := by
  cases k <;> simp only [Config.get, Config.merge] <;> (rw [Option.map_or])

theorem get_empty (k : Key) : Config.empty.get k = none := by cases k <;> rfl

theorem map_inj {α β : Type} {f : α → β} (hf : ∀ a b, f a = f b → a = b) {x y : Option α} (h : x.map f = y.map f) : x = y := by
  cases x with
  | none => cases y with
    | none => rfl
    | some _ => cases h
  | some a => cases y with
    | none => cases h
    | some b => simp only [Option.map_some, Option.some.injEq] at h; rw [hf a b h]

theorem ext_get (a b : Config) (h : ∀ k, a.get k = b.get k) : a = b := by
  cases a; cases b
  simp only [Config.mk.injEq]
  refine ⟨?_, ?_, ?_, ?_, ?_, ?_, ?_, ?_, ?_, ?_, ?_, ?_, ?_, ?_, ?_, ?_, ?_, ?_, ?_, ?_⟩
  · exact map_inj (fun _ _ e => by injection e) (h .norc)
  · exact map_inj (fun _ _ e => by injection e) (h .noecho)
  · exact map_inj (fun _ _ e => by injection e) (h .nosymlink_ssh_auth_sock)
  · exact map_inj (fun _ _ e => by injection e) (h .noread_etc_environment)
  · exact map_inj (fun _ _ e => by injection e) (h .nodaemonize)
  · exact map_inj (fun _ _ e => by injection e) (h .nodaemonize_timeout)
  · exact map_inj (fun _ _ e => by injection e) (h .shell)
  · exact map_inj (fun _ _ e => by injection e) (h .env)
  · exact map_inj (fun _ _ e => by injection e) (h .default_dir)
  · exact map_inj (fun _ _ e => by injection e) (h .forward_env)
  · exact map_inj (fun _ _ e => by injection e) (h .initial_path)
  · exact map_inj (fun _ _ e => by injection e) (h .session_restore_mode)
  · exact map_inj (fun _ _ e => by injection e) (h .session_restore_engine)
  · exact map_inj (fun _ _ e => by injection e) (h .output_spool_lines)
  · exact map_inj (fun _ _ e => by injection e) (h .vt100_output_spool_width)
  · exact map_inj (fun _ _ e => by injection e) (h .keybinding)
  · exact map_inj (fun _ _ e => by injection e) (h .prompt_prefix)
  · exact map_inj (fun _ _ e => by injection e) (h .motd)
  · exact map_inj (fun _ _ e => by injection e) (h .motd_args)
  · exact map_inj (fun _ _ e => by injection e) (h .var_default)

/-! ## C32 -/

/-- C32 (precedence). If loading succeeds, the value of every setting is the one of the last file that mentions it, and it is unset if
no file does.  Loading succeeds exactly if no file is malformed. -/
theorem C32_precedence (files : List File) :
    (load files = none ↔ .malformed ∈ files) ∧
    ∀ c, load files = some c → ∀ k, c.get k = lastSome (files.map (·.get k)) := by
  have main : ∀ acc, (loadFrom acc files = none ↔ .malformed ∈ files) ∧
      ∀ c, loadFrom acc files = some c → ∀ k, c.get k = (lastSome (files.map (·.get k))).or (acc.get k) := by
    induction files with
    | nil =>
      intro acc
      refine ⟨by simp [loadFrom], ?_⟩
      intro c hc k
      cases hc; rfl
    | cons f fs ih =>
      intro acc
      cases f with
      | unreadable =>
        obtain ⟨h1, h2⟩ := ih acc
        refine ⟨by simp [loadFrom, h1], ?_⟩
        intro c hc k
        rw [h2 c hc k]
        simp [lastSome, File.get]
      | malformed => exact ⟨by simp [loadFrom], fun c hc => by cases hc⟩
      | parsed c' =>
        obtain ⟨h1, h2⟩ := ih (c'.merge acc)
        refine ⟨by simp [loadFrom, h1], ?_⟩
        intro c hc k
        rw [h2 c hc k, get_merge]
        simp [lastSome, File.get, Option.or_assoc]
  obtain ⟨h1, h2⟩ := main .empty
  refine ⟨h1, fun c hc k => ?_⟩
  rw [h2 c hc k, get_empty, Option.or_none]

/-- C32 (user over system). With the two standard files: the user's value if the user's file sets it, else the system's. -/
theorem C32_user_over_system (sys usr : File) (c : Config) (h : load [sys, usr] = some c) (k : Key) :
    (∀ v, usr.get k = some v → c.get k = some v) ∧ (usr.get k = none → c.get k = sys.get k) := by
  have := (C32_precedence [sys, usr]).2 c h k
  simp only [List.map_cons, List.map_nil, lastSome, Option.none_or] at this
  rw [this]
  constructor
  · intro v hv; rw [hv]; rfl
  · intro hn; rw [hn]; rfl

/-- C32 (merging). Merging is associative and an empty configuration is neutral; an unreadable or empty file changes nothing. -/
theorem C32_merge (a b c : Config) (before after : List File) :
    (a.merge b).merge c = a.merge (b.merge c) ∧ a.merge .empty = a ∧ Config.empty.merge a = a ∧
    load (before ++ .unreadable :: after) = load (before ++ after) ∧
    load (before ++ .parsed .empty :: after) = load (before ++ after) := by
  have hneutral : ∀ a : Config, Config.empty.merge a = a := fun a =>
    ext_get _ _ (fun k => by rw [get_merge, get_empty, Option.none_or])
  refine ⟨ext_get _ _ (fun k => by simp only [get_merge, Option.or_assoc]),
    ext_get _ _ (fun k => by rw [get_merge, get_empty, Option.or_none]), hneutral a, ?_, ?_⟩
  · have : ∀ acc, loadFrom acc (before ++ .unreadable :: after) = loadFrom acc (before ++ after) := by
      induction before with
      | nil => intro acc; rfl
      | cons f fs ih => intro acc; cases f <;> simp [loadFrom, ih]
    exact this _
  · have : ∀ acc, loadFrom acc (before ++ .parsed .empty :: after) = loadFrom acc (before ++ after) := by
      induction before with
      | nil => intro acc; simp [loadFrom, hneutral]
      | cons f fs ih => intro acc; cases f <;> simp [loadFrom, ih]
    exact this _

/-- Two files for the examples. -/
def demoSys : Config := { Config.empty with norc := some true, shell := some ['s'] }
def demoUsr : Config := { Config.empty with shell := some ['u'], motd := some .dump }
example : load [.parsed demoSys, .unreadable, .parsed demoUsr] =
    some { Config.empty with norc := some true, shell := some ['u'], motd := some .dump } := by decide

/-! ## C33 -/

/-- C33. After any sequence of reloads the daemon works with what the latest successful load produced: the last reload that found no
malformed file, or the initial load if every reload failed. -/
theorem C33_last_good (start : List File) (reloads : List (List File)) (c0 : Config) (h0 : load start = some c0) :
    ∃ c, manager start reloads = some c ∧
      ((∀ fs ∈ reloads, .malformed ∈ fs) → c = c0) ∧
      (∀ before good after, reloads = before ++ good :: after → .malformed ∉ good → (∀ fs ∈ after, .malformed ∈ fs) →
        load good = some c) := by
  refine ⟨reloads.foldl reload c0, by simp [manager, h0], ?_, ?_⟩
  · intro hall
    induction reloads generalizing c0 with
    | nil => rfl
    | cons fs rs ih =>
      rw [List.foldl_cons]
      have hr : reload c0 fs = c0 := by
        unfold reload
        rw [(C32_precedence fs).1.mpr (hall fs (by simp))]
      rw [hr]
      exact ih c0 h0 (fun g hg => hall g (List.mem_cons_of_mem _ hg))
  · intro before good after he hg hafter
    rw [he, List.foldl_append, List.foldl_cons]
    cases hl : load good with
    | none => exact absurd ((C32_precedence good).1.mp hl) hg
    | some c =>
      have : reload (before.foldl reload c0) good = c := by unfold reload; rw [hl]
      rw [this]
      congr 1
      clear this hl he
      induction after generalizing c with
      | nil => rfl
      | cons fs rs ih =>
        rw [List.foldl_cons]
        have hr : reload c fs = c := by
          unfold reload
          rw [(C32_precedence fs).1.mpr (hafter fs (by simp))]
        rw [hr]
        exact ih (fun g hg => hafter g (List.mem_cons_of_mem _ hg)) c

/-- C33 (no crash). The daemon starts exactly if no file is malformed at start; no later edit stops it. -/
theorem C33_starts (start : List File) (reloads : List (List File)) :
    manager start reloads = none ↔ .malformed ∈ start := by
  unfold manager
  rw [Option.map_eq_none_iff]
  exact (C32_precedence start).1

example : manager [.parsed demoSys] [[.malformed], [.parsed demoUsr], [.malformed], [.malformed]] = some demoUsr := by decide

/-! ## C73 -/

/-- C73 in full: with well-formed files the daemon starts, wherever the configuration directory is. -/
def C73_statement : Prop := ∀ explicit env home contents, (∀ p, contents p ≠ File.malformed) →
  managerStarts explicit env home contents = true

/-- C73 fails: if the user configuration directory is `/etc`, the daemon does not start. -/
theorem C73_false : ¬ C73_statement := by
  intro h
  have := h none (fun k => if k = "XDG_CONFIG_DIR".toList then some ["etc".toList] else none) [] (fun _ => .unreadable) (by simp)
  revert this; decide

/-- C73 (partial). It starts if the two standard files are different files (or a file is given explicitly) and none is malformed. -/
theorem C73_starts_partial (explicit : Option Path) (env : Str → Option Path) (home : Path) (contents : Path → File)
    (hok : ∀ p, contents p ≠ .malformed) (hne : explicit = none → userConfig env home ≠ ["etc".toList, "shpool".toList, "config.toml".toList]) :
    managerStarts explicit env home contents = true := by
  unfold managerStarts
  have hl : ∀ fs : List Path, (load (fs.map contents)).isSome = true := by
    intro fs
    cases h : load (fs.map contents) with
    | some c => rfl
    | none =>
      obtain ⟨p, -, hp⟩ := List.mem_map.mp ((C32_precedence _).1.mp h)
      exact absurd hp (hok p)
  simp only [hl, Bool.true_and]
  cases explicit with
  | some p => rfl
  | none =>
    simp only [configFiles, watchAll, List.not_mem_nil, if_false, List.mem_singleton]
    rw [if_neg (show ¬ userConfig env home = systemConfig from hne rfl)]
    rfl

example : userConfig (fun _ => none) ["home".toList, "u".toList] ≠ ["etc".toList, "shpool".toList, "config.toml".toList] := by decide

/-! ## C74 -/

/-- C74 in full: the user's file is `$XDG_CONFIG_HOME/shpool/config.toml`, or `$HOME/.config/shpool/config.toml` if that variable is
not set, as documented. -/
def C74_statement : Prop := ∀ (env : Str → Option Path) (home : Path),
  configFiles none env home = [["etc".toList, "shpool".toList, "config.toml".toList],
    (match env "XDG_CONFIG_HOME".toList with | some d => d | none => home ++ [".config".toList]) ++ ["shpool".toList, "config.toml".toList]]

/-- C74 fails: the variable consulted is `XDG_CONFIG_DIR`. -/
theorem C74_false : ¬ C74_statement := by
  intro h
  have := h (fun k => if k = "XDG_CONFIG_HOME".toList then some [['x']] else none) [['h']]
  revert this; decide

/-- C74 (partial). It holds if neither variable is set or both have the same value. -/
theorem C74_user_file_partial (env : Str → Option Path) (home : Path) (h : env "XDG_CONFIG_HOME".toList = env "XDG_CONFIG_DIR".toList) :
    configFiles none env home = [["etc".toList, "shpool".toList, "config.toml".toList],
      (match env "XDG_CONFIG_HOME".toList with | some d => d | none => home ++ [".config".toList]) ++ ["shpool".toList, "config.toml".toList]] := by
  simp only [configFiles, userConfig, configBaseDir]
  rw [h]
  cases env "XDG_CONFIG_DIR".toList <;> rfl

/-- C74. A file given explicitly is the only one read. -/
theorem C74_explicit (p : Path) (env : Str → Option Path) (home : Path) : configFiles (some p) env home = [p] := rfl

example : configFiles none (fun _ => none) [['h']] = [["etc".toList, "shpool".toList, "config.toml".toList], [['h'], ".config".toList, "shpool".toList, "config.toml".toList]] := rfl

end Shpool.Config
