/-!
# Model of configuration loading

Sources: `/repo/libshpool/src/config.rs` 56-167 (`Manager`), 180-300 (`Config`), 302-338 (`Config::merge`).

Simplifications: what the TOML parser makes of a text is a parameter (a file is unreadable, malformed or parsed to a `Config`);
hash tables are association lists; key bindings are (binding, action) texts; numbers are naturals.
-/

namespace Shpool.Config

abbrev Str := List Char

/-- `SessionRestoreMode`, config.rs 351-368. -/
inductive RestoreMode where
  | simple | screen | lines (n : Nat)
  deriving DecidableEq, Repr
/-- `SessionRestoreEngine`, config.rs 370-378. -/
inductive RestoreEngine where
  | vt100 | vterm
  deriving DecidableEq, Repr
/-- `MotdDisplayMode`, config.rs 380-417. -/
inductive Motd where
  | never | pager (bin : Str) (showEvery : Option Str) | dump
  deriving DecidableEq, Repr

/-- `Config`, config.rs 180-300 (twenty optional settings). -/
structure Config where
  norc : Option Bool
  noecho : Option Bool
  nosymlink_ssh_auth_sock : Option Bool
  noread_etc_environment : Option Bool
  nodaemonize : Option Bool
  nodaemonize_timeout : Option Bool
  shell : Option Str
  env : Option (List (Str × Str))
  default_dir : Option Str
  forward_env : Option (List Str)
  initial_path : Option Str
  session_restore_mode : Option RestoreMode
  session_restore_engine : Option RestoreEngine
  output_spool_lines : Option Nat
  vt100_output_spool_width : Option Nat
  keybinding : Option (List (Str × Str))
  prompt_prefix : Option Str
  motd : Option Motd
  motd_args : Option (List Str)
  var_default : Option (List (Str × Str))
  deriving DecidableEq, Repr

/-- `Config::default`, derived: nothing set. -/
def Config.empty : Config := ⟨none, none, none, none, none, none, none, none, none, none, none, none, none, none, none, none, none, none, none, none⟩

/-- `Config::merge`, config.rs 302-338. -/
def Config.merge (self another : Config) : Config where
  norc := self.norc.or another.norc
  noecho := self.noecho.or another.noecho
  nosymlink_ssh_auth_sock := self.nosymlink_ssh_auth_sock.or another.nosymlink_ssh_auth_sock
  noread_etc_environment := self.noread_etc_environment.or another.noread_etc_environment
  nodaemonize := self.nodaemonize.or another.nodaemonize
  nodaemonize_timeout := self.nodaemonize_timeout.or another.nodaemonize_timeout
  shell := self.shell.or another.shell
  env := self.env.or another.env
  default_dir := self.default_dir.or another.default_dir
  forward_env := self.forward_env.or another.forward_env
  initial_path := self.initial_path.or another.initial_path
  session_restore_mode := self.session_restore_mode.or another.session_restore_mode
  session_restore_engine := self.session_restore_engine.or another.session_restore_engine
  output_spool_lines := self.output_spool_lines.or another.output_spool_lines
  vt100_output_spool_width := self.vt100_output_spool_width.or another.vt100_output_spool_width
  keybinding := self.keybinding.or another.keybinding
  prompt_prefix := self.prompt_prefix.or another.prompt_prefix
  motd := self.motd.or another.motd
  motd_args := self.motd_args.or another.motd_args
  var_default := self.var_default.or another.var_default

/-- A configuration file as `load` finds it, config.rs 119-135. -/
inductive File where
  /-- missing or unreadable: skipped -/
  | unreadable
  /-- not valid TOML or not valid settings: an error -/
  | malformed
  | parsed (c : Config)
  deriving DecidableEq, Repr

/-- The loop of `Manager::load`, config.rs 116-137; `none` is the error. -/
def loadFrom (acc : Config) : List File → Option Config
  | [] => some acc
  | .unreadable :: fs => loadFrom acc fs
  | .malformed :: _ => none
  | .parsed c :: fs => loadFrom (c.merge acc) fs

/-- `Manager::load`, config.rs 111-139; files in increasing priority. -/
def load (files : List File) : Option Config := loadFrom .empty files

/-- The reload handler, config.rs 82-93: the configuration in force afterwards. -/
def reload (current : Config) (files : List File) : Config := match load files with
  | some c => c
  | none => current

/-- `Manager::new` and the later reloads, config.rs 56-100: `none` if the first load fails (the program does not start); otherwise the
configuration in force after the reloads, each given what it found in the files. -/
def manager (start : List File) (reloads : List (List File)) : Option Config :=
  (load start).map (fun c => reloads.foldl reload c)

/-! ## Which files -/

/-- A path as its components. -/
abbrev Path := List Str

/-- `config_base_dir`, config.rs 157-167 (Linux): `env` is the environment. -/
def configBaseDir (env : Str → Option Path) (home : Path) : Path := match env "XDG_CONFIG_DIR".toList with
  | some v => v
  | none => home ++ [".config".toList]

/-- `config_dir`, config.rs 141-145, and the file name added in config.rs 63. -/
def userConfig (env : Str → Option Path) (home : Path) : Path :=
  configBaseDir env home ++ ["shpool".toList, "config.toml".toList]

def systemConfig : Path := ["etc".toList, "shpool".toList, "config.toml".toList]

/-- The files read, in increasing priority, config.rs 59-71. -/
def configFiles (explicit : Option Path) (env : Str → Option Path) (home : Path) : List Path := match explicit with
  | some p => [p]
  | none => [systemConfig, userConfig env home]

/-- Registering the watches one by one, config.rs 95-97 with config_watcher.rs 330-342: a path already watched is an error.  (Paths
here have no symbolic links; watching itself is taken to succeed.) -/
def watchAll : List Path → List Path → Option (List Path)
  | watched, [] => some watched
  | watched, p :: ps => if p ∈ watched then none else watchAll (p :: watched) ps

/-- `Manager::new`, config.rs 56-100: does it succeed, given the contents of the files? -/
def managerStarts (explicit : Option Path) (env : Str → Option Path) (home : Path) (contents : Path → File) : Bool :=
  let fs := configFiles explicit env home
  (load (fs.map contents)).isSome && (watchAll [] fs).isSome

end Shpool.Config
