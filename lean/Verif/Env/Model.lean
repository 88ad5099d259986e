import Verif.EtcEnv.Model
/-!
# Model of session names, directories and environments

Sources: `/repo/libshpool/src/daemon/server.rs` 249-253 (name check), 574-622 (ssh-auth-sock link and forward.env), 958-962 (start
directory), 1185-1300 (environment and paths); `/repo/libshpool/src/attach.rs` 140-157 (name check), 254-285 (header);
`/repo/shpool-protocol/src/lib.rs` 253-255 (`local_env_get`).

Strings are `List Char`; OS strings that are not UTF-8 are not modelled.
-/

namespace Shpool.Env
open Shpool.Str

abbrev Str := List Char
/-- Environment variables in the order they are set. -/
abbrev Pairs := List (Str × Str)

/-! Names of variables. -/
def kHOME : Str := "HOME".toList
def kPATH : Str := "PATH".toList
def kSHPOOL_SESSION_NAME : Str := "SHPOOL_SESSION_NAME".toList
def kSHPOOL_SESSION_DIR : Str := "SHPOOL_SESSION_DIR".toList
def kSHELL : Str := "SHELL".toList
def kUSER : Str := "USER".toList
def kSSH_AUTH_SOCK : Str := "SSH_AUTH_SOCK".toList
def kXDG_RUNTIME_DIR : Str := "XDG_RUNTIME_DIR".toList
def kTERM : Str := "TERM".toList
def kDISPLAY : Str := "DISPLAY".toList
def kLANG : Str := "LANG".toList

/-! ## Names -/

/-- The daemon's check, server.rs 249-253: true if the name is refused. -/
def daemonRejects (name : Str) : Bool :=
  name.any (fun c => '/' == c || isWhitespace c) || name == ".".toList || name == "..".toList || name.isEmpty

/-- The client's check, attach.rs 141-156: the message printed, `none` if the name is accepted. -/
inductive Complaint where
  | blank | whitespace | slash | special
  deriving DecidableEq, Repr

def clientRejects (name : Str) : Option Complaint :=
  if name.isEmpty then some .blank
  else if name.any isWhitespace then some .whitespace
  else if name.any (fun c => '/' == c) then some .slash
  else if name == ".".toList || name == "..".toList then some .special
  else none

/-! ## Paths -/

/-- `PathBuf::push` / `Path::join` on Unix. -/
def joinPath (base p : Str) : Str :=
  if p.head? = some '/' then p
  else if base.isEmpty || base.getLast? == some '/' then base ++ p
  else base ++ '/' :: p

/-- `session_dir`, server.rs 1298-1300. -/
def sessionDir (runtimeDir name : Str) : Str := joinPath (joinPath runtimeDir "sessions".toList) name
/-- `session_env_file`, server.rs 1290-1292. -/
def sessionEnvFile (runtimeDir name : Str) : Str := joinPath (sessionDir runtimeDir name) "forward.env".toList
/-- `ssh_auth_sock_symlink`, server.rs 1294-1296. -/
def sshAuthSockSymlink (runtimeDir name : Str) : Str := joinPath (sessionDir runtimeDir name) "ssh-auth-sock.socket".toList

/-! ## The header the client sends -/

/-- The parts of `AttachHeader` (lib.rs 207-250) used here. -/
structure Header where
  name : Str
  localEnv : Pairs
  dir : Option Str
  deriving DecidableEq, Repr

/-- `local_env_get`, shpool-protocol lib.rs 253-255: the first match. -/
def Header.localEnvGet (h : Header) (var : Str) : Option Str := (h.localEnv.find? (fun p => p.1 == var)).map (·.2)

/-- The environment of the client process: `env::var(v).ok()`. -/
abbrev ProcEnv := Str → Option Str

/-- The variables forwarded, attach.rs 254-262 and 277-284. -/
def localEnvKeys (forwardEnv : Option (List Str)) : List Str :=
  [kTERM, kDISPLAY, kLANG, kSSH_AUTH_SOCK] ++ forwardEnv.getD []
def localEnvOf (forwardEnv : Option (List Str)) (env : ProcEnv) : Pairs :=
  (localEnvKeys forwardEnv).filterMap (fun k => (env k).map (fun v => (k, v)))

/-- The directory in the header, attach.rs 264-273. -/
def headerDir (cwd : Str) (defaultDir : Option Str) (dirFlag : Option Str) : Option Str :=
  let d := defaultDir.getD "$HOME".toList
  match dirFlag with
  | none => if d = ".".toList then some cwd else if d = "$HOME".toList then none else some d
  | some f => if f = ".".toList then some cwd else some f

/-- The directory the shell starts in, server.rs 958-961. -/
def startDir (home : Str) (headerDir : Option Str) : Str := headerDir.getD home

/-! ## The environment of a new session -/

/-- Everything `build_shell_env` looks at. `configEnv` is a hash map: an association list with distinct keys in any order.
`etcEnv` is `none` if the file could not be opened, `some none` if parsing failed. -/
structure Ctx where
  home : Str
  user : Str
  defaultShell : Str
  runtimeDir : Str
  xdgRuntimeDir : Option Str
  initialPath : Option Str
  configEnv : Option Pairs
  noreadEtc : Option Bool
  etcFile : Option (List EtcEnv.Sym)

/-- `DEFAULT_INITIAL_SHELL_PATH`, server.rs 57. -/
def defaultPath : Str := "/usr/bin:/bin:/usr/sbin:/sbin".toList

/-- server.rs 1193-1218. -/
def baseEnv (c : Ctx) (h : Header) : Pairs :=
  [(kHOME, c.home), (kPATH, c.initialPath.getD defaultPath),
   (kSHPOOL_SESSION_NAME, h.name), (kSHPOOL_SESSION_DIR, sessionDir c.runtimeDir h.name),
   (kSHELL, c.defaultShell), (kUSER, c.user),
   (kSSH_AUTH_SOCK, sshAuthSockSymlink c.runtimeDir h.name)] ++
  (match c.xdgRuntimeDir with | some x => [(kXDG_RUNTIME_DIR, x)] | none => [])

def assocGet (m : Pairs) (k : Str) : Option Str := (m.find? (fun p => p.1 == k)).map (·.2)

/-- server.rs 1225-1235. -/
def termOf (c : Ctx) (h : Header) : Option Str :=
  let term := h.localEnvGet kTERM
  match c.configEnv with
  | none => term
  | some m => match assocGet m kTERM with
    | none => term
    | some t => if t.isEmpty then none else some t

/-- server.rs 1243-1255. -/
def extraEnv (c : Ctx) (h : Header) : Pairs :=
  match c.configEnv with
  | none => []
  | some m => if (termOf c h).isNone then m.filter (fun p => !(p.1 == kTERM)) else m

/-- `build_shell_env`, server.rs 1185-1286; `none` is the error return. -/
def buildShellEnv (c : Ctx) (h : Header) : Option Pairs :=
  let env := baseEnv c h ++ extraEnv c h ++
    (match termOf c h with | some t => [(kTERM, t)] | none => []) ++
    h.localEnv.filter (fun p => !(p.1 == kTERM || p.1 == kSSH_AUTH_SOCK))
  if c.noreadEtc.getD false then some env
  else match c.etcFile with
    | none => some env
    | some f => match EtcEnv.parseCompat f with
      | none => none
      | some ps => some (env ++ ps)

/-- `Command::env_clear` then `envs`, server.rs 964-976: the last setting of a variable counts. -/
def getenv (env : Pairs) (k : Str) : Option Str := (env.reverse.find? (fun p => p.1 == k)).map (·.2)

/-! ## Files written at attach -/

/-- The symlinks and files of the runtime directory, by path. -/
structure Fs where
  link : Str → Option Str
  file : Str → Option Str

def Fs.empty : Fs := ⟨fun _ => none, fun _ => none⟩

/-- `[a, b, c].join("\n")`. -/
def joinLines : List Str → Str
  | [] => []
  | [l] => l
  | l :: m :: ls => l ++ '\n' :: joinLines (m :: ls)

/-- `populate_session_env_file`, server.rs 608-622: the text written. -/
def forwardEnvText (localEnv : Pairs) : Str := joinLines (localEnv.map (fun p => p.1 ++ '=' :: p.2))

/-- `link_ssh_auth_sock` and `populate_session_env_file`, server.rs 574-622, if no file operation fails.  (Directories and
permissions are not modelled.) -/
def onAttach (runtimeDir : Str) (nosymlink : Option Bool) (fs : Fs) (h : Header) : Fs :=
  let fs :=
    if nosymlink.getD false then fs
    else match h.localEnvGet kSSH_AUTH_SOCK with
      | none => fs
      | some target =>
        let l := sshAuthSockSymlink runtimeDir h.name
        { fs with link := fun p => if p = l then some target else fs.link p }
  { fs with file := fun p => if p = sessionEnvFile runtimeDir h.name then some (forwardEnvText h.localEnv) else fs.file p }

end Shpool.Env
