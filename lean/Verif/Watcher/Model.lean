import Verif.Util.Lts
/-!
# Model of the configuration watcher

Source: `/repo/libshpool/src/config_watcher.rs` 59-82 and 214-500.

The state holds the file system, the watches registered with the kernel, the queue of notifications, the watcher's own table and its
reload deadline.  File system changes (by anybody) and the watcher's steps interleave arbitrarily.

Simplifications:
* paths are lists of components, innermost first, the root being `[]`; there are no symbolic links, so canonicalization is the identity;
* registering a watch succeeds exactly if the path exists;
* the kernel reports, for a watched path, the creation, removal, replacement and modification of its direct children, and the
  removal, replacement and modification of the path itself; a watch is dropped when its path is removed or replaced;
* one rewatch is not interleaved with file system changes, except in `bestEffortRacy`.
-/

namespace Shpool.Watcher

abbrev Path := List Nat

abbrev Fs := List (Path × Nat)

/-- The content at a path, if it exists. -/
def content (fs : Fs) (p : Path) : Option Nat := (fs.find? (fun e => e.1 = p)).map (·.2)
/-- The root always exists. -/
def ex (fs : Fs) (p : Path) : Bool := p = [] || (content fs p).isSome
def put (fs : Fs) (p : Path) (x : Nat) : Fs := (p, x) :: fs.filter (fun e => e.1 ≠ p)
def del (fs : Fs) (p : Path) : Fs := fs.filter (fun e => e.1 ≠ p)
/-- No entry directly in `p`. -/
def leaf (fs : Fs) (p : Path) : Bool := fs.all (fun e => e.1.tail ≠ p || e.1 = [])

/-- Kinds of `notify` events, as far as `handle_event` (config_watcher.rs 423-457) and `run` (381-388) distinguish them. -/
inductive Kind where
  /-- an error instead of an event -/
  | error
  /-- `need_rescan` -/
  | rescan
  /-- create, remove or rename -/
  | change
  /-- any other modification -/
  | modify
  | other
  deriving DecidableEq, Repr

structure Event where
  kind : Kind
  paths : List Path
  deriving DecidableEq, Repr

/-- An entry of the table: target, watched path, immediate child, config_watcher.rs 234-236. -/
structure Entry where
  target : Path
  watched : Path
  child : Path
  deriving DecidableEq, Repr

structure St where
  fs : Fs
  watches : List Path
  queue : List Event
  paths : List Entry
  now : Nat
  deadline : Option Nat
  /-- ghost: the file system the last reload saw -/
  seen : Fs
  /-- ghost: times of the reloads, newest first -/
  reloads : List Nat
  deriving DecidableEq, Repr

/-- `best_effort_watch`, config_watcher.rs 59-82, on a file system at rest: the nearest existing ancestor. -/
def nearest (fs : Fs) : Path → Path
  | [] => []
  | x :: p => if ex fs (x :: p) then x :: p else nearest fs p

/-- `best_effort_watch` when the file system changes between its attempts: attempt `i` sees `fss i`. -/
def bestEffortRacy : List Fs → Path → Path
  | _, [] => []
  | [], _ :: p => bestEffortRacy [] p
  | fs :: fss, x :: p => if ex fs (x :: p) then x :: p else bestEffortRacy fss p

/-- The immediate child of the watched path towards the target, config_watcher.rs 75-81 and 467-470; the watched path itself if it is
the target. -/
def child (w : Path) : Path → Path
  | [] => w
  | x :: p => if p = w then x :: p else child w p

/-- `reload_debounce`, config_watcher.rs 129. -/
def debounce : Nat := 100

/-- `trigger_reload`, config_watcher.rs 323-327. -/
def trigger (s : St) : St := { s with deadline := match s.deadline with
  | some d => some d
  | none => some (s.now + debounce) }

/-- `watch_and_add`, config_watcher.rs 462-500, for a target: registers the watch, sets the entry, says whether to reload.  (Watching
the root never fails, so the error branch does not arise.) -/
def watchAndAdd (s : St) (t : Path) : St × Bool :=
  let w := nearest s.fs t
  ({ s with watches := w :: s.watches.filter (· ≠ w),
            paths := ⟨t, w, child w t⟩ :: s.paths.filter (fun e => e.target ≠ t) }, w = t)

/-- `add_watch_by_command`, config_watcher.rs 330-342. -/
def addWatch (s : St) (t : Path) : St :=
  if s.paths.any (fun e => e.target = t) then s
  else
    let (s', reload) := watchAndAdd s t
    if reload then trigger s' else s'

/-- The closure of `rewatch` applied by `any`, config_watcher.rs 354-365: stops at the first entry that asks for a reload. -/
def rewatchAny (s : St) : List (Path × Path) → St × Bool
  | [] => (s, false)
  | (t, w) :: rest =>
    let (s', reload) := watchAndAdd { s with watches := s.watches.filter (· ≠ w) } t
    if reload then (s', true) else rewatchAny s' rest

/-- The (target, watched) pairs to rewatch, config_watcher.rs 423-457 and 346-353: all of them after an error or a rescan, those
touched by a create, remove or rename event otherwise. -/
def toRewatch (paths : List Entry) (e : Event) : List (Path × Path) := match e.kind with
  | .error => paths.map (fun en => (en.target, en.watched))
  | .rescan => paths.map (fun en => (en.target, en.watched))
  | .change => (paths.filter (fun en => e.paths.any (fun p => p = en.watched || p = en.child))).map (fun en => (en.target, en.watched))
  | .modify => []
  | .other => []

/-- Whether the event alone asks for a reload, config_watcher.rs 424-456 and 382-386. -/
def eventReloads (paths : List Entry) (e : Event) : Bool := match e.kind with
  | .error => false
  | .rescan => true
  | .change => e.paths.any (fun p => paths.any (fun en => en.target = p))
  | .modify => e.paths.any (fun p => paths.any (fun en => en.target = p))
  | .other => false

/-- `ReWatch::All` drains the table first, config_watcher.rs 348-352. -/
def drains (e : Event) : Bool := e.kind = .error || e.kind = .rescan

/-- One event in `run`, config_watcher.rs 379-395; `paths` is the table in the order in which the hash map is iterated. -/
def handle (s : St) (paths : List Entry) (e : Event) : St :=
  let (s', r) := rewatchAny { s with paths := if drains e then [] else s.paths } (toRewatch paths e)
  if eventReloads s.paths e || r then trigger s' else s'

inductive Label where
  /-- something is created at a free path whose parent exists -/
  | create (p : Path) (x : Nat)
  | write (p : Path) (x : Nat)
  /-- a file or empty directory is removed -/
  | remove (p : Path)
  /-- a file is replaced by renaming another file over it -/
  | replace (p : Path) (x : Nat)
  /-- a directory is moved away with everything in it -/
  | moveDir (p : Path)
  /-- the kernel reports something else -/
  | noise (e : Event)
  | tick (ms : Nat)
  /-- the program asks to watch a path -/
  | add (t : Path)
  /-- the watcher takes the next event; the table is iterated in the given order -/
  | handle (order : List Entry)
  /-- the reload deadline has passed and the handler runs -/
  | timeout
  deriving DecidableEq, Repr

/-- Events for something that happened at `p`, reported for a watch on its parent. -/
def fromParent (s : St) (p : Path) (k : Kind) : List Event := if p ≠ [] ∧ p.tail ∈ s.watches then [⟨k, [p]⟩] else []
/-- Events for something that happened at `p`, reported for a watch on itself. -/
def fromSelf (s : St) (p : Path) (k : Kind) : List Event := if p ∈ s.watches then [⟨k, [p]⟩] else []

def step (s : St) : Label → Option St
  | .create p x =>
    if !ex s.fs p && ex s.fs p.tail then some { s with fs := put s.fs p x, queue := s.queue ++ fromParent s p .change } else none
  | .write p x =>
    if ex s.fs p && p ≠ [] then
      some { s with fs := put s.fs p x, queue := s.queue ++ fromSelf s p .modify ++ fromParent s p .modify }
    else none
  | .remove p =>
    if ex s.fs p && p ≠ [] && leaf s.fs p then
      some { s with fs := del s.fs p, watches := s.watches.filter (· ≠ p),
                    queue := s.queue ++ fromParent s p .change ++ fromSelf s p .change }
    else none
  | .replace p x =>
    if ex s.fs p && p ≠ [] && leaf s.fs p then
      some { s with fs := put s.fs p x, watches := s.watches.filter (· ≠ p),
                    queue := s.queue ++ fromParent s p .change ++ fromSelf s p .change }
    else none
  | .moveDir p =>
    if ex s.fs p && p ≠ [] then
      some { s with fs := s.fs.filter (fun e => ¬ p <:+ e.1), watches := s.watches.filter (fun w => ¬ p <:+ w),
                    queue := s.queue ++ fromParent s p .change ++ fromSelf s p .change }
    else none
  | .noise e => some { s with queue := s.queue ++ [e] }
  | .tick ms => some { s with now := s.now + ms }
  | .add t => some (addWatch s t)
  | .handle order => match s.queue with
    | [] => none
    | e :: rest => if order.isPerm s.paths then some (handle { s with queue := rest } order e) else none
  | .timeout => match s.deadline with
    | some d => if d ≤ s.now then some { s with deadline := none, seen := s.fs, reloads := s.now :: s.reloads } else none
    | none => none

/-- The start: some file system in which parents exist, nothing watched; the files have just been loaded. -/
def init (fs : Fs) : St := ⟨fs, [], [], [], 0, none, fs, []⟩

end Shpool.Watcher
