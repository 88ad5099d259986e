/-!
# Model of watching configuration files through symbolic links

Sources: `/repo/libshpool/src/config_watcher.rs` 30-82 (`canonicalize_path`, `best_effort_watch`), 330-342 (`add_watch_by_command`), 408-457
(`handle_event`), 462-500 (`watch_and_add`); `/repo/libshpool/src/config.rs` 57-98 (`Manager::new`: which files are watched).

This supplements `Verif/Watcher`, which has no links: here is what the watcher is set up to look at, and which single change of the file
system it is told of; there is how it goes on from one event to the next.

Simplifications:
* paths are absolute lists of components, outermost first, without `.` and `..`; links have such paths as targets;
* looking up a path fails after a fixed number of steps (Linux: after forty links);
* a watch of the kernel is for the thing a path leads to, and tells of changes of that and of its direct children; it can be set if the
  path leads to something.
-/

namespace Shpool.Symlink

abbrev Path := List Nat

/-- What is at a path. -/
inductive Node where
  | dir
  | file (content : Nat)
  | link (target : Path)
  deriving DecidableEq, Repr

abbrev Fs := List (Path × Node)

/-- What is at a path itself; the root is a directory. -/
def node (fs : Fs) (p : Path) : Option Node := if p = [] then some .dir else (fs.find? (fun e => e.1 = p)).map (·.2)

/-- The file system after a change at one path. -/
def change (fs : Fs) (p : Path) (n : Option Node) : Fs :=
  let rest := fs.filter (fun e => e.1 ≠ p)
  match n with
  | some n => (p, n) :: rest
  | none => rest

/-- Looking up `rest` from the directory `done`, following links, in at most the given number of steps: the path without links of what is
there (`std::fs::canonicalize`). -/
def walk (fs : Fs) : Nat → Path → Path → Option Path
  | _, done, [] => some done
  | 0, _, _ :: _ => none
  | n + 1, done, c :: rest => match node fs (done ++ [c]) with
    | some .dir => walk fs n (done ++ [c]) rest
    | some (.file _) => if rest = [] then some (done ++ [c]) else none
    | some (.link t) => walk fs n [] (t ++ rest)
    | none => none

def steps : Nat := 400

/-- `Path::canonicalize`. -/
def resolve (fs : Fs) (p : Path) : Option Path := walk fs steps [] p

/-- The loop over the ancestors in `canonicalize_path`, config_watcher.rs 43-51, from the one with `k` components on. -/
def ancestors (fs : Fs) (p : Path) : Nat → Path
  | 0 => p
  | k + 1 => match resolve fs (p.take (k + 1)) with
    | some a => a ++ p.drop (k + 1)
    | none => ancestors fs p k

/-- `canonicalize_path`, config_watcher.rs 36-54. -/
def canonicalizePath (fs : Fs) (p : Path) : Path := match resolve fs p with
  | some q => q
  | none => ancestors fs p (p.length - 1)

/-- What is read when a path is opened. -/
def read (fs : Fs) (p : Path) : Option Nat := match resolve fs p with
  | some q => match node fs q with
    | some (.file c) => some c
    | _ => none
  | none => none

/-- A row of the watcher's table: target, watched path, immediate child, config_watcher.rs 234-236. -/
structure Entry where
  target : Path
  watched : Path
  child : Path
  deriving DecidableEq, Repr

/-- `best_effort_watch` and `best_effort_watch_owned`, config_watcher.rs 58-82 and 467-473: the ancestor with `k` components, if it can be
watched, or the next one. -/
def bestEffort (fs : Fs) (t : Path) : Nat → Entry
  | 0 => ⟨t, [], t.take 1⟩
  | k + 1 => match resolve fs (t.take (k + 1)) with
    | some w => ⟨t, w, w ++ (t.drop (k + 1)).take 1⟩
    | none => bestEffort fs t k

/-- `watch_and_add`, config_watcher.rs 462-500. -/
def watchAndAdd (fs : Fs) (t : Path) : Entry := bestEffort fs t t.length

/-- `add_watch_by_command`, config_watcher.rs 330-342: the table afterwards, or the error that the file is already watched. -/
def addWatch (fs : Fs) (table : List Entry) (p : Path) : Option (List Entry) :=
  let t := canonicalizePath fs p
  if table.any (fun e => e.target = t) then none else some (watchAndAdd fs t :: table)

/-- The loop at the end of `Manager::new`, config.rs 93-95: the first error ends it, and the daemon does not start. -/
def startWatching (fs : Fs) : List Entry → List Path → Option (List Entry)
  | table, [] => some table
  | table, p :: ps => match addWatch fs table p with
    | none => none
    | some table' => startWatching fs table' ps

/-- Whether the kernel tells of a change at `q`. -/
def reported (e : Entry) (q : Path) : Bool := q = e.watched || (q ≠ [] && q.dropLast = e.watched)

/-- Whether the watcher then reads the configuration again because of this entry, `handle_event`, config_watcher.rs 429-430, 444, 449: what has
changed is its target. -/
def reloads (e : Entry) (q : Path) : Bool := reported e q && q = e.target

/-- Whether the watcher then sets its watches for this entry anew, `handle_event`, config_watcher.rs 434-443: what has come or gone is what it
watches or the child it waits for. -/
def rewatches (e : Entry) (q : Path) : Bool := reported e q && (q = e.watched || q = e.child)

/-- Whether the watcher does anything about this entry. -/
def noticed (e : Entry) (q : Path) : Bool := reloads e q || rewatches e q

end Shpool.Symlink
