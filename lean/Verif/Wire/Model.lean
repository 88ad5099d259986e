/-!
# Model of the messages on the control socket

Sources: `/repo/shpool-protocol/src/lib.rs` 30-375 (the messages), `/repo/libshpool/src/protocol.rs` 43-69 (`encode_to`, `decode_from`).
Messages are MessagePack, written by rmp-serde with structs as maps, and read by it through the decoders serde derives.  Both
crates are not part of the repository: what they do with the types used here is modelled from the MessagePack specification
and their documentation.  A struct is a map from field names to values, written in the order of declaration; on reading, the order
does not matter, unknown fields are skipped, a missing field has its default or is an error, a field twice is an error.
A variant without data is its name, one with data is a map with the one entry from its name to the data.

Left out on reading: structs and variants given as arrays or with numbers for names (which the crates also accept, but never write), and
their limit on nesting (1024) in skipped values.  Strings are their bytes; which sequences of bytes are strings (UTF-8) is a
parameter.  Texts given as binary data and names that are not UTF-8 are refused here.  A reader that meets the end of the stream, or anything it cannot use, fails (`none`).
-/

namespace Shpool.Wire

abbrev Bytes := List UInt8
/-- A string: its bytes. -/
abbrev Text := List UInt8

/-! ## MessagePack (`encode_to` and `decode_from`, protocol.rs 43-69) -/

/-- The `k` bytes of a number, most significant first (used by all of protocol.rs 43-69). -/
def be : Nat → Nat → Bytes
  | 0, _ => []
  | k + 1, n => be k (n / 256) ++ [UInt8.ofNat (n % 256)]

def ofBe (bs : Bytes) : Nat := bs.foldl (fun acc b => acc * 256 + b.toNat) 0

/-- The smallest form of a number that is not negative (rmp `write_uint`). -/
def encUint (n : Nat) : Bytes :=
  if n < 128 then [UInt8.ofNat n]
  else if n < 256 then 0xcc :: be 1 n
  else if n < 65536 then 0xcd :: be 2 n
  else if n < 4294967296 then 0xce :: be 4 n
  else 0xcf :: be 8 n

/-- The smallest form of any number (rmp `write_sint`). -/
def encSint (i : Int) : Bytes :=
  if 0 ≤ i then encUint i.toNat
  else if -32 ≤ i then [UInt8.ofNat (i + 256).toNat]
  else if -128 ≤ i then 0xd0 :: be 1 (i + 256).toNat
  else if -32768 ≤ i then 0xd1 :: be 2 (i + 65536).toNat
  else if -2147483648 ≤ i then 0xd2 :: be 4 (i + 4294967296).toNat
  else 0xd3 :: be 8 (i + 18446744073709551616).toNat

/-- rmp `write_str_len`, `write_array_len`, `write_map_len`. -/
def strHead (n : Nat) : Bytes :=
  if n < 32 then [UInt8.ofNat (0xa0 + n)]
  else if n < 256 then 0xd9 :: be 1 n
  else if n < 65536 then 0xda :: be 2 n
  else 0xdb :: be 4 n
def arrHead (n : Nat) : Bytes :=
  if n < 16 then [UInt8.ofNat (0x90 + n)]
  else if n < 65536 then 0xdc :: be 2 n
  else 0xdd :: be 4 n
def mapHead (n : Nat) : Bytes :=
  if n < 16 then [UInt8.ofNat (0x80 + n)]
  else if n < 65536 then 0xde :: be 2 n
  else 0xdf :: be 4 n

/-- The first thing of a value: a whole one, or the number of bytes, elements or entries that follow. -/
inductive Head where
  | nil
  | bool (b : Bool)
  | int (i : Int)
  | str (n : Nat)
  | other (n : Nat)      -- binary data, floating point numbers, extensions: `n` bytes follow
  | arr (n : Nat)
  | map (n : Nat)
  deriving DecidableEq, Repr

/-- Reading `k` bytes. -/
def take (k : Nat) (bs : Bytes) : Option (Bytes × Bytes) := if k ≤ bs.length then some (bs.take k, bs.drop k) else none

def takeBe (k : Nat) (bs : Bytes) (f : Nat → Head) : Option (Head × Bytes) := (take k bs).map fun p => (f (ofBe p.1), p.2)

/-- A number of `k` bytes in two's complement. -/
def signed (k n : Nat) : Int := if n < 256 ^ k / 2 then n else (n : Int) - (256 ^ k : Nat)

def readHead : Bytes → Option (Head × Bytes)
  | [] => none
  | b :: r =>
    let x := b.toNat
    if x < 0x80 then some (.int x, r)
    else if x < 0x90 then some (.map (x - 0x80), r)
    else if x < 0xa0 then some (.arr (x - 0x90), r)
    else if x < 0xc0 then some (.str (x - 0xa0), r)
    else if x = 0xc0 then some (.nil, r)
    else if x = 0xc1 then none
    else if x = 0xc2 then some (.bool false, r)
    else if x = 0xc3 then some (.bool true, r)
    else if x = 0xc4 then takeBe 1 r .other
    else if x = 0xc5 then takeBe 2 r .other
    else if x = 0xc6 then takeBe 4 r .other
    else if x = 0xc7 then takeBe 1 r (fun n => .other (n + 1))
    else if x = 0xc8 then takeBe 2 r (fun n => .other (n + 1))
    else if x = 0xc9 then takeBe 4 r (fun n => .other (n + 1))
    else if x = 0xca then some (.other 4, r)
    else if x = 0xcb then some (.other 8, r)
    else if x = 0xcc then takeBe 1 r (fun n => .int n)
    else if x = 0xcd then takeBe 2 r (fun n => .int n)
    else if x = 0xce then takeBe 4 r (fun n => .int n)
    else if x = 0xcf then takeBe 8 r (fun n => .int n)
    else if x = 0xd0 then takeBe 1 r (fun n => .int (signed 1 n))
    else if x = 0xd1 then takeBe 2 r (fun n => .int (signed 2 n))
    else if x = 0xd2 then takeBe 4 r (fun n => .int (signed 4 n))
    else if x = 0xd3 then takeBe 8 r (fun n => .int (signed 8 n))
    else if x = 0xd4 then some (.other 2, r)
    else if x = 0xd5 then some (.other 3, r)
    else if x = 0xd6 then some (.other 5, r)
    else if x = 0xd7 then some (.other 9, r)
    else if x = 0xd8 then some (.other 17, r)
    else if x = 0xd9 then takeBe 1 r .str
    else if x = 0xda then takeBe 2 r .str
    else if x = 0xdb then takeBe 4 r .str
    else if x = 0xdc then takeBe 2 r .arr
    else if x = 0xdd then takeBe 4 r .arr
    else if x = 0xde then takeBe 2 r .map
    else if x = 0xdf then takeBe 4 r .map
    else some (.int ((x : Int) - 256), r)

/-- Skipping `k` values; each takes at least one byte, so that there cannot be more than `fuel` of them and of their parts. -/
def skipN : Nat → Nat → Bytes → Option Bytes
  | _, 0, bs => some bs
  | 0, _ + 1, _ => none
  | fuel + 1, k + 1, bs =>
    match readHead bs with
    | none => none
    | some (.str n, r) | some (.other n, r) => match take n r with
      | none => none
      | some (_, r') => skipN fuel k r'
    | some (.arr n, r) => skipN fuel (n + k) r
    | some (.map n, r) => skipN fuel (2 * n + k) r
    | some (_, r) => skipN fuel k r

def skip (k : Nat) (bs : Bytes) : Option Bytes := skipN bs.length k bs

/-! ## Types -/

/-- How a type is written and read (its `Serialize` and `Deserialize`). -/
structure Codec (α : Type) where
  enc : α → Bytes
  dec : Bytes → Option (α × Bytes)

/-- A number in a range, e.g. that of `u16`. -/
def intIn (lo hi : Int) : Codec Int where
  enc := encSint
  dec bs := match readHead bs with
    | some (.int i, r) => if lo ≤ i ∧ i ≤ hi then some (i, r) else none
    | _ => none

def u16 : Codec Int := intIn 0 65535
def u64 : Codec Int := intIn 0 18446744073709551615
def i32 : Codec Int := intIn (-2147483648) 2147483647
def i64 : Codec Int := intIn (-9223372036854775808) 9223372036854775807

section
variable (valid : Bytes → Bool)

def text : Codec Text where
  enc s := strHead s.length ++ s
  dec bs := match readHead bs with
    | some (.str n, r) => match take n r with
      | some (s, r') => if valid s then some (s, r') else none
      | none => none
    | _ => none

def opt {α : Type} (c : Codec α) : Codec (Option α) where
  enc
    | none => [0xc0]
    | some a => c.enc a
  dec bs := match readHead bs with
    | some (.nil, r) => some (none, r)
    | _ => (c.dec bs).map fun p => (some p.1, p.2)

def decMany {α : Type} (c : Codec α) : Nat → Bytes → Option (List α × Bytes)
  | 0, bs => some ([], bs)
  | n + 1, bs => match c.dec bs with
    | none => none
    | some (a, r) => (decMany c n r).map fun p => (a :: p.1, p.2)

def vec {α : Type} (c : Codec α) : Codec (List α) where
  enc l := arrHead l.length ++ (l.map c.enc).flatten
  dec bs := match readHead bs with
    | some (.arr n, r) => decMany c n r
    | _ => none

/-- A pair: an array of two. -/
def pair {α β : Type} (c : Codec α) (d : Codec β) : Codec (α × β) where
  enc p := arrHead 2 ++ c.enc p.1 ++ d.enc p.2
  dec bs := match readHead bs with
    | some (.arr 2, r) => match c.dec r with
      | none => none
      | some (a, r1) => (d.dec r1).map fun p => ((a, p.1), p.2)
    | _ => none

/-! ### Structs -/

/-- The entries of a map, with the bytes of their values. -/
abbrev Entries := List (Text × Bytes)

def encMap (m : Entries) : Bytes := mapHead m.length ++ (m.map fun p => (text valid).enc p.1 ++ p.2).flatten

def decEntries : Nat → Bytes → Option (Entries × Bytes)
  | 0, bs => some ([], bs)
  | n + 1, bs => match (text valid).dec bs with
    | none => none
    | some (k, r) => match skip 1 r with
      | none => none
      | some r' => (decEntries n r').map fun p => ((k, r.take (r.length - r'.length)) :: p.1, p.2)

def decMap (bs : Bytes) : Option (Entries × Bytes) :=
  match readHead bs with
  | some (.map n, r) => decEntries valid n r
  | _ => none

/-- The value of a field; `dflt = none`: it must be there. -/
def field {α : Type} (m : Entries) (name : Text) (c : Codec α) (dflt : Option α) : Option α :=
  match m.filter (fun p => p.1 == name) with
  | [] => dflt
  | [(_, raw)] => match c.dec raw with
    | some (a, []) => some a
    | _ => none
  | _ => none

/-- A struct: the entries written for it, and what is made of the entries read. -/
def struct {α : Type} (to : α → Entries) (of : Entries → Option α) : Codec α where
  enc a := encMap valid (to a)
  dec bs := match decMap valid bs with
    | none => none
    | some (m, r) => (of m).map fun a => (a, r)

/-! ### Enums -/

/-- The name of a variant, with the bytes of its data. -/
def encVariant (name : Text) (data : Option Bytes) : Bytes :=
  match data with
  | none => (text valid).enc name
  | some d => encMap valid [(name, d)]

def decVariant (bs : Bytes) : Option ((Text × Option Bytes) × Bytes) :=
  match readHead bs with
  | some (.str _, _) => ((text valid).dec bs).map fun p => ((p.1, none), p.2)
  | some (.map 1, r) => match decEntries valid 1 r with
    | some ([(k, d)], r') => some ((k, some d), r')
    | _ => none
  | _ => none

/-- Data of a variant: the whole of its bytes. -/
def whole {α : Type} (c : Codec α) (d : Option Bytes) : Option α :=
  match d with
  | none => none
  | some raw => match c.dec raw with
    | some (a, []) => some a
    | _ => none

/-- No data (its place may be taken by nil). -/
def noData (d : Option Bytes) : Bool := d == none || d == some [0xc0]

def enum {α : Type} (to : α → Text × Option Bytes) (of : Text → Option Bytes → Option α) : Codec α where
  enc a := encVariant valid (to a).1 (to a).2
  dec bs := match decVariant valid bs with
    | none => none
    | some ((n, d), r) => (of n d).map fun a => (a, r)

/-! ## The messages -/

/-- The bytes of a name in the code. -/
def nm (s : String) : Text := s.toList.map fun c => UInt8.ofNat c.toNat

/-- lib.rs 30-33. -/
structure VersionHeader where
  version : Text
def versionHeader : Codec VersionHeader := struct valid
  (fun h => [(nm "version", (text valid).enc h.version)])
  (fun m => do return ⟨← field m (nm "version") (text valid) none⟩)

/-- lib.rs 353-363. -/
structure TtySize where
  rows : Int
  cols : Int
  xpixel : Int
  ypixel : Int
  deriving DecidableEq, Repr
def ttySize : Codec TtySize := struct valid
  (fun t => [(nm "rows", u16.enc t.rows), (nm "cols", u16.enc t.cols), (nm "xpixel", u16.enc t.xpixel), (nm "ypixel", u16.enc t.ypixel)])
  (fun m => do return ⟨← field m (nm "rows") u16 none, ← field m (nm "cols") u16 none, ← field m (nm "xpixel") u16 none,
    ← field m (nm "ypixel") u16 none⟩)

/-- lib.rs 206-249. -/
structure AttachHeader where
  name : Text
  nameTemplate : Text
  localTtySize : TtySize
  localEnv : List (Text × Text)
  ttlSecs : Option Int
  cmd : Option Text
  dir : Option Text
  startCmd : Option Text
  deriving DecidableEq, Repr

/-- `TtySize::default`. -/
def noSize : TtySize := ⟨0, 0, 0, 0⟩

def attachHeader : Codec AttachHeader := struct valid
  (fun h => [(nm "name", (text valid).enc h.name), (nm "name_template", (text valid).enc h.nameTemplate),
    (nm "local_tty_size", (ttySize valid).enc h.localTtySize),
    (nm "local_env", (vec (pair (text valid) (text valid))).enc h.localEnv), (nm "ttl_secs", (opt u64).enc h.ttlSecs),
    (nm "cmd", (opt (text valid)).enc h.cmd), (nm "dir", (opt (text valid)).enc h.dir),
    (nm "start_cmd", (opt (text valid)).enc h.startCmd)])
  (fun m => do return ⟨← field m (nm "name") (text valid) (some []), ← field m (nm "name_template") (text valid) (some []),
    ← field m (nm "local_tty_size") (ttySize valid) (some noSize),
    ← field m (nm "local_env") (vec (pair (text valid) (text valid))) (some []), ← field m (nm "ttl_secs") (opt u64) (some none),
    ← field m (nm "cmd") (opt (text valid)) (some none), ← field m (nm "dir") (opt (text valid)) (some none),
    ← field m (nm "start_cmd") (opt (text valid)) (some none)⟩)

/-- `KillRequest`, `DetachRequest`: lib.rs 74-79, 89-94. -/
structure Sessions where
  sessions : List Text
  deriving DecidableEq, Repr
def sessionsReq : Codec Sessions := struct valid
  (fun h => [(nm "sessions", (vec (text valid)).enc h.sessions)])
  (fun m => do return ⟨← field m (nm "sessions") (vec (text valid)) (some [])⟩)

/-- lib.rs 81-85. -/
structure KillReply where
  notFound : List Text
  deriving DecidableEq, Repr
def killReply : Codec KillReply := struct valid
  (fun h => [(nm "not_found_sessions", (vec (text valid)).enc h.notFound)])
  (fun m => do return ⟨← field m (nm "not_found_sessions") (vec (text valid)) (some [])⟩)

/-- lib.rs 96-105. -/
structure DetachReply where
  notFound : List Text
  notAttached : List Text
  deriving DecidableEq, Repr
def detachReply : Codec DetachReply := struct valid
  (fun h => [(nm "not_found_sessions", (vec (text valid)).enc h.notFound),
    (nm "not_attached_sessions", (vec (text valid)).enc h.notAttached)])
  (fun m => do return ⟨← field m (nm "not_found_sessions") (vec (text valid)) (some []),
    ← field m (nm "not_attached_sessions") (vec (text valid)) (some [])⟩)

/-- lib.rs 107-116. -/
inductive LogLevel where
  | off | error | warn | info | debug | trace
  deriving DecidableEq, Repr
def LogLevel.name : LogLevel → Text
  | .off => nm "Off" | .error => nm "Error" | .warn => nm "Warn" | .info => nm "Info" | .debug => nm "Debug" | .trace => nm "Trace"
def logLevel : Codec LogLevel := enum valid (fun l => (l.name, none))
  (fun n d => if noData d then
      if n = nm "Off" then some .off else if n = nm "Error" then some .error else if n = nm "Warn" then some .warn
      else if n = nm "Info" then some .info else if n = nm "Debug" then some .debug else if n = nm "Trace" then some .trace else none
    else none)

/-- lib.rs 120-124. -/
structure SetLogLevel where
  level : LogLevel
  deriving DecidableEq, Repr
def setLogLevel : Codec SetLogLevel := struct valid
  (fun h => [(nm "level", (logLevel valid).enc h.level)])
  (fun m => do return ⟨← field m (nm "level") (logLevel valid) (some .off)⟩)

/-- `SetLogLevelReply`, `ModifyVarReply`: lib.rs 126-127, 137-138. -/
def emptyReply : Codec Unit := struct valid (fun _ => []) (fun _ => some ())

/-- lib.rs 129-135.  (A missing field of an optional type is `None`.) -/
structure ModifyVar where
  var : Text
  val : Option Text
  deriving DecidableEq, Repr
def modifyVar : Codec ModifyVar := struct valid
  (fun h => [(nm "var", (text valid).enc h.var), (nm "val", (opt (text valid)).enc h.val)])
  (fun m => do return ⟨← field m (nm "var") (text valid) none, ← field m (nm "val") (opt (text valid)) (some none)⟩)

/-- lib.rs 171-176. -/
structure Resize where
  ttySize : TtySize
  deriving DecidableEq, Repr
def resize : Codec Resize := struct valid
  (fun h => [(nm "tty_size", (ttySize valid).enc h.ttySize)])
  (fun m => do return ⟨← field m (nm "tty_size") (ttySize valid) (some noSize)⟩)

/-- lib.rs 155-164. -/
inductive Payload where
  | resize (r : Resize)
  | detach
  deriving DecidableEq, Repr
def payload : Codec Payload := enum valid
  (fun
    | .resize r => (nm "Resize", some ((resize valid).enc r))
    | .detach => (nm "Detach", none))
  (fun n d =>
    if n = nm "Resize" then (whole (resize valid) d).map .resize
    else if n = nm "Detach" ∧ noData d then some .detach else none)

/-- lib.rs 143-151. -/
structure SessionMessage where
  sessionName : Text
  payload : Payload
  deriving DecidableEq, Repr
def sessionMessage : Codec SessionMessage := struct valid
  (fun h => [(nm "session_name", (text valid).enc h.sessionName), (nm "payload", (payload valid).enc h.payload)])
  (fun m => do return ⟨← field m (nm "session_name") (text valid) (some []), ← field m (nm "payload") (payload valid) (some .detach)⟩)

/-- lib.rs 178-201.  The inner replies have only the variant `Ok`. -/
inductive SessionReply where
  | notFound | notAttached | resizeOk | detachOk
  deriving DecidableEq, Repr
def okOnly : Codec Unit := enum valid (fun _ => (nm "Ok", none)) (fun n d => if n = nm "Ok" ∧ noData d then some () else none)
def sessionReply : Codec SessionReply := enum valid
  (fun
    | .notFound => (nm "NotFound", none)
    | .notAttached => (nm "NotAttached", none)
    | .resizeOk => (nm "Resize", some ((okOnly valid).enc ()))
    | .detachOk => (nm "Detach", some ((okOnly valid).enc ())))
  (fun n d =>
    if n = nm "NotFound" ∧ noData d then some .notFound
    else if n = nm "NotAttached" ∧ noData d then some .notAttached
    else if n = nm "Resize" then (whole (okOnly valid) d).map fun _ => .resizeOk
    else if n = nm "Detach" then (whole (okOnly valid) d).map fun _ => .detachOk
    else none)

/-- lib.rs 41-70. -/
inductive Connect where
  | attach (h : AttachHeader)
  | list
  | message (r : SessionMessage)
  | detach (r : Sessions)
  | kill (r : Sessions)
  | setLogLevel (r : SetLogLevel)
  | getVars
  | modifyVar (r : ModifyVar)
  deriving DecidableEq, Repr
def connect : Codec Connect := enum valid
  (fun
    | .attach h => (nm "Attach", some ((attachHeader valid).enc h))
    | .list => (nm "List", none)
    | .message r => (nm "SessionMessage", some ((sessionMessage valid).enc r))
    | .detach r => (nm "Detach", some ((sessionsReq valid).enc r))
    | .kill r => (nm "Kill", some ((sessionsReq valid).enc r))
    | .setLogLevel r => (nm "SetLogLevel", some ((setLogLevel valid).enc r))
    | .getVars => (nm "GetVars", none)
    | .modifyVar r => (nm "ModifyVar", some ((modifyVar valid).enc r)))
  (fun n d =>
    if n = nm "Attach" then (whole (attachHeader valid) d).map .attach
    else if n = nm "List" ∧ noData d then some .list
    else if n = nm "SessionMessage" then (whole (sessionMessage valid) d).map .message
    else if n = nm "Detach" then (whole (sessionsReq valid) d).map .detach
    else if n = nm "Kill" then (whole (sessionsReq valid) d).map .kill
    else if n = nm "SetLogLevel" then (whole (setLogLevel valid) d).map .setLogLevel
    else if n = nm "GetVars" ∧ noData d then some .getVars
    else if n = nm "ModifyVar" then (whole (modifyVar valid) d).map .modifyVar
    else none)

/-- lib.rs 324-351.  The data of `Attached` and `Created` is a struct without defaults. -/
inductive AttachStatus where
  | attached (warnings : List Text)
  | created (warnings : List Text)
  | busy
  | forbidden (why : Text)
  | unexpectedError (why : Text)
  deriving DecidableEq, Repr
def warnings : Codec (List Text) := struct valid
  (fun w => [(nm "warnings", (vec (text valid)).enc w)])
  (fun m => field m (nm "warnings") (vec (text valid)) none)
def attachStatus : Codec AttachStatus := enum valid
  (fun
    | .attached w => (nm "Attached", some ((warnings valid).enc w))
    | .created w => (nm "Created", some ((warnings valid).enc w))
    | .busy => (nm "Busy", none)
    | .forbidden s => (nm "Forbidden", some ((text valid).enc s))
    | .unexpectedError s => (nm "UnexpectedError", some ((text valid).enc s)))
  (fun n d =>
    if n = nm "Attached" then (whole (warnings valid) d).map .attached
    else if n = nm "Created" then (whole (warnings valid) d).map .created
    else if n = nm "Busy" ∧ noData d then some .busy
    else if n = nm "Forbidden" then (whole (text valid) d).map .forbidden
    else if n = nm "UnexpectedError" then (whole (text valid) d).map .unexpectedError
    else none)

/-- lib.rs 261-265 and 346-350. -/
structure AttachReply where
  status : AttachStatus
  deriving DecidableEq, Repr
def attachReply : Codec AttachReply := struct valid
  (fun h => [(nm "status", (attachStatus valid).enc h.status)])
  (fun m => do return ⟨← field m (nm "status") (attachStatus valid) (some (.unexpectedError (nm "default")))⟩)

/-- lib.rs 295-304. -/
structure Attachment where
  template : Text
  pid : Int
  deriving DecidableEq, Repr
def attachment : Codec Attachment := struct valid
  (fun h => [(nm "session_name_template", (text valid).enc h.template), (nm "pid", i32.enc h.pid)])
  (fun m => do return ⟨← field m (nm "session_name_template") (text valid) (some []), ← field m (nm "pid") i32 (some 0)⟩)

/-- lib.rs 307-312: true if attached. -/
def sessionStatus : Codec Bool := enum valid (fun b => (if b then nm "Attached" else nm "Disconnected", none))
  (fun n d => if noData d then if n = nm "Attached" then some true else if n = nm "Disconnected" then some false else none else none)

/-- lib.rs 275-292. -/
structure Session where
  name : Text
  startedAt : Int
  lastConnectedAt : Option Int
  lastDisconnectedAt : Option Int
  attached : Bool
  attachments : List Attachment
  deriving DecidableEq, Repr
def session : Codec Session := struct valid
  (fun h => [(nm "name", (text valid).enc h.name), (nm "started_at_unix_ms", i64.enc h.startedAt),
    (nm "last_connected_at_unix_ms", (opt i64).enc h.lastConnectedAt),
    (nm "last_disconnected_at_unix_ms", (opt i64).enc h.lastDisconnectedAt),
    (nm "status", (sessionStatus valid).enc h.attached), (nm "attachments", (vec (attachment valid)).enc h.attachments)])
  (fun m => do return ⟨← field m (nm "name") (text valid) (some []), ← field m (nm "started_at_unix_ms") i64 (some 0),
    ← field m (nm "last_connected_at_unix_ms") (opt i64) (some none),
    ← field m (nm "last_disconnected_at_unix_ms") (opt i64) (some none),
    ← field m (nm "status") (sessionStatus valid) (some true), ← field m (nm "attachments") (vec (attachment valid)) (some [])⟩)

/-- lib.rs 268-272. -/
structure ListReply where
  sessions : List Session
  deriving DecidableEq, Repr
def listReply : Codec ListReply := struct valid
  (fun h => [(nm "sessions", (vec (session valid)).enc h.sessions)])
  (fun m => do return ⟨← field m (nm "sessions") (vec (session valid)) (some [])⟩)

/-- lib.rs 367-375. -/
structure MaybeSwitch where
  switchTo : Option Text
  vars : List (Text × Text)
  deriving DecidableEq, Repr
def maybeSwitch : Codec MaybeSwitch := struct valid
  (fun h => [(nm "switch_to", (opt (text valid)).enc h.switchTo), (nm "vars", (vec (pair (text valid) (text valid))).enc h.vars)])
  (fun m => do return ⟨← field m (nm "switch_to") (opt (text valid)) (some none),
    ← field m (nm "vars") (vec (pair (text valid) (text valid))) none⟩)

end

end Shpool.Wire
