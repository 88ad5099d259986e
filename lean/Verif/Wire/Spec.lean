import Verif.Wire.Model

/-!
# What a message on the wire is, independently of how it is read

`Values k bs`: the bytes `bs` are `k` MessagePack values one after another, of any kind (the format of MessagePack, from its
specification; lengths and numbers in their smallest form or not, where readers accept both, is left to `Values`' constructors
that use the writer's heads).
-/

namespace Shpool.Wire

inductive Values : Nat → Bytes → Prop
  | none : Values 0 []
  | nil (k r) : Values k r → Values (k + 1) (0xc0 :: r)
  | bool (b : Bool) (k r) : Values k r → Values (k + 1) ((if b then 0xc3 else 0xc2) :: r)
  | int (i : Int) (k r) : -9223372036854775808 ≤ i → i < 18446744073709551616 → Values k r → Values (k + 1) (encSint i ++ r)
  | float32 (d : Bytes) (k r) : d.length = 4 → Values k r → Values (k + 1) (0xca :: d ++ r)
  | float64 (d : Bytes) (k r) : d.length = 8 → Values k r → Values (k + 1) (0xcb :: d ++ r)
  | str (s : Bytes) (k r) : s.length < 4294967296 → Values k r → Values (k + 1) (strHead s.length ++ (s ++ r))
  | bin8 (d : Bytes) (k r) : d.length < 256 → Values k r → Values (k + 1) (0xc4 :: be 1 d.length ++ (d ++ r))
  | bin16 (d : Bytes) (k r) : d.length < 65536 → Values k r → Values (k + 1) (0xc5 :: be 2 d.length ++ (d ++ r))
  | bin32 (d : Bytes) (k r) : d.length < 4294967296 → Values k r → Values (k + 1) (0xc6 :: be 4 d.length ++ (d ++ r))
  | ext8 (t : UInt8) (d : Bytes) (k r) : d.length < 256 → Values k r → Values (k + 1) (0xc7 :: be 1 d.length ++ (t :: d ++ r))
  | ext16 (t : UInt8) (d : Bytes) (k r) : d.length < 65536 → Values k r → Values (k + 1) (0xc8 :: be 2 d.length ++ (t :: d ++ r))
  | ext32 (t : UInt8) (d : Bytes) (k r) :
      d.length < 4294967296 → Values k r → Values (k + 1) (0xc9 :: be 4 d.length ++ (t :: d ++ r))
  | fixext (m t : UInt8) (d : Bytes) (k r) :
      (m, d.length) ∈ [((0xd4 : UInt8), 1), (0xd5, 2), (0xd6, 4), (0xd7, 8), (0xd8, 16)] → Values k r →
      Values (k + 1) (m :: t :: d ++ r)
  | arr (n k r) : n < 4294967296 → Values (n + k) r → Values (k + 1) (arrHead n ++ r)
  | map (n k r) : n < 4294967296 → Values (2 * n + k) r → Values (k + 1) (mapHead n ++ r)

/-- What is known of UTF-8: ASCII is. -/
def Ascii (valid : Bytes → Bool) : Prop := ∀ s : Text, (∀ b ∈ s, b < 128) → valid s = true

/-- A string of Rust that can be sent: UTF-8, and less than 4 GiB of it. -/
def IsText (valid : Bytes → Bool) (s : Text) : Prop := valid s = true ∧ s.length < 4294967296

/-- A list that can be sent. -/
def IsVec {α : Type} (P : α → Prop) (l : List α) : Prop := l.length < 4294967296 ∧ ∀ a ∈ l, P a

def IsOpt {α : Type} (P : α → Prop) (o : Option α) : Prop := ∀ a, o = some a → P a

def IsPair {α β : Type} (P : α → Prop) (Q : β → Prop) (p : α × β) : Prop := P p.1 ∧ Q p.2

def Between (lo hi i : Int) : Prop := lo ≤ i ∧ i ≤ hi

variable (valid : Bytes → Bool)

/-! The values the Rust types can have. -/

def VersionHeader.Ok (h : VersionHeader) : Prop := IsText valid h.version
def TtySize.Ok (t : TtySize) : Prop :=
  Between 0 65535 t.rows ∧ Between 0 65535 t.cols ∧ Between 0 65535 t.xpixel ∧ Between 0 65535 t.ypixel
def AttachHeader.Ok (h : AttachHeader) : Prop :=
  IsText valid h.name ∧ IsText valid h.nameTemplate ∧ h.localTtySize.Ok ∧
  IsVec (IsPair (IsText valid) (IsText valid)) h.localEnv ∧ IsOpt (Between 0 18446744073709551615) h.ttlSecs ∧
  IsOpt (IsText valid) h.cmd ∧ IsOpt (IsText valid) h.dir ∧ IsOpt (IsText valid) h.startCmd
def Sessions.Ok (h : Sessions) : Prop := IsVec (IsText valid) h.sessions
def KillReply.Ok (h : KillReply) : Prop := IsVec (IsText valid) h.notFound
def DetachReply.Ok (h : DetachReply) : Prop := IsVec (IsText valid) h.notFound ∧ IsVec (IsText valid) h.notAttached
def ModifyVar.Ok (h : ModifyVar) : Prop := IsText valid h.var ∧ IsOpt (IsText valid) h.val
def Resize.Ok (h : Resize) : Prop := h.ttySize.Ok
def Payload.Ok : Payload → Prop
  | .resize r => r.Ok
  | .detach => True
def SessionMessage.Ok (h : SessionMessage) : Prop := IsText valid h.sessionName ∧ h.payload.Ok
def Connect.Ok : Connect → Prop
  | .attach h => h.Ok valid
  | .list => True
  | .message r => r.Ok valid
  | .detach r => r.Ok valid
  | .kill r => r.Ok valid
  | .setLogLevel _ => True
  | .getVars => True
  | .modifyVar r => r.Ok valid
def AttachStatus.Ok : AttachStatus → Prop
  | .attached w => IsVec (IsText valid) w
  | .created w => IsVec (IsText valid) w
  | .busy => True
  | .forbidden s => IsText valid s
  | .unexpectedError s => IsText valid s
def AttachReply.Ok (h : AttachReply) : Prop := h.status.Ok valid
def Attachment.Ok (h : Attachment) : Prop := IsText valid h.template ∧ Between (-2147483648) 2147483647 h.pid
def Session.Ok (h : Session) : Prop :=
  IsText valid h.name ∧ Between (-9223372036854775808) 9223372036854775807 h.startedAt ∧
  IsOpt (Between (-9223372036854775808) 9223372036854775807) h.lastConnectedAt ∧
  IsOpt (Between (-9223372036854775808) 9223372036854775807) h.lastDisconnectedAt ∧ IsVec (Attachment.Ok valid) h.attachments
def ListReply.Ok (h : ListReply) : Prop := IsVec (Session.Ok valid) h.sessions
def MaybeSwitch.Ok (h : MaybeSwitch) : Prop :=
  IsOpt (IsText valid) h.switchTo ∧ IsVec (IsPair (IsText valid) (IsText valid)) h.vars

/-- What is written is one value, and reading it, whatever follows it, gives what was written and leaves what follows. -/
def RoundTrip {α : Type} (c : Codec α) (P : α → Prop) : Prop :=
  ∀ a, P a → ∀ rest, c.dec (c.enc a ++ rest) = some (a, rest)

end Shpool.Wire
