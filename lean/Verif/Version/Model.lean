import Verif.Util.Str
/-!
# Model of the version comparison

Source: `/repo/libshpool/src/protocol.rs` 154-190 (`Client::new`) and 205-240 (`Client::version_ord`).
-/

namespace Shpool.Version
open Shpool.Str

/-- Errors of `version_ord`: which side failed and how (protocol.rs 209-231). -/
inductive Err where
  | clientNotInt | clientParts | daemonNotInt | daemonParts
  deriving DecidableEq, Repr

/-- `.map(parse::<i64>).collect::<Result<Vec<_>,_>>()`, protocol.rs 209-213 and 221-225. -/
def parseParts : List (List Char) → Option (List Int)
  | [] => some []
  | p :: ps => match parseI64 p with
    | none => none
    | some v => match parseParts ps with
      | none => none
      | some vs => some (v :: vs)

/-- `Client::version_ord`, protocol.rs 208-240. -/
def versionOrd (client daemon : List Char) : Except Err Ordering :=
  match parseParts (split '.' client) with
  | none => .error .clientNotInt
  | some cp =>
    match cp with
    | [c0, c1, _] =>
      match parseParts (split '.' daemon) with
      | none => .error .daemonNotInt
      | some dp =>
        match dp with
        | [d0, d1, _] =>
          if c0 = 0 ∧ d0 = 0 then .ok (compare c1 d1) else .ok (compare c0 d0)
        | _ => .error .daemonParts
    | _ => .error .clientParts

/-- Outcome of `Client::new` once connected (protocol.rs 157-189): `none` for the header means it could not be
decoded.  Warning texts are reduced to their kind. -/
inductive ClientResult where
  | justClient
  | mismatchUnknown
  | clientOlder
  | clientNewer
  deriving DecidableEq, Repr

/-- `Client::new` after `connect`, protocol.rs 157-189. `own` is `shpool_protocol::VERSION`. -/
def clientNew (own : List Char) (header : Option (List Char)) : Except Err ClientResult :=
  match header with
  | none => .ok .mismatchUnknown
  | some v =>
    match versionOrd own v with
    | .error e => .error e
    | .ok .eq => .ok .justClient
    | .ok .lt => .ok .clientOlder
    | .ok .gt => .ok .clientNewer

end Shpool.Version
