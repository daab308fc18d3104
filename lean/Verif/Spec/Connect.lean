import Verif.Spec.Interface
import Verif.Model.Connect
/-! # Connecting, and a server made of this crate's own processor -/

namespace TsFile.Spec
open Thrift

/-- The address that the sender gives: the one of the caller, or the first address of the first network interface, or the
loopback address if the interface has none. -/
inductive IsAddress (interfaces : List (List Bytes)) : Option Bytes → Bytes → Prop
  | given (a : Bytes) : IsAddress interfaces (some a) a
  | first (ip : Bytes) (ips : List Bytes) (rest : List (List Bytes)) (h : interfaces = (ip :: ips) :: rest) :
      IsAddress interfaces none ip
  | loopback (rest : List (List Bytes)) (h : interfaces = [] :: rest) : IsAddress interfaces none (str "127.0.0.1")

/-- What the sender says about itself. -/
def introduction (address identity : Bytes) : Call :=
  .check { address := some address, uuid := some identity, partitionInterval := some 604800#64, version := some (str "0.13") }

/-- A service: what it does with the last of the calls it got. -/
abbrev Service := List Call → Except AppError SyncStatus

/-- What a service has to say. -/
def Service.status (service : Service) (calls : List Call) : Option SyncStatus :=
  match service calls with
  | .ok s => some s
  | .error _ => none

/-- The identity that the sender gives, on the content of the identity file: the content afterwards and the identity. It is the
one of the caller, the stored one, or a new one that was stored. -/
inductive IsIdentity (run : UuidRun) : Option Bytes → Option Bytes → Option Bytes → Bytes → Prop
  | given (file : Option Bytes) (u : Bytes) : IsIdentity run file (some u) file u
  | stored (u : Bytes) (h : run.readFails = false) : IsIdentity run (some u) none (some u) u
  | new (file : Option Bytes) (h : file = none ∨ run.readFails = true) (hw : run.writeFailsLeaving = none) :
      IsIdentity run file none (some run.fresh) run.fresh

/-- The call that a processor gets from a frame. -/
def received (sent : Bytes) : Option Call :=
  match process (fun _ => .error (0#32, [])) (unframe sent) with
  | some (some (call, _), _) => some call
  | _ => none

/-- A peer that runs the processor of this crate, behind framed transports, with a service behind it. -/
def peerOf (service : Service) : Peer := fun sent =>
  match sent.getLast? with
  | none => none
  | some msg => (process (fun call => service (sent.dropLast.filterMap received ++ [call])) (unframe msg)).map (fun r => frame r.2)

/-- A service whose answers can be sent. -/
def Service.Sayable (service : Service) : Prop := ∀ calls, Spec.Sayable (service calls)

/-- The digest of some bytes as the text that is sent. -/
def digestText (sha256 : Bytes → Bytes) (b : Bytes) : Bytes := str (String.ofList (digestOfHash (sha256 b)))

/-- The calls of a connection over which one file is transferred: the introduction, then the metadata log with its digest, then
the data file with its digest. -/
def transfer (sha256 : Bytes → Bytes) (address identity storageGroup mlog name content : Bytes) : List Call :=
  [introduction address identity, .startSync, .init storageGroup,
   .initSyncData (str "mlog.bin"), .syncData mlog, .checkDataDigest (digestText sha256 mlog),
   .initSyncData name, .syncData content, .checkDataDigest (digestText sha256 content), .endSync]

end TsFile.Spec
