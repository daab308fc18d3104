import Verif.Model.Thrift
/-! # `sync/sync_sender.rs`: connecting, and the calls of a transfer over the generated client -/

namespace TsFile
open Thrift

/-- `SyncSenderError`, `sync/sync_sender.rs:32-38`. -/
inductive SyncSenderError
  | noLocalIpFound
  | unableGenerateUuid
  | connectionError
  | handshakeError
  deriving DecidableEq, Repr

/-- `PARTITION_INTERVAL`, `sync/sync_sender.rs:20`. -/
def partitionInterval : W64 := 604800#64

/-- "127.0.0.1", `sync/sync_sender.rs:70`. -/
def loopback : Bytes := [49, 50, 55, 46, 48, 46, 48, 46, 49]

/-- "0.13", `sync/sync_sender.rs:101`. -/
def senderVersion : Bytes := [48, 46, 49, 51]

/-- `SyncSender`, `sync/sync_sender.rs:22-31`. -/
structure SyncSender where
  localAddr : Bytes
  uuid : Bytes
  version : Bytes
  client : Client
  deriving DecidableEq, Repr

/-- What `new` uses of its surroundings: the network interfaces with their addresses as text (crate `pnet`), what happens to
`uuid.lock`, whether `open` and `split` succeed, and the bytes that come in on the
connection after the call of `check` (`none`: writing failed). -/
structure ConnectEnv where
  interfaces : List (List Bytes)
  uuidRun : UuidRun
  opens : Bool
  splits : Bool
  incoming : Option Bytes

/-- The choice of the local address, `sync/sync_sender.rs:65-80`. -/
def localAddress (env : ConnectEnv) : Option Bytes → Option Bytes
  | some la => some la
  | none =>
    match env.interfaces[0]? with
    | none => none
    | some ips => some (match ips[0]? with | none => loopback | some ip => ip)

/-- The choice of the identity, `sync/sync_sender.rs:81-84`, on the content of `uuid.lock`: the content afterwards and the
identity. -/
def chooseUuid (env : ConnectEnv) (file : Option Bytes) : Option Bytes → Option Bytes × Option Bytes
  | some u => (file, some u)
  | none => getOrGenerateUuid file env.uuidRun

/-- `_connect`, `sync/sync_sender.rs:109-125`: the sender afterwards, the bytes sent on the connection, and whether it succeeded.
The client writes and reads through framed transports, `sync/sync_sender.rs:90-95`. -/
def SyncSender.connect (s : SyncSender) (incoming : Option Bytes) : SyncSender × Bytes × Bool :=
  let confirm : ConfirmInfo :=
    { address := some s.localAddr, uuid := some s.uuid, partitionInterval := some TsFile.partitionInterval, version := some s.version }
  let r := s.client.invoke (.check confirm) (incoming.map unframe)
  ({ s with client := r.1 }, frame r.2.1, r.2.2.isSome)

/-- `SyncSender::new`, `sync/sync_sender.rs:53-107`: the content of `uuid.lock` afterwards, what was sent, and the result. -/
def SyncSender.new (env : ConnectEnv) (file : Option Bytes) (localAddr uuid : Option Bytes) :
    Option Bytes × Bytes × Except SyncSenderError SyncSender :=
  match localAddress env localAddr with
  | none => (file, [], .error .noLocalIpFound)
  | some localAddr =>
    match chooseUuid env file uuid with
    | (file, none) => (file, [], .error .unableGenerateUuid)
    | (file, some uuid) =>
      if env.opens then
        if env.splits then
          let sender : SyncSender := { localAddr := localAddr, uuid := uuid, version := senderVersion, client := Client.new }
          match sender.connect env.incoming with
          | (sender, sent, true) => (file, sent, .ok sender)
          | (_, sent, false) => (file, sent, .error .handshakeError)
        else (file, [], .error .connectionError)
      else (file, [], .error .connectionError)

/-- The text of a digest as bytes (it has only ASCII characters). -/
def asciiBytes (s : List Char) : Bytes := s.map (fun c => UInt8.ofNat c.toNat)

/-- The calls that `sync` makes, as calls of the generated client, `sync/sync_sender.rs:133-176`. -/
def Request.call : Request → Call
  | .startSync => .startSync
  | .init sg => .init sg
  | .initSyncData n => .initSyncData n
  | .syncData b => .syncData b
  | .checkDataDigest d => .checkDataDigest (asciiBytes d)
  | .endSync => .endSync

/-- A peer: the bytes that come in after the last of the frames that were sent to it; `none`: writing or reading failed. (If
bytes of an earlier answer were left, they are read first. They can be taken as a first frame of what comes in: a peer is any
function.) -/
abbrev Peer := List Bytes → Option Bytes

/-- The calls of a client one after the other, on the frames that were sent before: the client, all frames sent, and the
result of the last call. -/
def callAll (peer : Peer) (c : Client) (sent : List Bytes) : List Call → Client × List Bytes × Option SyncStatus
  | [] => (c, sent, none)
  | [call] =>
    let msg := frame (c.invoke call none).2.1
    let r := c.invoke call ((peer (sent ++ [msg])).map unframe)
    (r.1, sent ++ [msg], r.2.2)
  | call :: calls =>
    let msg := frame (c.invoke call none).2.1
    let r := c.invoke call ((peer (sent ++ [msg])).map unframe)
    callAll peer r.1 (sent ++ [msg]) calls

/-- The server that `sync` sees through a client that was connected before: `sync/sync_sender.rs:133-176` with
`sync/sync.rs:238-455`. -/
def serverOver (peer : Peer) (c : Client) (before : List Bytes) : Server := fun reqs =>
  (callAll peer c before (reqs.map Request.call)).2.2

end TsFile
