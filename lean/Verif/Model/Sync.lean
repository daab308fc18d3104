import Verif.Model.Types
/-! # `sync/mlog.rs` and `sync/sync_sender.rs`

CRC-32 and SHA-256 come from other crates (`crc32fast`, `sha2`) and are parameters of the model. -/

namespace TsFile

/-- `MLog`, `sync/mlog.rs:8-10`. -/
structure MLog where
  bytes : Bytes
  deriving DecidableEq, Repr

namespace MLog

/-- `new`, `sync/mlog.rs:14-16`. -/
def new : MLog := { bytes := [] }

/-- `flush` into a `Vec<u8>` (which accepts everything), `sync/mlog.rs:19-30`, with `calculate_checksum`, `sync/mlog.rs:33-35`
(`u32 as i64`: extended with zeros). Result: the log and the buffer afterwards. -/
def flush (crc : Bytes → W32) (l : MLog) (buffer : Bytes) : MLog × Bytes :=
  ({ bytes := [] }, buffer ++ be32 (u32 l.bytes.length) ++ l.bytes ++ be64 ((crc l.bytes).setWidth 64))

/-- `write_create_plan`, `sync/mlog.rs:49-112`: the bytes written. -/
def createPlanBytes (path : Bytes) (dataType : TSDataType) (encoding : TSEncoding) (compression : CompressionType) : Bytes :=
  [0x04] ++ be32 (u32 path.length) ++ path ++ [dataType.serialize] ++ [encoding.serialize] ++ [compression.serialize]
    ++ be64 (BitVec.ofInt 64 (-1)) ++ [0x00] ++ [0x00] ++ [0x00] ++ [0x00] ++ be64 0#64

/-- `create_plan`, `sync/mlog.rs:38-46`. -/
def createPlan (l : MLog) (path : Bytes) (dataType : TSDataType) (encoding : TSEncoding) (compression : CompressionType) : MLog :=
  { bytes := l.bytes ++ createPlanBytes path dataType encoding compression }

/-- `write_set_storage_group_plan`, `sync/mlog.rs:120-133`: the bytes written. -/
def setStorageGroupPlanBytes (path : Bytes) : Bytes :=
  [0x03] ++ be32 (u32 path.length) ++ path ++ be64 0#64

/-- `set_storage_group_plan`, `sync/mlog.rs:115-117`. -/
def setStorageGroupPlan (l : MLog) (path : Bytes) : MLog :=
  { bytes := l.bytes ++ setStorageGroupPlanBytes path }

end MLog

/-- The inner loop of `write_mlog`, `sync/sync_sender.rs:203-211`; `format!("{}.{}.{}", …)` puts a dot (46) between the parts. -/
def writeMlogSeries (storageGroup device : Bytes) : List (Bytes × MeasurementSchema) → MLog → MLog
  | [], l => l
  | (m, s) :: ms, l =>
    writeMlogSeries storageGroup device ms
      (l.createPlan (storageGroup ++ [46] ++ device ++ [46] ++ m) s.dataType s.encoding s.compression)

/-- The outer loop of `write_mlog`, `sync/sync_sender.rs:202-212`. -/
def writeMlogDevices (storageGroup : Bytes) : Schema → MLog → MLog
  | [], l => l
  | (d, ms) :: ds, l => writeMlogDevices storageGroup ds (writeMlogSeries storageGroup d ms l)

/-- `write_mlog`, `sync/sync_sender.rs:193-216`; writing to a `Vec<u8>` never fails. -/
def writeMlog (crc : Bytes → W32) (storageGroup : Bytes) (schema : Schema) : Bytes :=
  let l := MLog.new.setStorageGroupPlan storageGroup
  let r := l.flush crc []
  let l := writeMlogDevices storageGroup schema r.1
  (l.flush crc r.2).2

/-- A hexadecimal digit of `hex::encode`. -/
def hexDigit (n : Nat) : Char :=
  if n < 10 then Char.ofNat (48 + n) else Char.ofNat (87 + n)

/-- `hex::encode`: two lower case digits for each byte (crate `hex`). -/
def hexEncode (b : Bytes) : List Char := b.flatMap (fun x => [hexDigit (x.toNat / 16), hexDigit (x.toNat % 16)])

/-- `calculate_digest`, `sync/sync_sender.rs:181-190`, given the SHA-256 hash. -/
def digestOfHash (hash : Bytes) : List Char := (hexEncode hash).dropWhile (fun c => c == '0')

/-- `SyncStatus`, `sync/sync.rs:36-40`. -/
structure SyncStatus where
  code : W32
  msg : Bytes
  deriving DecidableEq, Repr

/-- The remote calls that the sender makes, `sync/sync.rs:204-213`. -/
inductive Request
  | startSync
  | init (storageGroup : Bytes)
  | initSyncData (filename : Bytes)
  | syncData (buff : Bytes)
  | checkDataDigest (digest : List Char)
  | endSync
  deriving DecidableEq, Repr

/-- A server, seen from the client: the result of the last call of a history of calls; `none` is any `thrift::Error`. -/
abbrev Server := List Request → Option SyncStatus

/-- How a call of `sync` ends; `err` is `SyncSenderError::ConnectionError`. -/
inductive SyncOutcome
  | ok
  | err
  | panic
  deriving DecidableEq, Repr

/-- What `sync` uses of its surroundings: the server, the file system, CRC-32 and SHA-256. -/
structure SyncEnv where
  server : Server
  /-- `fs::read`; `none` is an error -/
  readFile : Bytes → Option Bytes
  crc : Bytes → W32
  sha256 : Bytes → Bytes

/-- The bytes of "mlog.bin". -/
def mlogName : Bytes := [0x6d, 0x6c, 0x6f, 0x67, 0x2e, 0x62, 0x69, 0x6e]

/-- The bytes of "0_0_". -/
def namePrefix : Bytes := [0x30, 0x5f, 0x30, 0x5f]

/-- `sync` from line 173 on: `end_sync`, `sync/sync_sender.rs:176-177`. -/
def syncEnd (env : SyncEnv) (sent : List Request) : List Request × SyncOutcome :=
  match env.server (sent ++ [.endSync]) with
  | none => (sent ++ [.endSync], .err)
  | some _ => (sent ++ [.endSync], .ok)

/-- The digest of the data file, whose reply is only printed, `sync/sync_sender.rs:166-175`. -/
def syncDataDigest (env : SyncEnv) (sent : List Request) (bytes : Bytes) : List Request × SyncOutcome :=
  match env.server (sent ++ [.checkDataDigest (digestOfHash (env.sha256 bytes))]) with
  | none => syncEnd env (sent ++ [.checkDataDigest (digestOfHash (env.sha256 bytes))])
  | some _ => syncEnd env (sent ++ [.checkDataDigest (digestOfHash (env.sha256 bytes))])

/-- The data file, `sync/sync_sender.rs:161-165`. Both the name sent and the file read have the prefix. -/
def syncFile (env : SyncEnv) (sent : List Request) (filename : Bytes) : List Request × SyncOutcome :=
  let filename := namePrefix ++ filename
  match env.server (sent ++ [.initSyncData filename]) with
  | none => (sent ++ [.initSyncData filename], .panic)
  | some _ =>
    match env.readFile filename with
    | none => (sent ++ [.initSyncData filename], .panic)
    | some bytes =>
      match env.server (sent ++ [.initSyncData filename] ++ [.syncData bytes]) with
      | none => (sent ++ [.initSyncData filename] ++ [.syncData bytes], .panic)
      | some _ => syncDataDigest env (sent ++ [.initSyncData filename] ++ [.syncData bytes]) bytes

/-- The digest of the metadata log, `sync/sync_sender.rs:146-159`. -/
def syncMlogDigest (env : SyncEnv) (sent : List Request) (filename mlog : Bytes) : List Request × SyncOutcome :=
  match env.server (sent ++ [.checkDataDigest (digestOfHash (env.sha256 mlog))]) with
  | some result =>
    if result.code = BitVec.ofInt 32 (-1) then (sent ++ [.checkDataDigest (digestOfHash (env.sha256 mlog))], .panic)
    else syncFile env (sent ++ [.checkDataDigest (digestOfHash (env.sha256 mlog))]) filename
  | none => (sent ++ [.checkDataDigest (digestOfHash (env.sha256 mlog))], .panic)

/-- The metadata log, `sync/sync_sender.rs:136-144`. -/
def syncMlog (env : SyncEnv) (sent : List Request) (filename storageGroup : Bytes) (schema : Schema) :
    List Request × SyncOutcome :=
  match env.server (sent ++ [.initSyncData mlogName]) with
  | none => (sent ++ [.initSyncData mlogName], .err)
  | some _ =>
    let mlog := writeMlog env.crc storageGroup schema
    match env.server (sent ++ [.initSyncData mlogName] ++ [.syncData mlog]) with
    | none => (sent ++ [.initSyncData mlogName] ++ [.syncData mlog], .err)
    | some _ => syncMlogDigest env (sent ++ [.initSyncData mlogName] ++ [.syncData mlog]) filename mlog

/-- `sync`, `sync/sync_sender.rs:127-178`: the calls made and how it ends. -/
def sync (env : SyncEnv) (filename storageGroup : Bytes) (schema : Schema) : List Request × SyncOutcome :=
  match env.server [.startSync] with
  | none => ([.startSync], .panic)
  | some _ =>
    match env.server ([.startSync] ++ [.init storageGroup]) with
    | none => ([.startSync] ++ [.init storageGroup], .err)
    | some _ => syncMlog env ([.startSync] ++ [.init storageGroup]) filename storageGroup schema

/-- One run of `get_or_generate_uuid`: whether reading fails although the file is there, the identity that
`Uuid::new_v4` would give, and what is in the file after writing (`none`: the write succeeds). -/
structure UuidRun where
  readFails : Bool
  fresh : Bytes
  writeFailsLeaving : Option (Option Bytes)
  deriving DecidableEq, Repr

/-- `get_or_generate_uuid`, `sync/sync_sender.rs:218-240`, on the content of `uuid.lock` (`none`: there is no such file):
the content afterwards and the result (`none`: `UnableGenerateUuid`). That the content is not UTF-8 counts as a failing
read. -/
def getOrGenerateUuid (file : Option Bytes) (r : UuidRun) : Option Bytes × Option Bytes :=
  match file, r.readFails with
  | some content, false => (file, some content)
  | _, _ =>
    match r.writeFailsLeaving with
    | some left => (left, none)
    | none => (some r.fresh, some r.fresh)

end TsFile
