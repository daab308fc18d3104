import Verif.Model.Sync
import Verif.Spec.Format
import Verif.Model.EnvStd
/-! # The receiver's side of the synchronisation -/

namespace TsFile.Spec

/-! ## CRC-32 (IEEE 802.3), bit by bit -/

/-- One bit. -/
def crcBit (c : BitVec 32) : BitVec 32 := if c.getLsbD 0 then (c >>> 1) ^^^ 0xEDB88320#32 else c >>> 1

/-- One byte. -/
def crcByte (c : BitVec 32) (b : UInt8) : BitVec 32 := Nat.repeat crcBit 8 (c ^^^ BitVec.ofNat 32 b.toNat)

/-- CRC-32. -/
def crc32 (b : Bytes) : BitVec 32 := (b.foldl crcByte 0xFFFFFFFF#32) ^^^ 0xFFFFFFFF#32

/-! ## Reading a metadata log -/

/-- A plan of a metadata log. -/
inductive Plan
  | setStorageGroup (path : Bytes)
  | createTimeseries (path : Bytes) (dataType : TSDataType) (encoding : TSEncoding) (compression : CompressionType)
  deriving DecidableEq, Repr

/-- A record: length, payload, checksum. A wrong checksum is rejected. -/
def pRecord (crc : Bytes → BitVec 32) : Parser Bytes := fun b => do
  let (len, b) ← pBE 4 b
  if len < 2 ^ 31 then
    let (payload, b) ← pTake len b
    let (sum, b) ← pBE 8 b
    if sum = (crc payload).toNat then some (payload, b) else none
  else none

/-- A plan: kind (3: set storage group, 4: create time series), path, and for a time series the codes of data type, encoding
and compression, no tag offset (-1), no alias, properties, tags and attributes, and the index. -/
def pPlan : Parser Plan := fun b => do
  let (kind, b) ← pByte b
  let (len, b) ← pBE 4 b
  if len < 2 ^ 31 then
    let (path, b) ← pTake len b
    if kind = 3 then
      let (index, b) ← pBE 8 b
      if index = 0 then some (.setStorageGroup path, b) else none
    else if kind = 4 then
      let (dt, b) ← pByte b
      let (enc, b) ← pByte b
      let (comp, b) ← pByte b
      let (tagOffset, b) ← pBE 8 b
      let (optional, b) ← pTake 4 b
      let (index, b) ← pBE 8 b
      if tagOffset = 2 ^ 64 - 1 ∧ optional = [0, 0, 0, 0] ∧ index = 0 then
        let dt ← dataTypeOfCode dt
        let enc ← encodingOfCode enc
        let comp ← compressionOfCode comp
        some (.createTimeseries path dt enc comp, b)
      else none
    else none
  else none

/-- The plans of each record of a log. -/
def readLog (crc : Bytes → BitVec 32) (b : Bytes) : Option (List (List Plan)) := do
  let records ← pAll (pRecord crc) b
  records.mapM (pAll pPlan)

/-- Bytes a plan takes in a log. -/
def Plan.size : Plan → Nat
  | .setStorageGroup path => path.length + 13
  | .createTimeseries path _ _ _ => path.length + 28

/-- A use of a metadata log. -/
inductive LogCall
  | plan (p : Plan)
  | flush

/-- The plans between one flush and the next; those after the last flush are left out. -/
def batches : List Plan → List LogCall → List (List Plan)
  | _, [] => []
  | cur, .plan p :: cs => batches (cur ++ [p]) cs
  | cur, .flush :: cs => cur :: batches [] cs

/-- The plans that create the series of a schema in a storage group. -/
def plansOf (storageGroup : Bytes) (schema : Schema) : List Plan :=
  schema.flatMap (fun d => d.2.map (fun m =>
    .createTimeseries (storageGroup ++ [46] ++ d.1 ++ [46] ++ m.1) m.2.dataType m.2.encoding m.2.compression))

/-- The series that a metadata log creates. -/
def createdBy (log : List (List Plan)) : List Bytes :=
  log.flatten.filterMap (fun p => match p with | .createTimeseries path _ _ _ => some path | .setStorageGroup _ => none)

/-- The names that the series of a schema have in a data file: device, dot, measurement. -/
def namesOf (schema : Schema) : List Bytes := schema.flatMap (fun d => d.2.map (fun m => d.1 ++ [46] ++ m.1))

/-! ## Digests -/

/-- The number that a string of hexadecimal digits stands for. -/
def hexValue (s : List Char) : Nat :=
  s.foldl (fun a c => a * 16 + (if c.toNat < 58 then c.toNat - 48 else c.toNat - 87)) 0

/-- A lower case hexadecimal digit. -/
def isHexDigit (c : Char) : Bool := ('0' ≤ c && c ≤ '9') || ('a' ≤ c && c ≤ 'f')

/-! ## The protocol -/

/-- The name under which a data file is sent. -/
def storedName (filename : Bytes) : Bytes := str "0_0_" ++ filename

/-- What the protocol prescribes: the metadata log with its digest, then the data file with its digest. -/
def script (env : SyncEnv) (filename storageGroup : Bytes) (mlog content : Bytes) : List Request :=
  [.startSync, .init storageGroup,
   .initSyncData (str "mlog.bin"), .syncData mlog, .checkDataDigest (digestOfHash (env.sha256 mlog)),
   .initSyncData (storedName filename), .syncData content, .checkDataDigest (digestOfHash (env.sha256 content)),
   .endSync]

end TsFile.Spec
