import Verif.Model.Sync
import Verif.Model.Wire
/-! # `sync/sync.rs`: the generated client and processor -/

namespace TsFile
namespace Thrift

/-- The loop that all `read_from_in_protocol` share, e.g. `sync/sync.rs:52-70`: fields up to the stop. `on id s` is the branch of
the `match` for a field, `none` the branch that skips it. The type of a field is not compared with the expected one. -/
def fieldLoop {σ : Type} (on : W16 → σ → Option (Rd σ)) : Nat → σ → Rd σ
  | 0, _, _ => none
  | n + 1, s, b =>
    match readFieldBegin b with
    | none => none
    | some ((ty, id), r) =>
      if ty = .stop then some (s, r)
      else
        match on id s with
        | some rd =>
          match rd r with
          | some (s', r') => fieldLoop on n s' r'
          | none => none
        | none =>
          match skip ty r with
          | some r' => fieldLoop on n s r'
          | none => none

/-- `read_struct_begin`, the loop, `read_struct_end`. A field has at least one byte, so that the number of steps is enough. -/
def readStruct {σ : Type} (on : W16 → σ → Option (Rd σ)) (s : σ) : Rd σ := fun b => fieldLoop on (b.length + 1) s b

/-- The branches of `SyncStatus::read_from_in_protocol`, `sync/sync.rs:58-70`. -/
def statusField (id : W16) (s : Option W32 × Option Bytes) : Option (Rd (Option W32 × Option Bytes)) :=
  if id = 1 then some (into readI32 (fun v => (some v, s.2)))
  else if id = 2 then some (into readStr (fun v => (s.1, some v)))
  else none

/-- `SyncStatus::read_from_in_protocol`, `sync/sync.rs:48-81`: both fields are required. -/
def readStatus : Rd SyncStatus := fun ts =>
  match readStruct statusField (none, none) ts with
  | some ((some code, some msg), ts) => some (⟨code, msg⟩, ts)
  | _ => none

/-- `SyncStatus::write_to_out_protocol`, `sync/sync.rs:82-93`. -/
def writeStatus (s : SyncStatus) : Bytes :=
  writeField .i32 1 ++ be32 s.code ++ writeField .string 2 ++ writeStr s.msg ++ writeStop

/-- `ConfirmInfo`, `sync/sync.rs:101-106`. -/
structure ConfirmInfo where
  address : Option Bytes
  uuid : Option Bytes
  partitionInterval : Option W64
  version : Option Bytes
  deriving DecidableEq, Repr

/-- The branches of `ConfirmInfo::read_from_in_protocol`, `sync/sync.rs:129-149`. -/
def confirmField (id : W16) (s : ConfirmInfo) : Option (Rd ConfirmInfo) :=
  if id = 1 then some (into readStr (fun v => { s with address := some v }))
  else if id = 2 then some (into readStr (fun v => { s with uuid := some v }))
  else if id = 3 then some (into readI64 (fun v => { s with partitionInterval := some v }))
  else if id = 4 then some (into readStr (fun v => { s with version := some v }))
  else none

/-- `ConfirmInfo::read_from_in_protocol`, `sync/sync.rs:117-160`: a field that does not come is `Some` of an empty value. -/
def readConfirm : Rd ConfirmInfo :=
  readStruct confirmField { address := some [], uuid := some [], partitionInterval := some 0#64, version := some [] }

/-- An optional field, e.g. `sync/sync.rs:164-168`. -/
def writeOpt {α : Type} (ty : TType) (id : W16) (write : α → Bytes) : Option α → Bytes
  | none => []
  | some v => writeField ty id ++ write v

/-- `ConfirmInfo::write_to_out_protocol`, `sync/sync.rs:161-186`. -/
def writeConfirm (c : ConfirmInfo) : Bytes :=
  writeOpt .string 1 writeStr c.address ++ writeOpt .string 2 writeStr c.uuid
    ++ writeOpt .i64 3 be64 c.partitionInterval ++ writeOpt .string 4 writeStr c.version ++ writeStop

/-- A call of the service, `sync/sync.rs:204-213`. -/
inductive Call
  | check (info : ConfirmInfo)
  | startSync
  | init (storageGroupName : Bytes)
  | syncDeletedFileName (fileName : Bytes)
  | initSyncData (filename : Bytes)
  | syncData (buff : Bytes)
  | checkDataDigest (md5 : Bytes)
  | endSync
  deriving DecidableEq, Repr

/-- "check" -/
def nCheck : Bytes := [99, 104, 101, 99, 107]
/-- "startSync" -/
def nStartSync : Bytes := [115, 116, 97, 114, 116, 83, 121, 110, 99]
/-- "init" -/
def nInit : Bytes := [105, 110, 105, 116]
/-- "syncDeletedFileName" -/
def nSyncDeletedFileName : Bytes := [115, 121, 110, 99, 68, 101, 108, 101, 116, 101, 100, 70, 105, 108, 101, 78, 97, 109, 101]
/-- "initSyncData" -/
def nInitSyncData : Bytes := [105, 110, 105, 116, 83, 121, 110, 99, 68, 97, 116, 97]
/-- "syncData" -/
def nSyncData : Bytes := [115, 121, 110, 99, 68, 97, 116, 97]
/-- "checkDataDigest" -/
def nCheckDataDigest : Bytes := [99, 104, 101, 99, 107, 68, 97, 116, 97, 68, 105, 103, 101, 115, 116]
/-- "endSync" -/
def nEndSync : Bytes := [101, 110, 100, 83, 121, 110, 99]

/-- The names in the client's methods, `sync/sync.rs:238-455`. -/
def Call.name : Call → Bytes
  | .check _ => nCheck
  | .startSync => nStartSync
  | .init _ => nInit
  | .syncDeletedFileName _ => nSyncDeletedFileName
  | .initSyncData _ => nInitSyncData
  | .syncData _ => nSyncData
  | .checkDataDigest _ => nCheckDataDigest
  | .endSync => nEndSync

/-- Arguments with one string, e.g. `sync/sync.rs:1099-1107`. -/
def writeStrArgs (v : Bytes) : Bytes := writeField .string 1 ++ writeStr v ++ writeStop

/-- `write_to_out_protocol` of the argument structures, `sync/sync.rs:889-897`, `991-996`, `1099-1107`, `1210-1218`, `1321-1329`,
`1432-1440`, `1543-1551`, `1645-1650`. -/
def writeArgs : Call → Bytes
  | .check info => writeField .struct (-1) ++ writeConfirm info ++ writeStop
  | .startSync => writeStop
  | .init v => writeStrArgs v
  | .syncDeletedFileName v => writeStrArgs v
  | .initSyncData v => writeStrArgs v
  | .syncData v => writeStrArgs v
  | .checkDataDigest v => writeStrArgs v
  | .endSync => writeStop

/-- The branches for arguments with one string, e.g. `sync/sync.rs:1081-1089`; `rd` is `read_string`, or `read_bytes` for the
argument of `syncData` (`sync/sync.rs:1416`). -/
def strField (rd : Rd Bytes) (id : W16) (_ : Option Bytes) : Option (Rd (Option Bytes)) :=
  if id = 1 then some (into rd some) else none

/-- `read_from_in_protocol` for arguments with one string, e.g. `sync/sync.rs:1072-1098`. -/
def readStrArgs (rd : Rd Bytes) : Rd Bytes := fun b =>
  match readStruct (strField rd) none b with
  | some (some v, r) => some (v, r)
  | _ => none

/-- The branch of `SyncServiceCheckArgs::read_from_in_protocol`, `sync/sync.rs:871-879`. The pattern `neg1` is a new variable:
it matches every field. -/
def checkField (_ : W16) (_ : Option ConfirmInfo) : Option (Rd (Option ConfirmInfo)) :=
  some (into readConfirm some)

/-- `SyncServiceCheckArgs::read_from_in_protocol`, `sync/sync.rs:862-888`. -/
def readCheckArgs : Rd ConfirmInfo := fun ts =>
  match readStruct checkField none ts with
  | some (some v, ts) => some (v, ts)
  | _ => none

/-- `read_from_in_protocol` for no arguments, `sync/sync.rs:972-990` and `1626-1644`: every field is skipped. -/
def readNoArgs : Rd Unit := readStruct (fun _ _ => none) ()

/-- The branches of the result structures, e.g. `sync/sync.rs:919-927`. -/
def resultField (id : W16) (_ : Option SyncStatus) : Option (Rd (Option SyncStatus)) :=
  if id = 0 then some (into readStatus some) else none

/-- `read_from_in_protocol` of the result structures, e.g. `sync/sync.rs:910-935`. -/
def readResult : Rd (Option SyncStatus) := readStruct resultField none

/-- `write_to_out_protocol` of the result structures, e.g. `sync/sync.rs:936-946`, for a result that is there. -/
def writeResult (s : SyncStatus) : Bytes := writeField .struct 0 ++ writeStatus s ++ writeStop

/-- An `ApplicationError`: its kind and its text. -/
abbrev AppError := W32 × Bytes

/-- `write_application_error_to_out_protocol` (crate `thrift`). -/
def writeAppError (e : AppError) : Bytes :=
  writeField .string 1 ++ writeStr e.2 ++ writeField .i32 2 ++ be32 e.1 ++ writeStop

/-- The branches of `read_application_error_from_in_protocol` (crate `thrift`). -/
def appErrorField (id : W16) (s : AppError) : Option (Rd AppError) :=
  if id = 1 then some (into readStr (fun v => (s.1, v)))
  else if id = 2 then some (into readI32 (fun v => (v, s.2)))
  else none

/-- `read_application_error_from_in_protocol` (crate `thrift`). The text that is there if none comes is left out. -/
def readAppError : Rd AppError := readStruct appErrorField (0, [])

/-- `SyncServiceSyncClient`, `sync/sync.rs:217-221`; the protocols are the arguments and results of `invoke`. -/
structure Client where
  sequenceNumber : W32
  deriving DecidableEq, Repr

/-- `new`, `sync/sync.rs:224-226`. -/
def Client.new : Client := { sequenceNumber := 0#32 }

/-- The second half of the client's methods, e.g. `sync/sync.rs:251-264`, on the bytes that can be read: `none` is an error in the
middle of the message or at its head, `some (none, rest)` an error after the whole message was read (an exception or a reply
without a status), and `some (some status, rest)` the status that the method returns. `verify_…` and `read_application_error…`
are from the crate `thrift`. -/
def receive (seq : W32) (name : Bytes) : Rd (Option SyncStatus) := fun b =>
  match readMsgBegin b with
  | some ((n, ty, s), r) =>
    if s = seq then
      if n = name then
        if ty = .exception then into readAppError (fun _ => none) r
        else if ty = .reply then readResult r
        else none
      else none
    else none
  | none => none

/-- A method of the client, `sync/sync.rs:238-455` (they differ in the name and the arguments): the client afterwards, the
bytes written (before they are put in a frame), and what is returned. `incoming` is what can be read from the connection from
where the call before stopped; `none`: writing failed (what is written is then a part of these bytes). The sequence number wraps
around (in a debug build it panics after 2^31 - 1 calls). -/
def Client.invoke (c : Client) (call : Call) (incoming : Option Bytes) : Client × Bytes × Option SyncStatus :=
  let seq := c.sequenceNumber + 1#32
  ({ sequenceNumber := seq },
   writeMsgBegin call.name .call seq ++ writeArgs call,
   match incoming with
   | none => none
   | some b => (receive seq call.name b).bind Prod.fst)

/-- `SyncServiceSyncHandler`, `sync/sync.rs:461-470`: a status or an error. An error that is not an `ApplicationError` becomes one
of the kind 0 with the text of the error, `sync/sync.rs:531-543`. -/
abbrev Handler := Call → Except AppError SyncStatus

/-- The second half of the `process_…` functions, e.g. `sync/sync.rs:513-546`; both kinds of errors give an exception. -/
def respond (handler : Handler) (name : Bytes) (seq : W32) (call : Call) : Bytes :=
  match handler call with
  | .ok status => writeMsgBegin name .reply seq ++ writeResult status
  | .error e => writeMsgBegin name .exception seq ++ writeAppError e

/-- `handle_process_result` (crate `thrift`) for a call whose arguments could not be read, or with an unknown name: an exception
with the name and the number of the call. -/
def refuse (name : Bytes) (seq : W32) (e : AppError) : Bytes := writeMsgBegin name .exception seq ++ writeAppError e

/-- "unknown method " -/
def unknownMethod : Bytes := [117, 110, 107, 110, 111, 119, 110, 32, 109, 101, 116, 104, 111, 100, 32]

/-- A `process_…` function, with the reader of its arguments and the call it makes at the handler. If the arguments cannot be read,
the error becomes one of the kind 0; its text, the debug format of the error, is left out. -/
def processWith {α : Type} (handler : Handler) (name : Bytes) (seq : W32) (rd : Rd α) (mk : α → Call) (b : Bytes) :
    Option (Call × Bytes) × Bytes :=
  match rd b with
  | some (v, r) => (some (mk v, r), respond handler name seq (mk v))
  | none => (none, refuse name seq (0#32, []))

/-- `SyncServiceSyncProcessor::process`, `sync/sync.rs:810-849`, with the `process_…` functions, `sync/sync.rs:511-806`, on the
bytes that can be read: the call that the handler gets, if any, with the bytes that are left, and the bytes written. `none`:
there is no message. -/
def process (handler : Handler) (b : Bytes) : Option (Option (Call × Bytes) × Bytes) :=
  match readMsgBegin b with
  | none => none
  | some ((name, _, seq), r) =>
    some <|
      if name = nCheck then processWith handler name seq readCheckArgs .check r
      else if name = nStartSync then processWith handler name seq readNoArgs (fun _ => .startSync) r
      else if name = nInit then processWith handler name seq (readStrArgs readStr) .init r
      else if name = nSyncDeletedFileName then processWith handler name seq (readStrArgs readStr) .syncDeletedFileName r
      else if name = nInitSyncData then processWith handler name seq (readStrArgs readStr) .initSyncData r
      else if name = nSyncData then processWith handler name seq (readStrArgs readBytes) .syncData r
      else if name = nCheckDataDigest then processWith handler name seq (readStrArgs readStr) .checkDataDigest r
      else if name = nEndSync then processWith handler name seq readNoArgs (fun _ => .endSync) r
      else (none, refuse name seq (1#32, unknownMethod ++ name))

/-- What `process` leaves to be read, `sync/sync.rs:810-849`: the arguments are read by the `process_…` functions, whether or not a
required one is missing (`verify_required_field_exists` comes behind the loop, e.g. `sync/sync.rs:1093`); for an unknown name
nothing behind the head of the message is read. `none`: reading stopped somewhere in the message. -/
def unread (b : Bytes) : Option Bytes :=
  match readMsgBegin b with
  | none => none
  | some ((name, _, _), r) =>
    if name = nCheck then (readStruct checkField none r).map Prod.snd
    else if name = nStartSync then (readNoArgs r).map Prod.snd
    else if name = nInit then (readStruct (strField readStr) none r).map Prod.snd
    else if name = nSyncDeletedFileName then (readStruct (strField readStr) none r).map Prod.snd
    else if name = nInitSyncData then (readStruct (strField readStr) none r).map Prod.snd
    else if name = nSyncData then (readStruct (strField readBytes) none r).map Prod.snd
    else if name = nCheckDataDigest then (readStruct (strField readStr) none r).map Prod.snd
    else if name = nEndSync then (readNoArgs r).map Prod.snd
    else some r

end Thrift

end TsFile
