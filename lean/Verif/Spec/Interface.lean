import Verif.Model.Thrift
import Verif.Model.EnvStd
import Verif.Spec.Utf8
/-! # The interface of the server

The values of the protocol as a receiver sees them, and the requests and answers of the service: the name of each method, the
numbers and the types of the fields. -/

namespace TsFile.Spec
open Thrift

mutual
/-- A value of the protocol. The entries of a map are keys and values in turn. -/
inductive Val
  | bool (v : Bool)
  | i08 (v : UInt8)
  | i16 (v : W16)
  | i32 (v : W32)
  | i64 (v : W64)
  | double (bits : W64)
  | str (v : Bytes)
  | struct (fields : Fields)
  | list (type : TType) (elements : Vals)
  | set (type : TType) (elements : Vals)
  | map (keys values : TType) (entries : Vals)

/-- The fields of a structure, in the order in which they are sent: numbers and values. -/
inductive Fields
  | nil
  | cons (id : W16) (value : Val) (rest : Fields)

/-- Values one after the other. -/
inductive Vals
  | nil
  | cons (value : Val) (rest : Vals)
end

/-- The fields of a list. -/
def fields : List (W16 × Val) → Fields
  | [] => .nil
  | (id, v) :: rest => .cons id v (fields rest)

/-- The type of a value. -/
def Val.type : Val → TType
  | .bool _ => .bool
  | .i08 _ => .i08
  | .i16 _ => .i16
  | .i32 _ => .i32
  | .i64 _ => .i64
  | .double _ => .double
  | .str _ => .string
  | .struct _ => .struct
  | .list _ _ => .list
  | .set _ _ => .set
  | .map _ _ _ => .map

/-- How many values there are. -/
def Vals.length : Vals → Nat
  | .nil => 0
  | .cons _ rest => rest.length + 1

/-- The number of a type in the protocol. -/
def typeNumber : TType → UInt8
  | .stop => 0
  | .other => 1
  | .bool => 2
  | .i08 => 3
  | .double => 4
  | .i16 => 6
  | .i32 => 8
  | .i64 => 10
  | .string => 11
  | .struct => 12
  | .map => 13
  | .set => 14
  | .list => 15

/-- The number of a kind of message in the protocol. -/
def messageNumber : MsgType → UInt8
  | .call => 1
  | .reply => 2
  | .exception => 3
  | .oneWay => 4

/-- A text or some bytes as they are sent: the length and the bytes. -/
def textBytes (v : Bytes) : Bytes := be32 (u32 v.length) ++ v

mutual
/-- A value as it is sent in the binary protocol. -/
def Val.bytes : Val → Bytes
  | .bool v => [if v then 1 else 0]
  | .i08 v => [v]
  | .i16 v => beBytes 2 v.toNat
  | .i32 v => be32 v
  | .i64 v => be64 v
  | .double v => be64 v
  | .str v => textBytes v
  | .struct fs => fs.bytes
  | .list ty vs => typeNumber ty :: (be32 (u32 vs.length) ++ vs.bytes)
  | .set ty vs => typeNumber ty :: (be32 (u32 vs.length) ++ vs.bytes)
  | .map k v es => typeNumber k :: typeNumber v :: (be32 (u32 (es.length / 2)) ++ es.bytes)

/-- The fields of a structure as they are sent: type, number and value; a zero at the end. -/
def Fields.bytes : Fields → Bytes
  | .nil => [0]
  | .cons id v rest => typeNumber v.type :: (beBytes 2 id.toNat ++ (v.bytes ++ rest.bytes))

/-- Values as they are sent. -/
def Vals.bytes : Vals → Bytes
  | .nil => []
  | .cons v rest => v.bytes ++ rest.bytes
end

/-- A text that can be sent: UTF-8, and shorter than 2^31 bytes. -/
def Text (v : Bytes) : Prop := Utf8 v ∧ v.length < 2 ^ 31

mutual
/-- A value that the protocol can carry: its texts are texts, its lists are of one type and have fewer than 2^31 elements, and it
is nested at most so many levels deep. -/
def Val.Fits : Nat → Val → Prop
  | 0, _ => False
  | _ + 1, .str v => Text v
  | d + 1, .struct fs => fs.Fits d
  | d + 1, .list ty vs => vs.length < 2 ^ 31 ∧ vs.Fits d ty
  | d + 1, .set ty vs => vs.length < 2 ^ 31 ∧ vs.Fits d ty
  | d + 1, .map k v es => es.length / 2 < 2 ^ 31 ∧ es.FitPairs d k v
  | _ + 1, _ => True

/-- The fields of such a structure. -/
def Fields.Fits : Nat → Fields → Prop
  | _, .nil => True
  | d, .cons _ v rest => v.Fits d ∧ rest.Fits d

/-- The elements of such a list. -/
def Vals.Fits : Nat → TType → Vals → Prop
  | _, _, .nil => True
  | d, ty, .cons v rest => v.type = ty ∧ v.Fits d ∧ rest.Fits d ty

/-- The entries of such a map. -/
def Vals.FitPairs : Nat → TType → TType → Vals → Prop
  | _, _, _, .nil => True
  | d, kt, vt, .cons k rest => k.type = kt ∧ k.Fits d ∧
    match rest with
    | .nil => False
    | .cons v rest => v.type = vt ∧ v.Fits d ∧ rest.FitPairs d kt vt
end

/-- The beginning of a message: name, kind and number. -/
def msgHead (name : Bytes) (type : MsgType) (number : W32) : Bytes := textBytes name ++ messageNumber type :: be32 number

/-- The beginning of a message in the other form of the protocol, with the version (and a byte that is not used). -/
def strictHead (unused : UInt8) (name : Bytes) (type : MsgType) (number : W32) : Bytes :=
  [0x80, 0x01, unused, messageNumber type] ++ textBytes name ++ be32 number

/-- A whole message. -/
def message (name : Bytes) (type : MsgType) (number : W32) (body : Val) : Bytes := msgHead name type number ++ body.bytes

/-- Bytes begin with a message of this name, kind and number. -/
def BeginsWith (name : Bytes) (type : MsgType) (number : W32) (b : Bytes) : Prop :=
  ∃ body, b = msgHead name type number ++ body ∨ ∃ unused, b = strictHead unused name type number ++ body

/-- The method of a call. -/
def methodName : Call → Bytes
  | .check _ => str "check"
  | .startSync => str "startSync"
  | .init _ => str "init"
  | .syncDeletedFileName _ => str "syncDeletedFileName"
  | .initSyncData _ => str "initSyncData"
  | .syncData _ => str "syncData"
  | .checkDataDigest _ => str "checkDataDigest"
  | .endSync => str "endSync"

/-- An optional field. -/
def optional (id : W16) : Option Val → List (W16 × Val)
  | none => []
  | some v => [(id, v)]

/-- `ConfirmInfo`: 1 address, 2 identifier, 3 length of the partitions, 4 version. -/
def confirmFields (i : ConfirmInfo) : List (W16 × Val) :=
  optional 1 (i.address.map .str) ++ optional 2 (i.uuid.map .str) ++ optional 3 (i.partitionInterval.map .i64)
    ++ optional 4 (i.version.map .str)

/-- The arguments of a call: one field 1, or for `check`, which has no number in the interface, one field -1. -/
def argFields : Call → List (W16 × Val)
  | .check i => [(-1, .struct (fields (confirmFields i)))]
  | .startSync => []
  | .init v => [(1, .str v)]
  | .syncDeletedFileName v => [(1, .str v)]
  | .initSyncData v => [(1, .str v)]
  | .syncData v => [(1, .str v)]
  | .checkDataDigest v => [(1, .str v)]
  | .endSync => []

/-- `SyncStatus`: 1 code, 2 text. -/
def statusFields (s : SyncStatus) : List (W16 × Val) := [(1, .i32 s.code), (2, .str s.msg)]

/-- A request. -/
def request (call : Call) (number : W32) : Bytes :=
  message (methodName call) .call number (.struct (fields (argFields call)))

/-- An answer: one field 0 with the status. -/
def answer (call : Call) (number : W32) (s : SyncStatus) : Bytes :=
  message (methodName call) .reply number (.struct (fields [(0, .struct (fields (statusFields s)))]))

/-- The exception that answers a call: 1 text, 2 kind. -/
def exception (call : Call) (number : W32) (e : AppError) : Bytes :=
  message (methodName call) .exception number (.struct (fields [(1, .str e.2), (2, .i32 e.1)]))

/-- What answers a call, after what the handler returned. -/
def reply (call : Call) (number : W32) : Except AppError SyncStatus → Bytes
  | .ok s => answer call number s
  | .error e => exception call number e

/-- What answers a message that is no call of the interface: an exception with its name and number, 1 text, 2 kind (0 unknown, 1
unknown method). -/
def refusal (name : Bytes) (number kind : W32) (text : Bytes) : Bytes :=
  message name .exception number (.struct (fields [(1, .str text), (2, .i32 kind)]))

/-- A message in its frame: its length and the message. -/
def framed (m : Bytes) : Bytes := be32 (u32 m.length) ++ m

/-- The texts among the arguments of a call. -/
def texts : Call → List Bytes
  | .check i => i.address.toList ++ i.uuid.toList ++ i.version.toList
  | .startSync => []
  | .init v => [v]
  | .syncDeletedFileName v => [v]
  | .initSyncData v => [v]
  | .syncData _ => []
  | .checkDataDigest v => [v]
  | .endSync => []

/-- A call that can be sent: its texts are UTF-8 and its request is shorter than 2^31 bytes. -/
def Sendable (call : Call) : Prop := (∀ v ∈ texts call, Utf8 v) ∧ (request call 0#32).length < 2 ^ 31

/-- The text of an answer that can be sent. -/
def ShortText (v : Bytes) : Prop := Utf8 v ∧ v.length + 100 ≤ 2 ^ 31

/-- What a handler gives, if it can be sent. -/
def Sayable : Except AppError SyncStatus → Prop
  | .ok s => ShortText s.msg
  | .error e => ShortText e.2

/-- Fields with values that the protocol can carry, nested at most 64 levels deep. -/
def Fitting (l : List (W16 × Val)) : Prop := ∀ f ∈ l, f.2.Fits 64

end TsFile.Spec
