import Verif.Model.Prim
/-! # The binary protocol of the crate `thrift`

`sync/sync_sender.rs:92-93` uses `TBinaryInputProtocol` and `TBinaryOutputProtocol`, not strict, over `TFramedReadTransport` and
`TFramedWriteTransport`. The crate (0.14) is not part of the repository; what the generated code uses of it is modelled here, byte
by byte. A negative length of a string makes the crate ask for more memory than there can be, which aborts the program; it is an
error here. Names of structures and fields are not transmitted; the beginning and the end of a structure and the end of a field
or a message have no bytes. -/

namespace TsFile

/-- `i16` bit patterns. -/
abbrev W16 := BitVec 16

/-- `TMessageType` (crate `thrift`). -/
inductive MsgType
  | call
  | reply
  | exception
  | oneWay
  deriving DecidableEq, Repr

/-- The number of a message type. -/
def MsgType.code : MsgType → UInt8
  | .call => 1
  | .reply => 2
  | .exception => 3
  | .oneWay => 4

/-- `TMessageType::try_from`. -/
def MsgType.ofCode (b : UInt8) : Option MsgType :=
  if b = 1 then some .call else if b = 2 then some .reply else if b = 3 then some .exception
  else if b = 4 then some .oneWay else none

/-- `TType` (crate `thrift`); `other` stands for `Void`, `Utf8` and `Utf16`, which can neither be skipped nor are used. -/
inductive TType
  | stop
  | bool
  | i08
  | double
  | i16
  | i32
  | i64
  | string
  | struct
  | map
  | set
  | list
  | other
  deriving DecidableEq, Repr

/-- `field_type_to_u8`. -/
def TType.code : TType → UInt8
  | .stop => 0
  | .other => 1
  | .bool => 2
  | .i08 => 3
  | .double => 4
  | .i16 => 6
  | .i32 => 8
  | .i64 => 10
  | .string => 11
  | .struct => 12
  | .map => 13
  | .set => 14
  | .list => 15

/-- `field_type_from_u8`. -/
def TType.ofCode (b : UInt8) : Option TType :=
  if b = 0 then some .stop else if b = 1 then some .other else if b = 2 then some .bool else if b = 3 then some .i08
  else if b = 4 then some .double else if b = 6 then some .i16 else if b = 8 then some .i32 else if b = 10 then some .i64
  else if b = 11 then some .string else if b = 12 then some .struct else if b = 13 then some .map else if b = 14 then some .set
  else if b = 15 then some .list else if b = 16 then some .other else if b = 17 then some .other else none

/-- One byte of a UTF-8 text: how many bytes of the character are still to come, and between which bounds the next one has to
be. -/
def utf8Step : Option (Nat × UInt8 × UInt8) → UInt8 → Option (Nat × UInt8 × UInt8)
  | none, _ => none
  | some (0, _, _), b =>
    if b < 0x80 then some (0, 0x80, 0xBF)
    else if 0xC2 ≤ b ∧ b ≤ 0xDF then some (1, 0x80, 0xBF)
    else if b = 0xE0 then some (2, 0xA0, 0xBF)
    else if b = 0xED then some (2, 0x80, 0x9F)
    else if 0xE1 ≤ b ∧ b ≤ 0xEF then some (2, 0x80, 0xBF)
    else if b = 0xF0 then some (3, 0x90, 0xBF)
    else if 0xF1 ≤ b ∧ b ≤ 0xF3 then some (3, 0x80, 0xBF)
    else if b = 0xF4 then some (3, 0x80, 0x8F)
    else none
  | some (n + 1, lo, hi), b => if lo ≤ b ∧ b ≤ hi then some (n, 0x80, 0xBF) else none

/-- `String::from_utf8` succeeds. -/
def utf8 (b : Bytes) : Bool :=
  match b.foldl utf8Step (some (0, 0x80, 0xBF)) with
  | some (0, _, _) => true
  | _ => false

namespace Thrift

/-! ## Reading -/

/-- A reader: what is read and what is left. -/
abbrev Rd (α : Type) := Bytes → Option (α × Bytes)

/-- `read_exact`. -/
def readN (n : Nat) : Rd Bytes := fun b => if n ≤ b.length then some (b.take n, b.drop n) else none

/-- The number that bytes are in big endian. -/
def beVal (b : Bytes) : Nat := b.foldl (fun a x => a * 256 + x.toNat) 0

/-- What a reader reads, changed by a function. -/
def into {α σ : Type} (rd : Rd α) (f : α → σ) : Rd σ := fun b => (rd b).map (fun r => (f r.1, r.2))

/-- `read_byte`. -/
def readU8 : Rd UInt8
  | [] => none
  | x :: r => some (x, r)

/-- `read_i16`. -/
def readI16 : Rd W16 := into (readN 2) (fun x => BitVec.ofNat 16 (beVal x))
/-- `read_i32`. -/
def readI32 : Rd W32 := into (readN 4) (fun x => BitVec.ofNat 32 (beVal x))
/-- `read_i64`. -/
def readI64 : Rd W64 := into (readN 8) (fun x => BitVec.ofNat 64 (beVal x))

/-- `read_bytes`: the length and so many bytes. -/
def readBytes : Rd Bytes := fun b =>
  match readI32 b with
  | some (n, r) => if n.msb then none else readN n.toNat r
  | none => none

/-- `read_string`: they have to be UTF-8. -/
def readStr : Rd Bytes := fun b =>
  match readBytes b with
  | some (v, r) => if utf8 v then some (v, r) else none
  | none => none

/-- A type. -/
def readType : Rd TType := fun b =>
  match readU8 b with
  | some (x, r) => (TType.ofCode x).map (fun ty => (ty, r))
  | none => none

/-- `read_field_begin`: the type, and the number if it is not the stop. -/
def readFieldBegin : Rd (TType × W16) := fun b =>
  match readType b with
  | some (ty, r) => if ty = .stop then some ((ty, 0), r) else into readI16 (fun id => (ty, id)) r
  | none => none

/-- How often a loop `0..size` runs. -/
def loopCount (size : W32) : Nat := if size.msb then 0 else size.toNat

/-- `read_list_begin` and `read_set_begin`. -/
def readListBegin : Rd (TType × Nat) := fun b =>
  match readType b with
  | some (ty, r) => into readI32 (fun n => (ty, loopCount n)) r
  | none => none

/-- `read_map_begin`. -/
def readMapBegin : Rd (TType × TType × Nat) := fun b =>
  match readType b with
  | some (k, r) =>
    match readType r with
    | some (v, r) => into readI32 (fun n => (k, v, loopCount n)) r
    | none => none
  | none => none

/-- `read_message_begin`: name, type and number. If the first byte is 8 or more, the message has to begin with the version. -/
def readMsgBegin : Rd (Bytes × MsgType × W32) := fun b =>
  match readN 4 b with
  | none => none
  | some (first, r) =>
    if 8 ≤ first.headD 0 then
      if first.take 2 = [0x80, 0x01] then
        match MsgType.ofCode (first.getD 3 0) with
        | none => none
        | some ty =>
          match readStr r with
          | none => none
          | some (name, r) => into readI32 (fun seq => (name, ty, seq)) r
      else none
    else
      match readN (beVal first) r with
      | none => none
      | some (name, r) =>
        if utf8 name then
          match readU8 r with
          | none => none
          | some (x, r) =>
            match MsgType.ofCode x with
            | none => none
            | some ty => into readI32 (fun seq => (name, ty, seq)) r
        else none

/-! ## Skipping -/

mutual
/-- `TInputProtocol::skip_till_depth`; the first argument bounds the number of steps, the second one is the depth. -/
def skipTo : Nat → Nat → TType → Bytes → Option Bytes
  | 0, _, _, _ => none
  | _ + 1, 0, _, _ => none
  | n + 1, d + 1, ty, b =>
    match ty with
    | .bool => (readN 1 b).map Prod.snd
    | .i08 => (readN 1 b).map Prod.snd
    | .i16 => (readN 2 b).map Prod.snd
    | .i32 => (readN 4 b).map Prod.snd
    | .i64 => (readN 8 b).map Prod.snd
    | .double => (readN 8 b).map Prod.snd
    | .string => (readStr b).map Prod.snd
    | .struct => skipFields n d b
    | .list =>
      match readListBegin b with
      | some ((ty, k), r) => skipSeq n d ty k r
      | none => none
    | .set =>
      match readListBegin b with
      | some ((ty, k), r) => skipSeq n d ty k r
      | none => none
    | .map =>
      match readMapBegin b with
      | some ((kt, vt, k), r) => skipPairs n d kt vt k r
      | none => none
    | .stop => none
    | .other => none

/-- The fields of a structure that is skipped. -/
def skipFields : Nat → Nat → Bytes → Option Bytes
  | 0, _, _ => none
  | n + 1, d, b =>
    match readFieldBegin b with
    | some ((ty, _), r) =>
      if ty = .stop then some r
      else
        match skipTo n d ty r with
        | some r => skipFields n d r
        | none => none
    | none => none

/-- The elements of a list or a set that is skipped. -/
def skipSeq : Nat → Nat → TType → Nat → Bytes → Option Bytes
  | 0, _, _, _, _ => none
  | _ + 1, _, _, 0, b => some b
  | n + 1, d, ty, k + 1, b =>
    match skipTo n d ty b with
    | some r => skipSeq n d ty k r
    | none => none

/-- The entries of a map that is skipped. -/
def skipPairs : Nat → Nat → TType → TType → Nat → Bytes → Option Bytes
  | 0, _, _, _, _, _ => none
  | _ + 1, _, _, _, 0, b => some b
  | n + 1, d, kt, vt, k + 1, b =>
    match skipTo n d kt b with
    | some r =>
      match skipTo n d vt r with
      | some r => skipPairs n d kt vt k r
      | none => none
    | none => none
end

/-- `TInputProtocol::skip`: up to `MAXIMUM_SKIP_DEPTH = 64` levels. Every value has at least one byte, so that the number of steps
is enough for what is there. -/
def skip (ty : TType) (b : Bytes) : Option Bytes := skipTo (2 * b.length) 64 ty b

/-! ## Writing -/

/-- `write_i16`. -/
def be16 (x : W16) : Bytes := beBytes 2 x.toNat

/-- `write_bytes` and `write_string`: the length is cast to `i32`. -/
def writeStr (v : Bytes) : Bytes := be32 (u32 v.length) ++ v

/-- `write_field_begin`. -/
def writeField (ty : TType) (id : W16) : Bytes := ty.code :: be16 id

/-- `write_field_stop`. -/
def writeStop : Bytes := [TType.stop.code]

/-- `write_message_begin`, not strict. -/
def writeMsgBegin (name : Bytes) (ty : MsgType) (seq : W32) : Bytes := writeStr name ++ ty.code :: be32 seq

/-! ## Frames -/

/-- `TFramedWriteTransport::flush`: what was written since the last one, with its length in front. -/
def frame (m : Bytes) : Bytes := if m = [] then [] else be32 (u32 m.length) ++ m

/-- `TFramedReadTransport`: the bytes that can be read from a stream of frames, up to the first frame that is empty or not
whole; the first argument bounds the number of frames. -/
def unframeTo : Nat → Bytes → Bytes
  | 0, _ => []
  | n + 1, b =>
    match readBytes b with
    | some (m, r) => if m = [] then [] else m ++ unframeTo n r
    | none => []

/-- The same; every frame has bytes, so that the number of frames is enough. -/
def unframe (b : Bytes) : Bytes := unframeTo b.length b

end Thrift
end TsFile
