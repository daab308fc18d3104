import Verif.Spec.Connect
/-! # A receiver that keeps the files it gets -/

namespace TsFile.Spec
open Thrift

/-- What a receiver does with the files it has, newest first, when it gets a call: `initSyncData` begins a file, `syncData` adds to
the file that was begun last. -/
def keep (files : List (Bytes × Bytes)) : Call → List (Bytes × Bytes)
  | .initSyncData name => (name, []) :: files
  | .syncData b =>
    match files with
    | [] => []
    | (name, content) :: files => (name, content ++ b) :: files
  | _ => files

/-- The files of a receiver after some calls, newest first. -/
def arrived (calls : List Call) : List (Bytes × Bytes) := calls.foldl keep []

/-- A receiver that keeps the files it gets. It answers a digest with the code 1 if it is the digest of the file that was begun last,
and with the code -1 otherwise; every other call with the code 1. -/
def keeper (sha256 : Bytes → Bytes) : Service := fun calls =>
  match calls.getLast? with
  | some (.checkDataDigest d) =>
    match arrived calls with
    | [] => .ok ⟨BitVec.ofInt 32 (-1), []⟩
    | (_, content) :: _ => if d = digestText sha256 content then .ok ⟨1#32, []⟩ else .ok ⟨BitVec.ofInt 32 (-1), []⟩
  | _ => .ok ⟨1#32, []⟩

end TsFile.Spec
