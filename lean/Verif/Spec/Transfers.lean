import Verif.Model.Transfers
import Verif.Spec.Receiver
import Verif.Spec.Sync
/-! # What a receiver gets of several transfers -/

namespace TsFile.Spec
open Thrift

/-- What a receiver may have got of the calls of a sender: a call that succeeded was received; one that failed may have been received
or not. -/
inductive Got (server : Server) : List Request → List Request → Prop
  | nothing : Got server [] []
  | received {sent got : List Request} (r : Request) (h : Got server sent got) : Got server (sent ++ [r]) (got ++ [r])
  | lost {sent got : List Request} (r : Request) (h : Got server sent got) (hf : server (sent ++ [r]) = none) :
      Got server (sent ++ [r]) got

/-- The metadata log of a transfer. -/
def logOf (crc : Bytes → W32) (t : Transfer) : Bytes × Bytes := (str "mlog.bin", writeMlog crc t.storageGroup t.schema)

/-- A file of a receiver that comes from a transfer: its metadata log or its data file, with the name that belongs to it, and empty or
whole. -/
inductive Belongs (crc : Bytes → W32) (t : Transfer) : Bytes × Bytes → Prop
  | emptyLog : Belongs crc t (str "mlog.bin", [])
  | log : Belongs crc t (logOf crc t)
  | emptyData : Belongs crc t (storedName t.filename, [])
  | data (content : Bytes) (h : t.readFile (storedName t.filename) = some content) : Belongs crc t (storedName t.filename, content)

/-- The files that a receiver has when all transfers are complete, newest first. -/
def complete (crc : Bytes → W32) (ts : List Transfer) : List (Bytes × Bytes) :=
  ts.reverse.flatMap (fun t => [(storedName t.filename, (t.readFile (storedName t.filename)).getD []), logOf crc t])

end TsFile.Spec
