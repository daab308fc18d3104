import Verif.Model.Sync
/-! # `sync/sync_sender.rs`: several transfers with one sender -/

namespace TsFile

/-- A call of `sync` on a sender, `sync/sync_sender.rs:127-133`: its arguments, and the file system as it is at that time. -/
structure Transfer where
  readFile : Bytes → Option Bytes
  filename : Bytes
  storageGroup : Bytes
  schema : Schema

/-- The calls of `sync` that a program makes one after the other on one sender: all remote calls, those made before included, and
how each transfer ends. `sync` borrows the sender mutably and changes nothing of it but the client, `sync/sync_sender.rs:128-129`, so
that a sender can be used again, also after an error; the state of the connection is in the history that the server answers to. A
panic ends the program. -/
def transfers (server : Server) (crc : Bytes → W32) (sha256 : Bytes → Bytes) (sent : List Request) :
    List Transfer → List Request × List SyncOutcome
  | [] => (sent, [])
  | t :: ts =>
    let r := sync { server := fun reqs => server (sent ++ reqs), readFile := t.readFile, crc := crc, sha256 := sha256 }
      t.filename t.storageGroup t.schema
    if r.2 = .panic then (sent ++ r.1, [.panic])
    else
      let q := transfers server crc sha256 (sent ++ r.1) ts
      (q.1, r.2 :: q.2)

end TsFile
