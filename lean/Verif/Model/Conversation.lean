import Verif.Model.Transfers
import Verif.Model.Connect
/-! # `sync/sync.rs`: the calls of a client on one connection

The other modules say what a call returns on the bytes that it can read. Here the bytes of a connection are followed from one call to
the next: a call reads on where the call before it stopped, also if that one failed. -/

namespace TsFile
namespace Thrift

/-- Where `read_message_begin` (crate `thrift`) stops if it fails because the first four bytes are neither a version nor a length.
`none`: it fails in another way. -/
def headStop (b : Bytes) : Option Bytes :=
  match readN 4 b with
  | none => none
  | some (first, r) => if 8 ≤ first.headD 0 ∧ first.take 2 ≠ [0x80, 0x01] then some r else none

/-- Where a method of the client stops reading, e.g. `sync/sync.rs:251-264`: a message with another number or another name, or of
another kind, is read up to the end of its head. `none`: somewhere else in the head, somewhere in the body of the message, or at the
end of what comes in. -/
def stopsAt (seq : W32) (name : Bytes) (b : Bytes) : Option Bytes :=
  match readMsgBegin b with
  | none => headStop b
  | some ((n, ty, s), r) =>
    if s = seq then
      if n = name then
        if ty = .exception then (readAppError r).map Prod.snd
        else if ty = .reply then (readResult r).map Prod.snd
        else some r
      else some r
    else some r

/-- What may be left of the bytes after a call: what is behind the place where reading stopped. Simplified: for the cases in which
`stopsAt` is `none` the place is left open, any end of the bytes may be left. So there may be more runs here than there are. -/
def Leaves (seq : W32) (name : Bytes) (b rest : Bytes) : Prop :=
  match stopsAt seq name b with
  | some r => rest = r
  | none => rest <:+ b

/-- The calls of a client on one connection, `sync/sync.rs:238-455`, while its messages can be written: the client and the bytes that
come in (out of their frames), the calls and what they return. -/
inductive Talk : Client → Bytes → List Call → List (Option SyncStatus) → Prop
  | nil (c : Client) (b : Bytes) : Talk c b [] []
  | cons {c : Client} {b rest : Bytes} {call : Call} {calls : List Call} {results : List (Option SyncStatus)}
      (left : Leaves (c.sequenceNumber + 1#32) call.name b rest) (next : Talk (c.invoke call (some b)).1 rest calls results) :
      Talk c b (call :: calls) ((c.invoke call (some b)).2.2 :: results)

/-- A server as `sync` sees it, `sync/sync_sender.rs:133-176`, through a client on one connection. -/
def SeenThrough (c : Client) (b : Bytes) (server : Server) : Prop :=
  ∀ reqs, ∃ results, Talk c b (reqs.map Request.call) results ∧ server reqs = results.getLast?.join

end Thrift
end TsFile
