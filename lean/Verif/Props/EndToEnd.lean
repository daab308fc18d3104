import Verif.Props.Orderly
import Verif.Props.Connect
import Verif.Spec.Receiver
/-! # Property C83: from the writer to the receiver -/

namespace TsFile
open Spec Thrift

theorem keeper_sayable (sha256 : Bytes → Bytes) : (keeper sha256).Sayable := by
  intro calls
  have hs : ∀ code : W32, Sayable (.ok ⟨code, []⟩) := fun code => show ShortText [] from ⟨by decide +kernel, by decide⟩
  rw [keeper]
  split
  · split
    · exact hs _
    · split <;> exact hs _
  · exact hs _

/-- The nine calls at the receiver itself. -/
theorem sync_keeper (env : SyncEnv) (address identity filename sg : Bytes) (schema : Schema) {content : Bytes}
    (hr : env.readFile (storedName filename) = some content) :
    sync { env with server := fun reqs => (keeper env.sha256).status (introduction address identity :: reqs.map Request.call) }
      filename sg schema = (script env filename sg (writeMlog env.crc sg schema) content, .ok) := by
  have hn : namePrefix ++ filename = storedName filename := rfl
  have hm : mlogName = str "mlog.bin" := by decide +kernel
  have hd : ∀ b, asciiBytes (digestOfHash (env.sha256 b)) = digestText env.sha256 b := by
    intro b
    simp [digestText, asciiBytes, str]
  have hne : (1#32 : W32) ≠ BitVec.ofInt 32 (-1) := by decide
  simp only [sync, syncMlog, syncMlogDigest, syncFile, syncDataDigest, syncEnd, hn, hr, hm]
  simp [Service.status, keeper, Request.call, arrived, keep, introduction, hd, script]

theorem plans_length (sg : Bytes) (schema : Schema) : (plansOf sg schema).length = schema.size := by
  simp [plansOf, Schema.size, List.length_flatMap]

theorem plans_size (sg : Bytes) (schema : Schema) {N : Nat} (h : ∀ d ∈ schema, ∀ m ∈ d.2, d.1.length + 1 + m.1.length ≤ N) :
    ((plansOf sg schema).map Plan.size).sum ≤ (plansOf sg schema).length * (sg.length + (N + 29)) := by
  have hall : ∀ p ∈ plansOf sg schema, p.size ≤ sg.length + (N + 29) := by
    intro p hp
    simp only [plansOf, List.mem_flatMap, List.mem_map] at hp
    obtain ⟨d, hd, m, hm, rfl⟩ := hp
    have := h d hd m hm
    simp only [Plan.size, List.length_append, List.length_singleton]
    omega
  have hsum : ∀ l : List Plan, (∀ p ∈ l, p.size ≤ sg.length + (N + 29)) → (l.map Plan.size).sum ≤ l.length * (sg.length + (N + 29)) := by
    intro l
    induction l with
    | nil => intro _; simp
    | cons p l ih =>
      intro h
      have h1 := h p List.mem_cons_self
      have h2 := ih (fun q hq => h q (List.mem_cons_of_mem _ hq))
      rw [List.map_cons, List.sum_cons, List.length_cons, Nat.succ_mul]
      omega
  exact hsum _ hall

theorem hexDigit_ascii (n : Nat) (h : n < 16) : UInt8.ofNat (hexDigit n).toNat < 0x80 := by
  have : ∀ n < 16, UInt8.ofNat (hexDigit n).toNat < 0x80 := by decide
  exact this n h

theorem digest_ascii (b : Bytes) : utf8 (asciiBytes (digestOfHash b)) = true := by
  refine utf8_ascii (fun x hx => ?_)
  rw [asciiBytes, List.mem_map] at hx
  obtain ⟨c, hc, rfl⟩ := hx
  have hc := (List.dropWhile_suffix _).subset hc
  rw [hexEncode, List.mem_flatMap] at hc
  obtain ⟨y, _, hy⟩ := hc
  have := y.toNat_lt
  simp only [List.mem_cons, List.not_mem_nil, or_false] at hy
  obtain rfl | rfl := hy
  · exact hexDigit_ascii _ (by omega)
  · exact hexDigit_ascii _ (by omega)

theorem digest_length (b : Bytes) : (asciiBytes (digestOfHash b)).length ≤ 2 * b.length := by
  have h1 : (digestOfHash b).length ≤ (hexEncode b).length := (List.dropWhile_suffix _).length_le
  have h2 : (hexEncode b).length = 2 * b.length := by
    rw [hexEncode, List.length_flatMap]
    simp [Nat.mul_comm]
  rw [asciiBytes, List.length_map]
  omega

theorem sendable_transfer (sha256 : Bytes → Bytes) (hh : ∀ b, (sha256 b).length = 32) {address identity sg mlog name content : Bytes}
    (hu : ∀ v ∈ [address, identity, sg, name], Utf8 v ∧ v.length ≤ 1000100) (hm : mlog.length + 1000 ≤ 2 ^ 31)
    (hc : content.length + 1000 ≤ 2 ^ 31) :
    ∀ call ∈ transfer sha256 address identity sg mlog name content, Sendable call := by
  have hd : ∀ b, Utf8 (digestText sha256 b) ∧ (digestText sha256 b).length ≤ 64 := by
    intro b
    have e : digestText sha256 b = asciiBytes (digestOfHash (sha256 b)) := by simp [digestText, asciiBytes, str]
    have := digest_length (sha256 b)
    have := hh b
    rw [e]
    exact ⟨(utf8_iff _).mp (digest_ascii _), by omega⟩
  have hv : Utf8 (str "0.13") ∧ (str "0.13").length = 4 := by decide +kernel
  have hlog : Utf8 (str "mlog.bin") ∧ (str "mlog.bin").length = 8 := by decide +kernel
  have ha := hu address (by simp)
  have hi := hu identity (by simp)
  have hs := hu sg (by simp)
  have hn := hu name (by simp)
  have h1 := hd mlog
  have h2 := hd content
  intro call hcall
  have hl := methodName_length call
  simp only [transfer, List.mem_cons, List.not_mem_nil, or_false] at hcall
  obtain rfl | rfl | rfl | rfl | rfl | rfl | rfl | rfl | rfl | rfl := hcall
  all_goals
    constructor
    · intro v hv
      simp [texts, introduction] at hv
      try rcases hv with rfl | rfl | rfl
      all_goals simp_all
    · simp [request, message, msgHead, textBytes, Val.bytes, fields, Fields.bytes, argFields, introduction, confirmFields, Spec.optional]
      try simp only [introduction] at hl
      omega

/-- **C83**, the part that holds: an orderly program writes a file, the file is stored under the name with "0_0_" in front, and a sender
that is connected to a server with this crate's processor transfers it. Then the program completes, the transfer succeeds, and the
receiver has a metadata log that creates the series of the schema, below the storage group, and a file from which exactly the points
can be read. Missing: a file under the name that the caller gives (`C83_alone_wrong`) and a file of 2 GiB (`C64_large_wrong`). -/
theorem C83_arrives_partial {env : Env} {unsnap : Bytes → Option Bytes} (he : EnvOk env unsnap) {schema : Schema}
    (hsch : schema.Indexable) {ops : List Op} (ho : Orderly schema ops) (hP : handed ops ≤ 100000000)
    (hd : schema.length ≤ 1000) (hm : schema.size ≤ 256) (hN : schema.NamesBelow 100)
    (hB : ∀ n ≤ schema.size, env.bloomSize n ≤ 256)
    {cenv : ConnectEnv} {file la u file' : Option Bytes} {first : Bytes} {sender : SyncSender}
    (hnew : SyncSender.new cenv file la u = (file', first, .ok sender))
    (senv : SyncEnv) (hhash : ∀ b, (senv.sha256 b).length = 32) (filename sg : Bytes)
    (htext : ∀ v ∈ [sender.localAddr, sender.uuid, sg, filename], Utf8 v ∧ v.length ≤ 1000000) :
    ∃ s, session env schema ops = some s ∧ s.results = List.replicate ops.length (.ok ())
      ∧ (senv.readFile (storedName filename) = some s.file → s.file.length + 1000 ≤ 2 ^ 31 →
        ∃ sent, sync { senv with server := serverOver (peerOf (keeper senv.sha256)) sender.client [first] } filename sg schema = (sent, .ok)
          ∧ ∃ log data, arrived ((callAll (peerOf (keeper senv.sha256)) sender.client [first]
                (sent.map Request.call)).2.1.filterMap received) = [(storedName filename, data), (str "mlog.bin", log)]
            ∧ readLog senv.crc log = some [[.setStorageGroup sg], plansOf sg schema]
            ∧ ∀ d m, readSeries unsnap data d m = some (series (ops.flatMap Op.recs) d m)) := by
  obtain ⟨s, hs, hres, hread⟩ := C81_small he hsch ho hP hd hm hN hB
  refine ⟨s, hs, hres, fun hr hlen => ?_⟩
  have hsg := (htext sg (by simp)).2
  obtain ⟨-, -, -, -, rfl, -⟩ := C62_connected_partial cenv file la u file' first sender hnew
  rcases hsy : sync { senv with server := serverOver (peerOf (keeper senv.sha256)) sender.client [framed (request (introduction sender.localAddr sender.uuid) 1#32)] } filename sg schema with ⟨sent, out⟩
  have hplans : ((plansOf sg schema).map Plan.size).sum ≤ 256 * 1000129 := by
    have := plans_size sg schema hN.paths
    have h2 : (plansOf sg schema).length ≤ 256 := by rw [plans_length]; exact hm
    have h3 := Nat.mul_le_mul h2 (show sg.length + (100 + 29) ≤ 1000129 by omega)
    omega
  have hsend : ∀ call ∈ transfer senv.sha256 sender.localAddr sender.uuid sg (writeMlog senv.crc sg schema) (storedName filename)
      ((senv.readFile (storedName filename)).getD []), Sendable call := by
    refine sendable_transfer senv.sha256 hhash ?_ ?_ (by rw [hr]; exact hlen)
    · intro v hv
      simp only [List.mem_cons, List.not_mem_nil, or_false] at hv
      obtain rfl | rfl | rfl | rfl := hv
      · have := htext sender.localAddr (by simp); exact ⟨this.1, by omega⟩
      · have := htext sender.uuid (by simp); exact ⟨this.1, by omega⟩
      · have := htext v (by simp); exact ⟨this.1, by omega⟩
      · have := htext filename (by simp)
        refine ⟨Utf8.append (by decide +kernel) this.1, by simp [storedName, str]; omega⟩
    · rw [writeMlog_eq]
      simp only [List.flatMap_cons, List.flatMap_nil, recordBytes, List.length_append, length_plans, plansSize, length_be32, length_be64,
        List.append_nil, length_planBytes, Plan.size]
      omega
  obtain ⟨h1, h2⟩ := C64_transfer_partial (keeper senv.sha256) (keeper_sayable _) senv filename sg schema sender sender.localAddr sender.uuid
    hsend sent out hsy
  rw [sync_keeper senv _ _ filename sg schema hr, Prod.mk.injEq] at h1
  obtain ⟨rfl, rfl⟩ := h1
  refine ⟨_, rfl, writeMlog senv.crc sg schema, s.file, ?_, ?_, hread⟩
  · rw [h2]
    simp [arrived, keep, introduction, script, Request.call]
  · exact C34_schema senv.crc sg schema (by omega) (by omega)

namespace Demo

/-- The server accepts the sender. -/
def accepted : ConnectEnv :=
  { refused with incoming := some (framed (answer (introduction (str "10.0.0.7") (str "id")) 1#32 ⟨1#32, []⟩)) }

/-- A directory with one stored file. -/
def stored (server : Server) (content : Bytes) : SyncEnv :=
  { server := server, readFile := fun n => if n = str "0_0_f" then some content else none, crc := crc32, sha256 := fun b => (b ++ List.replicate 32 0).take 32 }

end Demo

example : ∃ s first sender, session Demo.env Demo.schema Demo.tidy = some s
    ∧ SyncSender.new Demo.accepted (some (str "id")) none none = (some (str "id"), first, .ok sender)
    ∧ ∃ sent, sync (Demo.stored (serverOver (peerOf (keeper (fun b => (b ++ List.replicate 32 0).take 32))) sender.client [first]) s.file) (str "f") (str "root.sg") Demo.schema
        = (sent, .ok)
      ∧ ∃ log data, arrived ((callAll (peerOf (keeper (fun b => (b ++ List.replicate 32 0).take 32))) sender.client [first]
          (sent.map Request.call)).2.1.filterMap received) = [(storedName (str "f"), data), (str "mlog.bin", log)]
        ∧ ∀ d m, readSeries some data d m = some (series (Demo.tidy.flatMap Op.recs) d m) := by
  obtain ⟨first, sender, hnew, htext⟩ : ∃ first sender, SyncSender.new Demo.accepted (some (str "id")) none none
      = (some (str "id"), first, .ok sender)
      ∧ ∀ v ∈ [sender.localAddr, sender.uuid, str "root.sg", str "f"], Utf8 v ∧ v.length ≤ 1000000 :=
    ⟨_, _, rfl, by decide +kernel⟩
  obtain ⟨s, hs, -, h⟩ := C83_arrives_partial Demo.envOk Demo.indexable Demo.tidy_orderly (by decide +kernel)
    (by decide +kernel) (by decide +kernel) Demo.names (by decide +kernel) hnew
    (Demo.stored (fun _ => none) ((session Demo.env Demo.schema Demo.tidy).map Session.file |>.getD [])) (by intro b; simp [Demo.stored]) (str "f") (str "root.sg") htext
  have hlen : s.file.length + 1000 ≤ 2 ^ 31 := by
    have : ∀ s, session Demo.env Demo.schema Demo.tidy = some s → s.file.length + 1000 ≤ 2 ^ 31 := by decide +kernel
    exact this s hs
  rw [hs] at h
  obtain ⟨sent, h1, log, data, h2, -, h4⟩ := h rfl hlen
  exact ⟨s, first, sender, hs, hnew, sent, h1, log, data, h2, h4⟩

/-- **C83** is violated: if the program's file is the only file with data, under the name that the caller gives to the sender, the
transfer never succeeds, whatever the server does, and no data of the file arrives. -/
theorem C83_alone_wrong (env : SyncEnv) (filename sg content : Bytes) (schema : Schema)
    (hfs : ∀ name, env.readFile name = if name = filename then some content else none) :
    (sync env filename sg schema).2 ≠ .ok
    ∧ ∀ f ∈ arrived ((sync env filename sg schema).1.map Request.call), f.1 ≠ str "mlog.bin" → f.2 = [] := by
  rcases h : sync env filename sg schema with ⟨sent, out⟩
  obtain ⟨hp, hread, _, hok⟩ := C36_order_partial env filename sg schema h
  have hno : env.readFile (storedName filename) = none := by
    rw [hfs, if_neg]
    intro h
    have := congrArg List.length h
    simp [storedName, str] at this
    omega
  have h6 : sent.length ≤ 6 := by
    rcases Nat.lt_or_ge 6 sent.length with h | h
    · have := hread h
      rw [hno] at this
      cases this
    · exact h
  refine ⟨fun h => ?_, ?_⟩
  · have := (hok.1 h).1
    omega
  · have htake := List.prefix_iff_eq_take.mp hp
    have hcases : sent.length = 0 ∨ sent.length = 1 ∨ sent.length = 2 ∨ sent.length = 3 ∨ sent.length = 4 ∨ sent.length = 5
        ∨ sent.length = 6 := by omega
    rcases hcases with h | h | h | h | h | h | h <;>
    · rw [htake, h]
      simp +contextual [script, arrived, keep, Request.call]

example : (sync { Demo.overWire with readFile := fun n => if n = str "f" then some [1, 2, 3] else none } (str "f") (str "root.sg") []).2
    = .panic := by decide +kernel

end TsFile
