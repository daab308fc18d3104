import Verif.Proofs.Sync
import Verif.Model.EnvStd
/-! # Properties C34-C37 and C52: synchronisation -/

namespace TsFile
open Spec

/-! ## C34: the metadata log -/

/-- A use of a log: the log and the buffer afterwards. -/
def MLog.run (crc : Bytes → W32) (l : MLog) (buffer : Bytes) : List LogCall → MLog × Bytes
  | [] => (l, buffer)
  | .plan (.setStorageGroup path) :: cs => (l.setStorageGroupPlan path).run crc buffer cs
  | .plan (.createTimeseries path dt enc comp) :: cs => (l.createPlan path dt enc comp).run crc buffer cs
  | .flush :: cs => (l.flush crc buffer).1.run crc (l.flush crc buffer).2 cs

theorem MLog.run_eq (crc : Bytes → W32) (cs : List LogCall) (cur : List Plan) (buffer : Bytes) :
    ((⟨cur.flatMap planBytes⟩ : MLog).run crc buffer cs).2
      = buffer ++ (batches cur cs).flatMap (fun ps => recordBytes crc (ps.flatMap planBytes)) := by
  induction cs generalizing cur buffer with
  | nil => simp [MLog.run, batches]
  | cons c cs ih =>
    have hc : ∀ p : Plan, (⟨cur.flatMap planBytes ++ planBytes p⟩ : MLog) = ⟨(cur ++ [p]).flatMap planBytes⟩ := by
      intro p; simp
    cases c with
    | plan p =>
      cases p with
      | setStorageGroup path =>
        rw [batches, ← ih, ← hc]; rfl
      | createTimeseries path dt enc comp =>
        rw [batches, ← ih, ← hc]; rfl
    | flush =>
      have := ih [] (((⟨cur.flatMap planBytes⟩ : MLog).flush crc buffer).2)
      rw [MLog.run, batches, List.flatMap_cons]
      refine Eq.trans this ?_
      simp [MLog.flush, recordBytes]

/-- **C34**, every use of a log: whatever plans are added and whenever the log is flushed, the reader finds in the buffer one
record for each flush, and in it the plans added since the flush before, in their order. -/
theorem C34_history (crc : Bytes → W32) (cs : List LogCall)
    (h : ∀ ps ∈ batches [] cs, (ps.map Plan.size).sum < 2 ^ 31) :
    readLog crc (MLog.new.run crc [] cs).2 = some (batches [] cs) := by
  have := MLog.run_eq crc cs [] []
  rw [List.nil_append] at this
  refine Eq.trans (congrArg (readLog crc) this) ?_
  exact readLog_records crc _ h

theorem writeMlogSeries_bytes (sg d : Bytes) (ms : List (Bytes × MeasurementSchema)) (l : MLog) :
    (writeMlogSeries sg d ms l).bytes = l.bytes ++ (ms.map (fun m =>
      Plan.createTimeseries (sg ++ [46] ++ d ++ [46] ++ m.1) m.2.dataType m.2.encoding m.2.compression)).flatMap planBytes := by
  induction ms generalizing l with
  | nil => simp [writeMlogSeries]
  | cons m ms ih =>
    obtain ⟨m, s⟩ := m
    rw [writeMlogSeries, ih, List.map_cons, List.flatMap_cons, ← List.append_assoc]
    rfl

theorem writeMlogDevices_bytes (sg : Bytes) (schema : Schema) (l : MLog) :
    (writeMlogDevices sg schema l).bytes = l.bytes ++ (plansOf sg schema).flatMap planBytes := by
  induction schema generalizing l with
  | nil => simp [writeMlogDevices, plansOf]
  | cons d ds ih =>
    obtain ⟨d, ms⟩ := d
    have hp : plansOf sg ((d, ms) :: ds) = ms.map (fun m =>
        Plan.createTimeseries (sg ++ [46] ++ d ++ [46] ++ m.1) m.2.dataType m.2.encoding m.2.compression) ++ plansOf sg ds := rfl
    rw [writeMlogDevices, ih, writeMlogSeries_bytes, hp, List.flatMap_append, List.append_assoc]

theorem writeMlog_eq (crc : Bytes → W32) (sg : Bytes) (schema : Schema) :
    writeMlog crc sg schema
      = [[Plan.setStorageGroup sg], plansOf sg schema].flatMap (fun ps => recordBytes crc (ps.flatMap planBytes)) := by
  have hb := writeMlogDevices_bytes sg schema (MLog.mk [])
  rw [List.nil_append] at hb
  simp only [writeMlog, MLog.flush, MLog.new, MLog.setStorageGroupPlan, List.nil_append, hb, List.flatMap_cons, List.flatMap_nil,
    List.append_nil, recordBytes, planBytes, List.append_assoc]

/-- **C34**: the metadata log of a schema has two records: the storage group, and every time series of the schema with its
type, encoding and compression. The list of a schema is the iteration order of its hash maps, so this holds for every such
order. -/
theorem C34_schema (crc : Bytes → W32) (sg : Bytes) (schema : Schema) (hs : sg.length + 13 < 2 ^ 31)
    (h : ((plansOf sg schema).map Plan.size).sum < 2 ^ 31) :
    readLog crc (writeMlog crc sg schema) = some [[.setStorageGroup sg], plansOf sg schema] := by
  have hr := readLog_records crc [[.setStorageGroup sg], plansOf sg schema] (by
    intro ps hp
    simp only [List.mem_cons, List.not_mem_nil, or_false] at hp
    rcases hp with rfl | rfl
    · simpa [plansSize, Plan.size] using hs
    · exact h)
  exact Eq.trans (congrArg (readLog crc) (writeMlog_eq crc sg schema)) hr

/-- The bytes that the tests in `sync/mlog.rs:145-214` expect. -/
theorem C34_golden : (MLog.new.run crc32 [] [.plan (.setStorageGroup (str "root.sg")), .flush,
      .plan (.createTimeseries (str "root.sg.d1.s1") .INT32 .PLAIN .UNCOMPRESSED), .flush]).2
    = [0x00, 0x00, 0x00, 0x14, 0x03, 0x00, 0x00, 0x00, 0x07, 0x72, 0x6F, 0x6F, 0x74, 0x2E, 0x73,
       0x67, 0x00, 0x00, 0x00, 0x00, 0x00, 0x00, 0x00, 0x00, 0x00, 0x00, 0x00, 0x00, 0xD6,
       0x4F, 0xBD, 0x17, 0x00, 0x00, 0x00, 0x29, 0x04, 0x00, 0x00, 0x00, 0x0D, 0x72, 0x6F,
       0x6F, 0x74, 0x2E, 0x73, 0x67, 0x2E, 0x64, 0x31, 0x2E, 0x73, 0x31, 0x01, 0x00, 0x00,
       0xFF, 0xFF, 0xFF, 0xFF, 0xFF, 0xFF, 0xFF, 0xFF, 0x00, 0x00, 0x00, 0x00, 0x00, 0x00,
       0x00, 0x00, 0x00, 0x00, 0x00, 0x00, 0x00, 0x00, 0x00, 0x00, 0x4E, 0xF4, 0xB9, 0x3D] := by
  decide +kernel

namespace Demo

/-- A schema to send. -/
def syncSchema : Schema :=
  [(str "d1", [(str "s1", ⟨.INT32, .PLAIN, .SNAPPY⟩), (str "s2", ⟨.INT64, .TS2DIFF, .UNCOMPRESSED⟩)]),
   (str "d2", [(str "s1", ⟨.FLOAT, .PLAIN, .SNAPPY⟩)])]

end Demo

/-- The hypotheses are met by a schema with three series. -/
example : readLog crc32 (writeMlog crc32 (str "root.sg") Demo.syncSchema)
    = some [[.setStorageGroup (str "root.sg")],
        [.createTimeseries (str "root.sg.d1.s1") .INT32 .PLAIN .SNAPPY,
         .createTimeseries (str "root.sg.d1.s2") .INT64 .TS2DIFF .UNCOMPRESSED,
         .createTimeseries (str "root.sg.d2.s1") .FLOAT .PLAIN .SNAPPY]] :=
  C34_schema crc32 (str "root.sg") Demo.syncSchema (by decide +kernel) (by decide +kernel)

/-- A use with an empty flush and a plan that is never flushed. -/
example : readLog crc32 (MLog.new.run crc32 [] [.flush, .plan (.setStorageGroup (str "a")), .plan (.setStorageGroup (str "b")),
    .flush, .plan (.setStorageGroup (str "c"))]).2 = some [[], [.setStorageGroup (str "a"), .setStorageGroup (str "b")]] :=
  C34_history crc32 _ (by decide +kernel)

/-! ## C35: the digest -/

/-- **C35**: the digest of every hash consists of lower case hexadecimal digits, has no leading zero, and stands for the number
that the bytes of the hash stand for. -/
theorem C35_canonical (hash : Bytes) :
    (∀ c ∈ digestOfHash hash, isHexDigit c = true) ∧ (digestOfHash hash).head? ≠ some '0'
      ∧ hexValue (digestOfHash hash) = beNat hash := by
  refine ⟨fun c hc => hexEncode_hex hash c ((List.dropWhile_sublist _).subset hc), ?_, ?_⟩
  · intro h
    rw [digestOfHash] at h
    have := List.head?_dropWhile_not (p := fun c : Char => c == '0') (l := hexEncode hash)
    rw [h] at this
    simp at this
  · rw [digestOfHash, hexValue_dropZeros, hexValue_hexEncode]

theorem beNat_injective (a b : Bytes) (hl : a.length = b.length) (h : beNat a = beNat b) : a = b := by
  induction a using List.reverseRecOn generalizing b with
  | nil => exact (List.length_eq_zero_iff.1 hl.symm).symm
  | append_singleton a x ih =>
    rcases List.eq_nil_or_concat b with rfl | ⟨b', y, rfl⟩
    · simp at hl
    · rw [List.concat_eq_append] at *
      rw [beNat_append_single, beNat_append_single] at h
      have hx := x.toNat_lt
      have hy := y.toNat_lt
      have h1 : beNat a = beNat b' := by omega
      have h2 : x.toNat = y.toNat := by omega
      rw [ih b' (by simpa using hl) h1, UInt8.toNat_inj.1 h2]

/-- **C35**: different hashes of the same length have different digests. -/
theorem C35_injective (a b : Bytes) (hl : a.length = b.length) (h : digestOfHash a = digestOfHash b) : a = b := by
  refine beNat_injective a b hl ?_
  rw [← (C35_canonical a).2.2, ← (C35_canonical b).2.2, h]

/-- **C35**, the exception: the digest of the hash that is zero is the empty string and not "0". -/
theorem C35_zero : digestOfHash (List.replicate 32 0) = [] := by decide +kernel

example : digestOfHash [0x00, 0x0a, 0xbc, 0x01] = ['a', 'b', 'c', '0', '1'] := by decide

/-! ## C36: the protocol -/

/-- A call that must have succeeded before the next one is made: the `k`-th of the calls made. The reply to the digest of the
metadata log (the 5th call) must also not be -1. The reply to the digest of the data file (the 8th call) does not matter. -/
def Passed (server : Server) (sent : List Request) (k : Nat) : Prop :=
  k ≠ 8 → ∃ status, server (sent.take k) = some status ∧ (k = 5 → status.code ≠ BitVec.ofInt 32 (-1))

theorem storedName_eq (filename : Bytes) : storedName filename = namePrefix ++ filename := by
  rw [storedName, show str "0_0_" = namePrefix by decide +kernel]

theorem script_eq (env : SyncEnv) (filename storageGroup mlog content : Bytes) :
    script env filename storageGroup mlog content = [.startSync, .init storageGroup,
      .initSyncData mlogName, .syncData mlog, .checkDataDigest (digestOfHash (env.sha256 mlog)),
      .initSyncData (namePrefix ++ filename), .syncData content, .checkDataDigest (digestOfHash (env.sha256 content)),
      .endSync] := by
  rw [script, storedName_eq, show str "mlog.bin" = mlogName by decide +kernel]

theorem sync_leaf (env : SyncEnv) (filename sg : Bytes) (schema : Schema) :
    (sync env filename sg schema).1 ≠ []
    ∧ (sync env filename sg schema).1 <+: script env filename sg (writeMlog env.crc sg schema)
        ((env.readFile (namePrefix ++ filename)).getD [])
    ∧ (6 < (sync env filename sg schema).1.length → (env.readFile (namePrefix ++ filename)).isSome)
    ∧ (∀ k, 0 < k → k < (sync env filename sg schema).1.length → Passed env.server (sync env filename sg schema).1 k)
    ∧ ((sync env filename sg schema).2 = .ok ↔ (sync env filename sg schema).1.length = 9
        ∧ (env.server (sync env filename sg schema).1).isSome) := by
  unfold sync
  split
  · refine ⟨by simp, by simp [script_eq], by simp, ?_, by simp⟩
    intro k h1 h2; simp at h2; omega
  rename_i s1 e1
  split
  · refine ⟨by simp, by simp [script_eq], by simp, ?_, by simp⟩
    intro k h1 h2; simp at h2
    interval_cases k <;> intro hk <;> simp_all
  rename_i s2 e2
  unfold syncMlog
  split
  · refine ⟨by simp, by simp [script_eq], by simp, ?_, by simp⟩
    intro k h1 h2; simp at h2
    interval_cases k <;> intro hk <;> simp_all
  rename_i s3 e3
  dsimp only
  split
  · refine ⟨by simp, by simp [script_eq], by simp, ?_, by simp⟩
    intro k h1 h2; simp at h2
    interval_cases k <;> intro hk <;> simp_all
  rename_i s4 e4
  unfold syncMlogDigest
  split
  rotate_left
  · refine ⟨by simp, by simp [script_eq], by simp, ?_, by simp⟩
    intro k h1 h2; simp at h2
    interval_cases k <;> intro hk <;> simp_all
  rename_i s5 e5
  split
  · refine ⟨by simp, by simp [script_eq], by simp, ?_, by simp⟩
    intro k h1 h2; simp at h2
    interval_cases k <;> intro hk <;> simp_all
  rename_i hc
  unfold syncFile
  dsimp only
  split
  · refine ⟨by simp, by simp [script_eq], by simp, ?_, by simp⟩
    intro k h1 h2; simp at h2
    interval_cases k <;> intro hk <;> simp_all
  rename_i s6 e6
  split
  · refine ⟨by simp, by simp [script_eq], by simp, ?_, by simp⟩
    intro k h1 h2; simp at h2
    interval_cases k <;> intro hk <;> simp_all
  rename_i bytes hb
  split
  · refine ⟨by simp, by simp [script_eq, hb], by simp [hb], ?_, by simp⟩
    intro k h1 h2; simp at h2
    interval_cases k <;> intro hk <;> simp_all
  rename_i s7 e7
  unfold syncDataDigest
  split
  · unfold syncEnd
    split
    · rename_i e9
      refine ⟨by simp, by simp [script_eq, hb], by simp [hb], ?_, by simp at e9 ⊢; simp [e9]⟩
      intro k h1 h2; simp at h2
      interval_cases k <;> intro hk <;> simp_all
    · rename_i s9 e9
      refine ⟨by simp, by simp [script_eq, hb], by simp [hb], ?_, by simp at e9 ⊢; simp [e9]⟩
      intro k h1 h2; simp at h2
      interval_cases k <;> intro hk <;> simp_all
  · unfold syncEnd
    split
    · rename_i e9
      refine ⟨by simp, by simp [script_eq, hb], by simp [hb], ?_, by simp at e9 ⊢; simp [e9]⟩
      intro k h1 h2; simp at h2
      interval_cases k <;> intro hk <;> simp_all
    · rename_i s9 e9
      refine ⟨by simp, by simp [script_eq, hb], by simp [hb], ?_, by simp at e9 ⊢; simp [e9]⟩
      intro k h1 h2; simp at h2
      interval_cases k <;> intro hk <;> simp_all

/-- **C36**: whatever the server answers, the calls made are a beginning of the prescribed sequence (metadata log, its digest,
data file, its digest, end), a call is made only if the calls before it passed, and `Ok` is returned only if all nine calls
were made and the last one succeeded. Missing from the property: a failure reported in the status of a reply stops the
protocol only for the digest of the metadata log, and the data file's digest is not looked at (`C36_status_wrong`,
`C36_data_digest_wrong`). -/
theorem C36_order_partial (env : SyncEnv) (filename sg : Bytes) (schema : Schema) {sent : List Request} {out : SyncOutcome}
    (h : sync env filename sg schema = (sent, out)) :
    sent <+: script env filename sg (writeMlog env.crc sg schema) ((env.readFile (storedName filename)).getD [])
    ∧ (6 < sent.length → (env.readFile (storedName filename)).isSome)
    ∧ (∀ k, 0 < k → k < sent.length → Passed env.server sent k)
    ∧ (out = .ok ↔ sent.length = 9 ∧ (env.server sent).isSome) := by
  have := (sync_leaf env filename sg schema).2
  rw [h] at this
  rw [storedName_eq]
  exact this

/-- **C36**: the protocol is not given up without a reason: if it ends before the last call, then the last call made did
not pass, or the data file could not be read. -/
theorem C36_reason (env : SyncEnv) (filename sg : Bytes) (schema : Schema) {sent : List Request} {out : SyncOutcome}
    (h : sync env filename sg schema = (sent, out)) :
    0 < sent.length ∧ (sent.length < 9 → ¬ Passed env.server sent sent.length
      ∨ (sent.length = 6 ∧ env.readFile (storedName filename) = none)) := by
  have key : 0 < (sync env filename sg schema).1.length ∧ ((sync env filename sg schema).1.length < 9
      → ¬ Passed env.server (sync env filename sg schema).1 (sync env filename sg schema).1.length
      ∨ ((sync env filename sg schema).1.length = 6 ∧ env.readFile (namePrefix ++ filename) = none)) := by
    unfold sync
    split
    · simp_all [Passed]
    split
    · simp_all [Passed]
    unfold syncMlog
    split
    · simp_all [Passed]
    dsimp only
    split
    · simp_all [Passed]
    unfold syncMlogDigest
    split
    · split
      · simp_all [Passed]
      unfold syncFile
      dsimp only
      split
      · simp_all [Passed]
      split
      · simp_all [Passed]
      split
      · simp_all [Passed]
      unfold syncDataDigest
      split <;> unfold syncEnd <;> split <;> simp
    · simp_all [Passed]
  rw [h] at key
  rw [storedName_eq]
  exact key

/-- **C36**: when anything about the data file is sent, the metadata log and its digest were sent before, and the server
confirmed the digest. -/
theorem C36_confirmed (env : SyncEnv) (filename sg : Bytes) (schema : Schema) {sent : List Request} {out : SyncOutcome}
    (h : sync env filename sg schema = (sent, out)) (hl : 5 < sent.length) :
    sent.take 5 = [.startSync, .init sg, .initSyncData (str "mlog.bin"), .syncData (writeMlog env.crc sg schema),
        .checkDataDigest (digestOfHash (env.sha256 (writeMlog env.crc sg schema)))]
    ∧ ∃ status, env.server (sent.take 5) = some status ∧ status.code ≠ BitVec.ofInt 32 (-1) := by
  obtain ⟨hp, _, hk, _⟩ := C36_order_partial env filename sg schema h
  refine ⟨?_, ?_⟩
  · obtain ⟨t, ht⟩ := hp
    have h1 := congrArg (List.take 5) ht
    rw [List.take_append_of_le_length (by omega)] at h1
    exact h1
  · obtain ⟨st, h1, h2⟩ := hk 5 (by omega) hl (by omega)
    exact ⟨st, h1, h2 rfl⟩

/-- **C36**: a call that fails, other than the digest of the data file, is the last one. -/
theorem C36_error_stops (env : SyncEnv) (filename sg : Bytes) (schema : Schema) {sent : List Request} {out : SyncOutcome}
    (h : sync env filename sg schema = (sent, out)) {k : Nat} (h0 : 0 < k) (hk : k ≤ sent.length) (h8 : k ≠ 8)
    (hf : env.server (sent.take k) = none) : k = sent.length ∧ out ≠ .ok := by
  obtain ⟨_, _, hp, ho⟩ := C36_order_partial env filename sg schema h
  have hl : k = sent.length := by
    by_contra hne
    obtain ⟨st, h1, _⟩ := hp k h0 (by omega) h8
    rw [hf] at h1
    exact absurd h1 (by simp)
  refine ⟨hl, fun h1 => ?_⟩
  have := (ho.1 h1).2
  rw [hl, List.take_length] at hf
  rw [hf] at this
  exact absurd this (by simp)

namespace Demo

/-- A server that reports a failure (-1) in every status except the one for the digest of the metadata log. -/
def failing : SyncEnv where
  server := fun calls => some { code := if calls.length = 5 then 1 else BitVec.ofInt 32 (-1), msg := [] }
  readFile := fun _ => some [1, 2, 3]
  crc := crc32
  sha256 := fun b => b

/-- A server on which the digest of the data file does not match. -/
def mismatch : SyncEnv where
  server := fun calls => if calls.length = 8 then none else some { code := 1, msg := [] }
  readFile := fun _ => some [1, 2, 3]
  crc := crc32
  sha256 := fun b => b

end Demo

/-- **C36**, the negation: a server reports failures in the status of its replies, and `sync` goes on and returns `Ok`. -/
theorem C36_status_wrong : ∃ (env : SyncEnv) (filename sg : Bytes) (schema : Schema),
    (∀ calls : List Request, calls.length ≠ 5 → (env.server calls).map SyncStatus.code = some (BitVec.ofInt 32 (-1)))
    ∧ (sync env filename sg schema).2 = .ok := by
  refine ⟨Demo.failing, str "f", str "root.sg", Demo.syncSchema, ?_, by decide +kernel⟩
  intro calls h
  simp only [Demo.failing, h, if_false, Option.map_some]

/-- **C36**, the negation: the digest of the data file is refused, and `sync` goes on and returns `Ok`. -/
theorem C36_data_digest_wrong : ∃ (env : SyncEnv) (filename sg : Bytes) (schema : Schema),
    (∀ calls : List Request, calls.length = 8 → env.server calls = none) ∧ (sync env filename sg schema).2 = .ok := by
  refine ⟨Demo.mismatch, str "f", str "root.sg", Demo.syncSchema, ?_, by decide +kernel⟩
  intro calls h
  simp only [Demo.mismatch, h, if_true]

/-- **C36**, the negation for every transfer: if the server answers every call, confirms the metadata log and the file can be read,
then the transfer is reported as a success, whatever the server says in the status of the other replies; and the digest of the data
file need not be answered. -/
theorem C36_ignored_wrong (env : SyncEnv) (filename sg : Bytes) (schema : Schema)
    (hans : ∀ calls : List Request, calls.length ≠ 8 → (env.server calls).isSome)
    (hconf : ∀ calls : List Request, calls.length = 5 → (env.server calls).map SyncStatus.code ≠ some (BitVec.ofInt 32 (-1)))
    (hread : (env.readFile (storedName filename)).isSome) : (sync env filename sg schema).2 = .ok := by
  rcases h : sync env filename sg schema with ⟨sent, out⟩
  obtain ⟨hp, _, _, hok⟩ := C36_order_partial env filename sg schema h
  obtain ⟨hpos, hr⟩ := C36_reason env filename sg schema h
  have h9 : sent.length = 9 := by
    have hle := hp.length_le
    have : (script env filename sg (writeMlog env.crc sg schema) ((env.readFile (storedName filename)).getD [])).length = 9 := rfl
    rw [this] at hle
    refine Decidable.byContradiction fun hc => ?_
    rcases hr (by omega) with h | ⟨_, h⟩
    · apply h
      intro h8
      rw [List.take_length]
      obtain ⟨status, hs⟩ := Option.isSome_iff_exists.1 (hans sent h8)
      refine ⟨status, hs, fun h5 e => hconf sent h5 ?_⟩
      rw [hs, Option.map_some, e]
    · rw [h] at hread; cases hread
  exact hok.2 ⟨h9, hans _ (by omega)⟩

example : (sync Demo.mismatch (str "f") (str "root.sg") Demo.syncSchema).2 = .ok :=
  C36_ignored_wrong _ _ _ _ (fun calls h => by simp only [Demo.mismatch, h, if_false]; rfl)
    (fun calls h => by simp [Demo.mismatch, h]) rfl

/-- A session in which all nine calls are made. -/
example : (sync Demo.failing (str "f") (str "root.sg") Demo.syncSchema).1.length = 9 := by decide +kernel
/-- The third call fails: three calls are made, the last of them does not pass. -/
example : (sync { Demo.failing with server := fun calls => if calls.length = 3 then none else some { code := 1, msg := [] } }
    (str "f") (str "root.sg") Demo.syncSchema).1.length = 3 := by decide +kernel

example : sync Demo.failing (str "f") (str "root.sg") Demo.syncSchema
    = ((sync Demo.failing (str "f") (str "root.sg") Demo.syncSchema).1, (sync Demo.failing (str "f") (str "root.sg") Demo.syncSchema).2) := rfl
example := C36_order_partial Demo.failing (str "f") (str "root.sg") Demo.syncSchema rfl
example := C36_reason Demo.failing (str "f") (str "root.sg") Demo.syncSchema rfl
example : ∃ status, Demo.failing.server ((sync Demo.failing (str "f") (str "root.sg") Demo.syncSchema).1.take 5) = some status
    ∧ status.code ≠ BitVec.ofInt 32 (-1) :=
  (C36_confirmed Demo.failing (str "f") (str "root.sg") Demo.syncSchema rfl (by decide +kernel)).2
example : (sync { Demo.failing with server := fun calls => if calls.length = 3 then none else some { code := 1, msg := [] } }
    (str "f") (str "root.sg") Demo.syncSchema).2 ≠ .ok :=
  (C36_error_stops { Demo.failing with server := fun calls => if calls.length = 3 then none else some { code := 1, msg := [] } }
    (str "f") (str "root.sg") Demo.syncSchema rfl (k := 3) (by omega) (by decide +kernel) (by omega) (by decide +kernel)).2

/-! ## C52: the file that is sent -/

/-- **C52**: what is sent as the data file is the content of the file whose name is the given one with "0_0_" in front. It is
the content of the file named by the caller if the two have the same content. -/
theorem C52_content_partial (env : SyncEnv) (filename sg : Bytes) (schema : Schema) {sent : List Request}
    (h : sync env filename sg schema = (sent, .ok)) (hsame : env.readFile (storedName filename) = env.readFile filename) :
    ∃ content, env.readFile filename = some content ∧ sent[6]? = some (.syncData content)
      ∧ sent[7]? = some (.checkDataDigest (digestOfHash (env.sha256 content))) := by
  obtain ⟨hp, hr, _, ho⟩ := C36_order_partial env filename sg schema h
  have hl := (ho.1 rfl).1
  obtain ⟨content, hc⟩ := Option.isSome_iff_exists.1 (hr (by omega))
  have he := hp.eq_of_length (by rw [hl]; rfl)
  rw [hc] at he
  refine ⟨content, by rw [← hsame, hc], ?_, ?_⟩ <;> rw [he] <;> rfl

/-- **C52**, the negation for every transfer that succeeds: if the file with "0_0_" in front of its name has another content than
the one that was named (and the latter is not by chance the metadata log), the content of the latter was not sent. -/
theorem C52_never_wrong (env : SyncEnv) (filename sg : Bytes) (schema : Schema) {sent : List Request} {content : Bytes}
    (h : sync env filename sg schema = (sent, .ok)) (hne : env.readFile (storedName filename) ≠ some content)
    (hm : content ≠ writeMlog env.crc sg schema) : Request.syncData content ∉ sent := by
  obtain ⟨hp, hr, _, ho⟩ := C36_order_partial env filename sg schema h
  have hl := (ho.1 rfl).1
  obtain ⟨other, hc⟩ := Option.isSome_iff_exists.1 (hr (by omega))
  have he := hp.eq_of_length (by rw [hl]; rfl)
  rw [he, hc, Option.getD_some, script_eq]
  have hother : content ≠ other := fun e => hne (by rw [hc, e])
  simp [hm, hother]

/-- **C52**, the negation: `sync` returns `Ok` and has sent other data than the content of the named file. -/
theorem C52_wrong_file : ∃ (env : SyncEnv) (filename sg content : Bytes) (schema : Schema),
    env.readFile filename = some content ∧ (sync env filename sg schema).2 = .ok
    ∧ Request.syncData content ∉ (sync env filename sg schema).1 := by
  refine ⟨{ Demo.mismatch with readFile := fun f => some (if f = str "f" then [7] else [8]) }, str "f", str "root.sg", [7],
    Demo.syncSchema, rfl, by decide +kernel, by decide +kernel⟩

example : Request.syncData [7] ∉ (sync { Demo.mismatch with readFile := fun f => some (if f = str "f" then [7] else [8]) } (str "f")
    (str "root.sg") Demo.syncSchema).1 := by
  refine C52_never_wrong { Demo.mismatch with readFile := fun f => some (if f = str "f" then [7] else [8]) } (str "f") (str "root.sg")
    Demo.syncSchema (Prod.ext rfl ?_) ?_ ?_ <;> decide +kernel

example : (sync Demo.mismatch (str "f") (str "root.sg") Demo.syncSchema).2 = .ok
    ∧ Demo.mismatch.readFile (storedName (str "f")) = Demo.mismatch.readFile (str "f") := ⟨by decide +kernel, rfl⟩

/-! ## C37: the identity -/

/-- Calls of `get_or_generate_uuid`, one after the other: their results. -/
def uuidResults : Option Bytes → List UuidRun → List (Option Bytes)
  | _, [] => []
  | file, r :: rs => (getOrGenerateUuid file r).2 :: uuidResults (getOrGenerateUuid file r).1 rs

theorem uuid_stored (content : Bytes) (rs : List UuidRun) (h : ∀ r ∈ rs, r.readFails = false) :
    ∀ x ∈ uuidResults (some content) rs, x = some content := by
  induction rs with
  | nil => simp [uuidResults]
  | cons r rs ih =>
    have hr : getOrGenerateUuid (some content) r = (some content, some content) := by
      have h0 := h r (by simp)
      simp only [getOrGenerateUuid, h0]
    intro x hx
    rw [uuidResults, hr] at hx
    rcases List.mem_cons.1 hx with rfl | hx
    · rfl
    · exact ih (fun r hr => h r (by simp [hr])) x hx

/-- **C37**: if reading the stored file never fails, then whatever else happens every call after one that returned an identity
returns the same. Missing from the property: reading may fail once (`C37_wrong`). -/
theorem C37_stable_partial (file : Option Bytes) (rs : List UuidRun) (h : ∀ r ∈ rs, r.readFails = false) {i j : Nat} {u : Bytes}
    {x : Option Bytes} (hij : i < j) (hi : (uuidResults file rs)[i]? = some (some u)) (hj : (uuidResults file rs)[j]? = some x) :
    x = some u := by
  induction rs generalizing file i j with
  | nil => simp [uuidResults] at hi
  | cons r rs ih =>
    have hrs : ∀ r ∈ rs, r.readFails = false := fun r hr => h r (by simp [hr])
    obtain ⟨j, rfl⟩ : ∃ n, j = n + 1 := ⟨j - 1, by omega⟩
    rw [uuidResults, List.getElem?_cons_succ] at hj
    cases i with
    | succ i =>
      rw [uuidResults, List.getElem?_cons_succ] at hi
      exact ih _ hrs (by omega) hi hj
    | zero =>
      rw [uuidResults, List.getElem?_cons_zero] at hi
      have h1 : (getOrGenerateUuid file r).2 = some u := Option.some.inj hi
      have h2 : (getOrGenerateUuid file r).1 = some u := by
        rw [getOrGenerateUuid.eq_def] at h1 ⊢
        split at h1
        · exact h1
        · rename_i hne
          cases hw : r.writeFailsLeaving with
          | some left => rw [hw] at h1; simp at h1
          | none => rw [hw] at h1; exact h1
      rw [h2] at hj
      exact uuid_stored u rs hrs x (List.mem_of_getElem? hj)

/-- **C37**, the negation for every identity: if reading the file fails once and a new identity can be written, then this call and
all calls after it return the new one. -/
theorem C37_replaced_wrong (stored : Bytes) {r : UuidRun} (hf : r.readFails = true) (hw : r.writeFailsLeaving = none)
    (rs : List UuidRun) (h : ∀ r ∈ rs, r.readFails = false) :
    uuidResults (some stored) (r :: rs) = some r.fresh :: rs.map (fun _ => some r.fresh) := by
  have h1 : getOrGenerateUuid (some stored) r = (some r.fresh, some r.fresh) := by
    simp only [getOrGenerateUuid, hf, hw]
  rw [uuidResults, h1]
  refine congrArg _ (List.ext_getElem? fun i => ?_)
  have hlen : ∀ (f : Option Bytes) (rs : List UuidRun), (uuidResults f rs).length = rs.length := by
    intro f rs
    induction rs generalizing f with
    | nil => rfl
    | cons r rs ih => simp [uuidResults, ih]
  rcases Nat.lt_or_ge i rs.length with hi | hi
  · rw [List.getElem?_map, List.getElem?_eq_getElem hi, Option.map_some,
      List.getElem?_eq_getElem (by rw [hlen]; exact hi)]
    exact congrArg some (uuid_stored _ rs h _ (List.getElem_mem _))
  · rw [List.getElem?_eq_none (by rw [hlen]; exact hi), List.getElem?_eq_none (by rw [List.length_map]; exact hi)]

example : uuidResults (some (str "a")) [⟨true, str "b", none⟩, ⟨false, str "c", none⟩] = [some (str "b"), some (str "b")] :=
  C37_replaced_wrong _ rfl rfl _ (by simp)

/-- **C37**, the negation: reading the file fails once and the identity is replaced. -/
theorem C37_wrong : ∃ (file : Option Bytes) (rs : List UuidRun),
    uuidResults file rs = [some (str "a"), some (str "b"), some (str "b")] :=
  ⟨none, [⟨false, str "a", none⟩, ⟨true, str "b", none⟩, ⟨false, str "c", none⟩], by decide +kernel⟩

/-- A first write fails, the identity is then generated and kept. -/
example : uuidResults none [⟨false, str "a", some none⟩, ⟨false, str "b", none⟩, ⟨false, str "c", none⟩]
    = [none, some (str "b"), some (str "b")] := by decide +kernel

example : (uuidResults none [⟨false, str "a", some none⟩, ⟨false, str "b", none⟩, ⟨false, str "c", none⟩])[2]? = some (some (str "b")) := by
  cases h : (uuidResults none [⟨false, str "a", some none⟩, ⟨false, str "b", none⟩, ⟨false, str "c", none⟩])[2]? with
  | none => revert h; decide +kernel
  | some x => rw [C37_stable_partial none _ (by decide) (i := 1) (j := 2) (u := str "b") (by omega) (by decide +kernel) h]

/-- A write that fails after storing a part leaves an identity that no call ever returned as its own. -/
theorem C37_truncated : ∃ (rs : List UuidRun), (∀ r ∈ rs, r.readFails = false ∧ r.fresh = str "ab")
    ∧ uuidResults none rs = [none, some (str "a")] :=
  ⟨[⟨false, str "ab", some (some (str "a"))⟩, ⟨false, str "ab", none⟩], by decide +kernel, by decide +kernel⟩

end TsFile
