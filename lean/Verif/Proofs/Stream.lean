import Verif.Model.Stream
import Verif.Proofs.Fault
import Verif.Proofs.Output
/-! # The writer call by call refines the writer on a `Sink` -/

namespace TsFile
open Spec

theorem Sink.write_nil (s : Sink) : s.write [] = s := by
  rw [Sink.write]
  obtain ⟨b, c⟩ := s
  cases c <;> simp

theorem Sink.write_append (s : Sink) (a b : Bytes) : s.write (a ++ b) = (s.write a).write b := by
  obtain ⟨x, c⟩ := s
  cases c with
  | none => simp [Sink.write]
  | some n =>
    simp only [Sink.write, Sink.mk.injEq, and_true, List.append_assoc, List.append_cancel_left_eq, List.take_append,
      List.length_append, List.length_take]
    rcases Nat.le_total (n - x.length) a.length with h | h
    · rw [show n - x.length - a.length = 0 by omega, show n - (x.length + min (n - x.length) a.length) = 0 by omega]
    · rw [show n - (x.length + min (n - x.length) a.length) = n - x.length - a.length by omega]

theorem Sink.ok_append (s : Sink) (a b : Bytes) : s.ok (a ++ b) = (s.ok a && (s.write a).ok b) := by
  obtain ⟨x, c⟩ := s
  cases c with
  | none => rfl
  | some n =>
    simp only [Sink.ok, Sink.write, List.length_append, List.length_take, ← Bool.decide_and]
    congr 1
    apply propext
    omega

theorem Sink.ok_nil (s : Sink) : s.ok [] = true := by
  obtain ⟨x, c⟩ := s
  cases c <;> simp [Sink.ok]

/-- After a failing write nothing more fits. -/
theorem Sink.write_full (s : Sink) (a b : Bytes) (h : s.ok a = false) : (s.write a).write b = s.write a := by
  obtain ⟨x, c⟩ := s
  cases c with
  | none => simp [Sink.ok] at h
  | some n =>
    simp only [Sink.ok, decide_eq_false_iff_not] at h
    simp only [Sink.write, Sink.mk.injEq, and_true, List.length_append, List.length_take, List.append_assoc]
    rw [show n - (x.length + min (n - x.length) a.length) = 0 by omega]
    simp

/-- An output on which `write_all` behaves as on a `Sink`. -/
structure Port.Follows {σ : Type} (p : Port σ) (R : WriteWrapper σ → Sink → Prop) : Prop where
  all : ∀ w s b, R w s → ∃ w' r, w.writeAll p.dev (p.patience b.length) b = some (w', r) ∧ R w' (s.write b)
    ∧ (s.ok b = true → r = .ok ()) ∧ (s.ok b = false → ∃ e, r = .error e)
  pos : ∀ w s, R w s → w.position = BitVec.ofNat 64 s.bytes.length
  flush : ∀ w s, R w s → R (w.flush p.flush) s

/-- An output that behaves like a `Sink`. -/
structure Port.Tracks {σ : Type} (p : Port σ) (R : WriteWrapper σ → Sink → Prop) : Prop extends p.Follows R where
  one : ∀ w s b, R w s → b.length ≤ 8 → R (w.write p.dev b).1 (s.write b)

section
variable {σ : Type} {p : Port σ} {R : WriteWrapper σ → Sink → Prop}

theorem Port.Follows.script (h : p.Follows R) (parts : List Bytes) {w : WriteWrapper σ} {s : Sink} (hr : R w s) :
    ∃ w', p.script w parts = some (w', s.ok parts.flatten) ∧ R w' (s.write parts.flatten) := by
  induction parts generalizing w s with
  | nil => exact ⟨w, by simp [Port.script, Sink.ok_nil], by simpa [Sink.write_nil] using hr⟩
  | cons b bs ih =>
    obtain ⟨w1, r, h1, h2, h3, h4⟩ := h.all w s b hr
    rw [Port.script, h1]
    simp only [List.flatten_cons, Sink.write_append, Sink.ok_append]
    cases hok : s.ok b with
    | true =>
      rw [h3 hok]
      simp only [Bool.true_and]
      exact ih h2
    | false =>
      obtain ⟨e, rfl⟩ := h4 hok
      simp only [Bool.false_and]
      exact ⟨w1, rfl, by rw [Sink.write_full _ _ _ hok]; exact h2⟩

/-- The single `write`s are small. -/
def Call.Small : Call → Prop
  | .all _ => True
  | .one b => b.length ≤ 8

theorem Port.Tracks.perform (h : p.Tracks R) (cs : List Call) (hs : ∀ c ∈ cs, c.Small) {w : WriteWrapper σ} {s : Sink}
    (hr : R w s) : ∃ w', p.perform w cs = some w' ∧ R w' (s.write (cs.flatMap Call.bytes)) := by
  induction cs generalizing w s with
  | nil => exact ⟨w, rfl, by simpa [Sink.write_nil] using hr⟩
  | cons c cs ih =>
    have ih' := fun {w : WriteWrapper σ} {s : Sink} => @ih (fun c hc => hs c (by simp [hc])) w s
    rw [List.flatMap_cons, Sink.write_append]
    cases c with
    | one b =>
      rw [Port.perform]
      exact ih' (h.one w s b hr (hs (.one b) (by simp)))
    | all parts =>
      obtain ⟨w1, h1, h2⟩ := h.script parts hr
      rw [Port.perform, h1]
      exact ih' h2

/-- Steps that go through `write_all`. -/
def Call.Whole : Call → Prop
  | .all _ => True
  | .one _ => False

theorem Port.Follows.performAll (h : p.Follows R) (cs : List Call) (hs : ∀ c ∈ cs, c.Whole) {w : WriteWrapper σ} {s : Sink}
    (hr : R w s) : ∃ w', p.perform w cs = some w' ∧ R w' (s.write (cs.flatMap Call.bytes)) := by
  induction cs generalizing w s with
  | nil => exact ⟨w, rfl, by simpa [Sink.write_nil] using hr⟩
  | cons c cs ih =>
    have ih' := fun {w : WriteWrapper σ} {s : Sink} => @ih (fun c hc => hs c (by simp [hc])) w s
    rw [List.flatMap_cons, Sink.write_append]
    cases c with
    | one b => exact absurd (hs (.one b) (by simp)) (by simp [Call.Whole])
    | all parts =>
      obtain ⟨w1, h1, h2⟩ := h.script parts hr
      rw [Port.perform, h1]
      exact ih' h2

/-! ## The serialisers -/

theorem flatten_varParts (x : W32) : (varParts x).flatten = writeVarU32 x := by
  rw [varParts]
  induction writeVarU32 x with
  | nil => rfl
  | cons b bs ih => simp [ih]

theorem flatten_strParts (s : Bytes) : (strParts s).flatten = writeStr s := by
  simp [strParts, writeStr, writeVarI32, flatten_varParts]

theorem flatten_chunkGroupHeaderParts (d : Bytes) : (chunkGroupHeaderParts d).flatten = chunkGroupHeader d := by
  simp [chunkGroupHeaderParts, chunkGroupHeader, flatten_strParts]

theorem flatten_header (h : ChunkHeader) : h.parts.flatten = h.serialize := by
  simp [ChunkHeader.parts, ChunkHeader.serialize, flatten_strParts, flatten_varParts]

theorem flatten_statistics (env : Env) (s : Statistics) : (s.parts env).flatten = s.serialize env := by
  cases s <;> simp [Statistics.parts, Statistics.serialize, StatisticsStruct.parts, StatisticsStruct.serialize, flatten_varParts]

theorem calls_timeSeries (env : Env) (t : TimeSeriesMetadata) :
    (t.calls env).flatMap Call.bytes = t.serialize env ∧ ∀ c ∈ t.calls env, c.Small := by
  constructor
  · simp [TimeSeriesMetadata.calls, TimeSeriesMetadata.serialize, Call.bytes, flatten_strParts, flatten_varParts,
      flatten_statistics]
  · simp [TimeSeriesMetadata.calls, Call.Small]

theorem be64_length (x : W64) : (be64 x).length = 8 := rfl

theorem calls_entry (e : IndexEntry) :
    e.calls.flatMap Call.bytes = e.serialize ∧ ∀ c ∈ e.calls, c.Small := by
  constructor
  · simp [IndexEntry.calls, IndexEntry.serialize, Call.bytes, flatten_strParts]
  · simp [IndexEntry.calls, Call.Small, be64_length]

theorem calls_node (n : IndexNode) : n.calls.flatMap Call.bytes = n.serialize ∧ ∀ c ∈ n.calls, c.Small := by
  constructor
  · simp only [IndexNode.calls, IndexNode.serialize, List.flatMap_append, List.flatMap_cons, List.flatMap_nil, Call.bytes,
      flatten_varParts, List.append_nil, List.append_assoc]
    congr 2
    induction n.children with
    | nil => rfl
    | cons e es ih =>
      rw [List.flatMap_cons, List.flatMap_append, ih, (calls_entry e).1, List.flatMap_cons]
  · intro c hc
    simp only [IndexNode.calls, List.mem_append, List.mem_cons, List.not_mem_nil, or_false, List.mem_flatMap] at hc
    rcases hc with (rfl | ⟨e, _, he⟩) | rfl | rfl
    · trivial
    · exact (calls_entry e).2 c he
    · exact Nat.le_refl 8
    · show [n.nodeType.serialize].length ≤ 8
      simp

theorem calls_metadata (n : IndexNode) (o : Nat) :
    (tsFileMetadataCalls n o).flatMap Call.bytes = tsFileMetadataSerialize n o ∧ ∀ c ∈ tsFileMetadataCalls n o, c.Small := by
  constructor
  · simp [tsFileMetadataCalls, tsFileMetadataSerialize, (calls_node n).1, Call.bytes]
  · intro c hc
    simp only [tsFileMetadataCalls, List.mem_append, List.mem_cons, List.not_mem_nil, or_false] at hc
    rcases hc with hc | rfl
    · exact (calls_node n).2 c hc
    · trivial

theorem calls_bloom (f : BloomFilter) :
    match f.calls, f.serialize with
    | none, none => True
    | some cs, some b => cs.flatMap Call.bytes = b ∧ ∀ c ∈ cs, c.Small
    | _, _ => False := by
  rw [BloomFilter.calls, BloomFilter.serialize]
  cases f.serializeBits with
  | none => trivial
  | some bits =>
    simp only [Option.map_some]
    constructor
    · simp [Call.bytes, flatten_varParts]
    · simp [Call.Small]

/-! ## The index -/

namespace Stream

/-- The same fields, and an output that behaves like the sink. -/
structure Io.Like (R : WriteWrapper σ → Sink → Prop) (io : Io σ) (o : IoWriter) : Prop where
  out : R io.out o.out
  currentDevice : io.currentDevice = o.currentDevice
  chunkMetadataList : io.chunkMetadataList = o.chunkMetadataList
  currentChunkMetadata : io.currentChunkMetadata = o.currentChunkMetadata
  chunkGroupMetadataList : io.chunkGroupMetadataList = o.chunkGroupMetadataList
  timeseriesMetadataMap : io.timeseriesMetadataMap = o.timeseriesMetadataMap

theorem position_eq (h : p.Follows R) {w : WriteWrapper σ} {s : Sink} (hr : R w s) (hl : s.bytes.length < 2 ^ 64) :
    position w = s.pos := by
  rw [position, WriteWrapper.getPosition, h.pos w s hr, BitVec.toNat_ofNat, Nat.mod_eq_of_lt hl, Sink.pos]

theorem leafLoop_like (env : Env) (h : p.Follows R) (l : List TimeSeriesMetadata) (i : Nat) (s : Leaf σ) (o : LeafState)
    (hr : R s.out o.out) (hc : s.cur = o.cur) (hq : s.queue = o.queue)
    (hl : (TsFile.leafLoop env i o l).out.bytes.length < 2 ^ 64) :
    ∃ s', leafLoop env p i s l = some s' ∧ R s'.out (TsFile.leafLoop env i o l).out
      ∧ s'.cur = (TsFile.leafLoop env i o l).cur ∧ s'.queue = (TsFile.leafLoop env i o l).queue := by
  induction l generalizing i s o with
  | nil => exact ⟨s, rfl, hr, hc, hq⟩
  | cons t ts ih =>
    have hpos : position s.out = o.out.pos := by
      refine position_eq h hr ?_
      have := (Grows.leafLoop env (t :: ts) i o).pre.length_le
      omega
    rw [TsFile.leafLoop] at hl ⊢
    rw [leafLoop]
    obtain ⟨w', h1, h2⟩ := h.performAll (t.calls env) (by simp [TimeSeriesMetadata.calls, Call.Whole]) hr
    rw [(calls_timeSeries env t).1] at h2
    obtain ⟨so, sc, sq⟩ := s
    obtain ⟨oo, oc, oq⟩ := o
    simp only at hr hc hq hpos h1 h2
    subst hc hq
    by_cases hi : i % maxDegree = 0
    · by_cases hf : sc.isFull = true
      · simp only [hi, hf, if_true, hpos, h1] at hl ⊢
        exact ih _ _ _ h2 rfl rfl hl
      · simp only [hi, hf, if_true, Bool.false_eq_true, if_false, hpos, h1] at hl ⊢
        exact ih _ _ _ h2 rfl rfl hl
    · simp only [hi, if_false, h1] at hl ⊢
      exact ih _ _ _ h2 rfl rfl hl

theorem deviceIndex_like (env : Env) (h : p.Follows R) (l : List TimeSeriesMetadata) {w : WriteWrapper σ} {s : Sink}
    (hr : R w s) {s' : Sink} {n : IndexNode} (ho : TsFile.deviceIndex env s l = some (s', n))
    (hl : s'.bytes.length < 2 ^ 64) : ∃ w', deviceIndex env p w l = some (w', n) ∧ R w' s' := by
  rw [TsFile.deviceIndex] at ho
  simp only [Option.map_eq_some_iff, Prod.mk.injEq] at ho
  obtain ⟨n', hn, hs, rfl⟩ := ho
  obtain ⟨st, h1, h2, h3, h4⟩ := leafLoop_like env h l 0 ⟨w, IndexNode.new .leafMeasurement, []⟩
    ⟨s, IndexNode.new .leafMeasurement, []⟩ hr rfl rfl (by rw [hs]; exact hl)
  rw [deviceIndex, h1]
  simp only
  rw [h3, h4, position_eq h h2 (by rw [hs]; exact hl), hn]
  exact ⟨st.out, rfl, by rw [← hs]; exact h2⟩

theorem devicesLoop_like (env : Env) (h : p.Follows R) (m : BMap (List TimeSeriesMetadata)) {w : WriteWrapper σ} {s : Sink}
    (hr : R w s) {s' : Sink} {map : List (Bytes × IndexNode)} (ho : TsFile.devicesLoop env s m = some (s', map))
    (hl : s'.bytes.length < 2 ^ 64) : ∃ w', devicesLoop env p w m = some (w', map) ∧ R w' s' := by
  induction m generalizing w s s' map with
  | nil =>
    simp only [TsFile.devicesLoop, Option.some.injEq, Prod.mk.injEq] at ho
    obtain ⟨rfl, rfl⟩ := ho
    exact ⟨w, rfl, hr⟩
  | cons e rest ih =>
    obtain ⟨d, l⟩ := e
    rw [TsFile.devicesLoop] at ho
    rw [devicesLoop]
    by_cases he : l.isEmpty = true
    · rw [if_pos he] at ho ⊢
      exact ih hr ho hl
    · rw [if_neg he] at ho ⊢
      cases hd : TsFile.deviceIndex env s l with
      | none => rw [hd] at ho; simp at ho
      | some r =>
        obtain ⟨s1, n⟩ := r
        rw [hd] at ho
        simp only at ho
        cases hd2 : TsFile.devicesLoop env s1 rest with
        | none => rw [hd2] at ho; simp at ho
        | some r2 =>
          obtain ⟨s2, m2⟩ := r2
          rw [hd2] at ho
          simp only [Option.some.injEq, Prod.mk.injEq] at ho
          obtain ⟨rfl, rfl⟩ := ho
          have hg := (Grows.devicesLoop env rest s1 hd2).pre.length_le
          obtain ⟨w1, h1, h2⟩ := deviceIndex_like env h l hr hd (by simp only at hg; omega)
          obtain ⟨w2, h3, h4⟩ := ih h2 hd2 hl
          exact ⟨w2, by simp only [h1, h3], h4⟩

theorem writeDeviceNodes_like (h : p.Tracks R) (l : List (Bytes × IndexNode)) {w : WriteWrapper σ} {s : Sink} (hr : R w s)
    (hl : (TsFile.writeDeviceNodes s l).1.bytes.length < 2 ^ 64) :
    ∃ w', writeDeviceNodes p w l = some (w', (TsFile.writeDeviceNodes s l).2) ∧ R w' (TsFile.writeDeviceNodes s l).1 := by
  induction l generalizing w s with
  | nil => exact ⟨w, rfl, hr⟩
  | cons e rest ih =>
    obtain ⟨d, n⟩ := e
    have hg := (Grows.writeDeviceNodes ((d, n) :: rest) s).pre.length_le
    have hp := position_eq h.toFollows hr (by omega)
    rw [TsFile.writeDeviceNodes] at hl ⊢
    rw [writeDeviceNodes]
    obtain ⟨w1, h1, h2⟩ := h.perform n.calls (calls_node n).2 hr
    rw [(calls_node n).1] at h2
    obtain ⟨w2, h3, h4⟩ := ih h2 hl
    exact ⟨w2, by simp only [h1, h3, hp], h4⟩

theorem construct_like (env : Env) (h : p.Tracks R) (m : BMap (List TimeSeriesMetadata)) {w : WriteWrapper σ} {s : Sink}
    (hr : R w s) {s' : Sink} {n : IndexNode} (ho : TsFile.constructMetadataIndex env m s = some (s', n))
    (hl : s'.bytes.length < 2 ^ 64) : ∃ w', constructMetadataIndex env p m w = some (w', n) ∧ R w' s' := by
  rw [TsFile.constructMetadataIndex] at ho
  cases hd : TsFile.devicesLoop env s m with
  | none => rw [hd] at ho; simp at ho
  | some r =>
    obtain ⟨s1, map⟩ := r
    rw [hd] at ho
    simp only at ho
    by_cases hm : map.length ≤ maxDegree
    · rw [if_pos hm] at ho
      simp only [Option.some.injEq, Prod.mk.injEq] at ho
      obtain ⟨rfl, rfl⟩ := ho
      have hg := (Grows.writeDeviceNodes (env.hashOrder map) s1).pre.length_le
      obtain ⟨w1, h1, h2⟩ := devicesLoop_like env h.toFollows m hr hd (by omega)
      obtain ⟨w2, h3, h4⟩ := writeDeviceNodes_like h (env.hashOrder map) h2 hl
      refine ⟨w2, ?_, h4⟩
      rw [constructMetadataIndex, h1]
      simp only [if_pos hm, h3, position_eq h.toFollows h4 hl]
    · rw [if_neg hm] at ho; simp at ho

theorem endFile_like (env : Env) (h : p.Tracks R) {io : Io σ} {o o' : IoWriter} (hr : io.Like R o)
    (ho : o.endFile env = some o') (hl : o'.out.bytes.length < 2 ^ 64) :
    ∃ io', io.endFile env p = some io' ∧ io'.Like R o' := by
  have hg := (Grows.endFile env o ho).pre.length_le
  have hp := position_eq h.toFollows hr.out (by omega)
  have hcmm : io.chunkMetadataMap = o.chunkMetadataMap := by
    rw [Io.chunkMetadataMap, IoWriter.chunkMetadataMap, hr.chunkGroupMetadataList]
  rw [IoWriter.endFile] at ho
  rw [Io.endFile]
  simp only [hcmm, hp, hr.timeseriesMetadataMap] at ho ⊢
  obtain ⟨w1, h1, h2⟩ := h.perform [.all [[2]]] (by simp [Call.Small]) hr.out
  simp only [List.flatMap_cons, List.flatMap_nil, Call.bytes, List.flatten_cons, List.flatten_nil, List.append_nil] at h2
  rw [h1]
  simp only
  cases hloop : IoWriter.flushIndexLoop env none o.chunkMetadataMap o.timeseriesMetadataMap with
  | none => rw [hloop] at ho; simp at ho
  | some tsm =>
    rw [hloop] at ho
    simp only at ho ⊢
    cases hc : TsFile.constructMetadataIndex env tsm (o.out.write [2]) with
    | none => rw [hc] at ho; simp at ho
    | some r =>
      obtain ⟨s3, node⟩ := r
      rw [hc] at ho
      simp only at ho
      cases hb : BloomFilter.build env (o.chunkMetadataMap.map Prod.fst) with
      | none => rw [hb] at ho; simp at ho
      | some bf =>
        rw [hb] at ho
        simp only at ho
        cases hbs : bf.serialize with
        | none => rw [hbs] at ho; simp at ho
        | some bb =>
          rw [hbs] at ho
          simp only [Option.some.injEq] at ho
          have hcb := calls_bloom bf
          rw [hbs] at hcb
          cases hbc : bf.calls with
          | none => rw [hbc] at hcb; exact hcb.elim
          | some cs =>
            rw [hbc] at hcb
            simp only at hcb
            subst ho
            simp only at hl
            have g1 := (Sink.write_grows s3 (tsFileMetadataSerialize node o.out.pos)).pre.length_le
            have g2 := (Sink.write_grows (s3.write (tsFileMetadataSerialize node o.out.pos)) bb).pre.length_le
            generalize hs5 : (s3.write (tsFileMetadataSerialize node o.out.pos)).write bb = s5 at hl g2
            have g3 := (Sink.write_grows s5 (be32 (u32 (s5.pos - s3.pos)))).pre.length_le
            have g4 := (Sink.write_grows (s5.write (be32 (u32 (s5.pos - s3.pos)))) magic).pre.length_le
            obtain ⟨w3, q1, q2⟩ := construct_like env h tsm h2 hc (by omega)
            rw [q1]
            simp only
            obtain ⟨w4, q3, q4⟩ := h.perform (tsFileMetadataCalls node o.out.pos) (calls_metadata node _).2 q2
            rw [(calls_metadata node _).1] at q4
            rw [q3]
            simp only [hbc]
            obtain ⟨w5, q5, q6⟩ := h.perform cs hcb.2 q4
            rw [hcb.1, hs5] at q6
            rw [q5]
            simp only
            have hfoot : (w5.getPosition - w3.getPosition).toNat = s5.pos - s3.pos := by
              have e5 := h.pos _ _ q6
              have e3 := h.pos _ _ q2
              have g0 : s3.bytes.length ≤ s5.bytes.length := by omega
              rw [WriteWrapper.getPosition, WriteWrapper.getPosition, e5, e3, Sink.pos, Sink.pos]
              simp only [BitVec.toNat_sub, BitVec.toNat_ofNat]
              omega
            rw [hfoot]
            obtain ⟨w6, q7, q8⟩ := h.perform [.all [be32 (u32 (s5.pos - s3.pos))], .all [magic]] (by simp [Call.Small]) q6
            simp only [List.flatMap_cons, List.flatMap_nil, Call.bytes, List.flatten_cons, List.flatten_nil, List.append_nil,
              Sink.write_append] at q8
            rw [q7]
            exact ⟨_, rfl, ⟨by simpa only [hs5] using q8, hr.currentDevice, hr.chunkMetadataList, hr.currentChunkMetadata, hr.chunkGroupMetadataList,
              rfl⟩⟩

/-! ## Chunks and groups -/

theorem startChunkGroup_like (h : p.Follows R) {io : Io σ} {o : IoWriter} (hr : io.Like R o) (d : Bytes) :
    ∃ io', io.startChunkGroup p d = some (io', (o.startChunkGroup d).2) ∧ io'.Like R (o.startChunkGroup d).1 := by
  obtain ⟨w, h1, h2⟩ := h.script (chunkGroupHeaderParts d) hr.out
  rw [flatten_chunkGroupHeaderParts] at h1 h2
  rw [Io.startChunkGroup, h1, IoWriter.startChunkGroup]
  cases hok : o.out.ok (chunkGroupHeader d) with
  | true => exact ⟨_, rfl, ⟨h2, rfl, rfl, hr.currentChunkMetadata, hr.chunkGroupMetadataList, hr.timeseriesMetadataMap⟩⟩
  | false => exact ⟨_, rfl, ⟨h2, hr.currentDevice, hr.chunkMetadataList, hr.currentChunkMetadata, hr.chunkGroupMetadataList,
      hr.timeseriesMetadataMap⟩⟩

theorem endChunkGroup_like (h : p.Follows R) {io : Io σ} {o : IoWriter} (hr : io.Like R o) :
    (io.endChunkGroup p).Like R o.endChunkGroup := by
  obtain ⟨a, b, c, d, e, f⟩ := hr
  obtain ⟨io1, io2, io3, io4, io5, io6⟩ := io
  obtain ⟨o1, o2, o3, o4, o5, o6⟩ := o
  simp only at a b c d e f
  subst b c d e f
  rw [Io.endChunkGroup, IoWriter.endChunkGroup]
  cases io2 with
  | none => exact ⟨a, rfl, rfl, rfl, rfl, rfl⟩
  | some x =>
    simp only
    by_cases hc : io3.isEmpty = true
    · rw [if_pos hc, if_pos hc]; exact ⟨a, rfl, rfl, rfl, rfl, rfl⟩
    · rw [if_neg hc, if_neg hc]; exact ⟨h.flush _ _ a, rfl, rfl, rfl, rfl, rfl⟩

theorem writeToFileWriter_like (env : Env) (h : p.Follows R) (c : ChunkWriter) {io : Io σ} {o : IoWriter} (hr : io.Like R o)
    {c' : ChunkWriter} {o' : IoWriter} (ho : c.writeToFileWriter env o = some (c', o')) :
    ∃ io', writeToFileWriter env p c io = some (c', io') ∧ io'.Like R o' := by
  rw [ChunkWriter.writeToFileWriter] at ho
  rw [writeToFileWriter]
  cases hs : c.sealCurrentPage env with
  | none => rw [hs] at ho; simp at ho
  | some c1 =>
    rw [hs] at ho
    simp only at ho ⊢
    by_cases hz : c1.statistics.count = 0
    · rw [if_pos hz] at ho ⊢
      simp only [Option.some.injEq, Prod.mk.injEq] at ho
      obtain ⟨rfl, rfl⟩ := ho
      exact ⟨io, rfl, hr⟩
    · rw [if_neg hz] at ho ⊢
      simp only [IoWriter.startFlushChunk, IoWriter.endCurrentChunk, Option.some.injEq, Prod.mk.injEq] at ho
      obtain ⟨rfl, rfl⟩ := ho
      simp only [Io.startFlushChunk]
      generalize hh : ChunkHeader.mk c1.measurementId _ c1.dataType c1.compression c1.encoding c1.numPages 0 = hd
      obtain ⟨w1, q1, q2⟩ := h.script hd.parts hr.out
      rw [flatten_header] at q2
      rw [q1]
      simp only
      obtain ⟨w2, q3, q4⟩ := h.performAll [.all [c1.pageBuffer]] (by simp [Call.Whole]) q2
      simp only [List.flatMap_cons, List.flatMap_nil, Call.bytes, List.flatten_cons, List.flatten_nil, List.append_nil] at q4
      rw [q3]
      simp only [Io.endCurrentChunk]
      refine ⟨_, rfl, ⟨q4, hr.currentDevice, ?_, rfl, hr.chunkGroupMetadataList, hr.timeseriesMetadataMap⟩⟩
      simp only [hr.chunkMetadataList, WriteWrapper.getPosition, h.pos _ _ hr.out, Sink.pos]

theorem writeAllChunks_like (env : Env) (h : p.Follows R) (cs : BMap ChunkWriter) {io : Io σ} {o : IoWriter} (hr : io.Like R o)
    {cs' : BMap ChunkWriter} {o' : IoWriter} (ho : GroupWriter.writeAllChunks env cs o = some (cs', o')) :
    ∃ io', writeAllChunks env p cs io = some (cs', io') ∧ io'.Like R o' := by
  induction cs generalizing io o cs' o' with
  | nil =>
    simp only [GroupWriter.writeAllChunks, Option.some.injEq, Prod.mk.injEq] at ho
    obtain ⟨rfl, rfl⟩ := ho
    exact ⟨io, rfl, hr⟩
  | cons e rest ih =>
    obtain ⟨m, c⟩ := e
    rw [GroupWriter.writeAllChunks] at ho
    cases h1 : c.writeToFileWriter env o with
    | none => rw [h1] at ho; simp at ho
    | some r =>
      obtain ⟨c1, o1⟩ := r
      rw [h1] at ho
      simp only at ho
      cases h2 : GroupWriter.writeAllChunks env rest o1 with
      | none => rw [h2] at ho; simp at ho
      | some r2 =>
        obtain ⟨cs2, o2⟩ := r2
        rw [h2] at ho
        simp only [Option.some.injEq, Prod.mk.injEq] at ho
        obtain ⟨rfl, rfl⟩ := ho
        obtain ⟨io1, q1, q2⟩ := writeToFileWriter_like env h c hr h1
        obtain ⟨io2, q3, q4⟩ := ih q2 h2
        exact ⟨io2, by rw [writeAllChunks, q1]; simp only [q3], q4⟩

theorem flushToFilewriter_like (env : Env) (h : p.Follows R) (g : GroupWriter) {io : Io σ} {o : IoWriter} (hr : io.Like R o)
    {g' : GroupWriter} {o' : IoWriter} {n : Nat} (ho : g.flushToFilewriter env o = some (g', o', n)) :
    ∃ io', flushToFilewriter env p g io = some (g', io', n) ∧ io'.Like R o' := by
  rw [GroupWriter.flushToFilewriter] at ho
  cases hs : GroupWriter.sealAll env g.chunkWriters with
  | none => rw [hs] at ho; simp at ho
  | some cs =>
    rw [hs] at ho
    simp only at ho
    cases h1 : GroupWriter.writeAllChunks env cs o with
    | none => rw [h1] at ho; simp at ho
    | some r =>
      obtain ⟨cs1, o1⟩ := r
      rw [h1] at ho
      simp only [Option.some.injEq, Prod.mk.injEq] at ho
      obtain ⟨rfl, rfl, rfl⟩ := ho
      obtain ⟨io1, q1, q2⟩ := writeAllChunks_like env h cs hr h1
      exact ⟨io1, by rw [flushToFilewriter, hs]; simp only [q1], q2⟩

theorem flushLoop_like (env : Env) (h : p.Follows R) (gs : BMap GroupWriter) {io : Io σ} {o : IoWriter} (hr : io.Like R o)
    (lm : BMap (BMap W64)) {gs' : BMap GroupWriter} {o' : IoWriter} {lm' : BMap (BMap W64)} {e : Option TsFileError}
    (ho : TsFile.Writer.flushLoop env gs o lm = some (gs', o', lm', e)) (hl : o'.out.bytes.length < 2 ^ 64) :
    ∃ io', Writer.flushLoop env p gs io lm = some (gs', io', lm', e) ∧ io'.Like R o' := by
  induction gs generalizing io o lm gs' o' lm' e with
  | nil =>
    simp only [TsFile.Writer.flushLoop, Option.some.injEq, Prod.mk.injEq] at ho
    obtain ⟨rfl, rfl, rfl, rfl⟩ := ho
    exact ⟨io, rfl, hr⟩
  | cons x rest ih =>
    obtain ⟨d, g⟩ := x
    rw [TsFile.Writer.flushLoop] at ho
    rw [Writer.flushLoop]
    obtain ⟨io1, q1, q2⟩ := startChunkGroup_like h hr d
    rw [q1]
    cases hsc : o.startChunkGroup d with
    | mk o1 ok =>
      rw [hsc] at ho q1 q2
      cases ok with
      | false =>
        simp only [Option.some.injEq, Prod.mk.injEq] at ho ⊢
        obtain ⟨rfl, rfl, rfl, rfl⟩ := ho
        exact ⟨io1, ⟨rfl, rfl, rfl, rfl⟩, q2⟩
      | true =>
        simp only at ho ⊢
        cases hf : g.flushToFilewriter env o1 with
        | none => rw [hf] at ho; simp at ho
        | some r =>
          obtain ⟨g1, o2, n⟩ := r
          rw [hf] at ho
          simp only at ho
          obtain ⟨io2, q3, q4⟩ := flushToFilewriter_like env h g q2 hf
          rw [q3]
          simp only
          have g1' : o1.out.bytes.length ≤ o2.out.bytes.length := by
            rcases Grows.flushToFilewriter env g with hn | ⟨g2, n2, hn⟩
            · rw [hn] at hf; simp at hf
            · obtain ⟨o3, hq, hgr⟩ := hn o1
              rw [hf] at hq
              simp only [Option.some.injEq, Prod.mk.injEq] at hq
              obtain ⟨_, rfl, _⟩ := hq
              exact hgr.pre.length_le
          have hg : o2.out.bytes.length ≤ o'.out.bytes.length := by
            by_cases hne : o2.out.pos - o1.out.pos ≠ n
            · rw [if_pos hne] at ho
              simp only [Option.some.injEq, Prod.mk.injEq] at ho
              obtain ⟨_, rfl, _, _⟩ := ho
              exact Nat.le_refl _
            · rw [if_neg hne] at ho
              cases hrest : TsFile.Writer.flushLoop env rest o2.endChunkGroup (lm.insert d g1.lastTimeMap) with
              | none => rw [hrest] at ho; simp at ho
              | some r =>
                obtain ⟨gs3, o3, lm3, e3⟩ := r
                rw [hrest] at ho
                simp only [Option.some.injEq, Prod.mk.injEq] at ho
                obtain ⟨_, rfl, _, _⟩ := ho
                have := (Grows.flushLoop env rest _ _ hrest).pre.length_le
                rw [Grows.endChunkGroup] at this
                exact this
          have hpos : (io2.out.getPosition - io1.out.getPosition).toNat = o2.out.pos - o1.out.pos := by
            rw [WriteWrapper.getPosition, WriteWrapper.getPosition, h.pos _ _ q4.out, h.pos _ _ q2.out, Sink.pos, Sink.pos]
            simp only [BitVec.toNat_sub, BitVec.toNat_ofNat]
            omega
          rw [hpos]
          by_cases hne : o2.out.pos - o1.out.pos ≠ n
          · rw [if_pos hne] at ho ⊢
            simp only [Option.some.injEq, Prod.mk.injEq] at ho ⊢
            obtain ⟨rfl, rfl, rfl, rfl⟩ := ho
            exact ⟨io2, ⟨rfl, rfl, rfl, rfl⟩, q4⟩
          · rw [if_neg hne] at ho ⊢
            cases hrest : TsFile.Writer.flushLoop env rest o2.endChunkGroup (lm.insert d g1.lastTimeMap) with
            | none => rw [hrest] at ho; simp at ho
            | some r =>
              obtain ⟨gs3, o3, lm3, e3⟩ := r
              rw [hrest] at ho
              simp only [Option.some.injEq, Prod.mk.injEq] at ho
              obtain ⟨rfl, rfl, rfl, rfl⟩ := ho
              obtain ⟨io3, q5, q6⟩ := ih (endChunkGroup_like h q4) _ hrest hl
              exact ⟨io3, by simp only [q5], q6⟩

/-! ## The writer -/

/-- The same fields, and an output that behaves like the sink. -/
structure Writer.Like (R : WriteWrapper σ → Sink → Prop) (w : Writer σ) (v : TsFile.Writer) : Prop where
  io : w.io.Like R v.io
  groupWriters : w.groupWriters = v.groupWriters
  recordCount : w.recordCount = v.recordCount
  recordCountForNextMemCheck : w.recordCountForNextMemCheck = v.recordCountForNextMemCheck
  nonAlignedLastTimeMap : w.nonAlignedLastTimeMap = v.nonAlignedLastTimeMap
  schema : w.schema = v.schema

theorem new_like (env : Env) (h : p.Follows R) (schema : Schema) {s : σ} {k : Sink} (hr : R (WriteWrapper.new s) k)
    {v : TsFile.Writer} (hv : TsFile.Writer.new env schema k = .ok v) :
    ∃ w, Writer.new env p schema s = some (.ok w) ∧ w.Like R v := by
  obtain ⟨w, h1, h2⟩ := h.script [magic, [3]] hr
  simp only [List.flatten_cons, List.flatten_nil, List.append_nil] at h1 h2
  rw [TsFile.Writer.new, IoWriter.new] at hv
  rw [Writer.new, Io.new, h1]
  by_cases hok : k.ok (magic ++ [3]) = true
  · rw [if_pos hok] at hv
    rw [hok]
    simp only [Except.ok.injEq] at hv
    subst hv
    exact ⟨_, rfl, ⟨h2, rfl, rfl, rfl, rfl, rfl⟩, rfl, rfl, rfl, rfl, rfl⟩
  · rw [if_neg hok] at hv
    simp at hv

theorem new_error_like (env : Env) (h : p.Follows R) (schema : Schema) {s : σ} {k : Sink} (hr : R (WriteWrapper.new s) k)
    {e : TsFileError} (hv : TsFile.Writer.new env schema k = .error e) :
    Writer.new env p schema s = some (.error e) := by
  obtain ⟨w, h1, h2⟩ := h.script [magic, [3]] hr
  simp only [List.flatten_cons, List.flatten_nil, List.append_nil] at h1 h2
  rw [TsFile.Writer.new, IoWriter.new] at hv
  rw [Writer.new, Io.new, h1]
  by_cases hok : k.ok (magic ++ [3]) = true
  · rw [if_pos hok] at hv
    simp at hv
  · rw [if_neg hok] at hv
    rw [Bool.eq_false_iff.2 hok]
    simp only [Except.error.injEq] at hv
    subst hv
    rfl

theorem flushAll_like (env : Env) (h : p.Follows R) {w : Writer σ} {v v' : TsFile.Writer} {e : Option TsFileError}
    (hr : w.Like R v) (hv : v.flushAllChunkGroups env = some (v', e)) (hl : v'.io.out.bytes.length < 2 ^ 64) :
    ∃ w', w.flushAllChunkGroups env p = some (w', e) ∧ w'.Like R v' := by
  rw [TsFile.Writer.flushAllChunkGroups] at hv
  rw [Writer.flushAllChunkGroups, hr.recordCount, hr.groupWriters, hr.nonAlignedLastTimeMap]
  by_cases hz : v.recordCount.toNat > 0
  · rw [if_pos hz] at hv ⊢
    cases hf : TsFile.Writer.flushLoop env v.groupWriters v.io v.nonAlignedLastTimeMap with
    | none => rw [hf] at hv; simp at hv
    | some r =>
      obtain ⟨gs, o', lm, e'⟩ := r
      rw [hf] at hv
      cases e' with
      | some x =>
        simp only [Option.some.injEq, Prod.mk.injEq] at hv
        obtain ⟨rfl, rfl⟩ := hv
        obtain ⟨io', q1, q2⟩ := flushLoop_like env h _ hr.io _ hf hl
        rw [q1]
        exact ⟨_, rfl, q2, rfl, rfl, hr.recordCountForNextMemCheck, rfl, hr.schema⟩
      | none =>
        simp only [Option.some.injEq, Prod.mk.injEq] at hv
        obtain ⟨rfl, rfl⟩ := hv
        obtain ⟨io', q1, q2⟩ := flushLoop_like env h _ hr.io _ hf hl
        rw [q1]
        refine ⟨_, rfl, q2, ?_, rfl, hr.recordCountForNextMemCheck, rfl, hr.schema⟩
        show TsFile.Writer.newGroupWriters env w.schema = TsFile.Writer.newGroupWriters env v.schema
        rw [hr.schema]
  · rw [if_neg hz] at hv ⊢
    simp only [Option.some.injEq, Prod.mk.injEq] at hv
    obtain ⟨rfl, rfl⟩ := hv
    exact ⟨w, rfl, hr⟩

theorem checkMemorySize_like (env : Env) (h : p.Follows R) {w : Writer σ} {v v' : TsFile.Writer}
    (hr : w.Like R v) (hv : v.checkMemorySize env = some v') (hl : v'.io.out.bytes.length < 2 ^ 64) :
    ∃ w', w.checkMemorySize env p = some w' ∧ w'.Like R v' := by
  have hmem : w.memSize = v.memSize := by rw [Writer.memSize, TsFile.Writer.memSize, hr.groupWriters]
  rw [TsFile.Writer.checkMemorySize] at hv
  rw [Writer.checkMemorySize, hr.recordCount, hr.recordCountForNextMemCheck]
  by_cases hc : v.recordCount.toNat ≥ v.recordCountForNextMemCheck.toNat
  · rw [if_pos hc] at hv ⊢
    simp only [hmem] at hv ⊢
    by_cases hz : v.memSize.toNat = 0
    · rw [if_pos hz] at hv; simp at hv
    · rw [if_neg hz] at hv ⊢
      by_cases ht : v.memSize.toNat > chunkGroupSizeThreshold
      · rw [if_pos ht] at hv ⊢
        simp only [Option.map_eq_some_iff] at hv
        obtain ⟨⟨v1, e⟩, h1, rfl⟩ := hv
        have hr' : Writer.Like R { w with recordCountForNextMemCheck := TsFile.Writer.nextMemCheck v.recordCountForNextMemCheck v.memSize }
            { v with recordCountForNextMemCheck := TsFile.Writer.nextMemCheck v.recordCountForNextMemCheck v.memSize } :=
          ⟨hr.io, hr.groupWriters, hr.recordCount, rfl, hr.nonAlignedLastTimeMap, hr.schema⟩
        obtain ⟨w1, q1, q2⟩ := flushAll_like env h hr' h1 hl
        exact ⟨w1, by rw [← hr.recordCount, q1]; rfl, q2⟩
      · rw [if_neg ht] at hv ⊢
        simp only [Option.some.injEq] at hv
        subst hv
        exact ⟨_, rfl, hr.io, hr.groupWriters, rfl, rfl, hr.nonAlignedLastTimeMap, hr.schema⟩
  · rw [if_neg hc] at hv ⊢
    simp only [Option.some.injEq] at hv
    subst hv
    exact ⟨w, rfl, hr⟩

theorem write_like (env : Env) (h : p.Follows R) {w : Writer σ} {v : TsFile.Writer} (hr : w.Like R v) (d m : Bytes) (t : W64)
    (x : IoTDBValue) (hp : (v.write env d m t x).2 ≠ .panic) (hl : (v.write env d m t x).1.io.out.bytes.length < 2 ^ 64) :
    (w.write env p d m t x).2 = (v.write env d m t x).2 ∧ (w.write env p d m t x).1.Like R (v.write env d m t x).1 := by
  rw [TsFile.Writer.write] at hp hl ⊢
  rw [Writer.write, hr.groupWriters]
  cases hg : v.groupWriters.get? d with
  | none => exact ⟨rfl, hr⟩
  | some g =>
    rw [hg] at hp hl
    simp only at hp hl ⊢
    cases hw : g.write env m t x with
    | mk g' r =>
      rw [hw] at hp hl
      cases r with
      | panic => exact absurd rfl hp
      | err e => exact ⟨rfl, hr.io, rfl, hr.recordCount, hr.recordCountForNextMemCheck, hr.nonAlignedLastTimeMap, hr.schema⟩
      | ok n =>
        simp only at hp hl ⊢
        cases hc : ({ v with groupWriters := v.groupWriters.insert d g', recordCount := v.recordCount + n }
            : TsFile.Writer).checkMemorySize env with
        | none => rw [hc] at hp; exact absurd rfl hp
        | some v' =>
          rw [hc] at hp hl
          simp only at hl
          have hr' : Writer.Like R { w with groupWriters := v.groupWriters.insert d g', recordCount := w.recordCount + n }
              { v with groupWriters := v.groupWriters.insert d g', recordCount := v.recordCount + n } :=
            ⟨hr.io, rfl, congrArg (· + n) hr.recordCount, hr.recordCountForNextMemCheck, hr.nonAlignedLastTimeMap, hr.schema⟩
          obtain ⟨w', q1, q2⟩ := checkMemorySize_like env h hr' hc hl
          rw [q1]
          exact ⟨rfl, q2⟩

theorem writeMany_like (env : Env) (h : p.Follows R) {w : Writer σ} {v : TsFile.Writer} (hr : w.Like R v) (d : Bytes) (t : W64)
    (xs : List (Bytes × IoTDBValue)) (hp : (v.writeMany env d t xs).2 ≠ .panic)
    (hl : (v.writeMany env d t xs).1.io.out.bytes.length < 2 ^ 64) :
    (w.writeMany env p d t xs).2 = (v.writeMany env d t xs).2
      ∧ (w.writeMany env p d t xs).1.Like R (v.writeMany env d t xs).1 := by
  rw [TsFile.Writer.writeMany] at hp hl ⊢
  rw [Writer.writeMany, hr.groupWriters]
  cases hg : v.groupWriters.get? d with
  | none => exact ⟨rfl, hr⟩
  | some g =>
    rw [hg] at hp hl
    simp only at hp hl ⊢
    cases hw : g.writeMany env t xs 0 with
    | mk g' r =>
      rw [hw] at hp hl
      cases r with
      | panic => exact absurd rfl hp
      | err e => exact ⟨rfl, hr.io, rfl, hr.recordCount, hr.recordCountForNextMemCheck, hr.nonAlignedLastTimeMap, hr.schema⟩
      | ok n =>
        simp only at hp hl ⊢
        cases hc : ({ v with groupWriters := v.groupWriters.insert d g', recordCount := v.recordCount + n }
            : TsFile.Writer).checkMemorySize env with
        | none => rw [hc] at hp; exact absurd rfl hp
        | some v' =>
          rw [hc] at hp hl
          simp only at hl
          have hr' : Writer.Like R { w with groupWriters := v.groupWriters.insert d g', recordCount := w.recordCount + n }
              { v with groupWriters := v.groupWriters.insert d g', recordCount := v.recordCount + n } :=
            ⟨hr.io, rfl, congrArg (· + n) hr.recordCount, hr.recordCountForNextMemCheck, hr.nonAlignedLastTimeMap, hr.schema⟩
          obtain ⟨w', q1, q2⟩ := checkMemorySize_like env h hr' hc hl
          rw [q1]
          exact ⟨rfl, q2⟩

theorem step_like (env : Env) (h : p.Follows R) {w : Writer σ} {v : TsFile.Writer} (hr : w.Like R v) (op : Op)
    (hp : (v.step env op).2 ≠ .panic) (hl : (v.step env op).1.io.out.bytes.length < 2 ^ 64) :
    (w.step env p op).2 = (v.step env op).2 ∧ (w.step env p op).1.Like R (v.step env op).1 := by
  cases op with
  | write d m t x => exact write_like env h hr d m t x hp hl
  | writeMany d t xs => exact writeMany_like env h hr d t xs hp hl

theorem run_like (env : Env) (h : p.Follows R) (ops : List Op) {w : Writer σ} {v : TsFile.Writer} (hr : w.Like R v)
    (hp : Res.panic ∉ (v.run env ops).2) (hl : (v.run env ops).1.io.out.bytes.length < 2 ^ 64) :
    (w.run env p ops).2 = (v.run env ops).2 ∧ (w.run env p ops).1.Like R (v.run env ops).1 := by
  induction ops generalizing w v with
  | nil => exact ⟨rfl, hr⟩
  | cons op ops ih =>
    rw [TsFile.Writer.run] at hp hl ⊢
    rw [Writer.run]
    simp only [List.mem_cons, not_or] at hp hl ⊢
    have hg := (Grows.run env ops (v.step env op).1).pre.length_le
    obtain ⟨q1, q2⟩ := step_like env h hr op (fun h => hp.1 h.symm) (by omega)
    obtain ⟨q3, q4⟩ := ih q2 hp.2 hl
    exact ⟨by rw [q1, q3], q4⟩

theorem close_like (env : Env) {p' : Port σ} (h : p.Tracks R) (h' : p'.Tracks R) {w : Writer σ} {v v' : TsFile.Writer} (hr : w.Like R v)
    (hv : v.close env = some v') (hl : v'.io.out.bytes.length < 2 ^ 64) :
    ∃ w', w.close env p p' = some w' ∧ w'.Like R v' := by
  rw [TsFile.Writer.close] at hv
  cases hf : v.flushAllChunkGroups env with
  | none => rw [hf] at hv; simp at hv
  | some r =>
    obtain ⟨v1, e⟩ := r
    rw [hf] at hv
    simp only at hv
    cases he : v1.io.endFile env with
    | none => rw [he] at hv; simp at hv
    | some o' =>
      rw [he] at hv
      simp only [Option.some.injEq] at hv
      subst hv
      have hg := (Grows.endFile env v1.io he).pre.length_le
      simp only at hl
      obtain ⟨w1, q1, q2⟩ := flushAll_like env h.toFollows hr hf (by omega)
      obtain ⟨io2, q3, q4⟩ := endFile_like env h' q2.io he hl
      rw [Writer.close, q1]
      simp only [q3]
      exact ⟨_, rfl, q4, q2.groupWriters, q2.recordCount, q2.recordCountForNextMemCheck, q2.nonAlignedLastTimeMap, q2.schema⟩

end Stream

end

end TsFile
