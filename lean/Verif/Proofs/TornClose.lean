import Verif.Proofs.Torn
import Verif.Proofs.DeepIndex
import Verif.Proofs.Size
import Verif.Proofs.Recover
import Verif.Props.Flush
/-! # Closing on an output that works again -/

namespace TsFile
open Spec

variable {env : Env} {unsnap : Bytes → Option Bytes} {schema : Schema} {σ : Type} {p : Port σ} {content : σ → Bytes}

/-! ## `end_file` on any output and on a vector -/

/-- The device loop succeeds on every sink. -/
theorem devicesLoop_some (env : Env) (m : BMap (List TimeSeriesMetadata)) (o : Sink) :
    ∃ r, devicesLoop env o m = some r ∧ r.2.length = (m.filter (fun e => !e.2.isEmpty)).length := by
  induction m generalizing o with
  | nil => exact ⟨_, rfl, rfl⟩
  | cons e m ih =>
    obtain ⟨d, l⟩ := e
    rw [devicesLoop]
    by_cases hl : l.isEmpty
    · rw [if_pos hl, List.filter_cons_of_neg (by simp [hl])]
      exact ih o
    · rw [if_neg hl, List.filter_cons_of_pos (by simp [hl])]
      have h := deviceIndex_total env [] l
      rw [deviceIndex_isSome env l _ o] at h
      obtain ⟨⟨o1, node⟩, h1⟩ := Option.isSome_iff_exists.1 h
      obtain ⟨r, h2, h3⟩ := ih o1
      rw [h1]
      simp only [h2]
      exact ⟨_, rfl, by simp only [List.length_cons, h3]⟩

theorem Stream.devicesLoop_length (m : BMap (List TimeSeriesMetadata)) (out : WriteWrapper σ)
    {r : WriteWrapper σ × List (Bytes × IndexNode)} (h : Stream.devicesLoop env p out m = some r) :
    r.2.length = (m.filter (fun e => !e.2.isEmpty)).length := by
  induction m generalizing out r with
  | nil => rw [Stream.devicesLoop] at h; cases h; rfl
  | cons e m ih =>
    obtain ⟨d, l⟩ := e
    rw [Stream.devicesLoop] at h
    by_cases hl : l.isEmpty
    · rw [if_pos hl] at h
      rw [List.filter_cons_of_neg (by simp [hl])]
      exact ih _ h
    · rw [if_neg hl] at h
      rw [List.filter_cons_of_pos (by simp [hl])]
      cases h1 : Stream.deviceIndex env p out l with
      | none => rw [h1] at h; cases h
      | some x =>
        rw [h1] at h
        simp only at h
        cases h2 : Stream.devicesLoop env p x.1 m with
        | none => rw [h2] at h; cases h
        | some y =>
          rw [h2] at h
          cases h
          simp only [List.length_cons, ih _ h2]

/-- Whether `end_file` completes does not depend on the output, as long as its writes return. -/
theorem endFile_old {io io' : Stream.Io σ} {o : IoWriter} (hg : io.chunkGroupMetadataList = o.chunkGroupMetadataList)
    (ht : io.timeseriesMetadataMap = o.timeseriesMetadataMap) (h : io.endFile env p = some io') :
    ∃ o', o.endFile env = some o' := by
  have hcmm : io.chunkMetadataMap = o.chunkMetadataMap := by
    rw [Stream.Io.chunkMetadataMap, IoWriter.chunkMetadataMap, hg]
  rw [Stream.Io.endFile] at h
  rw [IoWriter.endFile]
  simp only [hcmm, ht] at h ⊢
  cases h1 : p.perform io.out [.all [[2]]] with
  | none => rw [h1] at h; cases h
  | some out =>
    rw [h1] at h
    simp only at h
    cases h2 : IoWriter.flushIndexLoop env none o.chunkMetadataMap o.timeseriesMetadataMap with
    | none => rw [h2] at h; cases h
    | some tsm =>
      rw [h2] at h
      simp only at h ⊢
      cases h3 : Stream.constructMetadataIndex env p tsm out with
      | none => rw [h3] at h; cases h
      | some x =>
        obtain ⟨out1, node⟩ := x
        rw [h3] at h
        simp only at h
        have hcon : ∃ y, constructMetadataIndex env tsm (o.out.write [2]) = some y := by
          rw [Stream.constructMetadataIndex] at h3
          rw [constructMetadataIndex]
          obtain ⟨r, hr, hlen⟩ := devicesLoop_some env tsm (o.out.write [2])
          cases h4 : Stream.devicesLoop env p out tsm with
          | none => rw [h4] at h3; cases h3
          | some y =>
            have hl := Stream.devicesLoop_length _ _ h4
            rw [h4] at h3
            simp only at h3
            by_cases hm : y.2.length ≤ maxDegree
            · rw [hr]
              simp only
              rw [if_pos (by omega)]
              exact ⟨_, rfl⟩
            · rw [if_neg hm] at h3; cases h3
        obtain ⟨⟨out2, node2⟩, hy⟩ := hcon
        rw [hy]
        simp only
        cases h5 : p.perform out1 (tsFileMetadataCalls node (Stream.position io.out)) with
        | none => rw [h5] at h; cases h
        | some out3 =>
          rw [h5] at h
          simp only at h
          cases h6 : BloomFilter.build env (o.chunkMetadataMap.map Prod.fst) with
          | none => rw [h6] at h; cases h
          | some bf =>
            rw [h6] at h
            simp only at h ⊢
            cases h7 : bf.calls with
            | none => rw [h7] at h; cases h
            | some cs =>
              rw [BloomFilter.calls, Option.map_eq_some_iff] at h7
              obtain ⟨bits, hb, _⟩ := h7
              have : ∃ b, bf.serialize = some b := by
                rw [BloomFilter.serialize, hb]
                exact ⟨_, rfl⟩
              obtain ⟨b, hb'⟩ := this
              rw [hb']
              exact ⟨_, rfl⟩

/-! ## The output only grows -/

theorem leafLoop_grows (hd : Stores p.dev content) (l : List TimeSeriesMetadata) (i : Nat) (s : Stream.Leaf σ)
    {s' : Stream.Leaf σ} (h : Stream.leafLoop env p i s l = some s') : Grows content s.out s'.out := by
  induction l generalizing i s with
  | nil => rw [Stream.leafLoop] at h; cases h; exact Grows.refl _
  | cons t l ih =>
    rw [Stream.leafLoop] at h
    dsimp only at h
    have hout : (if i % maxDegree = 0 then
        ({ (if s.cur.isFull then
            { s with queue := s.queue ++ [{ s.cur with endOffset := Stream.position s.out }],
                     cur := IndexNode.new .leafMeasurement }
          else s) with cur := { (if s.cur.isFull then
            { s with queue := s.queue ++ [{ s.cur with endOffset := Stream.position s.out }],
                     cur := IndexNode.new .leafMeasurement }
          else s).cur with children := (if s.cur.isFull then
            { s with queue := s.queue ++ [{ s.cur with endOffset := Stream.position s.out }],
                     cur := IndexNode.new .leafMeasurement }
          else s).cur.children ++ [⟨t.measurementId, Stream.position (if s.cur.isFull then
            { s with queue := s.queue ++ [{ s.cur with endOffset := Stream.position s.out }],
                     cur := IndexNode.new .leafMeasurement }
          else s).out⟩] } } : Stream.Leaf σ) else s).out = s.out := by
      split
      · simp only
        split <;> rfl
      · rfl
    rw [hout] at h
    cases hp : p.perform s.out (t.calls env) with
    | none => rw [hp] at h; cases h
    | some out =>
      rw [hp] at h
      exact (perform_grows hd hp).trans (ih _ _ h)

theorem devicesLoop_grows (hd : Stores p.dev content) (m : BMap (List TimeSeriesMetadata)) (out : WriteWrapper σ)
    {r : WriteWrapper σ × List (Bytes × IndexNode)} (h : Stream.devicesLoop env p out m = some r) :
    Grows content out r.1 := by
  induction m generalizing out r with
  | nil => rw [Stream.devicesLoop] at h; cases h; exact Grows.refl _
  | cons e m ih =>
    obtain ⟨d, l⟩ := e
    rw [Stream.devicesLoop] at h
    by_cases hl : l.isEmpty
    · rw [if_pos hl] at h
      exact ih _ h
    · rw [if_neg hl] at h
      cases h1 : Stream.deviceIndex env p out l with
      | none => rw [h1] at h; cases h
      | some x =>
        rw [h1] at h
        simp only at h
        cases h2 : Stream.devicesLoop env p x.1 m with
        | none => rw [h2] at h; cases h
        | some y =>
          rw [h2] at h
          cases h
          have h4 := ih _ h2
          refine Grows.trans ?_ h4
          rw [Stream.deviceIndex] at h1
          cases h3 : Stream.leafLoop env p 0 ⟨out, IndexNode.new .leafMeasurement, []⟩ l with
          | none => rw [h3] at h1; cases h1
          | some s =>
            rw [h3] at h1
            simp only [Option.map_eq_some_iff] at h1
            obtain ⟨_, _, rfl⟩ := h1
            exact leafLoop_grows hd _ _ _ h3

theorem writeDeviceNodes_grows (hd : Stores p.dev content) (m : List (Bytes × IndexNode)) (out : WriteWrapper σ)
    {r : WriteWrapper σ × List IndexEntry} (h : Stream.writeDeviceNodes p out m = some r) : Grows content out r.1 := by
  induction m generalizing out r with
  | nil => rw [Stream.writeDeviceNodes] at h; cases h; exact Grows.refl _
  | cons e m ih =>
    obtain ⟨d, node⟩ := e
    rw [Stream.writeDeviceNodes] at h
    cases h1 : p.perform out node.calls with
    | none => rw [h1] at h; cases h
    | some out' =>
      rw [h1] at h
      simp only at h
      cases h2 : Stream.writeDeviceNodes p out' m with
      | none => rw [h2] at h; cases h
      | some y =>
        rw [h2] at h
        cases h
        have h4 := ih _ h2
        exact (perform_grows hd h1).trans h4

theorem endFile_grows (hd : Stores p.dev content) {io io' : Stream.Io σ} (h : io.endFile env p = some io') :
    Grows content io.out io'.out := by
  rw [Stream.Io.endFile] at h
  dsimp only at h
  cases h1 : p.perform io.out [.all [[2]]] with
  | none => rw [h1] at h; cases h
  | some out =>
    rw [h1] at h
    refine (perform_grows hd h1).trans ?_
    simp only at h
    cases h2 : IoWriter.flushIndexLoop env none io.chunkMetadataMap io.timeseriesMetadataMap with
    | none => rw [h2] at h; cases h
    | some tsm =>
      rw [h2] at h
      simp only at h
      cases h3 : Stream.constructMetadataIndex env p tsm out with
      | none => rw [h3] at h; cases h
      | some x =>
        obtain ⟨out1, node⟩ := x
        rw [h3] at h
        simp only at h
        have hc : Grows content out out1 := by
          rw [Stream.constructMetadataIndex] at h3
          cases h4 : Stream.devicesLoop env p out tsm with
          | none => rw [h4] at h3; cases h3
          | some y =>
            rw [h4] at h3
            simp only at h3
            split at h3
            · cases h5 : Stream.writeDeviceNodes p y.1 (env.hashOrder y.2) with
              | none => rw [h5] at h3; cases h3
              | some z =>
                rw [h5] at h3
                cases h3
                exact (devicesLoop_grows hd _ _ h4).trans (writeDeviceNodes_grows hd _ _ h5)
            · cases h3
        refine hc.trans ?_
        cases h5 : p.perform out1 (tsFileMetadataCalls node (Stream.position io.out)) with
        | none => rw [h5] at h; cases h
        | some out3 =>
          rw [h5] at h
          refine (perform_grows hd h5).trans ?_
          simp only at h
          cases h6 : BloomFilter.build env (io.chunkMetadataMap.map Prod.fst) with
          | none => rw [h6] at h; cases h
          | some bf =>
            rw [h6] at h
            simp only at h
            cases h7 : bf.calls with
            | none => rw [h7] at h; cases h
            | some cs =>
              rw [h7] at h
              simp only at h
              cases h8 : p.perform out3 cs with
              | none => rw [h8] at h; cases h
              | some out4 =>
                rw [h8] at h
                simp only at h
                refine (perform_grows hd h8).trans ?_
                split at h
                · cases h
                · next out5 h9 =>
                  cases h
                  exact perform_grows hd h9

/-! ## What stays true while the index is written -/

section
variable {R : σ → σ → Prop}

theorem leafLoop_along (hd : Along p R) (l : List TimeSeriesMetadata) (i : Nat) (s : Stream.Leaf σ)
    {s' : Stream.Leaf σ} (h : Stream.leafLoop env p i s l = some s') : R s.out.writer s'.out.writer := by
  induction l generalizing i s with
  | nil => rw [Stream.leafLoop] at h; cases h; exact hd.refl _
  | cons t l ih =>
    rw [Stream.leafLoop] at h
    dsimp only at h
    have hout : (if i % maxDegree = 0 then
        ({ (if s.cur.isFull then
            { s with queue := s.queue ++ [{ s.cur with endOffset := Stream.position s.out }],
                     cur := IndexNode.new .leafMeasurement }
          else s) with cur := { (if s.cur.isFull then
            { s with queue := s.queue ++ [{ s.cur with endOffset := Stream.position s.out }],
                     cur := IndexNode.new .leafMeasurement }
          else s).cur with children := (if s.cur.isFull then
            { s with queue := s.queue ++ [{ s.cur with endOffset := Stream.position s.out }],
                     cur := IndexNode.new .leafMeasurement }
          else s).cur.children ++ [⟨t.measurementId, Stream.position (if s.cur.isFull then
            { s with queue := s.queue ++ [{ s.cur with endOffset := Stream.position s.out }],
                     cur := IndexNode.new .leafMeasurement }
          else s).out⟩] } } : Stream.Leaf σ) else s).out = s.out := by
      split
      · simp only
        split <;> rfl
      · rfl
    rw [hout] at h
    cases hp : p.perform s.out (t.calls env) with
    | none => rw [hp] at h; cases h
    | some out =>
      rw [hp] at h
      exact hd.trans (perform_along hd _ hp) (ih _ _ h)

theorem devicesLoop_along (hd : Along p R) (m : BMap (List TimeSeriesMetadata)) (out : WriteWrapper σ)
    {r : WriteWrapper σ × List (Bytes × IndexNode)} (h : Stream.devicesLoop env p out m = some r) :
    R out.writer r.1.writer := by
  induction m generalizing out r with
  | nil => rw [Stream.devicesLoop] at h; cases h; exact hd.refl _
  | cons e m ih =>
    obtain ⟨d, l⟩ := e
    rw [Stream.devicesLoop] at h
    by_cases hl : l.isEmpty
    · rw [if_pos hl] at h
      exact ih _ h
    · rw [if_neg hl] at h
      cases h1 : Stream.deviceIndex env p out l with
      | none => rw [h1] at h; cases h
      | some x =>
        rw [h1] at h
        simp only at h
        cases h2 : Stream.devicesLoop env p x.1 m with
        | none => rw [h2] at h; cases h
        | some y =>
          rw [h2] at h
          cases h
          have h4 := ih _ h2
          refine hd.trans ?_ h4
          rw [Stream.deviceIndex] at h1
          cases h3 : Stream.leafLoop env p 0 ⟨out, IndexNode.new .leafMeasurement, []⟩ l with
          | none => rw [h3] at h1; cases h1
          | some s =>
            rw [h3] at h1
            simp only [Option.map_eq_some_iff] at h1
            obtain ⟨_, _, rfl⟩ := h1
            exact leafLoop_along hd _ _ _ h3

theorem writeDeviceNodes_along (hd : Along p R) (m : List (Bytes × IndexNode)) (out : WriteWrapper σ)
    {r : WriteWrapper σ × List IndexEntry} (h : Stream.writeDeviceNodes p out m = some r) : R out.writer r.1.writer := by
  induction m generalizing out r with
  | nil => rw [Stream.writeDeviceNodes] at h; cases h; exact hd.refl _
  | cons e m ih =>
    obtain ⟨d, node⟩ := e
    rw [Stream.writeDeviceNodes] at h
    cases h1 : p.perform out node.calls with
    | none => rw [h1] at h; cases h
    | some out' =>
      rw [h1] at h
      simp only at h
      cases h2 : Stream.writeDeviceNodes p out' m with
      | none => rw [h2] at h; cases h
      | some y =>
        rw [h2] at h
        cases h
        have h4 := ih _ h2
        exact hd.trans (perform_along hd _ h1) h4

/-- After the end marker. -/
theorem endFile_after (hd : Along p R) {io io' : Stream.Io σ} (h : io.endFile env p = some io') :
    ∃ out, p.perform io.out [.all [[2]]] = some out ∧ R out.writer io'.out.writer := by
  rw [Stream.Io.endFile] at h
  dsimp only at h
  cases h1 : p.perform io.out [.all [[2]]] with
  | none => rw [h1] at h; cases h
  | some out =>
    rw [h1] at h
    refine ⟨out, rfl, ?_⟩
    simp only at h
    cases h2 : IoWriter.flushIndexLoop env none io.chunkMetadataMap io.timeseriesMetadataMap with
    | none => rw [h2] at h; cases h
    | some tsm =>
      rw [h2] at h
      simp only at h
      cases h3 : Stream.constructMetadataIndex env p tsm out with
      | none => rw [h3] at h; cases h
      | some x =>
        obtain ⟨out1, node⟩ := x
        rw [h3] at h
        simp only at h
        have hc : R out.writer out1.writer := by
          rw [Stream.constructMetadataIndex] at h3
          cases h4 : Stream.devicesLoop env p out tsm with
          | none => rw [h4] at h3; cases h3
          | some y =>
            rw [h4] at h3
            simp only at h3
            split at h3
            · cases h5 : Stream.writeDeviceNodes p y.1 (env.hashOrder y.2) with
              | none => rw [h5] at h3; cases h3
              | some z =>
                rw [h5] at h3
                cases h3
                exact hd.trans (devicesLoop_along hd _ _ h4) (writeDeviceNodes_along hd _ _ h5)
            · cases h3
        refine hd.trans hc ?_
        cases h5 : p.perform out1 (tsFileMetadataCalls node (Stream.position io.out)) with
        | none => rw [h5] at h; cases h
        | some out3 =>
          rw [h5] at h
          refine hd.trans (perform_along hd _ h5) ?_
          simp only at h
          cases h6 : BloomFilter.build env (io.chunkMetadataMap.map Prod.fst) with
          | none => rw [h6] at h; cases h
          | some bf =>
            rw [h6] at h
            simp only at h
            cases h7 : bf.calls with
            | none => rw [h7] at h; cases h
            | some cs =>
              rw [h7] at h
              simp only at h
              cases h8 : p.perform out3 cs with
              | none => rw [h8] at h; cases h
              | some out4 =>
                rw [h8] at h
                simp only at h
                refine hd.trans (perform_along hd _ h8) ?_
                split at h
                · cases h
                · next out5 h9 =>
                  cases h
                  exact perform_along hd _ h9

theorem endFile_along (hd : Along p R) {io io' : Stream.Io σ} (h : io.endFile env p = some io') :
    R io.out.writer io'.out.writer := by
  obtain ⟨out, h1, h2⟩ := endFile_after hd h
  exact hd.trans (perform_along hd _ h1) h2

end

/-! ## The number of chunks -/

/-- The chunks together hold no more points than there are records. -/
theorem locs_total_le {locs : List ChunkLoc} {recs : List Rec}
    (h : ∀ d m, (locPts locs d m).length ≤ (series recs d m).length) :
    (locs.map (fun l => l.2.2.points.length)).sum ≤ recs.length := by
  have h1 := sum_by_key_cover (locs.map (fun l => (l.1, l.2.2.name))).dedup (fun l : ChunkLoc => (l.1, l.2.2.name))
    (fun l => l.2.2.points.length) locs (fun x hx => List.mem_dedup.2 (List.mem_map.2 ⟨x, hx, rfl⟩))
  have h2 := sum_by_key (locs.map (fun l => (l.1, l.2.2.name))).dedup (List.nodup_dedup _)
    (fun r : Rec => (r.device, r.measurement)) (fun _ => 1) recs
  simp only [List.map_const', sum_ones] at h2
  refine Nat.le_trans h1 (Nat.le_trans (sum_map_le _ _ _ ?_) h2)
  rintro ⟨d, m⟩ _
  have h3 := h d m
  rw [series_length] at h3
  refine Nat.le_trans (Nat.le_of_eq ?_) h3
  rw [locPts, locsIn, length_flatMap_sum, List.map_map]
  have : ∀ l : List ChunkLoc, ((l.filter (fun x => decide ((x.1, x.2.2.name) = (d, m)))).map (fun l => l.2.2.points.length))
      = ((l.filter (fun l => decide (l.1 = d ∧ l.2.2.name = m))).map (fun l => l.2.2.points.length)) := by
    intro l
    congr 1
    apply List.filter_congr
    intro x _
    simp
  rw [this]
  rfl

theorem locs_length_le {D : Bytes} {locs : List ChunkLoc} (hok : LocsOk env unsnap schema D locs) :
    locs.length ≤ (locs.map (fun l => l.2.2.points.length)).sum := by
  induction locs with
  | nil => simp
  | cons l locs ih =>
    obtain ⟨_, _, _, h, _⟩ := hok l (by simp)
    have h1 := h.points_pos
    have h2 := ih (fun x hx => hok x (by simp [hx]))
    simp only [List.length_cons, List.map_cons, List.sum_cons]
    omega

theorem locs_paths_le {locs : List ChunkLoc} {D : Bytes} (hok : LocsOk env unsnap schema D locs) {paths : List Bytes}
    (hnd : paths.Nodup) (hp : ∀ x ∈ paths, ∃ l ∈ locs, IoWriter.seriesPath l.1 l.2.2.name = x) :
    paths.length ≤ schema.size := by
  have hsub : paths ⊆ schema.flatMap (fun e => e.2.map (fun m => IoWriter.seriesPath e.1 m.1)) := by
    intro x hx
    obtain ⟨l, hl, rfl⟩ := hp x hx
    obtain ⟨ms, h1, h2, _⟩ := hok l hl
    exact List.mem_flatMap.2 ⟨_, look_mem h1, List.mem_map.2 ⟨_, look_mem h2, rfl⟩⟩
  have h := (List.subperm_of_subset hnd hsub).length_le
  rw [length_flatMap_sum] at h
  simp only [List.length_map] at h
  exact h

/-! ## Reading a file that was closed on an output that works again -/

theorem IoOk.closed (ho : HashOrderOk env) (hf : Faithful p content) {io io' : Stream.Io σ}
    {locs : List ChunkLoc} (h : IoOk env unsnap schema content io locs) (hend : io.endFile env p = some io')
    (hnamed : schema.Named) {recs : List Rec} (hpts : ∀ d m, (locPts locs d m).length ≤ (series recs d m).length)
    (hfew : recs.length ≤ 190000000) (hB : ∀ n ≤ schema.size, env.bloomSize n ≤ 2 ^ 60)
    (hD : (content io.out.writer).length < 2 ^ 62)
    (hclose : (content io'.out.writer).length < (content io.out.writer).length + 2 ^ 32) :
    ∃ (paths : List Bytes) (L : Sparse env (content io.out.writer) locs paths (content io'.out.writer)), L.Fits := by
  have htr := faithful_tracks hf
  let o : IoWriter := ⟨⟨content io.out.writer, none⟩, io.currentDevice, io.chunkMetadataList, io.currentChunkMetadata,
    io.chunkGroupMetadataList, io.timeseriesMetadataMap⟩
  have hlike : io.Like (fun w s => s = ⟨content w.writer, none⟩ ∧ w.Counts content) o :=
    ⟨⟨rfl, h.counts⟩, rfl, rfl, rfl, rfl, rfl⟩
  obtain ⟨o', ho'⟩ := endFile_old (o := o) rfl rfl hend
  obtain ⟨L⟩ := endFile_sparse ho h.head_eq (io := o) rfl h.metas h.tsm ho'
  have htot := locs_total_le hpts
  have hcnt := locs_length_le h.ok
  have hname : ∀ l ∈ locs, l.2.2.name.length ≤ 2 ^ 31 ∧ (IoWriter.seriesPath l.1 l.2.2.name).length < 2 ^ 31 := by
    intro l hl
    obtain ⟨ms, h1, h2, _⟩ := h.ok l hl
    have := hnamed.paths _ (look_mem h1) _ (look_mem h2)
    simp only [IoWriter.seriesPath, List.length_append, List.length_singleton]
    simp only at this
    omega
  have hpath : ∀ x ∈ o.chunkMetadataMap.map Prod.fst, ∃ l ∈ locs, IoWriter.seriesPath l.1 l.2.2.name = x := by
    intro x hx
    rw [← BMap.get?_isSome_iff, (chunkMetadataMap_locs (io := o) h.metas).2 x, optAppend_isSome] at hx
    obtain ⟨l, hl, he⟩ := hx
    exact ⟨l, hl, of_decide_eq_true he⟩
  have hnd : (o.chunkMetadataMap.map Prod.fst).Nodup := sorted_nodup (chunkMetadataMap_locs (io := o) h.metas).1
  have hlen := L.length_le (N := 2 ^ 31) (fun l hl => ⟨(hname l hl).1, by have := (hname l hl).2; omega⟩)
  have hbb : bloomBits env (o.chunkMetadataMap.map Prod.fst).length ≤ 2 ^ 60 := by
    have := hB _ (locs_paths_le h.ok hnd hpath)
    rw [bloomBits]
    omega
  have hmul : (189 + 3 * 2 ^ 31) * locs.length ≤ (189 + 3 * 2 ^ 31) * 190000000 := Nat.mul_le_mul_left _ (by omega)
  obtain ⟨io2, h1, h2⟩ := Stream.endFile_like env htr hlike ho' (by omega)
  rw [hend] at h1
  cases h1
  have hout := h2.out.1
  have hF : o'.out.bytes = content io'.out.writer := by rw [hout]
  rw [hF] at L hlen
  have hlb := congrArg List.length L.bytes
  simp only [List.length_append] at hlb
  refine ⟨_, L, by omega, by omega, ?_, ?_, by omega⟩
  · intro x hx
    obtain ⟨l, hl, rfl⟩ := hpath x hx
    exact (hname l hl).2
  · intro l hl
    obtain ⟨_, _, _, hc, _⟩ := h.ok l hl
    have e1 := pagesBytes_le env hc.pages hc.full
    have e2 : l.2.2.points.length ≤ (locs.map (fun l => l.2.2.points.length)).sum :=
      le_sum_of_mem (fun l : ChunkLoc => l.2.2.points.length) hl
    rw [GChunk.points] at e2
    omega

/-! ## The beginning -/

theorem new_torn (hwf : schema.WF) (hf : Faithful p content) {s0 : σ} (h0 : content s0 = []) {w : Stream.Writer σ}
    (hw : Stream.Writer.new env p schema s0 = some (.ok w)) (n : Bytes → Bytes → Nat) :
    Torn env unsnap false schema content w [] (fun _ _ => []) n ∧ ∀ disk : σ → Bytes, Whole env unsnap schema content disk w.io [] := by
  have hc : (WriteWrapper.new s0).Counts content := by rw [WriteWrapper.Counts, WriteWrapper.new, h0]; rfl
  rw [Stream.Writer.new, Stream.Io.new] at hw
  cases hs : p.script (WriteWrapper.new s0) [magic, [3]] with
  | none => rw [hs] at hw; cases hw
  | some r =>
    obtain ⟨out, ok⟩ := r
    obtain ⟨rfl, h2⟩ := script_faithful hf _ hc hs
    have h3 := (script_grows hf.stores hs hc).1
    have h4 : content out.writer = fileBytes env [] := by
      rw [h2]
      simp [WriteWrapper.new, h0, fileBytes]
    rw [hs] at hw
    cases hw
    obtain ⟨q1, q2, q3⟩ := newGroupWriters_torn (env := env) (unsnap := unsnap) (bad := false) hwf n
    refine ⟨⟨rfl, ⟨h3, ?_, rfl, ?_, rfl⟩, q1, q2, q3⟩, fun disk => ⟨[], h4, rfl, ?_, [], [], rfl, by simp, .inl rfl⟩⟩
    · rw [h4]; exact fileBytes_head env []
    · intro l hl; cases hl
    · intro g hg; cases hg

/-- What a scan finds in the output while everything has arrived. -/
theorem Whole.recovered {disk : σ → Bytes} {io : Stream.Io σ} {locs : List ChunkLoc} (h : Whole env unsnap schema content disk io locs)
    (hsch : schema.Named) (hl : ∀ l ∈ locs, (pagesBytes env l.2.2.ms.dataType l.2.2.pages).length < 2 ^ 32) (d m : Bytes) :
    recovered unsnap (content io.out.writer) d m = locPts locs d m := by
  obtain ⟨groups, h1, rfl, h2, _⟩ := h
  let o : IoWriter := ⟨⟨fileBytes env groups, none⟩, none, [], none, groupMetas env 7 groups, []⟩
  have hrep : FileRep env unsnap schema o groups := ⟨rfl, rfl, rfl, h2, rfl⟩
  have hscan := hrep.scan hsch (fun g hg c hc => by
    obtain ⟨off, hm⟩ := mem_fileLocs env hg hc 7
    exact hl _ hm)
  have e1 := recover_prefix hscan (List.prefix_append o.out.bytes [2])
  have e2 := recover_all hscan (List.prefix_refl o.out.bytes)
  have e3 : recover unsnap (content io.out.writer) = groups.flatMap (groupItems env) := by
    rw [h1]
    exact e1.eq_of_length_le e2.length_le
  rw [Spec.recovered, e3, scanPoints_groups, filePts_eq_locs env]
  rfl

end TsFile
