import Verif.Proofs.Ports
import Verif.Proofs.TornClose
import Verif.Proofs.Unfinished
import Verif.Proofs.Coarse
/-! # Outputs that take any part of what they are offered -/

namespace TsFile
open Spec

section
variable {env : Env} {σ : Type} {p : Port σ} {content : σ → Bytes} {R : WriteWrapper σ → Sink → Prop}

/-- `write_all` always comes to an end. -/
def Port.Returns (p : Port σ) : Prop :=
  ∀ (w : WriteWrapper σ) (b : Bytes), ∃ r, w.writeAll p.dev (p.patience b.length) b = some r

theorem script_returns (h : p.Returns) (parts : List Bytes) (w : WriteWrapper σ) : ∃ r, p.script w parts = some r := by
  induction parts generalizing w with
  | nil => exact ⟨_, rfl⟩
  | cons b bs ih =>
    obtain ⟨⟨w1, r⟩, h1⟩ := h w b
    rw [Port.script, h1]
    cases r with
    | error e => exact ⟨_, rfl⟩
    | ok u => exact ih w1

theorem perform_returns (h : p.Returns) (cs : List Call) (w : WriteWrapper σ) : ∃ w', p.perform w cs = some w' := by
  induction cs generalizing w with
  | nil => exact ⟨_, rfl⟩
  | cons c cs ih =>
    cases c with
    | one b => exact ih _
    | all parts =>
      obtain ⟨⟨w1, r⟩, h1⟩ := script_returns h parts w
      rw [Port.perform, h1]
      exact ih w1

theorem writeDeviceNodes_returns (h : p.Returns) (l : List (Bytes × IndexNode)) (w : WriteWrapper σ) :
    ∃ r, Stream.writeDeviceNodes p w l = some r := by
  induction l generalizing w with
  | nil => exact ⟨_, rfl⟩
  | cons e rest ih =>
    obtain ⟨d, n⟩ := e
    obtain ⟨w1, h1⟩ := perform_returns h n.calls w
    obtain ⟨r, h2⟩ := ih w1
    rw [Stream.writeDeviceNodes, h1]
    simp only [h2]
    exact ⟨_, rfl⟩

/-- Closing comes to an end if it does on a sink, although the index may get other bytes. -/
theorem endFile_returns (h : p.Follows R) (hret : p.Returns) {io : Stream.Io σ} {o o' : IoWriter} (hr : io.Like R o)
    (ho : o.endFile env = some o') (hl : o'.out.bytes.length < 2 ^ 64) : ∃ io', io.endFile env p = some io' := by
  have hcmm : io.chunkMetadataMap = o.chunkMetadataMap := by
    rw [Stream.Io.chunkMetadataMap, IoWriter.chunkMetadataMap, hr.chunkGroupMetadataList]
  rw [IoWriter.endFile] at ho
  rw [Stream.Io.endFile]
  simp only [hcmm, hr.timeseriesMetadataMap] at ho ⊢
  obtain ⟨w1, h1, h2⟩ := h.performAll [.all [[2]]] (by simp [Call.Whole]) hr.out
  simp only [List.flatMap_cons, List.flatMap_nil, Call.bytes, List.flatten_cons, List.flatten_nil, List.append_nil] at h2
  rw [h1]
  simp only
  cases hloop : IoWriter.flushIndexLoop env none o.chunkMetadataMap o.timeseriesMetadataMap with
  | none => rw [hloop] at ho; simp at ho
  | some tsm =>
    rw [hloop] at ho
    simp only at ho ⊢
    cases hc : TsFile.constructMetadataIndex env tsm (o.out.write [2]) with
    | none => rw [hc] at ho; simp at ho
    | some r =>
      obtain ⟨s3, node⟩ := r
      rw [hc] at ho
      simp only at ho
      cases hb : BloomFilter.build env (o.chunkMetadataMap.map Prod.fst) with
      | none => rw [hb] at ho; simp at ho
      | some bf =>
        rw [hb] at ho
        simp only at ho
        cases hbs : bf.serialize with
        | none => rw [hbs] at ho; simp at ho
        | some bb =>
          rw [hbs] at ho
          simp only [Option.some.injEq] at ho
          have hcb := calls_bloom bf
          rw [hbs] at hcb
          cases hbc : bf.calls with
          | none => rw [hbc] at hcb; exact hcb.elim
          | some cs =>
            subst ho
            simp only at hl
            have g1 := (Sink.write_grows s3 (tsFileMetadataSerialize node o.out.pos)).pre.length_le
            have g2 := (Sink.write_grows (s3.write (tsFileMetadataSerialize node o.out.pos)) bb).pre.length_le
            generalize hs5 : (s3.write (tsFileMetadataSerialize node o.out.pos)).write bb = s5 at hl g2
            have g3 := (Sink.write_grows s5 (be32 (u32 (s5.pos - s3.pos)))).pre.length_le
            have g4 := (Sink.write_grows (s5.write (be32 (u32 (s5.pos - s3.pos)))) magic).pre.length_le
            obtain ⟨⟨w3, node'⟩, q1⟩ : ∃ r, Stream.constructMetadataIndex env p tsm w1 = some r := by
              rw [TsFile.constructMetadataIndex] at hc
              cases hd : TsFile.devicesLoop env (o.out.write [2]) tsm with
              | none => rw [hd] at hc; simp at hc
              | some r =>
                obtain ⟨s1, map⟩ := r
                rw [hd] at hc
                simp only at hc
                by_cases hm : map.length ≤ maxDegree
                · rw [if_pos hm] at hc
                  simp only [Option.some.injEq, Prod.mk.injEq] at hc
                  have hg := (Grows.writeDeviceNodes (env.hashOrder map) s1).pre.length_le
                  rw [hc.1] at hg
                  obtain ⟨w2, e1, e2⟩ := Stream.devicesLoop_like env h tsm h2 hd (by omega)
                  obtain ⟨r, e3⟩ := writeDeviceNodes_returns hret (env.hashOrder map) w2
                  rw [Stream.constructMetadataIndex, e1]
                  simp only [if_pos hm, e3]
                  exact ⟨_, rfl⟩
                · rw [if_neg hm] at hc; simp at hc
            rw [q1]
            simp only
            obtain ⟨w4, q3⟩ := perform_returns hret (tsFileMetadataCalls node' (Stream.position io.out)) w3
            rw [q3]
            simp only [hbc]
            obtain ⟨w5, q5⟩ := perform_returns hret cs w4
            rw [q5]
            simp only
            obtain ⟨w6, q7⟩ := perform_returns hret
              [.all [be32 (u32 (w5.getPosition - w3.getPosition).toNat)], .all [magic]] w5
            rw [q7]
            exact ⟨_, rfl⟩

theorem _root_.TsFile.Spec.Keeps.along (h : Keeps p content) : Along p (fun s s' => content s <+: content s') :=
  ⟨fun _ => List.prefix_refl _, List.IsPrefix.trans, fun s b => by
    cases hx : (p.dev s b).2 with
    | ok n => rw [(h.stores.ok s b n hx).2]; exact List.prefix_append _ _
    | error e => rw [h.stores.error s b e hx]; exact List.prefix_refl _⟩

/-- Closing on an output on which `write_all` succeeds: the data, the marker, and something. -/
theorem close_short (hk : Keeps p content)
    (hall : ∀ (w : WriteWrapper σ) (b : Bytes), ∃ w', w.writeAll p.dev (p.patience b.length) b = some (w', .ok ()))
    {w : Stream.Writer σ} {v v1 v' : TsFile.Writer} {e : Option TsFileError}
    (hr : w.Like (fun w s => s = ⟨content w.writer, none⟩ ∧ w.Counts content) v)
    (hf : v.flushAllChunkGroups env = some (v1, e)) (hv : v.close env = some v') (hl : v'.io.out.bytes.length < 2 ^ 64) :
    ∃ w', w.close env p p = some w' ∧ v1.io.out.bytes ++ [2] <+: content w'.io.out.writer := by
  have h := keeps_follows hk hall
  have hret : p.Returns := fun w b => ⟨_, (hall w b).choose_spec⟩
  rw [TsFile.Writer.close, hf] at hv
  simp only at hv
  cases he : v1.io.endFile env with
  | none => rw [he] at hv; simp at hv
  | some o' =>
    rw [he] at hv
    simp only [Option.some.injEq] at hv
    subst hv
    have hg := (Grows.endFile env v1.io he).pre.length_le
    simp only at hl
    obtain ⟨w1, q1, q2⟩ := Stream.flushAll_like env h hr hf (by omega)
    obtain ⟨io2, q3⟩ := endFile_returns h hret q2.io he hl
    refine ⟨{ w1 with io := io2 }, by rw [Stream.Writer.close, q1]; simp only [q3], ?_⟩
    obtain ⟨out, a1, a2⟩ := endFile_after hk.along q3
    obtain ⟨out', b1, b2⟩ := h.performAll [.all [[2]]] (by simp [Call.Whole]) q2.io.out
    rw [a1] at b1
    cases b1
    have hb := congrArg Sink.bytes b2.1
    have ha := congrArg Sink.cap q2.io.out.1
    simp only [List.flatMap_cons, List.flatMap_nil, Call.bytes, List.flatten_cons, List.flatten_nil, List.append_nil, Sink.write] at hb
    simp only at ha
    rw [ha] at hb
    simp only at hb
    rw [hb]
    exact a2

/-! ## At most seven bytes per call -/

/-- What a step can add at most. -/
def Call.most : Call → Nat
  | .all parts => parts.flatten.length
  | .one b => min 7 b.length

theorem most_le (c : Call) : c.most ≤ c.bytes.length := by
  cases c with
  | all parts => exact Nat.le_refl _
  | one b => exact Nat.min_le_right _ _

theorem most_sum_le (cs : List Call) : (cs.map Call.most).sum ≤ (cs.flatMap Call.bytes).length := by
  induction cs with
  | nil => simp
  | cons c cs ih =>
    have := most_le c
    simp only [List.map_cons, List.sum_cons, List.flatMap_cons, List.length_append]
    omega

theorem most_sum_lt {cs : List Call} {b : Bytes} (hb : Call.one b ∈ cs) (h8 : b.length = 8) :
    (cs.map Call.most).sum < (cs.flatMap Call.bytes).length := by
  induction cs with
  | nil => simp at hb
  | cons c cs ih =>
    have h1 := most_le c
    have h2 := most_sum_le cs
    simp only [List.map_cons, List.sum_cons, List.flatMap_cons, List.length_append]
    rcases List.mem_cons.1 hb with rfl | hb
    · simp only [Call.most, Call.bytes, h8] at h1 ⊢
      omega
    · have := ih hb
      omega

theorem script_most (hk : Keeps p content) (parts : List Bytes) {w w' : WriteWrapper σ} {ok : Bool} (hc : w.Counts content)
    (h : p.script w parts = some (w', ok)) :
    w'.Counts content ∧ (content w'.writer).length ≤ (content w.writer).length + parts.flatten.length := by
  induction parts generalizing w with
  | nil =>
    simp only [Port.script, Option.some.injEq, Prod.mk.injEq] at h
    obtain ⟨rfl, _⟩ := h
    exact ⟨hc, by simp⟩
  | cons b bs ih =>
    rw [Port.script] at h
    cases hx : w.writeAll p.dev (p.patience b.length) b with
    | none => rw [hx] at h; simp at h
    | some x =>
      obtain ⟨w1, r⟩ := x
      rw [hx] at h
      obtain ⟨q1, _, c, q2, q3⟩ := WriteWrapper.writeAll_spec hk.stores _ hc b hx
      have hl := q2.length_le
      have hl' := congrArg List.length q3
      rw [List.length_append] at hl'
      rw [List.flatten_cons, List.length_append]
      cases r with
      | error e =>
        simp only [Option.some.injEq, Prod.mk.injEq] at h
        obtain ⟨rfl, _⟩ := h
        exact ⟨q1, by omega⟩
      | ok u =>
        obtain ⟨q4, q5⟩ := ih q1 h
        exact ⟨q4, by omega⟩

theorem perform_most (hk : Keeps p content) (h7 : ∀ s b n, (p.dev s b).2 = .ok n → n ≤ 7) (cs : List Call)
    {w w' : WriteWrapper σ} (hc : w.Counts content) (h : p.perform w cs = some w') :
    w'.Counts content ∧ (content w'.writer).length ≤ (content w.writer).length + (cs.map Call.most).sum := by
  induction cs generalizing w with
  | nil =>
    simp only [Port.perform, Option.some.injEq] at h
    subst h
    exact ⟨hc, by simp⟩
  | cons c cs ih =>
    rw [List.map_cons, List.sum_cons]
    cases c with
    | one b =>
      rw [Port.perform] at h
      obtain ⟨q1, q2⟩ := ih (WriteWrapper.write_counts hk.stores hc b).1 h
      refine ⟨q1, ?_⟩
      have hl : (content (w.write p.dev b).1.writer).length ≤ (content w.writer).length + min 7 b.length := by
        rw [(WriteWrapper.write_inner w b).1]
        cases hx : (p.dev w.writer b).2 with
        | error e => rw [hk.stores.error _ _ _ hx]; omega
        | ok n =>
          have e1 := hk.stores.ok _ _ _ hx
          have e2 := h7 _ _ _ hx
          rw [e1.2, List.length_append, List.length_take]
          omega
      simp only [Call.most]
      omega
    | all parts =>
      rw [Port.perform] at h
      cases hx : p.script w parts with
      | none => rw [hx] at h; simp at h
      | some x =>
        obtain ⟨w1, ok⟩ := x
        rw [hx] at h
        obtain ⟨q1, q2⟩ := script_most hk parts hc hx
        obtain ⟨q3, q4⟩ := ih q1 h
        simp only [Call.most]
        exact ⟨q3, by omega⟩

theorem Sink.write_length {s : Sink} (h : s.cap = none) (b : Bytes) :
    (s.write b).bytes.length = s.bytes.length + b.length ∧ (s.write b).cap = none := by
  simp [Sink.write, h]

/-- Writing the nodes of the devices: not more bytes than on a sink, and the entries have the same names. -/
theorem writeDeviceNodes_most (hk : Keeps p content) (h7 : ∀ s b n, (p.dev s b).2 = .ok n → n ≤ 7)
    (l : List (Bytes × IndexNode)) {w w' : WriteWrapper σ} {es : List IndexEntry} {s : Sink} (hcap : s.cap = none)
    (hc : w.Counts content) (hle : (content w.writer).length ≤ s.bytes.length)
    (h : Stream.writeDeviceNodes p w l = some (w', es)) :
    w'.Counts content ∧ (content w'.writer).length ≤ (TsFile.writeDeviceNodes s l).1.bytes.length
      ∧ (TsFile.writeDeviceNodes s l).1.cap = none
      ∧ es.map IndexEntry.name = (TsFile.writeDeviceNodes s l).2.map IndexEntry.name := by
  induction l generalizing w s es with
  | nil =>
    simp only [Stream.writeDeviceNodes, Option.some.injEq, Prod.mk.injEq] at h
    obtain ⟨rfl, rfl⟩ := h
    exact ⟨hc, hle, hcap, rfl⟩
  | cons e rest ih =>
    obtain ⟨d, n⟩ := e
    rw [Stream.writeDeviceNodes] at h
    cases h1 : p.perform w n.calls with
    | none => rw [h1] at h; simp at h
    | some w1 =>
      rw [h1] at h
      simp only at h
      cases h2 : Stream.writeDeviceNodes p w1 rest with
      | none => rw [h2] at h; simp at h
      | some x =>
        obtain ⟨w2, es2⟩ := x
        rw [h2] at h
        simp only [Option.some.injEq, Prod.mk.injEq] at h
        obtain ⟨rfl, rfl⟩ := h
        obtain ⟨q1, q2⟩ := perform_most hk h7 _ hc h1
        have hm := most_sum_le n.calls
        rw [(calls_node n).1] at hm
        obtain ⟨e1, e2⟩ := Sink.write_length hcap n.serialize
        obtain ⟨q3, q4, q5, q6⟩ := ih e2 q1 (by omega) h2
        exact ⟨q3, q4, q5, by simp only [TsFile.writeDeviceNodes, List.map_cons, q6]⟩

theorem serialize_length_congr {n n' : IndexNode} (h : n.children.map IndexEntry.name = n'.children.map IndexEntry.name) :
    n.serialize.length = n'.serialize.length := by
  have hl : n.children.length = n'.children.length := by simpa using congrArg List.length h
  have hs : (n.children.flatMap IndexEntry.serialize).length = (n'.children.flatMap IndexEntry.serialize).length := by
    have : ∀ l : List IndexEntry, (l.flatMap IndexEntry.serialize).length
        = ((l.map IndexEntry.name).map (fun m => (writeStr m).length + 8)).sum := by
      intro l
      induction l with
      | nil => rfl
      | cons e es ih =>
        rw [List.flatMap_cons, List.length_append, ih, List.map_cons, List.map_cons, List.sum_cons, IndexEntry.serialize,
          List.length_append, be64_length]
    rw [this, this, h]
  simp only [IndexNode.serialize, List.length_append, hs, hl, be64_length, List.length_cons, List.length_nil]

/-- Closing on an output that takes at most seven bytes per call: the file is too short. -/
theorem endFile_short (hk : Keeps p content) (h : p.Follows (fun w s => s = ⟨content w.writer, none⟩ ∧ w.Counts content))
    (h7 : ∀ s b n, (p.dev s b).2 = .ok n → n ≤ 7) {io io' : Stream.Io σ} {o o' : IoWriter}
    (hr : io.Like (fun w s => s = ⟨content w.writer, none⟩ ∧ w.Counts content) o) (ho : o.endFile env = some o')
    (hl : o'.out.bytes.length < 2 ^ 64) (hio : io.endFile env p = some io') :
    (content io'.out.writer).length < o'.out.bytes.length := by
  have hcmm : io.chunkMetadataMap = o.chunkMetadataMap := by
    rw [Stream.Io.chunkMetadataMap, IoWriter.chunkMetadataMap, hr.chunkGroupMetadataList]
  rw [IoWriter.endFile] at ho
  rw [Stream.Io.endFile] at hio
  simp only [hcmm, hr.timeseriesMetadataMap] at ho hio
  obtain ⟨w1, h1, h2⟩ := h.performAll [.all [[2]]] (by simp [Call.Whole]) hr.out
  simp only [List.flatMap_cons, List.flatMap_nil, Call.bytes, List.flatten_cons, List.flatten_nil, List.append_nil] at h2
  rw [h1] at hio
  simp only at hio
  have hcap0 : (o.out.write [2]).cap = none := by rw [h2.1]
  cases hloop : IoWriter.flushIndexLoop env none o.chunkMetadataMap o.timeseriesMetadataMap with
  | none => rw [hloop] at ho; simp at ho
  | some tsm =>
    rw [hloop] at ho hio
    simp only at ho hio
    rw [TsFile.constructMetadataIndex] at ho
    rw [Stream.constructMetadataIndex] at hio
    cases hd : TsFile.devicesLoop env (o.out.write [2]) tsm with
    | none => rw [hd] at ho; simp at ho
    | some r =>
      obtain ⟨s1, map⟩ := r
      rw [hd] at ho
      simp only at ho
      by_cases hm : map.length ≤ maxDegree
      · rw [if_pos hm] at ho
        simp only at ho
        cases hb : BloomFilter.build env (o.chunkMetadataMap.map Prod.fst) with
        | none => rw [hb] at ho; simp at ho
        | some bf =>
          rw [hb] at ho hio
          simp only at ho hio
          cases hbs : bf.serialize with
          | none => rw [hbs] at ho; simp at ho
          | some bb =>
            rw [hbs] at ho
            simp only [Option.some.injEq] at ho
            have hcb := calls_bloom bf
            rw [hbs] at hcb
            cases hbc : bf.calls with
            | none => rw [hbc] at hcb; exact hcb.elim
            | some cs =>
              rw [hbc] at hcb hio
              simp only at hcb hio
              subst ho
              simp only at hl ⊢
              have hg := (Grows.writeDeviceNodes (env.hashOrder map) s1).pre.length_le
              generalize hnode : (⟨(TsFile.writeDeviceNodes s1 (env.hashOrder map)).2,
                (TsFile.writeDeviceNodes s1 (env.hashOrder map)).1.pos, .leafDevice⟩ : IndexNode) = node at hl ⊢
              generalize hs3 : (TsFile.writeDeviceNodes s1 (env.hashOrder map)).1 = s3 at hl hg ⊢
              have g1 := (Sink.write_grows s3 (tsFileMetadataSerialize node o.out.pos)).pre.length_le
              have g2 := (Sink.write_grows (s3.write (tsFileMetadataSerialize node o.out.pos)) bb).pre.length_le
              generalize hs4 : s3.write (tsFileMetadataSerialize node o.out.pos) = s4 at hl g1 g2 ⊢
              generalize hs5 : s4.write bb = s5 at hl g2 ⊢
              have g3 := (Sink.write_grows s5 (be32 (u32 (s5.pos - s3.pos)))).pre.length_le
              have g4 := (Sink.write_grows (s5.write (be32 (u32 (s5.pos - s3.pos)))) magic).pre.length_le
              obtain ⟨w2, e1, e2⟩ := Stream.devicesLoop_like env h tsm h2 hd (by omega)
              rw [e1] at hio
              simp only [if_pos hm] at hio
              cases e3 : Stream.writeDeviceNodes p w2 (env.hashOrder map) with
              | none => rw [e3] at hio; simp at hio
              | some x =>
                obtain ⟨w3, es⟩ := x
                rw [e3] at hio
                simp only at hio
                obtain ⟨c3, l3, cap3, n3⟩ := writeDeviceNodes_most hk h7 _ (s := s1) (by rw [e2.1]) e2.2 (Nat.le_of_eq (by rw [e2.1])) e3
                rw [hs3] at l3 cap3
                cases q4 : p.perform w3 (tsFileMetadataCalls ⟨es, Stream.position w3, .leafDevice⟩ (Stream.position io.out)) with
                | none => rw [q4] at hio; simp at hio
                | some w4 =>
                  rw [q4] at hio
                  simp only at hio
                  obtain ⟨c4, l4⟩ := perform_most hk h7 _ c3 q4
                  have m4 := most_sum_lt (cs := tsFileMetadataCalls ⟨es, Stream.position w3, .leafDevice⟩ (Stream.position io.out))
                    (b := be64 (BitVec.ofNat 64 (Stream.position w3))) (by simp [tsFileMetadataCalls, IndexNode.calls]) rfl
                  rw [(calls_metadata _ _).1, tsFileMetadataSerialize, List.length_append, be64_length,
                    serialize_length_congr (n' := node) (by rw [← hnode]; exact n3)] at m4
                  obtain ⟨s4l, s4c⟩ := Sink.write_length cap3 (tsFileMetadataSerialize node o.out.pos)
                  rw [hs4] at s4l s4c
                  rw [tsFileMetadataSerialize, List.length_append, be64_length] at s4l
                  cases q5 : p.perform w4 cs with
                  | none => rw [q5] at hio; simp at hio
                  | some w5 =>
                    rw [q5] at hio
                    simp only at hio
                    obtain ⟨c5, l5⟩ := perform_most hk h7 _ c4 q5
                    have m5 := most_sum_le cs
                    rw [hcb.1] at m5
                    obtain ⟨s5l, s5c⟩ := Sink.write_length s4c bb
                    rw [hs5] at s5l s5c
                    cases q6 : p.perform w5 [.all [be32 (u32 (w5.getPosition - w3.getPosition).toNat)], .all [magic]] with
                    | none => rw [q6] at hio; simp at hio
                    | some w6 =>
                      rw [q6] at hio
                      simp only [Option.some.injEq] at hio
                      subst hio
                      obtain ⟨c6, l6⟩ := perform_most hk h7 _ c5 q6
                      have m6 : ([Call.all [be32 (u32 (w5.getPosition - w3.getPosition).toNat)], .all [magic]].map Call.most).sum
                          = 4 + 6 := rfl
                      obtain ⟨s6l, s6c⟩ := Sink.write_length s5c (be32 (u32 (s5.pos - s3.pos)))
                      obtain ⟨s7l, _⟩ := Sink.write_length s6c magic
                      have a1 : (be32 (u32 (s5.pos - s3.pos))).length = 4 := rfl
                      have a2 : magic.length = 6 := rfl
                      simp only
                      omega
      · rw [if_neg hm] at ho; simp at ho

theorem close_shorter (hk : Keeps p content)
    (hall : ∀ (w : WriteWrapper σ) (b : Bytes), ∃ w', w.writeAll p.dev (p.patience b.length) b = some (w', .ok ()))
    (h7 : ∀ s b n, (p.dev s b).2 = .ok n → n ≤ 7) {w : Stream.Writer σ} {v v' : TsFile.Writer}
    (hr : w.Like (fun w s => s = ⟨content w.writer, none⟩ ∧ w.Counts content) v)
    (hv : v.close env = some v') (hl : v'.io.out.bytes.length < 2 ^ 64) :
    ∃ w', w.close env p p = some w' ∧ (content w'.io.out.writer).length < v'.io.out.bytes.length := by
  have h := keeps_follows hk hall
  have hret : p.Returns := fun w b => ⟨_, (hall w b).choose_spec⟩
  rw [TsFile.Writer.close] at hv
  cases hf : v.flushAllChunkGroups env with
  | none => rw [hf] at hv; simp at hv
  | some r =>
    obtain ⟨v1, e⟩ := r
    rw [hf] at hv
    simp only at hv
    cases he : v1.io.endFile env with
    | none => rw [he] at hv; simp at hv
    | some o' =>
      rw [he] at hv
      simp only [Option.some.injEq] at hv
      subst hv
      have hg := (Grows.endFile env v1.io he).pre.length_le
      simp only at hl
      obtain ⟨w1, q1, q2⟩ := Stream.flushAll_like env h hr hf (by omega)
      obtain ⟨io2, q3⟩ := endFile_returns h hret q2.io he hl
      exact ⟨{ w1 with io := io2 }, by rw [Stream.Writer.close, q1]; simp only [q3], endFile_short hk h h7 q2.io he hl q3⟩

end

end TsFile
