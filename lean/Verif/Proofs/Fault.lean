import Verif.Model.Session
/-! # Outputs that stop accepting bytes

The same program on an unlimited output and on one that accepts only `n` bytes. -/

namespace TsFile
open Spec

/-- One output continues another: nothing is changed, bytes are added at most up to the limit. -/
structure Sink.Grows (s s' : Sink) : Prop where
  cap : s'.cap = s.cap
  pre : s.bytes <+: s'.bytes
  le : ∀ n, s.cap = some n → s.bytes.length ≤ n → s'.bytes.length ≤ n

theorem Sink.Grows.refl (s : Sink) : s.Grows s := ⟨rfl, List.prefix_rfl, fun _ _ h => h⟩

theorem Sink.Grows.trans {a b c : Sink} (h : a.Grows b) (h' : b.Grows c) : a.Grows c :=
  ⟨h'.cap.trans h.cap, h.pre.trans h'.pre, fun n hn hl => h'.le n (h.cap.trans hn) (h.le n hn hl)⟩

theorem Sink.write_grows (s : Sink) (b : Bytes) : s.Grows (s.write b) := by
  rw [Sink.write]
  cases hc : s.cap with
  | none => exact ⟨hc.symm ▸ rfl, List.prefix_append _ _, fun n hn => by rw [hc] at hn; simp at hn⟩
  | some k =>
    refine ⟨hc.symm ▸ rfl, List.prefix_append _ _, fun n hn hl => ?_⟩
    rw [hc] at hn
    simp only [Option.some.injEq] at hn
    subst hn
    simp only [List.length_append, List.length_take]
    omega

/-! ## Everything only appends -/

namespace Grows

theorem startChunkGroup (io : IoWriter) (d : Bytes) : io.out.Grows (io.startChunkGroup d).1.out := by
  simp only [IoWriter.startChunkGroup]
  split
  · exact Sink.write_grows _ _
  · exact Sink.write_grows _ _

theorem endCurrentChunk {io io' : IoWriter} (h : io.endCurrentChunk = some io') : io'.out = io.out := by
  rw [IoWriter.endCurrentChunk] at h
  split at h
  · simp at h
  · cases h; rfl

theorem endChunkGroup (io : IoWriter) : io.endChunkGroup.out = io.out := by
  rw [IoWriter.endChunkGroup]
  split
  · rfl
  · split <;> rfl

/-- Writing a chunk: whether it panics, and the chunk writer afterwards, do not depend on the output. -/
theorem writeToFileWriter (env : Env) (c : ChunkWriter) (io : IoWriter) :
    (c.writeToFileWriter env io = none ∧ c.sealCurrentPage env = none)
    ∨ ∃ c1 c', c.sealCurrentPage env = some c1
      ∧ c' = { c1 with pageBuffer := [], numPages := 0, firstPageStatistics := none, statistics := Statistics.new env c1.dataType }
      ∧ ∃ io', c.writeToFileWriter env io = some (c', io') ∧ io.out.Grows io'.out := by
  rw [ChunkWriter.writeToFileWriter]
  cases hs : c.sealCurrentPage env with
  | none => exact Or.inl ⟨rfl, rfl⟩
  | some c1 =>
    refine Or.inr ⟨c1, _, rfl, rfl, ?_⟩
    dsimp only
    by_cases h0 : c1.statistics.count = 0
    · rw [if_pos h0]
      exact ⟨_, rfl, Sink.Grows.refl _⟩
    · rw [if_neg h0]
      simp only [IoWriter.startFlushChunk, IoWriter.endCurrentChunk]
      exact ⟨_, rfl, (Sink.write_grows _ _).trans (Sink.write_grows _ _)⟩

theorem writeAllChunks (env : Env) (l : BMap ChunkWriter) (io : IoWriter) :
    (∀ io', GroupWriter.writeAllChunks env l io' = none)
    ∨ ∃ l', ∀ io', ∃ io'', GroupWriter.writeAllChunks env l io' = some (l', io'') ∧ io'.out.Grows io''.out := by
  induction l with
  | nil => exact Or.inr ⟨[], fun io' => ⟨io', rfl, Sink.Grows.refl _⟩⟩
  | cons p l ih =>
    obtain ⟨m, c⟩ := p
    rcases writeToFileWriter env c io with ⟨_, h⟩ | ⟨c1, c', h1, h2, _⟩
    · left
      intro io'
      rcases writeToFileWriter env c io' with ⟨h1, _⟩ | ⟨c1, c', h1, _⟩
      · rw [GroupWriter.writeAllChunks, h1]
      · rw [h] at h1; simp at h1
    · have hall : ∀ io', ∃ io'', c.writeToFileWriter env io' = some (c', io'') ∧ io'.out.Grows io''.out := by
        intro io'
        rcases writeToFileWriter env c io' with ⟨_, h3⟩ | ⟨d1, d', h3, h4, h5⟩
        · rw [h1] at h3; simp at h3
        · rw [h1] at h3
          cases h3
          subst h2 h4
          exact h5
      rcases ih with ih | ⟨l', ih⟩
      · left
        intro io'
        obtain ⟨io'', h3, _⟩ := hall io'
        rw [GroupWriter.writeAllChunks, h3]
        simp only
        rw [ih]
      · right
        refine ⟨(m, c') :: l', fun io' => ?_⟩
        obtain ⟨io1, h3, h4⟩ := hall io'
        obtain ⟨io2, h5, h6⟩ := ih io1
        refine ⟨io2, ?_, h4.trans h6⟩
        rw [GroupWriter.writeAllChunks, h3]
        simp only
        rw [h5]

theorem flushToFilewriter (env : Env) (g : GroupWriter) :
    (∀ io, g.flushToFilewriter env io = none)
    ∨ ∃ g' size, ∀ io, ∃ io', g.flushToFilewriter env io = some (g', io', size) ∧ io.out.Grows io'.out := by
  simp only [GroupWriter.flushToFilewriter]
  cases GroupWriter.sealAll env g.chunkWriters with
  | none => exact Or.inl (fun _ => rfl)
  | some cs =>
    rcases writeAllChunks env cs (IoWriter.mk ⟨[], none⟩ none [] none [] []) with h | ⟨l', h⟩
    · left
      intro io
      simp only
      rw [h]
    · right
      refine ⟨{ g with chunkWriters := l' }, GroupWriter.chunkGroupSize cs, fun io => ?_⟩
      obtain ⟨io', h1, h2⟩ := h io
      refine ⟨io', ?_, h2⟩
      simp only
      rw [h1]

theorem flushLoop (env : Env) (l : BMap GroupWriter) (io : IoWriter) (lm : BMap (BMap W64))
    {r : BMap GroupWriter × IoWriter × BMap (BMap W64) × Option TsFileError} (h : Writer.flushLoop env l io lm = some r) :
    io.out.Grows r.2.1.out := by
  induction l generalizing io lm r with
  | nil =>
    rw [Writer.flushLoop] at h
    cases h
    exact Sink.Grows.refl _
  | cons p l ih =>
    obtain ⟨d, g⟩ := p
    have hsc := startChunkGroup io d
    rw [Writer.flushLoop] at h
    rcases hs : io.startChunkGroup d with ⟨io1, b⟩
    rw [hs] at h hsc
    cases b with
    | false =>
      simp only at h
      cases h
      exact hsc
    | true =>
      simp only at h
      rcases flushToFilewriter env g with hn | ⟨g', size, hg⟩
      · rw [hn] at h; simp at h
      · obtain ⟨io2, h1, h2⟩ := hg io1
        rw [h1] at h
        simp only at h
        split at h
        · cases h
          exact hsc.trans h2
        · cases hr : Writer.flushLoop env l io2.endChunkGroup (lm.insert d g'.lastTimeMap) with
          | none => rw [hr] at h; simp at h
          | some r' =>
            rw [hr] at h
            simp only [Option.some.injEq] at h
            subst h
            have := ih _ _ hr
            rw [endChunkGroup] at this
            exact hsc.trans (h2.trans this)

theorem flushAll (env : Env) (w : Writer) {w' : Writer} {e : Option TsFileError}
    (h : w.flushAllChunkGroups env = some (w', e)) : w.io.out.Grows w'.io.out := by
  rw [Writer.flushAllChunkGroups] at h
  split at h
  · cases hr : Writer.flushLoop env w.groupWriters w.io w.nonAlignedLastTimeMap with
    | none => rw [hr] at h; simp at h
    | some r =>
      obtain ⟨gs, io, lm, e'⟩ := r
      have := flushLoop env _ _ _ hr
      rw [hr] at h
      cases e' with
      | none => simp only [Option.some.injEq, Prod.mk.injEq] at h; rw [← h.1]; exact this
      | some x => simp only [Option.some.injEq, Prod.mk.injEq] at h; rw [← h.1]; exact this
  · cases h; exact Sink.Grows.refl _

theorem checkMem (env : Env) (w : Writer) {w' : Writer} (h : w.checkMemorySize env = some w') : w.io.out.Grows w'.io.out := by
  rw [Writer.checkMemorySize] at h
  split at h
  · dsimp only at h
    split at h
    · simp at h
    · split at h
      · obtain ⟨⟨x, e⟩, hx, rfl⟩ := Option.map_eq_some_iff.1 h
        have := flushAll env _ hx
        exact this
      · cases h; exact Sink.Grows.refl _
  · cases h; exact Sink.Grows.refl _

theorem step (env : Env) (w : Writer) (op : Op) : w.io.out.Grows (w.step env op).1.io.out := by
  cases op with
  | write d m t v =>
    simp only [Writer.step, Writer.write]
    split
    · exact Sink.Grows.refl _
    · split
      · exact Sink.Grows.refl _
      · exact Sink.Grows.refl _
      · split
        · exact Sink.Grows.refl _
        · next hc => have := checkMem env _ hc; exact this
  | writeMany d t vs =>
    simp only [Writer.step, Writer.writeMany]
    split
    · exact Sink.Grows.refl _
    · split
      · exact Sink.Grows.refl _
      · exact Sink.Grows.refl _
      · split
        · exact Sink.Grows.refl _
        · next hc => have := checkMem env _ hc; exact this

theorem run (env : Env) (ops : List Op) (w : Writer) : w.io.out.Grows (w.run env ops).1.io.out := by
  induction ops generalizing w with
  | nil => exact Sink.Grows.refl _
  | cons op ops ih => exact (step env w op).trans (ih _)

theorem leafLoop (env : Env) (l : List TimeSeriesMetadata) (i : Nat) (s : LeafState) :
    s.out.Grows (leafLoop env i s l).out := by
  induction l generalizing i s with
  | nil => exact Sink.Grows.refl _
  | cons t l ih =>
    rw [TsFile.leafLoop]
    dsimp only
    refine Sink.Grows.trans ?_ (ih _ _)
    split
    · split
      · exact Sink.write_grows _ _
      · exact Sink.write_grows _ _
    · exact Sink.write_grows _ _

theorem deviceIndex (env : Env) (out : Sink) (l : List TimeSeriesMetadata) {r : Sink × IndexNode}
    (h : deviceIndex env out l = some r) : out.Grows r.1 := by
  rw [TsFile.deviceIndex] at h
  obtain ⟨n, _, rfl⟩ := Option.map_eq_some_iff.1 h
  exact leafLoop env l 0 ⟨out, IndexNode.new .leafMeasurement, []⟩

theorem devicesLoop (env : Env) (m : BMap (List TimeSeriesMetadata)) (out : Sink) {r : Sink × List (Bytes × IndexNode)}
    (h : devicesLoop env out m = some r) : out.Grows r.1 := by
  induction m generalizing out r with
  | nil => rw [TsFile.devicesLoop] at h; cases h; exact Sink.Grows.refl _
  | cons p m ih =>
    obtain ⟨d, l⟩ := p
    rw [TsFile.devicesLoop] at h
    split at h
    · exact ih _ h
    · cases hd : TsFile.deviceIndex env out l with
      | none => rw [hd] at h; simp at h
      | some x =>
        rw [hd] at h
        simp only at h
        cases hr : TsFile.devicesLoop env x.1 m with
        | none => rw [hr] at h; simp at h
        | some y =>
          rw [hr] at h
          simp only [Option.some.injEq] at h
          rw [← h]
          have := ih _ hr
          exact (deviceIndex env out l hd).trans this

theorem writeDeviceNodes (l : List (Bytes × IndexNode)) (out : Sink) : out.Grows (writeDeviceNodes out l).1 := by
  induction l generalizing out with
  | nil => exact Sink.Grows.refl _
  | cons p l ih => exact (Sink.write_grows _ _).trans (ih _)

theorem construct (env : Env) (m : BMap (List TimeSeriesMetadata)) (out : Sink) {r : Sink × IndexNode}
    (h : constructMetadataIndex env m out = some r) : out.Grows r.1 := by
  rw [constructMetadataIndex] at h
  cases hd : TsFile.devicesLoop env out m with
  | none => rw [hd] at h; simp at h
  | some x =>
    rw [hd] at h
    simp only at h
    split at h
    · simp only [Option.some.injEq] at h
      rw [← h]
      exact (devicesLoop env m out hd).trans (writeDeviceNodes _ _)
    · simp at h

theorem endFile (env : Env) (io : IoWriter) {io' : IoWriter} (h : io.endFile env = some io') : io.out.Grows io'.out := by
  rw [IoWriter.endFile] at h
  dsimp only at h
  split at h
  · simp at h
  · split at h
    · simp at h
    · next hc =>
      have h2 := construct env _ _ hc
      split at h
      · simp at h
      · split at h
        · simp at h
        · simp only [Option.some.injEq] at h
          rw [← h]
          exact (Sink.write_grows _ _).trans (h2.trans ((Sink.write_grows _ _).trans ((Sink.write_grows _ _).trans
            ((Sink.write_grows _ _).trans (Sink.write_grows _ _)))))

theorem close (env : Env) (w : Writer) {w' : Writer} (h : w.close env = some w') : w.io.out.Grows w'.io.out := by
  rw [Writer.close] at h
  split at h
  · simp at h
  · next hf =>
    split at h
    · simp at h
    · next he =>
      cases h
      exact (flushAll env _ hf).trans (endFile env _ he)

end Grows

/-! ## An output with a limit beside one without -/

/-- The limited output has reached its limit and holds the beginning of the unlimited one, which is longer. -/
structure Lag (n : Nat) (u c : Sink) : Prop where
  capU : u.cap = none
  capC : c.cap = some n
  full : c.bytes.length = n
  pre : c.bytes <+: u.bytes
  over : n < u.bytes.length

theorem Lag.take {n : Nat} {u c : Sink} (h : Lag n u c) : c.bytes = u.bytes.take n := by
  obtain ⟨t, ht⟩ := h.pre
  rw [← ht, ← h.full, List.take_left]

theorem Lag.grows {n : Nat} {u c u' c' : Sink} (h : Lag n u c) (hu : u.Grows u') (hc : c.Grows c') : Lag n u' c' := by
  have hl := hc.le n h.capC (by rw [h.full]; exact Nat.le_refl _)
  have he : c'.bytes = c.bytes := by
    obtain ⟨t, ht⟩ := hc.pre
    have := congrArg List.length ht
    simp only [List.length_append] at this
    have h0 : t = [] := List.eq_nil_of_length_eq_zero (by have := h.full; omega)
    rw [← ht, h0, List.append_nil]
  exact ⟨hu.cap.trans h.capU, hc.cap.trans h.capC, by rw [he]; exact h.full, by rw [he]; exact h.pre.trans hu.pre,
    Nat.lt_of_lt_of_le h.over hu.pre.length_le⟩

/-- The same output with a limit that is not exceeded. -/
structure Sync (n : Nat) (u c : Sink) : Prop where
  capU : u.cap = none
  eq : c = ⟨u.bytes, some n⟩
  le : u.bytes.length ≤ n

theorem Sync.take {n : Nat} {u c : Sink} (h : Sync n u c) : c.bytes = u.bytes.take n := by
  rw [h.eq, List.take_of_length_le h.le]

theorem Sync.pos {n : Nat} {u c : Sink} (h : Sync n u c) : c.pos = u.pos := by rw [h.eq]; rfl

theorem Sync.write {n : Nat} {u c : Sink} (h : Sync n u c) (b : Bytes) :
    u.ok b = true ∧ ((c.ok b = true ∧ Sync n (u.write b) (c.write b)) ∨ (c.ok b = false ∧ Lag n (u.write b) (c.write b))) := by
  obtain ⟨ub, uc⟩ := u
  obtain ⟨h1, h2, h3⟩ := h
  simp only at h1 h3
  subst h1 h2
  refine ⟨rfl, ?_⟩
  simp only [Sink.ok, Sink.write]
  by_cases hb : b.length ≤ n - ub.length
  · left
    refine ⟨decide_eq_true hb, rfl, ?_, ?_⟩
    · simp only [List.take_of_length_le hb]
    · simp only [List.length_append]; omega
  · right
    refine ⟨decide_eq_false hb, rfl, rfl, ?_, ?_, ?_⟩
    · simp only [List.length_append, List.length_take]; omega
    · simp only
      rw [List.prefix_append_right_inj]
      exact List.take_prefix _ _
    · simp only [List.length_append]; omega

/-- The state of the file writer with a limited output. -/
def IoWriter.limit (n : Nat) (io : IoWriter) : IoWriter := { io with out := ⟨io.out.bytes, some n⟩ }

/-- Two file writers: in step, or the limited one has reached its limit. -/
inductive IoRel (n : Nat) (u c : IoWriter) : Prop
  | sync (cap : u.out.cap = none) (le : u.out.bytes.length ≤ n) (eq : c = u.limit n)
  | lag (h : Lag n u.out c.out)

theorem IoRel.take {n : Nat} {u c : IoWriter} (h : IoRel n u c) : c.out.bytes = u.out.bytes.take n := by
  cases h with
  | sync cap le eq => rw [eq, IoWriter.limit, List.take_of_length_le le]
  | lag h => exact h.take

theorem sync_limit {n : Nat} {u : IoWriter} (cap : u.out.cap = none) (le : u.out.bytes.length ≤ n) :
    Sync n u.out (u.limit n).out := ⟨cap, rfl, le⟩

theorem IoRel.writeToFileWriter {env : Env} {n : Nat} {u : IoWriter} (cap : u.out.cap = none) (le : u.out.bytes.length ≤ n)
    (c : ChunkWriter) {c' : ChunkWriter} {u' : IoWriter} (h : c.writeToFileWriter env u = some (c', u')) :
    ∃ v', c.writeToFileWriter env (u.limit n) = some (c', v') ∧ IoRel n u' v' := by
  rw [ChunkWriter.writeToFileWriter] at h ⊢
  cases hs : c.sealCurrentPage env with
  | none => rw [hs] at h; simp at h
  | some c1 =>
    rw [hs] at h
    dsimp only at h ⊢
    by_cases h0 : c1.statistics.count = 0
    · rw [if_pos h0] at h ⊢
      cases h
      exact ⟨_, rfl, .sync cap le rfl⟩
    · rw [if_neg h0] at h ⊢
      simp only [IoWriter.startFlushChunk, IoWriter.endCurrentChunk] at h ⊢
      generalize ChunkHeader.serialize _ = hb at h ⊢
      cases h
      refine ⟨_, rfl, ?_⟩
      obtain ⟨_, h1 | h1⟩ := (sync_limit cap le).write hb
      · obtain ⟨_, h2 | h2⟩ := h1.2.write c1.pageBuffer
        · refine .sync h2.2.capU h2.2.le ?_
          have := h2.2.eq
          simp only [IoWriter.limit] at this ⊢
          rw [this]
          rfl
        · exact .lag h2.2
      · exact .lag (h1.2.grows (Sink.write_grows _ _) (Sink.write_grows _ _))

theorem IoRel.writeAllChunks {env : Env} {n : Nat} (l : BMap ChunkWriter) {u : IoWriter} (cap : u.out.cap = none)
    (le : u.out.bytes.length ≤ n) {l' : BMap ChunkWriter} {u' : IoWriter}
    (h : GroupWriter.writeAllChunks env l u = some (l', u')) :
    ∃ v', GroupWriter.writeAllChunks env l (u.limit n) = some (l', v') ∧ IoRel n u' v' := by
  induction l generalizing u l' u' with
  | nil =>
    rw [GroupWriter.writeAllChunks] at h
    cases h
    exact ⟨_, rfl, .sync cap le rfl⟩
  | cons p l ih =>
    obtain ⟨m, c⟩ := p
    rw [GroupWriter.writeAllChunks] at h
    cases h1 : c.writeToFileWriter env u with
    | none => rw [h1] at h; simp at h
    | some x =>
      obtain ⟨c', u1⟩ := x
      rw [h1] at h
      simp only at h
      obtain ⟨v1, e1, r1⟩ := IoRel.writeToFileWriter cap le c h1
      cases h2 : GroupWriter.writeAllChunks env l u1 with
      | none => rw [h2] at h; simp at h
      | some y =>
        obtain ⟨l1, u2⟩ := y
        rw [h2] at h
        simp only [Option.some.injEq, Prod.mk.injEq] at h
        obtain ⟨rfl, rfl⟩ := h
        rw [GroupWriter.writeAllChunks, e1]
        simp only
        cases r1 with
        | sync cap1 le1 eq1 =>
          subst eq1
          obtain ⟨v2, e2, r2⟩ := ih cap1 le1 h2
          rw [e2]
          exact ⟨v2, rfl, r2⟩
        | lag hl =>
          rcases Grows.writeAllChunks env l u1 with hn | ⟨l2, hg⟩
          · rw [hn] at h2; simp at h2
          · obtain ⟨x, e3, g3⟩ := hg u1
            obtain ⟨y, e4, g4⟩ := hg v1
            rw [h2] at e3
            simp only [Option.some.injEq, Prod.mk.injEq] at e3
            obtain ⟨rfl, rfl⟩ := e3
            rw [e4]
            exact ⟨y, rfl, .lag (hl.grows g3 g4)⟩

theorem IoRel.flushToFilewriter {env : Env} {n : Nat} (g : GroupWriter) {u : IoWriter} (cap : u.out.cap = none)
    (le : u.out.bytes.length ≤ n) {g' : GroupWriter} {u' : IoWriter} {size : Nat}
    (h : g.flushToFilewriter env u = some (g', u', size)) :
    ∃ v', g.flushToFilewriter env (u.limit n) = some (g', v', size) ∧ IoRel n u' v' := by
  rw [GroupWriter.flushToFilewriter] at h ⊢
  cases hs : GroupWriter.sealAll env g.chunkWriters with
  | none => rw [hs] at h; simp at h
  | some cs =>
    rw [hs] at h
    simp only at h ⊢
    cases h1 : GroupWriter.writeAllChunks env cs u with
    | none => rw [h1] at h; simp at h
    | some x =>
      obtain ⟨l', u1⟩ := x
      rw [h1] at h
      simp only [Option.some.injEq, Prod.mk.injEq] at h
      obtain ⟨rfl, rfl, rfl⟩ := h
      obtain ⟨v1, e1, r1⟩ := IoRel.writeAllChunks cs cap le h1
      rw [e1]
      exact ⟨v1, rfl, r1⟩

theorem IoRel.startChunkGroup {n : Nat} {u : IoWriter} (cap : u.out.cap = none) (le : u.out.bytes.length ≤ n) (d : Bytes) :
    (u.startChunkGroup d).2 = true
    ∧ (((u.limit n).startChunkGroup d = ((u.startChunkGroup d).1.limit n, true)
          ∧ (u.startChunkGroup d).1.out.cap = none ∧ (u.startChunkGroup d).1.out.bytes.length ≤ n)
      ∨ (((u.limit n).startChunkGroup d).2 = false ∧ Lag n (u.startChunkGroup d).1.out ((u.limit n).startChunkGroup d).1.out)) := by
  obtain ⟨h0, h⟩ := (sync_limit cap le).write (chunkGroupHeader d)
  simp only [IoWriter.startChunkGroup, h0, if_true, true_and]
  rcases h with ⟨h1, h2⟩ | ⟨h1, h2⟩
  · left
    rw [h1]
    refine ⟨?_, h2.capU, h2.le⟩
    simp only [if_true, h2.eq]
    rfl
  · right
    rw [h1]
    exact ⟨rfl, h2⟩

theorem IoRel.endChunkGroup {n : Nat} (u : IoWriter) : (u.limit n).endChunkGroup = u.endChunkGroup.limit n := by
  obtain ⟨out, cd, cml, ccm, cgm, tm⟩ := u
  simp only [IoWriter.endChunkGroup, IoWriter.limit]
  cases cd with
  | none => rfl
  | some d => cases cml <;> rfl

/-- The result of the flush loop beside the limited one: the same, or the limit was reached. -/
theorem IoRel.flushLoop {env : Env} {n : Nat} (l : BMap GroupWriter) {u : IoWriter} (cap : u.out.cap = none)
    (le : u.out.bytes.length ≤ n) (lm : BMap (BMap W64))
    {r q : BMap GroupWriter × IoWriter × BMap (BMap W64) × Option TsFileError} (h : Writer.flushLoop env l u lm = some r)
    (hq : Writer.flushLoop env l (u.limit n) lm = some q) :
    (q = (r.1, r.2.1.limit n, r.2.2) ∧ r.2.1.out.cap = none ∧ r.2.1.out.bytes.length ≤ n) ∨ Lag n r.2.1.out q.2.1.out := by
  induction l generalizing u lm r q with
  | nil =>
    rw [Writer.flushLoop] at h hq
    cases h
    cases hq
    exact Or.inl ⟨rfl, cap, le⟩
  | cons p l ih =>
    obtain ⟨d, g⟩ := p
    obtain ⟨hb, hs⟩ := IoRel.startChunkGroup cap le d
    rw [Writer.flushLoop] at h hq
    rcases hsu : u.startChunkGroup d with ⟨u1, b⟩
    rw [hsu] at h hb hs
    simp only at hb hs
    subst hb
    simp only at h
    rcases Grows.flushToFilewriter env g with hn | ⟨g', size, hg⟩
    · rw [hn] at h; simp at h
    · obtain ⟨u2, e2, gr2⟩ := hg u1
      rw [e2] at h
      simp only at h
      have hru : u2.out.Grows r.2.1.out := by
        split at h
        · cases h; exact Sink.Grows.refl _
        · cases hr : Writer.flushLoop env l u2.endChunkGroup (lm.insert d g'.lastTimeMap) with
          | none => rw [hr] at h; simp at h
          | some r' =>
            rw [hr] at h
            simp only [Option.some.injEq] at h
            subst h
            have := Grows.flushLoop env _ _ _ hr
            rw [Grows.endChunkGroup] at this
            exact this
      rcases hs with ⟨hs1, hs2, hs3⟩ | ⟨hs1, hs2⟩
      · rw [hs1] at hq
        simp only at hq
        obtain ⟨v2, f2, r2⟩ := IoRel.flushToFilewriter g hs2 hs3 e2
        rw [f2] at hq
        simp only at hq
        have hqu : v2.out.Grows q.2.1.out := by
          split at hq
          · cases hq; exact Sink.Grows.refl _
          · cases hr : Writer.flushLoop env l v2.endChunkGroup (lm.insert d g'.lastTimeMap) with
            | none => rw [hr] at hq; simp at hq
            | some r' =>
              rw [hr] at hq
              simp only [Option.some.injEq] at hq
              subst hq
              have := Grows.flushLoop env _ _ _ hr
              rw [Grows.endChunkGroup] at this
              exact this
        cases r2 with
        | sync cap2 le2 eq2 =>
          subst eq2
          have hp1 : (u1.limit n).out.pos = u1.out.pos := rfl
          have hp2 : (u2.limit n).out.pos = u2.out.pos := rfl
          rw [hp1, hp2] at hq
          by_cases hsz : u2.out.pos - u1.out.pos ≠ size
          · rw [if_pos hsz] at h hq
            cases h
            cases hq
            exact Or.inl ⟨rfl, cap2, le2⟩
          · rw [if_neg hsz] at h hq
            rw [IoRel.endChunkGroup] at hq
            cases hr : Writer.flushLoop env l u2.endChunkGroup (lm.insert d g'.lastTimeMap) with
            | none => rw [hr] at h; simp at h
            | some r' =>
              rw [hr] at h
              simp only [Option.some.injEq] at h
              subst h
              cases hr2 : Writer.flushLoop env l (u2.endChunkGroup.limit n) (lm.insert d g'.lastTimeMap) with
              | none => rw [hr2] at hq; simp at hq
              | some q' =>
                rw [hr2] at hq
                simp only [Option.some.injEq] at hq
                subst hq
                rcases ih (by rw [Grows.endChunkGroup]; exact cap2) (by rw [Grows.endChunkGroup]; exact le2) _ hr hr2 with
                  ⟨hq2, hq3, hq4⟩ | hq2
                · left
                  subst hq2
                  exact ⟨rfl, hq3, hq4⟩
                · exact Or.inr hq2
        | lag hl => exact Or.inr (hl.grows hru hqu)
      · right
        have : q.2.1 = ((u.limit n).startChunkGroup d).1 := by
          rcases hv : (u.limit n).startChunkGroup d with ⟨v1, b⟩
          rw [hv] at hq hs1
          simp only at hs1
          subst hs1
          simp only at hq
          cases hq
          rfl
        rw [this]
        exact hs2.grows (gr2.trans hru) (Sink.Grows.refl _)

/-- Two writers: in step, or the limited one has reached its limit. -/
inductive WRel (n : Nat) (u c : Writer) : Prop
  | sync (cap : u.io.out.cap = none) (le : u.io.out.bytes.length ≤ n) (eq : c = { u with io := u.io.limit n })
  | lag (h : Lag n u.io.out c.io.out)

theorem WRel.take {n : Nat} {u c : Writer} (h : WRel n u c) : c.io.out.bytes = u.io.out.bytes.take n := by
  cases h with
  | sync cap le eq => rw [eq]; exact (IoRel.sync cap le rfl : IoRel n u.io (u.io.limit n)).take
  | lag h => exact h.take

theorem WRel.flushAll {env : Env} {n : Nat} {u c u' c' : Writer} {e e' : Option TsFileError} (h : WRel n u c)
    (hu : u.flushAllChunkGroups env = some (u', e)) (hc : c.flushAllChunkGroups env = some (c', e')) : WRel n u' c' := by
  cases h with
  | lag h => exact .lag (h.grows (Grows.flushAll env _ hu) (Grows.flushAll env _ hc))
  | sync cap le eq =>
    subst eq
    rw [Writer.flushAllChunkGroups] at hu hc
    simp only at hc
    by_cases hr : u.recordCount.toNat > 0
    · rw [if_pos hr] at hu hc
      cases h1 : Writer.flushLoop env u.groupWriters u.io u.nonAlignedLastTimeMap with
      | none => rw [h1] at hu; simp at hu
      | some r =>
        cases h2 : Writer.flushLoop env u.groupWriters (u.io.limit n) u.nonAlignedLastTimeMap with
        | none => rw [h2] at hc; simp at hc
        | some q =>
          have hrel := IoRel.flushLoop u.groupWriters cap le u.nonAlignedLastTimeMap h1 h2
          rw [h1] at hu
          rw [h2] at hc
          obtain ⟨g1, i1, l1, e1⟩ := r
          obtain ⟨g2, i2, l2, e2⟩ := q
          rcases hrel with ⟨hq, hq2, hq3⟩ | hl
          · simp only [Prod.mk.injEq] at hq
            obtain ⟨rfl, rfl, rfl, rfl⟩ := hq
            cases e2 <;> simp only [Option.some.injEq, Prod.mk.injEq] at hu hc <;>
              (rw [← hu.1, ← hc.1]; exact .sync hq2 hq3 rfl)
          · refine .lag ?_
            have a1 : u'.io = i1 := by
              cases e1 <;> simp only [Option.some.injEq, Prod.mk.injEq] at hu <;> exact hu.1 ▸ rfl
            have a2 : c'.io = i2 := by
              cases e2 <;> simp only [Option.some.injEq, Prod.mk.injEq] at hc <;> exact hc.1 ▸ rfl
            rw [a1, a2]
            exact hl
    · rw [if_neg hr] at hu hc
      cases hu
      cases hc
      exact .sync cap le rfl

theorem WRel.checkMem {env : Env} {n : Nat} {u c u' c' : Writer} (h : WRel n u c)
    (hu : u.checkMemorySize env = some u') (hc : c.checkMemorySize env = some c') : WRel n u' c' := by
  cases h with
  | lag h => exact .lag (h.grows (Grows.checkMem env _ hu) (Grows.checkMem env _ hc))
  | sync cap le eq =>
    subst eq
    rw [Writer.checkMemorySize] at hu hc
    simp only at hu hc
    have hm : Writer.memSize { u with io := u.io.limit n } = u.memSize := rfl
    rw [hm] at hc
    by_cases h1 : u.recordCount.toNat ≥ u.recordCountForNextMemCheck.toNat
    · rw [if_pos h1] at hu hc
      by_cases h2 : u.memSize.toNat = 0
      · rw [if_pos h2] at hu; simp at hu
      · rw [if_neg h2] at hu hc
        by_cases h3 : u.memSize.toNat > chunkGroupSizeThreshold
        · rw [if_pos h3] at hu hc
          obtain ⟨⟨x, e⟩, hx, rfl⟩ := Option.map_eq_some_iff.1 hu
          obtain ⟨⟨y, e'⟩, hy, rfl⟩ := Option.map_eq_some_iff.1 hc
          exact WRel.flushAll (.sync (u := { u with recordCountForNextMemCheck := Writer.nextMemCheck u.recordCountForNextMemCheck u.memSize }) cap le rfl) hx hy
        · rw [if_neg h3] at hu hc
          cases hu
          cases hc
          exact .sync cap le rfl
    · rw [if_neg h1] at hu hc
      cases hu
      cases hc
      exact .sync cap le rfl

theorem WRel.step {env : Env} {n : Nat} {u c : Writer} (h : WRel n u c) (op : Op) (hu : (u.step env op).2 ≠ .panic)
    (hc : (c.step env op).2 ≠ .panic) : WRel n (u.step env op).1 (c.step env op).1 := by
  cases h with
  | lag h => exact .lag (h.grows (Grows.step env _ _) (Grows.step env _ _))
  | sync cap le eq =>
    subst eq
    cases op with
    | write d m t v =>
      simp only [Writer.step, Writer.write] at hu hc ⊢
      cases hg : u.groupWriters.get? d with
      | none => exact .sync cap le rfl
      | some g =>
        simp only [hg] at hu hc ⊢
        rcases hw : g.write env m t v with ⟨g', r⟩
        rw [hw] at hu hc
        cases r with
        | panic => exact absurd rfl hu
        | err e => exact .sync cap le rfl
        | ok k =>
          simp only at hu hc ⊢
          cases h1 : Writer.checkMemorySize env
              { u with groupWriters := u.groupWriters.insert d g', recordCount := u.recordCount + k } with
          | none => rw [h1] at hu; exact absurd rfl hu
          | some u' =>
            cases h2 : Writer.checkMemorySize env
                { u with groupWriters := u.groupWriters.insert d g', recordCount := u.recordCount + k, io := u.io.limit n } with
            | none => rw [h2] at hc; exact absurd rfl hc
            | some c' => exact WRel.checkMem (.sync (u := { u with groupWriters := u.groupWriters.insert d g', recordCount := u.recordCount + k }) cap le rfl) h1 h2
    | writeMany d t vs =>
      simp only [Writer.step, Writer.writeMany] at hu hc ⊢
      cases hg : u.groupWriters.get? d with
      | none => exact .sync cap le rfl
      | some g =>
        simp only [hg] at hu hc ⊢
        rcases hw : g.writeMany env t vs 0 with ⟨g', r⟩
        rw [hw] at hu hc
        cases r with
        | panic => exact absurd rfl hu
        | err e => exact .sync cap le rfl
        | ok k =>
          simp only at hu hc ⊢
          cases h1 : Writer.checkMemorySize env
              { u with groupWriters := u.groupWriters.insert d g', recordCount := u.recordCount + k } with
          | none => rw [h1] at hu; exact absurd rfl hu
          | some u' =>
            cases h2 : Writer.checkMemorySize env
                { u with groupWriters := u.groupWriters.insert d g', recordCount := u.recordCount + k, io := u.io.limit n } with
            | none => rw [h2] at hc; exact absurd rfl hc
            | some c' => exact WRel.checkMem (.sync (u := { u with groupWriters := u.groupWriters.insert d g', recordCount := u.recordCount + k }) cap le rfl) h1 h2

theorem WRel.run {env : Env} {n : Nat} (ops : List Op) {u c : Writer} (h : WRel n u c) (hu : .panic ∉ (u.run env ops).2)
    (hc : .panic ∉ (c.run env ops).2) : WRel n (u.run env ops).1 (c.run env ops).1 := by
  induction ops generalizing u c with
  | nil => exact h
  | cons op ops ih =>
    simp only [Writer.run, List.mem_cons, not_or] at hu hc ⊢
    exact ih (h.step op (Ne.symm hu.1) (Ne.symm hc.1)) hu.2 hc.2

/-! ## Closing on a limited output -/

/-- The index nodes have children in the same places. -/
def SameShape (a b : List IndexNode) : Prop := a.map (fun n => n.children.length) = b.map (fun n => n.children.length)

theorem rootNodePass_shape (p p' k : Nat) (q q' : List IndexNode) (cur cur' : IndexNode) (h : SameShape q q')
    (hc : cur.children.length = cur'.children.length) :
    match rootNodePass p k q cur, rootNodePass p' k q' cur' with
    | none, none => True
    | some r, some r' => SameShape r.1 r'.1 ∧ r.2.children.length = r'.2.children.length
    | _, _ => False := by
  induction k generalizing q q' cur cur' with
  | zero => exact ⟨h, hc⟩
  | succ k ih =>
    rw [rootNodePass, rootNodePass]
    rcases List.eq_nil_or_concat q with rfl | ⟨q0, x, rfl⟩
    · have : q' = [] := by
        have := congrArg List.length h
        simp only [List.map_nil, List.length_nil, List.length_map] at this
        exact List.eq_nil_of_length_eq_zero this.symm
      subst this
      simp
    · rcases List.eq_nil_or_concat q' with rfl | ⟨q1, x', rfl⟩
      · have := congrArg List.length h
        simp at this
      · simp only [List.concat_eq_append, SameShape, List.map_append, List.map_cons, List.map_nil] at h
        have h1 := List.append_inj' h rfl
        simp only [List.cons.injEq, and_true] at h1
        simp only [List.concat_eq_append, List.getLast?_concat, List.dropLast_concat]
        cases hx : x.children with
        | nil =>
          rw [hx] at h1
          have : x'.children = [] := List.eq_nil_of_length_eq_zero h1.2.symm
          rw [this]
          trivial
        | cons a as =>
          rw [hx] at h1
          cases hx' : x'.children with
          | nil => rw [hx'] at h1; simp at h1
          | cons b bs =>
            simp only
            have hf : cur.isFull = cur'.isFull := by simp only [IndexNode.isFull, hc]
            rw [hf]
            cases hfc : cur'.isFull with
            | false =>
              simp only [Bool.false_eq_true, if_false]
              exact ih _ _ _ _ h1.1 (by simp only [List.length_append, hc, List.length_cons, List.length_nil])
            | true =>
              simp only [if_true]
              exact ih _ _ _ _ (by simp only [SameShape, List.map_append, h1.1, List.map_cons, List.map_nil, hc])
                (by simp only [List.length_append, hc, List.length_cons, List.length_nil])

theorem rootNodeLoop_shape (p p' : Nat) (t : NodeType) (fuel : Nat) (q q' : List IndexNode) (h : SameShape q q') :
    (rootNodeLoop p t fuel q).isSome = (rootNodeLoop p' t fuel q').isSome := by
  have hl : q.length = q'.length := by
    have := congrArg List.length h
    simpa only [List.length_map] using this
  induction fuel generalizing q q' with
  | zero =>
    rw [rootNodeLoop.eq_def, rootNodeLoop.eq_def]
    dsimp only
    rw [hl]
    split
    · cases q <;> cases q' <;> simp_all
    · rfl
  | succ fuel ih =>
    rw [rootNodeLoop.eq_def, rootNodeLoop.eq_def]
    dsimp only
    rw [hl]
    split
    · cases q <;> cases q' <;> simp_all
    · have := rootNodePass_shape p p' q'.length q q' (IndexNode.new t) (IndexNode.new t) h rfl
      cases h1 : rootNodePass p q'.length q (IndexNode.new t) with
      | none =>
        rw [h1] at this
        cases h2 : rootNodePass p' q'.length q' (IndexNode.new t) with
        | none => rfl
        | some r' => rw [h2] at this; exact this.elim
      | some r =>
        rw [h1] at this
        cases h2 : rootNodePass p' q'.length q' (IndexNode.new t) with
        | none => rw [h2] at this; exact this.elim
        | some r' =>
          rw [h2] at this
          simp only at this ⊢
          refine ih _ _ (by simp only [SameShape, List.map_append, List.map_cons, List.map_nil, this.2]; rw [this.1]) ?_
          have := congrArg List.length this.1
          simp only [List.length_map] at this
          simp only [List.length_append, this, List.length_cons, List.length_nil]

theorem leafLoop_shape (env : Env) (l : List TimeSeriesMetadata) (i : Nat) (s s' : LeafState)
    (h : SameShape s.queue s'.queue) (hc : s.cur.children.length = s'.cur.children.length) :
    SameShape (leafLoop env i s l).queue (leafLoop env i s' l).queue
    ∧ (leafLoop env i s l).cur.children.length = (leafLoop env i s' l).cur.children.length := by
  induction l generalizing i s s' with
  | nil => exact ⟨h, hc⟩
  | cons t l ih =>
    rw [TsFile.leafLoop, TsFile.leafLoop]
    dsimp only
    have hf : s.cur.isFull = s'.cur.isFull := by simp only [IndexNode.isFull, hc]
    rw [hf]
    by_cases hi : i % maxDegree = 0
    · simp only [if_pos hi]
      cases s'.cur.isFull with
      | false =>
        simp only [Bool.false_eq_true, if_false]
        exact ih _ _ _ h (by simp only [List.length_append, hc, List.length_cons, List.length_nil])
      | true =>
        simp only [if_true]
        exact ih _ _ _ (by simp only [SameShape, List.map_append, List.map_cons, List.map_nil, hc]; rw [h]) rfl
    · simp only [if_neg hi]
      exact ih _ _ _ h hc

/-- Whether the index of a device can be made does not depend on the output. -/
theorem deviceIndex_isSome (env : Env) (l : List TimeSeriesMetadata) (o o' : Sink) :
    (deviceIndex env o l).isSome = (deviceIndex env o' l).isSome := by
  rw [deviceIndex, deviceIndex]
  simp only [Option.isSome_map]
  have := leafLoop_shape env l 0 ⟨o, IndexNode.new .leafMeasurement, []⟩ ⟨o', IndexNode.new .leafMeasurement, []⟩ rfl rfl
  rw [generateRootNode, generateRootNode]
  have hl : (leafLoop env 0 ⟨o, IndexNode.new .leafMeasurement, []⟩ l).queue.length
      = (leafLoop env 0 ⟨o', IndexNode.new .leafMeasurement, []⟩ l).queue.length := by
    have := congrArg List.length this.1
    simpa only [List.length_map] using this
  simp only [List.length_append, hl]
  refine rootNodeLoop_shape _ _ _ _ _ _ ?_
  simp only [SameShape, List.map_append, List.map_cons, List.map_nil, this.2]
  rw [this.1]

theorem devicesLoop_total (env : Env) (m : BMap (List TimeSeriesMetadata)) (o o' : Sink) {r : Sink × List (Bytes × IndexNode)}
    (h : devicesLoop env o m = some r) :
    ∃ r', devicesLoop env o' m = some r' ∧ r'.2.map Prod.fst = r.2.map Prod.fst := by
  induction m generalizing o o' r with
  | nil =>
    rw [devicesLoop] at h
    cases h
    exact ⟨_, rfl, rfl⟩
  | cons p m ih =>
    obtain ⟨d, l⟩ := p
    rw [devicesLoop] at h ⊢
    by_cases hl : l.isEmpty
    · rw [if_pos hl] at h ⊢
      exact ih _ _ h
    · rw [if_neg hl] at h ⊢
      cases hd : deviceIndex env o l with
      | none => rw [hd] at h; simp at h
      | some x =>
        rw [hd] at h
        simp only at h
        have hs := deviceIndex_isSome env l o o'
        rw [hd] at hs
        obtain ⟨y, hy⟩ := Option.isSome_iff_exists.1 hs.symm
        rw [hy]
        simp only
        cases hr : devicesLoop env x.1 m with
        | none => rw [hr] at h; simp at h
        | some z =>
          rw [hr] at h
          simp only [Option.some.injEq] at h
          subst h
          obtain ⟨z', hz, hz2⟩ := ih x.1 y.1 hr
          rw [hz]
          exact ⟨_, rfl, by simp only [List.map_cons, hz2]⟩

theorem construct_total (env : Env) (m : BMap (List TimeSeriesMetadata)) (o o' : Sink) {r : Sink × IndexNode}
    (h : constructMetadataIndex env m o = some r) : ∃ r', constructMetadataIndex env m o' = some r' := by
  rw [constructMetadataIndex] at h ⊢
  cases hd : devicesLoop env o m with
  | none => rw [hd] at h; simp at h
  | some x =>
    obtain ⟨x', hx, hx2⟩ := devicesLoop_total env m o o' hd
    rw [hd] at h
    rw [hx]
    simp only at h ⊢
    have hl : x'.2.length = x.2.length := by
      have := congrArg List.length hx2
      simpa only [List.length_map] using this
    rw [hl]
    split at h
    · next hm => rw [if_pos hm]; exact ⟨_, rfl⟩
    · simp at h

/-- In step, or the limit was reached. -/
inductive SRel (n : Nat) (u c : Sink) : Prop
  | sync (h : Sync n u c)
  | lag (h : Lag n u c)

theorem SRel.take {n : Nat} {u c : Sink} (h : SRel n u c) : c.bytes = u.bytes.take n := by
  cases h with
  | sync h => exact h.take
  | lag h => exact h.take

theorem Sync.leafLoop {n : Nat} (env : Env) (l : List TimeSeriesMetadata) (i : Nat) {o o' : Sink} (cur : IndexNode)
    (q : List IndexNode) (h : Sync n o o') :
    (Sync n (leafLoop env i ⟨o, cur, q⟩ l).out (leafLoop env i ⟨o', cur, q⟩ l).out
      ∧ (leafLoop env i ⟨o', cur, q⟩ l).cur = (leafLoop env i ⟨o, cur, q⟩ l).cur
      ∧ (leafLoop env i ⟨o', cur, q⟩ l).queue = (leafLoop env i ⟨o, cur, q⟩ l).queue)
    ∨ Lag n (leafLoop env i ⟨o, cur, q⟩ l).out (leafLoop env i ⟨o', cur, q⟩ l).out := by
  induction l generalizing i o o' cur q with
  | nil => exact Or.inl ⟨h, rfl, rfl⟩
  | cons t l ih =>
    rw [TsFile.leafLoop, TsFile.leafLoop]
    dsimp only
    simp only [h.pos]
    have hw := (h.write (t.serialize env)).2
    by_cases hi : i % maxDegree = 0
    · simp only [if_pos hi]
      cases cur.isFull <;> simp only [Bool.false_eq_true, if_false, if_true, h.pos] <;>
      · rcases hw with ⟨_, hw⟩ | ⟨_, hw⟩
        · exact ih _ _ _ hw
        · exact Or.inr (hw.grows (Grows.leafLoop env l (i + 1) ⟨_, _, _⟩) (Grows.leafLoop env l (i + 1) ⟨_, _, _⟩))
    · simp only [if_neg hi]
      rcases hw with ⟨_, hw⟩ | ⟨_, hw⟩
      · exact ih _ _ _ hw
      · exact Or.inr (hw.grows (Grows.leafLoop env l (i + 1) ⟨_, _, _⟩) (Grows.leafLoop env l (i + 1) ⟨_, _, _⟩))

theorem Sync.deviceIndex {n : Nat} (env : Env) (l : List TimeSeriesMetadata) {o o' : Sink} (h : Sync n o o')
    {r r' : Sink × IndexNode} (hr : deviceIndex env o l = some r) (hr' : deviceIndex env o' l = some r') :
    (Sync n r.1 r'.1 ∧ r'.2 = r.2) ∨ Lag n r.1 r'.1 := by
  rw [TsFile.deviceIndex] at hr hr'
  obtain ⟨x, hx, rfl⟩ := Option.map_eq_some_iff.1 hr
  obtain ⟨x', hx', rfl⟩ := Option.map_eq_some_iff.1 hr'
  rcases Sync.leafLoop env l 0 (IndexNode.new .leafMeasurement) [] h with ⟨h1, h2, h3⟩ | h1
  · left
    refine ⟨h1, ?_⟩
    rw [h2, h3, h1.pos, hx] at hx'
    exact (Option.some.inj hx').symm
  · exact Or.inr h1

theorem Sync.devicesLoop {n : Nat} (env : Env) (m : BMap (List TimeSeriesMetadata)) {o o' : Sink} (h : Sync n o o')
    {r r' : Sink × List (Bytes × IndexNode)} (hr : devicesLoop env o m = some r) (hr' : devicesLoop env o' m = some r') :
    (Sync n r.1 r'.1 ∧ r'.2 = r.2) ∨ Lag n r.1 r'.1 := by
  induction m generalizing o o' r r' with
  | nil =>
    rw [TsFile.devicesLoop] at hr hr'
    cases hr
    cases hr'
    exact Or.inl ⟨h, rfl⟩
  | cons p m ih =>
    obtain ⟨d, l⟩ := p
    rw [TsFile.devicesLoop] at hr hr'
    by_cases hl : l.isEmpty
    · rw [if_pos hl] at hr hr'
      exact ih h hr hr'
    · rw [if_neg hl] at hr hr'
      cases hd : TsFile.deviceIndex env o l with
      | none => rw [hd] at hr; simp at hr
      | some x =>
        cases hd' : TsFile.deviceIndex env o' l with
        | none => rw [hd'] at hr'; simp at hr'
        | some x' =>
          rw [hd] at hr
          rw [hd'] at hr'
          simp only at hr hr'
          cases h1 : TsFile.devicesLoop env x.1 m with
          | none => rw [h1] at hr; simp at hr
          | some y =>
            cases h2 : TsFile.devicesLoop env x'.1 m with
            | none => rw [h2] at hr'; simp at hr'
            | some y' =>
              rw [h1] at hr
              rw [h2] at hr'
              simp only [Option.some.injEq] at hr hr'
              subst hr hr'
              rcases Sync.deviceIndex env l h hd hd' with ⟨h3, h4⟩ | h3
              · rcases ih h3 h1 h2 with ⟨h5, h6⟩ | h5
                · exact Or.inl ⟨h5, by simp only [h4, h6]⟩
                · exact Or.inr h5
              · have a := Grows.devicesLoop env _ _ h1
                have b := Grows.devicesLoop env _ _ h2
                exact Or.inr (h3.grows a b)

theorem Sync.writeDeviceNodes {n : Nat} (l : List (Bytes × IndexNode)) {o o' : Sink} (h : Sync n o o') :
    (Sync n (writeDeviceNodes o l).1 (writeDeviceNodes o' l).1 ∧ (writeDeviceNodes o' l).2 = (writeDeviceNodes o l).2)
    ∨ Lag n (writeDeviceNodes o l).1 (writeDeviceNodes o' l).1 := by
  induction l generalizing o o' with
  | nil => exact Or.inl ⟨h, rfl⟩
  | cons p l ih =>
    simp only [TsFile.writeDeviceNodes]
    rcases (h.write p.2.serialize).2 with ⟨_, hw⟩ | ⟨_, hw⟩
    · rcases ih hw with ⟨h1, h2⟩ | h1
      · exact Or.inl ⟨h1, by rw [h2, h.pos]⟩
      · exact Or.inr h1
    · exact Or.inr (hw.grows (Grows.writeDeviceNodes _ _) (Grows.writeDeviceNodes _ _))

theorem Sync.construct {n : Nat} (env : Env) (m : BMap (List TimeSeriesMetadata)) {o o' : Sink} (h : Sync n o o')
    {r r' : Sink × IndexNode} (hr : constructMetadataIndex env m o = some r)
    (hr' : constructMetadataIndex env m o' = some r') : (Sync n r.1 r'.1 ∧ r'.2 = r.2) ∨ Lag n r.1 r'.1 := by
  rw [constructMetadataIndex] at hr hr'
  cases hd : TsFile.devicesLoop env o m with
  | none => rw [hd] at hr; simp at hr
  | some x =>
    cases hd' : TsFile.devicesLoop env o' m with
    | none => rw [hd'] at hr'; simp at hr'
    | some x' =>
      rw [hd] at hr
      rw [hd'] at hr'
      simp only at hr hr'
      split at hr
      · split at hr'
        · simp only [Option.some.injEq] at hr hr'
          subst hr hr'
          rcases Sync.devicesLoop env m h hd hd' with ⟨h3, h4⟩ | h3
          · rw [h4]
            rcases Sync.writeDeviceNodes (env.hashOrder x.2) h3 with ⟨h5, h6⟩ | h5
            · exact Or.inl ⟨h5, by simp only [h6, h5.pos]⟩
            · exact Or.inr h5
          · exact Or.inr (h3.grows (Grows.writeDeviceNodes _ _) (Grows.writeDeviceNodes _ _))
        · simp at hr'
      · simp at hr

theorem SRel.grows2 {n : Nat} {u c : Sink} (h : SRel n u c) (b : Bytes) : SRel n (u.write b) (c.write b) := by
  cases h with
  | sync h =>
    rcases (h.write b).2 with ⟨_, h⟩ | ⟨_, h⟩
    · exact .sync h
    · exact .lag h
  | lag h => exact .lag (h.grows (Sink.write_grows _ _) (Sink.write_grows _ _))

/-- `end_file` on a limited output that was in step so far. -/
theorem IoRel.endFile_sync {n : Nat} (env : Env) {u u' : IoWriter} (cap : u.out.cap = none) (le : u.out.bytes.length ≤ n)
    (hu : u.endFile env = some u') : ∃ c', (u.limit n).endFile env = some c' ∧ SRel n u'.out c'.out := by
  have hs := sync_limit cap le
  have hcm : (u.limit n).chunkMetadataMap = u.chunkMetadataMap := rfl
  have htm : (u.limit n).timeseriesMetadataMap = u.timeseriesMetadataMap := rfl
  rw [IoWriter.endFile] at hu ⊢
  dsimp only at hu ⊢
  rw [hcm, htm, hs.pos]
  cases h1 : IoWriter.flushIndexLoop env none u.chunkMetadataMap u.timeseriesMetadataMap with
  | none => rw [h1] at hu; simp at hu
  | some tsm =>
    rw [h1] at hu
    simp only at hu ⊢
    cases h2 : constructMetadataIndex env tsm (u.out.write [2]) with
    | none => rw [h2] at hu; simp at hu
    | some r =>
      rw [h2] at hu
      obtain ⟨r', h2'⟩ := construct_total env tsm (u.out.write [2]) ((u.limit n).out.write [2]) h2
      rw [h2']
      simp only at hu ⊢
      cases h3 : BloomFilter.build env (u.chunkMetadataMap.map Prod.fst) with
      | none => rw [h3] at hu; simp at hu
      | some bf =>
        rw [h3] at hu
        simp only at hu ⊢
        cases h4 : bf.serialize with
        | none => rw [h4] at hu; simp at hu
        | some b =>
          rw [h4] at hu
          simp only [Option.some.injEq] at hu ⊢
          refine ⟨_, rfl, ?_⟩
          subst hu
          dsimp only
          have hlag : Lag n r.1 r'.1 → SRel n
              ((((r.1.write (tsFileMetadataSerialize r.2 u.out.pos)).write b).write
                (be32 (u32 (((r.1.write (tsFileMetadataSerialize r.2 u.out.pos)).write b).pos - r.1.pos)))).write magic)
              ((((r'.1.write (tsFileMetadataSerialize r'.2 u.out.pos)).write b).write
                (be32 (u32 (((r'.1.write (tsFileMetadataSerialize r'.2 u.out.pos)).write b).pos - r'.1.pos)))).write magic) := by
            intro hl
            exact .lag (hl.grows (((Sink.write_grows _ _).trans (Sink.write_grows _ _)).trans ((Sink.write_grows _ _).trans
              (Sink.write_grows _ _))) (((Sink.write_grows _ _).trans (Sink.write_grows _ _)).trans ((Sink.write_grows _ _).trans
              (Sink.write_grows _ _))))
          rcases (hs.write [2]).2 with ⟨_, hw⟩ | ⟨_, hw⟩
          · rcases Sync.construct env tsm hw h2 h2' with ⟨h5, h6⟩ | h5
            · rw [h6]
              cases (SRel.sync h5).grows2 (tsFileMetadataSerialize r.2 u.out.pos) |>.grows2 b with
              | sync h7 =>
                rw [h7.pos, h5.pos]
                exact ((SRel.sync h7).grows2 _).grows2 _
              | lag h7 =>
                exact .lag (h7.grows ((Sink.write_grows _ _).trans (Sink.write_grows _ _))
                  ((Sink.write_grows _ _).trans (Sink.write_grows _ _)))
            · exact hlag h5
          · exact hlag (hw.grows (Grows.construct env _ _ h2) (Grows.construct env _ _ h2'))

/-- `end_file`: what a limited output gets. -/
theorem WRel.endFile {n : Nat} (env : Env) {u c : Writer} {u' : IoWriter} (h : WRel n u c) (hu : u.io.endFile env = some u') :
    (∀ c', c.io.endFile env = some c' → c'.out.bytes = u'.out.bytes.take n)
    ∧ (c.io.endFile env = none → c.io.out.bytes = u'.out.bytes.take n) := by
  cases h with
  | lag h =>
    refine ⟨fun c' hc => (h.grows (Grows.endFile env _ hu) (Grows.endFile env _ hc)).take, fun _ => ?_⟩
    exact (h.grows (Grows.endFile env _ hu) (Sink.Grows.refl _)).take
  | sync cap le eq =>
    subst eq
    obtain ⟨x, hx, hr⟩ := IoRel.endFile_sync env cap le hu
    refine ⟨fun c' hc => ?_, fun hc => ?_⟩
    · rw [hx] at hc
      cases hc
      exact hr.take
    · rw [hx] at hc
      simp at hc

end TsFile
