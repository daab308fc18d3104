import Verif.Proofs.Ports
import Verif.Proofs.Coarse
/-! # The writer on an output that fails at will

After a flush that failed, a chunk writer starts again with everything reset except the size that tells where the
statistics of the first page belong. That size is used only when a second page is closed. -/

namespace TsFile
open Spec

namespace ChunkWriter

theorem writePage_size (env : Env) (c : ChunkWriter) (h : c.numPages = 0) (x : Nat) :
    writePageToBuffer env { c with sizeWithoutStatistics := x }
      = (writePageToBuffer env { c with sizeWithoutStatistics := 0 }).map
          (fun c' => { c' with sizeWithoutStatistics := x + c'.sizeWithoutStatistics }) := by
  rw [writePageToBuffer, writePageToBuffer]
  simp only [h, if_true]
  cases c.currentPageWriter with
  | none => rfl
  | some p =>
    simp only
    cases p.prepareBuffer with
    | none => rfl
    | some p =>
      simp only
      cases pageContent env c.compression p.buffer with
      | none => rfl
      | some r =>
        obtain ⟨n, data⟩ := r
        simp only
        cases c.statistics.merge env p.statistics with
        | none => rfl
        | some st => simp only [Option.map_some, Nat.zero_add]

theorem sealCurrentPage_size (env : Env) (c : ChunkWriter) (h : c.numPages = 0) (x : Nat) :
    sealCurrentPage env { c with sizeWithoutStatistics := x }
      = (sealCurrentPage env { c with sizeWithoutStatistics := 0 }).map
          (fun c' => { c' with sizeWithoutStatistics := x + c'.sizeWithoutStatistics }) := by
  rw [sealCurrentPage, sealCurrentPage]
  simp only
  cases hp : c.currentPageWriter with
  | none => simp [hp]
  | some p =>
    simp only
    by_cases h0 : p.pointNumber > 0
    · rw [if_pos h0, if_pos h0]
      have := writePage_size env c h x
      rw [hp] at this
      exact this
    · rw [if_neg h0, if_neg h0]; simp

theorem checkPageSize_size (env : Env) (c : ChunkWriter) (h : c.numPages = 0) (x : Nat) :
    checkPageSize env { c with sizeWithoutStatistics := x }
      = (checkPageSize env { c with sizeWithoutStatistics := 0 }).map
          (fun c' => { c' with sizeWithoutStatistics := x + c'.sizeWithoutStatistics }) := by
  have hw := writePage_size env c h x
  rw [checkPageSize, checkPageSize]
  simp only
  cases hp : c.currentPageWriter with
  | none => simp [hp]
  | some p =>
    rw [hp] at hw
    simp only
    by_cases h0 : p.pointNumber > maxPointsInPage
    · rw [if_pos h0, if_pos h0]
      exact hw
    · rw [if_neg h0, if_neg h0]
      by_cases h1 : p.pointNumber ≥ c.nextCheck
      · rw [if_pos h1, if_pos h1]
        by_cases h2 : p.estimateMaxMemSize.toNat > pageSizeThreshold
        · rw [if_pos h2, if_pos h2]
          rw [hw]
          cases writePageToBuffer env _ with
          | none => rfl
          | some c' => rfl
        · rw [if_neg h2, if_neg h2]; rfl
      · rw [if_neg h1, if_neg h1]; rfl

theorem write_size (env : Env) (c : ChunkWriter) (h : c.numPages = 0) (x : Nat) (t : W64) (v : IoTDBValue) :
    ({ c with sizeWithoutStatistics := x } : ChunkWriter).write env t v
      = match ({ c with sizeWithoutStatistics := 0 } : ChunkWriter).write env t v with
        | .ok (c', n) => .ok ({ c' with sizeWithoutStatistics := x + c'.sizeWithoutStatistics }, n)
        | .err e => .err e
        | .panic => .panic := by
  rw [write, write]
  have ho : ({ c with sizeWithoutStatistics := x } : ChunkWriter).openPage env = c.openPage env := rfl
  have ho' : ({ c with sizeWithoutStatistics := 0 } : ChunkWriter).openPage env = c.openPage env := rfl
  rw [ho, ho']
  cases c.openPage env with
  | error e => rfl
  | ok p =>
    simp only
    cases p.write env t v with
    | none => rfl
    | some p =>
      simp only
      have := checkPageSize_size env { c with currentPageWriter := some p } h x
      simp only at this
      rw [this]
      cases checkPageSize env _ with
      | none => rfl
      | some c' => rfl

end ChunkWriter

section
variable {env : Env} {unsnap : Bytes → Option Bytes} {bad : Bool}

/-- The chunk writer holds the points `pts`; either everything is in order, or (only if `bad`) there was a flush that failed
and at most `n` points came since. -/
def Loose (env : Env) (unsnap : Bytes → Option Bytes) (bad : Bool) (id : Bytes) (ms : MeasurementSchema) (c : ChunkWriter)
    (pts : List Point) (n : Nat) : Prop :=
  (∃ pages cur, ChunkRep env unsnap id ms c pages cur ∧ cur.length ≤ 1048576 ∧ pagesPoints pages ++ cur = pts ∧ FullPages pages)
  ∨ (bad = true ∧ ChunkRep env unsnap id ms { c with sizeWithoutStatistics := 0 } [] pts ∧ pts.length ≤ n)

theorem Loose.mono {id : Bytes} {ms : MeasurementSchema} {c : ChunkWriter} {pts : List Point} {n n' : Nat}
    (h : Loose env unsnap bad id ms c pts n) (hn : n ≤ n') : Loose env unsnap bad id ms c pts n' := by
  rcases h with h | ⟨hbad, h1, h2⟩
  · exact .inl h
  · exact .inr ⟨hbad, h1, by omega⟩

theorem Loose.worse {id : Bytes} {ms : MeasurementSchema} {c : ChunkWriter} {pts : List Point} {n : Nat}
    (h : Loose env unsnap bad id ms c pts n) : Loose env unsnap true id ms c pts n := by
  rcases h with h | ⟨_, h⟩
  · exact .inl h
  · exact .inr ⟨rfl, h⟩

theorem Loose.good {id : Bytes} {ms : MeasurementSchema} {c : ChunkWriter} {pts : List Point} {n n' : Nat}
    (h : Loose env unsnap false id ms c pts n) : Loose env unsnap bad id ms c pts n' := by
  rcases h with h | ⟨h, _⟩
  · exact .inl h
  · cases h

theorem fullPages_few {pages : List GPage} (h : FullPages pages) (hn : (pagesPoints pages).length < 3000) : pages = [] := by
  cases pages with
  | nil => rfl
  | cons g gs =>
    have := h g (by simp)
    simp only [pagesPoints, List.map_cons, List.flatten_cons, List.length_append] at hn
    omega

theorem Loose.write (hsn : SnappyOk env unsnap) {id : Bytes} {ms : MeasurementSchema} {c c' : ChunkWriter} {pts : List Point}
    {n : Nat} (h : Loose env unsnap bad id ms c pts n) (hn : bad = true → n + 1 < 3000) {t : W64} {v : IoTDBValue} {k : W32}
    (hw : c.write env t v = .ok (c', k)) : Loose env unsnap bad id ms c' (pts ++ [(t, v)]) (n + 1) := by
  rcases h with ⟨pages, cur, hr, hl, hb, hf⟩ | ⟨hbad, hr, hl⟩
  · obtain ⟨h1, h2⟩ := chunkRep_write hsn hr hl t v
    obtain ⟨q1, q2⟩ := h2 _ hw
    obtain ⟨c1, pages1, cur1, e1, e2, e3, e4, _, e6, _⟩ := h1 q1 q2
    rw [hw] at e1
    cases e1
    exact .inl ⟨pages1, cur1, e2, e4, by rw [e3, hb], e6 hf⟩
  · replace hn := hn hbad
    have hz : c.numPages = 0 := hr.numPages
    have hs := ChunkWriter.write_size env c hz c.sizeWithoutStatistics t v
    change c.write env t v = _ at hs
    rw [hw] at hs
    obtain ⟨h1, h2⟩ := chunkRep_write hsn hr (by omega) t v
    cases hw0 : ({ c with sizeWithoutStatistics := 0 } : ChunkWriter).write env t v with
    | err e => rw [hw0] at hs; cases hs
    | panic => rw [hw0] at hs; cases hs
    | ok r =>
      obtain ⟨c0, k0⟩ := r
      rw [hw0] at hs
      simp only [Res.ok.injEq, Prod.mk.injEq] at hs
      obtain ⟨hs1, hs2⟩ := hs
      obtain ⟨q1, q2⟩ := h2 _ hw0
      obtain ⟨c1, pages1, cur1, e1, e2, e3, e4, _, e6, _⟩ := h1 q1 q2
      rw [hw0] at e1
      cases e1
      have hf1 := e6 (by intro g hg; simp at hg)
      simp only [pagesPoints, List.map_nil, List.flatten_nil, List.nil_append] at e3
      have hlen := congrArg List.length e3
      simp only [List.length_append, List.length_cons, List.length_nil] at hlen
      have hp : pages1 = [] := fullPages_few hf1 (by simp only [pagesPoints]; omega)
      subst hp
      simp only [List.map_nil, List.flatten_nil, List.nil_append] at e3
      subst e3
      refine .inr ⟨hbad, ?_, by simp; omega⟩
      have h0 := e2.size0 rfl
      have : ({ c' with sizeWithoutStatistics := 0 } : ChunkWriter) = c0 := by
        rw [hs1]
        obtain ⟨_, _, _, _, _, _, _, _, _, _, _, _⟩ := c0
        simp only at h0
        simp [h0]
      rw [this]
      exact e2

/-- A chunk writer without an open page; the size may be wrong. -/
def Shut (env : Env) (unsnap : Bytes → Option Bytes) (id : Bytes) (ms : MeasurementSchema) (c : ChunkWriter)
    (pages : List GPage) : Prop :=
  ∃ x, ChunkRep env unsnap id ms { c with sizeWithoutStatistics := x } pages []

theorem Loose.seal (hsn : SnappyOk env unsnap) {id : Bytes} {ms : MeasurementSchema} {c : ChunkWriter} {pts : List Point}
    {n : Nat} (h : Loose env unsnap bad id ms c pts n) (hn : bad = true → n < 3000) :
    ∃ c' pages, c.sealCurrentPage env = some c' ∧ Shut env unsnap id ms c' pages ∧ pagesPoints pages = pts
      ∧ FullPages pages.dropLast := by
  rcases h with ⟨pages, cur, hr, hl, hb, hf⟩ | ⟨hbad, hr, hl⟩
  · obtain ⟨c1, pages1, e1, e2, e3, e4, _⟩ := chunkRep_seal hsn hr (by omega)
    exact ⟨c1, pages1, e1, ⟨c1.sizeWithoutStatistics, e2⟩, by rw [e3, hb], e4 hf⟩
  · replace hn := hn hbad
    obtain ⟨c1, pages1, e1, e2, e3, e4, _⟩ := chunkRep_seal hsn hr (by omega)
    have hs := ChunkWriter.sealCurrentPage_size env c hr.numPages c.sizeWithoutStatistics
    change c.sealCurrentPage env = _ at hs
    rw [e1] at hs
    exact ⟨_, pages1, hs, ⟨c1.sizeWithoutStatistics, e2⟩, by rw [e3]; rfl, e4 (by intro g hg; simp at hg)⟩

theorem Shut.size {id : Bytes} {ms : MeasurementSchema} {c : ChunkWriter} {pages : List GPage}
    (h : Shut env unsnap id ms c pages) :
    c.getSerializedChunkSize = if pages = [] then 0 else (GChunk.bytes env ⟨id, ms, pages⟩).length := by
  obtain ⟨x, h⟩ := h
  exact getSerializedChunkSize_eq (c := { c with sizeWithoutStatistics := x }) h

end

/-! ## What reaches the output -/

section
variable {σ : Type} {p : Port σ} {content : σ → Bytes}

theorem script_any (hd : Stores p.dev content) (parts : List Bytes) {w w' : WriteWrapper σ} {ok : Bool}
    (hc : w.Counts content) (h : p.script w parts = some (w', ok)) :
    w'.Counts content ∧ ∃ b, content w'.writer = content w.writer ++ b ∧ b.Sublist parts.flatten := by
  induction parts generalizing w with
  | nil =>
    simp only [Port.script, Option.some.injEq, Prod.mk.injEq] at h
    obtain ⟨rfl, _⟩ := h
    exact ⟨hc, [], by simp, by simp⟩
  | cons x xs ih =>
    rw [Port.script] at h
    cases hw : w.writeAll p.dev (p.patience x.length) x with
    | none => rw [hw] at h; simp at h
    | some r =>
      obtain ⟨w1, r⟩ := r
      obtain ⟨q1, _, c, q3, q4⟩ := WriteWrapper.writeAll_spec hd _ hc x hw
      rw [hw] at h
      cases r with
      | error e =>
        simp only [Option.some.injEq, Prod.mk.injEq] at h
        obtain ⟨rfl, _⟩ := h
        refine ⟨q1, c, q4, ?_⟩
        rw [List.flatten_cons]
        exact q3.sublist.trans (List.sublist_append_left _ _)
      | ok u =>
        obtain ⟨i1, b, i2, i3⟩ := ih q1 h
        exact ⟨i1, c ++ b, by rw [i2, q4, List.append_assoc], by rw [List.flatten_cons]; exact q3.sublist.append i3⟩

theorem perform_any (hd : Stores p.dev content) (cs : List Call) {w w' : WriteWrapper σ}
    (hc : w.Counts content) (h : p.perform w cs = some w') :
    w'.Counts content ∧ ∃ b, content w'.writer = content w.writer ++ b ∧ b.Sublist (cs.flatMap Call.bytes) := by
  induction cs generalizing w with
  | nil =>
    simp only [Port.perform, Option.some.injEq] at h
    subst h
    exact ⟨hc, [], by simp, by simp⟩
  | cons x xs ih =>
    cases x with
    | one a =>
      rw [Port.perform] at h
      obtain ⟨q1, c, q2, q3⟩ := WriteWrapper.write_counts hd hc a
      obtain ⟨i1, b, i2, i3⟩ := ih q1 h
      exact ⟨i1, c ++ b, by rw [i2, q3, List.append_assoc], by rw [List.flatMap_cons]; exact q2.sublist.append i3⟩
    | all parts =>
      rw [Port.perform] at h
      cases hs : p.script w parts with
      | none => rw [hs] at h; simp at h
      | some r =>
        obtain ⟨w1, ok⟩ := r
        rw [hs] at h
        obtain ⟨q1, c, q2, q3⟩ := script_any hd parts hc hs
        obtain ⟨i1, b, i2, i3⟩ := ih q1 h
        exact ⟨i1, c ++ b, by rw [i2, q2, List.append_assoc], by rw [List.flatMap_cons]; exact q3.append i3⟩

/-- On a faithful output everything arrives. -/
theorem script_faithful (hf : Faithful p content) (parts : List Bytes) {w w' : WriteWrapper σ} {ok : Bool}
    (hc : w.Counts content) (h : p.script w parts = some (w', ok)) :
    ok = true ∧ content w'.writer = content w.writer ++ parts.flatten := by
  obtain ⟨w1, h1, h2, _⟩ := (faithful_tracks hf).script parts (s := ⟨content w.writer, none⟩) ⟨rfl, hc⟩
  rw [h] at h1
  simp only [Option.some.injEq, Prod.mk.injEq] at h1
  obtain ⟨rfl, rfl⟩ := h1
  refine ⟨rfl, ?_⟩
  have := congrArg Sink.bytes h2
  simpa [Sink.write] using this.symm

theorem perform_faithful (hf : Faithful p content) (cs : List Call) (hs : ∀ c ∈ cs, c.Small) {w w' : WriteWrapper σ}
    (hc : w.Counts content) (h : p.perform w cs = some w') :
    content w'.writer = content w.writer ++ cs.flatMap Call.bytes := by
  obtain ⟨w1, h1, h2, _⟩ := (faithful_tracks hf).perform cs hs (s := ⟨content w.writer, none⟩) ⟨rfl, hc⟩
  rw [h] at h1
  simp only [Option.some.injEq] at h1
  subst h1
  have := congrArg Sink.bytes h2
  simpa [Sink.write] using this.symm

end

/-! ## The output only grows -/

section
variable {σ : Type} {p : Port σ} {content : σ → Bytes} {env : Env}

/-- From one state of the output to a later one. -/
def Grows (content : σ → Bytes) (w w' : WriteWrapper σ) : Prop :=
  w.Counts content → w'.Counts content ∧ content w.writer <+: content w'.writer

theorem Grows.refl (w : WriteWrapper σ) : Grows content w w := fun h => ⟨h, List.prefix_refl _⟩

theorem Grows.trans {a b c : WriteWrapper σ} (h : Grows content a b) (h' : Grows content b c) : Grows content a c :=
  fun x => ⟨(h' (h x).1).1, (h x).2.trans (h' (h x).1).2⟩

theorem script_grows (hd : Stores p.dev content) {parts : List Bytes} {w w' : WriteWrapper σ} {ok : Bool}
    (h : p.script w parts = some (w', ok)) : Grows content w w' := by
  intro hc
  obtain ⟨h1, b, h2, _⟩ := script_any hd parts hc h
  exact ⟨h1, by rw [h2]; exact List.prefix_append _ _⟩

theorem perform_grows (hd : Stores p.dev content) {cs : List Call} {w w' : WriteWrapper σ}
    (h : p.perform w cs = some w') : Grows content w w' := by
  intro hc
  obtain ⟨h1, b, h2, _⟩ := perform_any hd cs hc h
  exact ⟨h1, by rw [h2]; exact List.prefix_append _ _⟩

theorem startChunkGroup_grows (hd : Stores p.dev content) {io io' : Stream.Io σ} {d : Bytes} {ok : Bool}
    (h : io.startChunkGroup p d = some (io', ok)) : Grows content io.out io'.out := by
  rw [Stream.Io.startChunkGroup] at h
  cases hs : p.script io.out (chunkGroupHeaderParts d) with
  | none => rw [hs] at h; cases h
  | some r =>
    obtain ⟨w, b⟩ := r
    rw [hs] at h
    cases b <;> (cases h; exact script_grows hd hs)

theorem writeToFileWriter_grows (hd : Stores p.dev content) {c c' : ChunkWriter} {io io' : Stream.Io σ}
    (h : Stream.writeToFileWriter env p c io = some (c', io')) : Grows content io.out io'.out := by
  rw [Stream.writeToFileWriter] at h
  cases hs : c.sealCurrentPage env with
  | none => rw [hs] at h; cases h
  | some c1 =>
    rw [hs] at h
    simp only at h
    split at h
    · cases h; exact Grows.refl _
    · rw [Stream.Io.startFlushChunk] at h
      simp only at h
      cases hp : p.script io.out (ChunkHeader.parts { measurementId := c1.measurementId, dataSize := u32 c1.pageBuffer.length, dataType := c1.dataType, compression := c1.compression, encoding := c1.encoding, numPages := c1.numPages, mask := 0 }) with
      | none => rw [hp] at h; cases h
      | some r =>
        obtain ⟨w1, b⟩ := r
        rw [hp] at h
        simp only at h
        cases hq : p.perform w1 [.all [c1.pageBuffer]] with
        | none => rw [hq] at h; cases h
        | some w2 =>
          rw [hq] at h
          simp only [Stream.Io.endCurrentChunk] at h
          cases h
          exact (script_grows hd hp).trans (perform_grows hd hq)

theorem writeAllChunks_grows (hd : Stores p.dev content) (cs : BMap ChunkWriter) {cs' : BMap ChunkWriter} {io io' : Stream.Io σ}
    (h : Stream.writeAllChunks env p cs io = some (cs', io')) : Grows content io.out io'.out := by
  induction cs generalizing io cs' with
  | nil => simp only [Stream.writeAllChunks, Option.some.injEq, Prod.mk.injEq] at h; obtain ⟨_, rfl⟩ := h; exact Grows.refl _
  | cons e cs ih =>
    obtain ⟨m, c⟩ := e
    rw [Stream.writeAllChunks] at h
    cases hw : Stream.writeToFileWriter env p c io with
    | none => rw [hw] at h; cases h
    | some r =>
      obtain ⟨c1, io1⟩ := r
      rw [hw] at h
      simp only at h
      cases hq : Stream.writeAllChunks env p cs io1 with
      | none => rw [hq] at h; cases h
      | some r =>
        obtain ⟨cs1, io2⟩ := r
        rw [hq] at h
        cases h
        exact (writeToFileWriter_grows hd hw).trans (ih hq)

theorem flushToFilewriter_grows (hd : Stores p.dev content) {g g' : GroupWriter} {io io' : Stream.Io σ} {n : Nat}
    (h : Stream.flushToFilewriter env p g io = some (g', io', n)) : Grows content io.out io'.out := by
  rw [Stream.flushToFilewriter] at h
  cases hs : GroupWriter.sealAll env g.chunkWriters with
  | none => rw [hs] at h; cases h
  | some cs =>
    rw [hs] at h
    simp only at h
    cases hq : Stream.writeAllChunks env p cs io with
    | none => rw [hq] at h; cases h
    | some r =>
      obtain ⟨cs1, io2⟩ := r
      rw [hq] at h
      cases h
      exact writeAllChunks_grows hd _ hq

theorem endChunkGroup_content (hd : Keeps p content) (io : Stream.Io σ) :
    content (io.endChunkGroup p).out.writer = content io.out.writer := by
  rw [Stream.Io.endChunkGroup]
  split
  · rfl
  · split
    · rfl
    · exact hd.flush _

theorem endChunkGroup_position (io : Stream.Io σ) : (io.endChunkGroup p).out.position = io.out.position := by
  rw [Stream.Io.endChunkGroup]
  split
  · rfl
  · split <;> rfl

theorem endChunkGroup_counts (hd : Keeps p content) {io : Stream.Io σ} (h : io.out.Counts content) :
    (io.endChunkGroup p).out.Counts content := by
  rw [WriteWrapper.Counts, endChunkGroup_content hd, endChunkGroup_position]
  exact h

theorem endChunkGroup_grows (hd : Keeps p content) (io : Stream.Io σ) : Grows content io.out (io.endChunkGroup p).out :=
  fun h => ⟨endChunkGroup_counts hd h, by rw [endChunkGroup_content hd]; exact List.prefix_refl _⟩

/-! ## What would survive a crash -/

/-- An output on which nothing waits in a buffer. -/
theorem _root_.TsFile.Spec.Faithful.buffering (h : Faithful p content) : Buffering p content content where
  toFaithful := h
  front := fun _ => List.prefix_refl _
  grows := fun s b => by
    cases hx : (p.dev s b).2 with
    | ok n => rw [(h.stores.ok s b n hx).2]; exact List.prefix_append _ _
    | error e => rw [h.stores.error s b e hx]; exact List.prefix_refl _
  flushed := h.flush

/-- Something that stays true from one state of the output to a later one, as long as only `write` is called. -/
structure Along (p : Port σ) (R : σ → σ → Prop) : Prop where
  refl : ∀ s, R s s
  trans : ∀ {a b c}, R a b → R b c → R a c
  dev : ∀ s b, R s (p.dev s b).1

section
variable {R : σ → σ → Prop}

theorem write_along (hd : Along p R) (w : WriteWrapper σ) (b : Bytes) :
    R w.writer (w.write p.dev b).1.writer := by
  have := hd.dev w.writer b
  rw [WriteWrapper.write]
  rcases hx : p.dev w.writer b with ⟨s', r⟩
  rw [hx] at this
  cases r <;> exact this

theorem writeAll_along (hd : Along p R) : ∀ (fuel : Nat) (w : WriteWrapper σ) (b : Bytes) {w' : WriteWrapper σ}
    {r : Except IoErr Unit}, w.writeAll p.dev fuel b = some (w', r) → R w.writer w'.writer := by
  intro fuel
  induction fuel with
  | zero =>
    intro w b w' r h
    rw [WriteWrapper.writeAll] at h
    split at h
    · cases h; exact hd.refl _
    · cases h
  | succ fuel ih =>
    intro w b w' r h
    rw [WriteWrapper.writeAll] at h
    split at h
    · cases h; exact hd.refl _
    · have h1 := write_along hd w b
      rcases hx : w.write p.dev b with ⟨w1, r1⟩
      rw [hx] at h h1
      cases r1 with
      | ok n =>
        cases n with
        | zero => cases h; exact h1
        | succ n => exact hd.trans h1 (ih _ _ h)
      | error e =>
        cases e with
        | interrupted => exact hd.trans h1 (ih _ _ h)
        | writeZero => cases h; exact h1
        | other => cases h; exact h1

theorem script_along (hd : Along p R) (parts : List Bytes) {w w' : WriteWrapper σ} {ok : Bool}
    (h : p.script w parts = some (w', ok)) : R w.writer w'.writer := by
  induction parts generalizing w with
  | nil => rw [Port.script] at h; cases h; exact hd.refl _
  | cons b parts ih =>
    rw [Port.script] at h
    cases hx : w.writeAll p.dev (p.patience b.length) b with
    | none => rw [hx] at h; cases h
    | some r =>
      obtain ⟨w1, r1⟩ := r
      have h1 := writeAll_along hd _ _ _ hx
      rw [hx] at h
      cases r1 with
      | ok u => exact hd.trans h1 (ih h)
      | error e => cases h; exact h1

theorem perform_along (hd : Along p R) (cs : List Call) {w w' : WriteWrapper σ}
    (h : p.perform w cs = some w') : R w.writer w'.writer := by
  induction cs generalizing w with
  | nil => rw [Port.perform] at h; cases h; exact hd.refl _
  | cons c cs ih =>
    cases c with
    | one b => rw [Port.perform] at h; exact hd.trans (write_along hd w b) (ih h)
    | all parts =>
      rw [Port.perform] at h
      cases hx : p.script w parts with
      | none => rw [hx] at h; cases h
      | some r =>
        rw [hx] at h
        exact hd.trans (script_along hd _ hx) (ih h)

end

section
variable {disk : σ → Bytes}

theorem _root_.TsFile.Spec.Buffering.along (hd : Buffering p content disk) : Along p (fun s s' => disk s <+: disk s') :=
  ⟨fun _ => List.prefix_refl _, List.IsPrefix.trans, hd.grows⟩

theorem script_disk (hd : Buffering p content disk) (parts : List Bytes) {w w' : WriteWrapper σ} {ok : Bool}
    (h : p.script w parts = some (w', ok)) : disk w.writer <+: disk w'.writer := script_along hd.along parts h

theorem perform_disk (hd : Buffering p content disk) (cs : List Call) {w w' : WriteWrapper σ}
    (h : p.perform w cs = some w') : disk w.writer <+: disk w'.writer := perform_along hd.along cs h

theorem startChunkGroup_disk (hd : Buffering p content disk) {io io' : Stream.Io σ} {d : Bytes} {ok : Bool}
    (h : io.startChunkGroup p d = some (io', ok)) : disk io.out.writer <+: disk io'.out.writer := by
  rw [Stream.Io.startChunkGroup] at h
  cases hs : p.script io.out (chunkGroupHeaderParts d) with
  | none => rw [hs] at h; cases h
  | some r =>
    obtain ⟨w, b⟩ := r
    rw [hs] at h
    cases b <;> (cases h; exact script_disk hd _ hs)

theorem writeToFileWriter_disk (hd : Buffering p content disk) {c c' : ChunkWriter} {io io' : Stream.Io σ}
    (h : Stream.writeToFileWriter env p c io = some (c', io')) : disk io.out.writer <+: disk io'.out.writer := by
  rw [Stream.writeToFileWriter] at h
  cases hs : c.sealCurrentPage env with
  | none => rw [hs] at h; cases h
  | some c1 =>
    rw [hs] at h
    simp only at h
    split at h
    · cases h; exact List.prefix_refl _
    · rw [Stream.Io.startFlushChunk] at h
      simp only at h
      cases hp : p.script io.out (ChunkHeader.parts { measurementId := c1.measurementId, dataSize := u32 c1.pageBuffer.length, dataType := c1.dataType, compression := c1.compression, encoding := c1.encoding, numPages := c1.numPages, mask := 0 }) with
      | none => rw [hp] at h; cases h
      | some r =>
        obtain ⟨w1, b⟩ := r
        rw [hp] at h
        simp only at h
        cases hq : p.perform w1 [.all [c1.pageBuffer]] with
        | none => rw [hq] at h; cases h
        | some w2 =>
          rw [hq] at h
          simp only [Stream.Io.endCurrentChunk] at h
          cases h
          exact (script_disk hd _ hp).trans (perform_disk hd _ hq)

theorem writeAllChunks_disk (hd : Buffering p content disk) (cs : BMap ChunkWriter) {cs' : BMap ChunkWriter} {io io' : Stream.Io σ}
    (h : Stream.writeAllChunks env p cs io = some (cs', io')) : disk io.out.writer <+: disk io'.out.writer := by
  induction cs generalizing io cs' with
  | nil => simp only [Stream.writeAllChunks, Option.some.injEq, Prod.mk.injEq] at h; obtain ⟨_, rfl⟩ := h; exact List.prefix_refl _
  | cons e cs ih =>
    obtain ⟨m, c⟩ := e
    rw [Stream.writeAllChunks] at h
    cases hw : Stream.writeToFileWriter env p c io with
    | none => rw [hw] at h; cases h
    | some r =>
      obtain ⟨c1, io1⟩ := r
      rw [hw] at h
      simp only at h
      cases hq : Stream.writeAllChunks env p cs io1 with
      | none => rw [hq] at h; cases h
      | some r =>
        obtain ⟨cs1, io2⟩ := r
        rw [hq] at h
        cases h
        exact (writeToFileWriter_disk hd hw).trans (ih hq)

theorem endChunkGroup_disk (hd : Buffering p content disk) (io : Stream.Io σ) :
    disk io.out.writer <+: disk (io.endChunkGroup p).out.writer := by
  rw [Stream.Io.endChunkGroup]
  split
  · exact List.prefix_refl _
  · split
    · exact List.prefix_refl _
    · simp only [WriteWrapper.flush, hd.flushed]
      exact hd.front _

/-- After a chunk group with chunks nothing waits. -/
theorem endChunkGroup_flushed (hd : Buffering p content disk) {io : Stream.Io σ} {d : Bytes} (h : io.currentDevice = some d)
    (hl : io.chunkMetadataList ≠ []) : disk (io.endChunkGroup p).out.writer = content io.out.writer := by
  rw [Stream.Io.endChunkGroup, h]
  simp only
  rw [if_neg (by simpa using hl)]
  exact hd.flushed _

end

theorem flushLoop_grows (hd : Keeps p content) (gs : BMap GroupWriter) {gs' : BMap GroupWriter} {io io' : Stream.Io σ}
    {lm lm' : BMap (BMap W64)} {e : Option TsFileError}
    (h : Stream.Writer.flushLoop env p gs io lm = some (gs', io', lm', e)) : Grows content io.out io'.out := by
  induction gs generalizing io gs' lm with
  | nil =>
    simp only [Stream.Writer.flushLoop, Option.some.injEq, Prod.mk.injEq] at h
    obtain ⟨_, rfl, _⟩ := h
    exact Grows.refl _
  | cons x gs ih =>
    obtain ⟨d, g⟩ := x
    rw [Stream.Writer.flushLoop] at h
    cases h1 : io.startChunkGroup p d with
    | none => rw [h1] at h; cases h
    | some r =>
      obtain ⟨io1, ok⟩ := r
      have g1 := startChunkGroup_grows hd.stores h1
      rw [h1] at h
      cases ok with
      | false => cases h; exact g1
      | true =>
        simp only at h
        cases h2 : Stream.flushToFilewriter env p g io1 with
        | none => rw [h2] at h; cases h
        | some r =>
          obtain ⟨g', io2, n⟩ := r
          have g2 := g1.trans (flushToFilewriter_grows hd.stores h2)
          rw [h2] at h
          simp only at h
          split at h
          · cases h; exact g2
          · cases h3 : Stream.Writer.flushLoop env p gs (io2.endChunkGroup p) (lm.insert d g'.lastTimeMap) with
            | none => rw [h3] at h; cases h
            | some r =>
              obtain ⟨gs1, io3, lm1, e1⟩ := r
              rw [h3] at h
              cases h
              have := ih h3
              exact g2.trans ((endChunkGroup_grows hd _).trans this)

theorem flushAll_grows (hd : Keeps p content) {w w' : Stream.Writer σ} {e : Option TsFileError}
    (h : w.flushAllChunkGroups env p = some (w', e)) : Grows content w.io.out w'.io.out := by
  rw [Stream.Writer.flushAllChunkGroups] at h
  split at h
  · cases h1 : Stream.Writer.flushLoop env p w.groupWriters w.io w.nonAlignedLastTimeMap with
    | none => rw [h1] at h; cases h
    | some r =>
      obtain ⟨gs, io, lm, e1⟩ := r
      rw [h1] at h
      cases e1 <;> (cases h; exact flushLoop_grows hd _ h1)
  · cases h; exact Grows.refl _

theorem checkMemorySize_grows (hd : Keeps p content) {w w' : Stream.Writer σ}
    (h : w.checkMemorySize env p = some w') : Grows content w.io.out w'.io.out := by
  rw [Stream.Writer.checkMemorySize] at h
  split at h
  · simp only at h
    split at h
    · cases h
    · split at h
      · rw [Option.map_eq_some_iff] at h
        obtain ⟨⟨w1, e⟩, h1, rfl⟩ := h
        have := flushAll_grows hd h1
        exact this
      · cases h; exact Grows.refl _
  · cases h; exact Grows.refl _

theorem step_grows (hd : Keeps p content) (w : Stream.Writer σ) (op : Op) :
    Grows content w.io.out (w.step env p op).1.io.out := by
  cases op with
  | write d m t v =>
    simp only [Stream.Writer.step, Stream.Writer.write]
    split
    · exact Grows.refl _
    · split
      · exact Grows.refl _
      · exact Grows.refl _
      · split
        · exact Grows.refl _
        · next h =>
          have := checkMemorySize_grows hd h
          exact this
  | writeMany d t vs =>
    simp only [Stream.Writer.step, Stream.Writer.writeMany]
    split
    · exact Grows.refl _
    · split
      · exact Grows.refl _
      · exact Grows.refl _
      · split
        · exact Grows.refl _
        · next h =>
          have := checkMemorySize_grows hd h
          exact this

theorem run_grows (hd : Keeps p content) (ops : List Op) (w : Stream.Writer σ) :
    Grows content w.io.out (w.run env p ops).1.io.out := by
  induction ops generalizing w with
  | nil => exact Grows.refl _
  | cons op ops ih => exact (step_grows hd w op).trans (ih _)

end

/-! ## Flushing -/

section
variable {σ : Type} {p : Port σ} {content : σ → Bytes} {env : Env} {unsnap : Bytes → Option Bytes}

/-- Fresh again except for the size. -/
abbrev Blank (env : Env) (unsnap : Bytes → Option Bytes) (id : Bytes) (ms : MeasurementSchema) (c : ChunkWriter) : Prop :=
  ChunkRep env unsnap id ms { c with sizeWithoutStatistics := 0 } [] []

theorem Blank.loose {id : Bytes} {ms : MeasurementSchema} {c : ChunkWriter} (h : Blank env unsnap id ms c) (n : Nat) :
    Loose env unsnap true id ms c [] n := .inr ⟨rfl, h, by simp⟩

theorem Shut.sealed {id : Bytes} {ms : MeasurementSchema} {c : ChunkWriter} {pages : List GPage}
    (h : Shut env unsnap id ms c pages) : c.sealCurrentPage env = some c := by
  obtain ⟨x, h⟩ := h
  have hp := h.page
  rw [ChunkWriter.sealCurrentPage]
  simp only at hp
  cases hc : c.currentPageWriter with
  | none => rfl
  | some p =>
    rw [hc] at hp
    simp only at hp ⊢
    rw [if_neg (by rw [hp.count]; simp)]

theorem Shut.blank {id : Bytes} {ms : MeasurementSchema} {c : ChunkWriter} {pages : List GPage}
    (h : Shut env unsnap id ms c pages) :
    Blank env unsnap id ms { c with pageBuffer := [], numPages := 0, firstPageStatistics := none, statistics := Statistics.new env c.dataType } := by
  obtain ⟨x, h⟩ := h
  have hp := h.page
  refine ⟨h.id_eq, h.dataType, h.encoding, h.compression, by simp, ?_, rfl, rfl, by simp, fun _ => rfl, by simp, ?_⟩
  · have := h.dataType
    simp only at this
    simp [chunkStats, this]
  · simp only at hp ⊢
    cases hc : c.currentPageWriter with
    | none => simp
    | some p => rw [hc] at hp; exact hp

theorem Shut.count {id : Bytes} {ms : MeasurementSchema} {c : ChunkWriter} {pages : List GPage}
    (h : Shut env unsnap id ms c pages) (hlen : (pagesPoints pages).length < 2 ^ 32) :
    c.statistics.count = 0 ↔ pages = [] := by
  obtain ⟨x, h⟩ := h
  have hcount : c.statistics.count = u32 (pagesPoints pages).length := by
    have := h.stats
    simp only at this
    rw [this]
    exact chunkStats_count env ms.dataType pages (fun g hg => (h.ok g hg).typed)
  rw [hcount]
  constructor
  · intro h0
    by_contra hne
    have h1 := pagesPoints_ne_nil pages h.ok hne
    have h2 := congrArg BitVec.toNat h0
    rw [u32_toNat _ hlen] at h2
    exact h1 (List.length_eq_zero_iff.1 (by simpa using h2))
  · intro hp; subst hp; rfl

theorem Counts.pos {w : WriteWrapper σ} (h : w.Counts content) : w.getPosition = BitVec.ofNat 64 (content w.writer).length := h

/-- Writing a chunk, whatever the output does. -/
theorem writeToFileWriter_any (hd : Stores p.dev content) {id : Bytes} {ms : MeasurementSchema} {c c' : ChunkWriter}
    {pages : List GPage} (h : Shut env unsnap id ms c pages) (hlen : (pagesPoints pages).length < 2 ^ 32)
    {io io' : Stream.Io σ} (hc : io.out.Counts content) (hw : Stream.writeToFileWriter env p c io = some (c', io')) :
    Blank env unsnap id ms c'
    ∧ io'.out.Counts content
    ∧ io'.currentDevice = io.currentDevice
    ∧ io'.chunkGroupMetadataList = io.chunkGroupMetadataList
    ∧ io'.timeseriesMetadataMap = io.timeseriesMetadataMap
    ∧ (∃ b, content io'.out.writer = content io.out.writer ++ b
        ∧ b.Sublist (if pages = [] then [] else GChunk.bytes env ⟨id, ms, pages⟩)
        ∧ (Faithful p content → b = if pages = [] then [] else GChunk.bytes env ⟨id, ms, pages⟩))
    ∧ io'.chunkMetadataList = io.chunkMetadataList
        ++ (if pages = [] then [] else [chunkMeta env (content io.out.writer).length ⟨id, ms, pages⟩]) := by
  rw [Stream.writeToFileWriter, h.sealed] at hw
  simp only at hw
  by_cases hp : pages = []
  · rw [if_pos ((h.count hlen).2 hp)] at hw
    simp only [Option.some.injEq, Prod.mk.injEq] at hw
    obtain ⟨rfl, rfl⟩ := hw
    exact ⟨h.blank, hc, rfl, rfl, rfl, ⟨[], by simp, by simp, by simp [hp]⟩, by simp [hp]⟩
  · rw [if_neg (fun h0 => hp ((h.count hlen).1 h0))] at hw
    rw [Stream.Io.startFlushChunk] at hw
    simp only at hw
    cases hs : p.script io.out (ChunkHeader.parts { measurementId := c.measurementId, dataSize := u32 c.pageBuffer.length, dataType := c.dataType, compression := c.compression, encoding := c.encoding, numPages := c.numPages, mask := 0 }) with
    | none => rw [hs] at hw; cases hw
    | some r =>
      obtain ⟨w1, ok⟩ := r
      rw [hs] at hw
      simp only at hw
      obtain ⟨q1, b1, q2, q3⟩ := script_any hd _ hc hs
      rw [flatten_header] at q3
      cases hs2 : p.perform w1 [.all [c.pageBuffer]] with
      | none => rw [hs2] at hw; cases hw
      | some w2 =>
        rw [hs2] at hw
        simp only [Stream.Io.endCurrentChunk, Option.some.injEq, Prod.mk.injEq] at hw
        obtain ⟨rfl, rfl⟩ := hw
        obtain ⟨i1, b2, i2, i3⟩ := perform_any hd _ q1 hs2
        have hb := h.blank
        obtain ⟨x, h⟩ := h
        have e1 := h.id_eq
        have e2 := h.dataType
        have e3 := h.encoding
        have e4 := h.compression
        have e5 := h.numPages
        have e6 := h.buffer
        have e7 := h.stats
        simp only at e1 e2 e3 e4 e5 e6 e7
        refine ⟨hb, i1, rfl, rfl, rfl, ⟨b1 ++ b2, by rw [i2, q2, List.append_assoc], ?_, ?_⟩, ?_⟩
        · rw [if_neg hp, GChunk.bytes]
          refine List.Sublist.append ?_ ?_
          · simpa [GChunk.header, e1, e2, e3, e4, e5, e6] using q3
          · simpa [Call.bytes, e6] using i3
        · intro hf
          have f1 := (script_faithful hf _ hc hs).2
          have f2 := perform_faithful hf _ (by simp [Call.Small]) q1 hs2
          rw [q2, List.append_cancel_left_eq, flatten_header] at f1
          rw [i2, List.append_cancel_left_eq] at f2
          rw [if_neg hp, GChunk.bytes, f1, f2]
          simp [GChunk.header, Call.bytes, e1, e2, e3, e4, e5, e6]
        · simp [hp, chunkMeta, Counts.pos hc, e1, e2, e7]

/-- A list of chunk writers that hold the points `buf`. -/
def LooseRep (env : Env) (unsnap : Bytes → Option Bytes) (bad : Bool) (ms : List (Bytes × MeasurementSchema))
    (cs : BMap ChunkWriter) (buf : Bytes → List Point) (n : Bytes → Nat) : Prop :=
  ∀ e ∈ cs, ∃ sch, look e.1 ms = some sch ∧ Loose env unsnap bad e.1 sch e.2 (buf e.1) (n e.1)

/-- The same with everything sealed. -/
def ShutRep (env : Env) (unsnap : Bytes → Option Bytes) (ms : List (Bytes × MeasurementSchema))
    (cs : BMap ChunkWriter) (buf : Bytes → List Point) : Prop :=
  ∀ e ∈ cs, ∃ sch pages, look e.1 ms = some sch ∧ Shut env unsnap e.1 sch e.2 pages
    ∧ pagesPoints pages = buf e.1 ∧ FullPages pages.dropLast

theorem sealAll_any (hsn : SnappyOk env unsnap) {ms : List (Bytes × MeasurementSchema)} {buf : Bytes → List Point}
    {n : Bytes → Nat} (hn : bad = true → ∀ m, n m < 3000) (cs : BMap ChunkWriter) (h : LooseRep env unsnap bad ms cs buf n) :
    ∃ cs', GroupWriter.sealAll env cs = some cs' ∧ ShutRep env unsnap ms cs' buf ∧ cs'.map Prod.fst = cs.map Prod.fst := by
  induction cs with
  | nil => exact ⟨[], rfl, by intro e he; simp at he, rfl⟩
  | cons e cs ih =>
    obtain ⟨m, c⟩ := e
    obtain ⟨sch, hs, hl⟩ := h (m, c) (by simp)
    obtain ⟨c', pages', hseal, hr', hpts, hfd⟩ := hl.seal hsn (fun hx => hn hx m)
    obtain ⟨cs', hall, hrep, hk⟩ := ih (fun e he => h e (by simp [he]))
    refine ⟨(m, c') :: cs', by simp [GroupWriter.sealAll, hseal, hall], ?_, by simp [hk]⟩
    intro e he
    rcases List.mem_cons.1 he with rfl | he
    · exact ⟨sch, pages', hs, hr', hpts, hfd⟩
    · exact hrep e he

/-- Writing all chunks of a device, whatever the output does. -/
theorem writeAllChunks_any (hd : Stores p.dev content) {ms : List (Bytes × MeasurementSchema)} {buf : Bytes → List Point}
    (cs : BMap ChunkWriter) {cs' : BMap ChunkWriter} (h : ShutRep env unsnap ms cs buf) (hsorted : BMap.Sorted cs)
    (hlen : ∀ m, (buf m).length < 2 ^ 32) {io io' : Stream.Io σ} (hc : io.out.Counts content)
    (hw : Stream.writeAllChunks env p cs io = some (cs', io')) :
    LooseRep env unsnap true ms cs' (fun _ => []) (fun _ => 0)
    ∧ cs'.map Prod.fst = cs.map Prod.fst
    ∧ io'.out.Counts content
    ∧ io'.currentDevice = io.currentDevice
    ∧ io'.chunkGroupMetadataList = io.chunkGroupMetadataList
    ∧ io'.timeseriesMetadataMap = io.timeseriesMetadataMap
    ∧ ∃ chunks b metas, content io'.out.writer = content io.out.writer ++ b
      ∧ b.Sublist (chunks.flatMap (GChunk.bytes env))
      ∧ (b.length = (chunks.flatMap (GChunk.bytes env)).length → metas = chunkMetas env (content io.out.writer).length chunks)
      ∧ io'.chunkMetadataList = io.chunkMetadataList ++ metas
      ∧ (chunks.flatMap (GChunk.bytes env)).length = (cs.map (fun e => e.2.getSerializedChunkSize)).sum
      ∧ (∀ c ∈ chunks, look c.name ms = some c.ms ∧ c.Ok env unsnap ∧ c.name ∈ cs.map Prod.fst)
      ∧ (∀ m, chunkPts chunks m = if m ∈ cs.map Prod.fst then buf m else [])
      ∧ (chunks.map GChunk.name).Pairwise (fun a b => bytesLt a b = true)
      ∧ (Faithful p content → b = chunks.flatMap (GChunk.bytes env)) := by
  induction cs generalizing io cs' with
  | nil =>
    simp only [Stream.writeAllChunks, Option.some.injEq, Prod.mk.injEq] at hw
    obtain ⟨rfl, rfl⟩ := hw
    exact ⟨by intro e he; simp at he, rfl, hc, rfl, rfl, rfl, [], [], [], by simp, by simp, fun _ => rfl, by simp, rfl, by simp,
      by simp [chunkPts], by simp, by simp⟩
  | cons e cs ih =>
    obtain ⟨m, c⟩ := e
    have hs' := List.pairwise_cons.1 hsorted
    obtain ⟨sch, pages, hsch, hr, hb, hfd⟩ := h (m, c) (by simp)
    rw [Stream.writeAllChunks] at hw
    cases hw1 : Stream.writeToFileWriter env p c io with
    | none => rw [hw1] at hw; cases hw
    | some r =>
      obtain ⟨c1, io1⟩ := r
      rw [hw1] at hw
      simp only at hw
      cases hw2 : Stream.writeAllChunks env p cs io1 with
      | none => rw [hw2] at hw; cases hw
      | some r =>
        obtain ⟨cs1, io2⟩ := r
        rw [hw2] at hw
        simp only [Option.some.injEq, Prod.mk.injEq] at hw
        obtain ⟨rfl, rfl⟩ := hw
        obtain ⟨a1, a2, a3, a4, a5, ⟨b1, a6, a7, a9⟩, a8⟩ := writeToFileWriter_any hd hr (by rw [hb]; exact hlen m) hc hw1
        obtain ⟨i1, i2, i3, i4, i5, i6, chunks, b, metas, i7, i8, i9, i10, hsz, hok, hpts, hpw, hfa⟩ :=
          ih (fun e he => h e (by simp [he])) hs'.2 a2 hw2
        have hsize := hr.size
        have hnotmem : m ∉ cs.map Prod.fst := by
          intro hm
          obtain ⟨e, he, hee⟩ := List.mem_map.1 hm
          exact bytesLt_ne (hs'.1 e he) hee.symm
        have hloose : LooseRep env unsnap true ms ((m, c1) :: cs1) (fun _ => []) (fun _ => 0) := by
          intro e he
          rcases List.mem_cons.1 he with rfl | he
          · exact ⟨sch, hsch, a1.loose 0⟩
          · exact i1 e he
        refine ⟨hloose, by simp [i2], i3, by rw [i4, a3], by rw [i5, a4], by rw [i6, a5], ?_⟩
        by_cases hp : pages = []
        · simp only [hp, if_true, List.append_nil] at a7 a8 a9 hsize
          have hb1 : b1 = [] := by simpa using a7
          subst hb1
          rw [List.append_nil] at a6
          refine ⟨chunks, b, metas, by rw [i7, a6], i8, by rw [a6] at i9; exact i9, by rw [i10, a8], ?_, ?_, ?_, hpw, hfa⟩
          · simp [hsz, hsize]
          · intro c hc
            obtain ⟨h1, h2, h3⟩ := hok c hc
            exact ⟨h1, h2, by simp [h3]⟩
          · intro m'
            rw [hpts m']
            by_cases hm : m' = m
            · subst hm
              rw [if_neg hnotmem, if_pos (by simp), ← hb, hp]
              rfl
            · simp only [List.map_cons, List.mem_cons, hm, false_or]
        · simp only [hp, if_false] at a7 a8 a9 hsize
          refine ⟨⟨m, sch, pages⟩ :: chunks, b1 ++ b, chunkMeta env (content io.out.writer).length ⟨m, sch, pages⟩ :: metas,
            by rw [i7, a6, List.append_assoc], by rw [List.flatMap_cons]; exact a7.append i8, ?_, by rw [i10, a8]; simp, ?_, ?_, ?_, ?_,
            fun hf => by rw [a9 hf, hfa hf, List.flatMap_cons]⟩
          · intro hl
            simp only [List.length_append, List.flatMap_cons] at hl
            have l1 := a7.length_le
            have l2 := i8.length_le
            have e1 := i9 (by omega)
            have e2 : b1 = GChunk.bytes env ⟨m, sch, pages⟩ := a7.eq_of_length (by omega)
            rw [e1, a6, chunkMetas, List.length_append, e2]
          · simp only [List.flatMap_cons, List.length_append, List.map_cons, List.sum_cons, hsz, hsize]
          · intro c hc
            rcases List.mem_cons.1 hc with rfl | hc
            · obtain ⟨x, hr⟩ := hr
              exact ⟨hsch, ⟨hp, hr.ok, hfd⟩, by simp⟩
            · obtain ⟨h1, h2, h3⟩ := hok c hc
              exact ⟨h1, h2, by simp [h3]⟩
          · intro m'
            have : chunkPts (⟨m, sch, pages⟩ :: chunks) m' = (if m = m' then pagesPoints pages else []) ++ chunkPts chunks m' := by
              simp [chunkPts, GChunk.points]
            rw [this, hpts m']
            by_cases hm : m = m'
            · subst hm
              rw [if_pos rfl, if_neg hnotmem, if_pos (by simp), hb]
              simp
            · have hm' : ¬ m' = m := fun e => hm e.symm
              simp only [if_neg hm, List.nil_append, List.map_cons, List.mem_cons, hm', false_or]
          · rw [List.map_cons]
            refine List.pairwise_cons.2 ⟨?_, hpw⟩
            intro x hx
            obtain ⟨c, hc, rfl⟩ := List.mem_map.1 hx
            obtain ⟨e, he, hee⟩ := List.mem_map.1 (hok c hc).2.2
            have := hs'.1 e he
            rw [hee] at this
            exact this

end

/-! ## All devices -/

section
variable {σ : Type} {p : Port σ} {content : σ → Bytes} {env : Env} {unsnap : Bytes → Option Bytes} {schema : Schema} {bad : Bool}

/-- The file so far: the chunks `locs` are listed, and they are where the list says. -/
structure IoOk (env : Env) (unsnap : Bytes → Option Bytes) (schema : Schema) (content : σ → Bytes) (io : Stream.Io σ)
    (locs : List ChunkLoc) : Prop where
  counts : io.out.Counts content
  head_eq : (content io.out.writer).take 7 = head
  metas : io.chunkGroupMetadataList.flatMap (fun g => g.2.map (fun c => (IoWriter.seriesPath g.1 c.measurementId, c)))
      = locs.map (fun l => (IoWriter.seriesPath l.1 l.2.2.name, chunkMeta env l.2.1 l.2.2))
  ok : LocsOk env unsnap schema (content io.out.writer) locs
  tsm : io.timeseriesMetadataMap = []

theorem take_prefix {a b : Bytes} {n : Nat} {x : Bytes} (h : a <+: b) (hx : a.take n = x) (hn : x.length = n) : b.take n = x := by
  obtain ⟨t, rfl⟩ := h
  have := congrArg List.length hx
  rw [List.length_take, hn] at this
  rw [List.take_append_of_le_length (by omega), hx]

theorem IoOk.grow {io io' : Stream.Io σ} {locs : List ChunkLoc} (h : IoOk env unsnap schema content io locs)
    (hg : Grows content io.out io'.out) (hl : io'.chunkGroupMetadataList = io.chunkGroupMetadataList)
    (ht : io'.timeseriesMetadataMap = io.timeseriesMetadataMap) : IoOk env unsnap schema content io' locs := by
  obtain ⟨h1, h2⟩ := hg h.counts
  refine ⟨h1, take_prefix h2 h.head_eq rfl, by rw [hl]; exact h.metas, ?_, by rw [ht]; exact h.tsm⟩
  intro l hl
  obtain ⟨ms, a1, a2, a3, a4⟩ := h.ok l hl
  obtain ⟨t, ht⟩ := h2
  exact ⟨ms, a1, a2, a3, by rw [← ht]; exact a4.extend _⟩

/-- A device whose chunk writers hold the points `buf`. -/
def LooseDev (env : Env) (unsnap : Bytes → Option Bytes) (bad : Bool) (schema : Schema) (buf : Bytes → Bytes → List Point)
    (n : Bytes → Bytes → Nat) (e : Bytes × GroupWriter) : Prop :=
  ∃ ms, look e.1 schema = some ms ∧ LooseRep env unsnap bad ms e.2.chunkWriters (buf e.1) (n e.1)
    ∧ BMap.Sorted e.2.chunkWriters ∧ (∀ m, m ∈ e.2.chunkWriters.map Prod.fst ↔ (look m ms).isSome)

theorem LooseDev.worse {buf : Bytes → Bytes → List Point} {n : Bytes → Bytes → Nat} {e : Bytes × GroupWriter}
    (h : LooseDev env unsnap bad schema buf n e) : LooseDev env unsnap true schema buf n e := by
  obtain ⟨ms, a1, a2, a3, a4⟩ := h
  refine ⟨ms, a1, ?_, a3, a4⟩
  intro x hx
  obtain ⟨sch, q1, q2⟩ := a2 x hx
  exact ⟨sch, q1, q2.worse⟩

theorem LooseDev.good {buf : Bytes → Bytes → List Point} {n n' : Bytes → Bytes → Nat} {e : Bytes × GroupWriter}
    (h : LooseDev env unsnap false schema buf n e) : LooseDev env unsnap bad schema buf n' e := by
  obtain ⟨ms, a1, a2, a3, a4⟩ := h
  refine ⟨ms, a1, ?_, a3, a4⟩
  intro x hx
  obtain ⟨sch, q1, q2⟩ := a2 x hx
  exact ⟨sch, q1, q2.good⟩

/-- The schema has this series. -/
def Schema.Has (schema : Schema) (d m : Bytes) : Prop := ∃ ms sch, look d schema = some ms ∧ look m ms = some sch

theorem sorted_like {α β : Type} {a : BMap α} {b : BMap β} (hk : b.map Prod.fst = a.map Prod.fst) (h : BMap.Sorted a) :
    BMap.Sorted b := by
  have h1 : (a.map Prod.fst).Pairwise (fun a b => bytesLt a b = true) := List.pairwise_map.2 h
  rw [← hk] at h1
  exact List.pairwise_map.1 h1

theorem pos_diff {a b : Nat} (hb : a + b < 2 ^ 64) : (BitVec.ofNat 64 (a + b) - BitVec.ofNat 64 a).toNat = b := by
  rw [BitVec.ofNat_add, BitVec.add_comm, BitVec.add_sub_cancel, BitVec.toNat_ofNat, Nat.mod_eq_of_lt (by omega)]

theorem startChunkGroup_any {io io' : Stream.Io σ} {d : Bytes} {ok : Bool}
    (h : io.startChunkGroup p d = some (io', ok)) :
    io'.chunkGroupMetadataList = io.chunkGroupMetadataList ∧ io'.timeseriesMetadataMap = io.timeseriesMetadataMap
    ∧ (ok = true → io'.currentDevice = some d ∧ io'.chunkMetadataList = []) := by
  rw [Stream.Io.startChunkGroup] at h
  cases hs : p.script io.out (chunkGroupHeaderParts d) with
  | none => rw [hs] at h; cases h
  | some r =>
    obtain ⟨w, b⟩ := r
    rw [hs] at h
    cases b <;> (cases h; simp)

theorem startChunkGroup_faithful (hf : Faithful p content) {io io' : Stream.Io σ} {d : Bytes} {ok : Bool} (hc : io.out.Counts content)
    (h : io.startChunkGroup p d = some (io', ok)) :
    ok = true ∧ content io'.out.writer = content io.out.writer ++ chunkGroupHeader d := by
  rw [Stream.Io.startChunkGroup] at h
  cases hs : p.script io.out (chunkGroupHeaderParts d) with
  | none => rw [hs] at h; cases h
  | some r =>
    obtain ⟨w, b⟩ := r
    rw [hs] at h
    have := script_faithful hf _ hc hs
    rw [flatten_chunkGroupHeaderParts] at this
    cases b <;> (cases h; exact this)

/-- The places of the chunks of one device. -/
def groupLocs (env : Env) (d : Bytes) (pos : Nat) (cs : List GChunk) : List ChunkLoc := (chunkLocs env pos cs).map (fun l => (d, l))

theorem groupLocs_pts (d : Bytes) (pos : Nat) (cs : List GChunk) (d' m : Bytes) :
    locPts (groupLocs env d pos cs) d' m = if d = d' then chunkPts cs m else [] := by
  induction cs generalizing pos with
  | nil => simp [groupLocs, chunkLocs, locPts, locsIn, chunkPts]
  | cons c cs ih =>
    have := ih (pos + (c.bytes env).length)
    simp only [groupLocs, locPts, locsIn, chunkPts, chunkLocs, List.map_cons, List.filter_cons] at this ⊢
    by_cases hd : d = d'
    · subst hd
      simp only [true_and, if_true] at this ⊢
      by_cases hm : c.name = m
      · simp [hm] at this ⊢; exact this
      · simp [hm] at this ⊢; exact this
    · simp [hd]

theorem groupLocs_metas (d : Bytes) (pos : Nat) (cs : List GChunk) :
    (chunkMetas env pos cs).map (fun c => (IoWriter.seriesPath d c.measurementId, c))
      = (groupLocs env d pos cs).map (fun l => (IoWriter.seriesPath l.1 l.2.2.name, chunkMeta env l.2.1 l.2.2)) := by
  rw [chunkMetas_eq, groupLocs, List.map_map, List.map_map]
  rfl

theorem locPts_append (a b : List ChunkLoc) (d m : Bytes) : locPts (a ++ b) d m = locPts a d m ++ locPts b d m := by
  simp [locPts, locsIn]

/-- Of the groups added to `before`, all but a rest without chunks are on the disk, which was `old` and is `now`. -/
def Surviving (env : Env) (before old now : Bytes) (groups : List GGroup) : Prop :=
  old <+: now ∧ ∃ a b, groups = a ++ b ∧ (∀ g ∈ b, g.2 = []) ∧ (a = [] ∨ before ++ a.flatMap (groupBytes env) <+: now)

/-- A flush on an output that does what it likes. Every series keeps its points, or has them listed in the file, or loses
them. -/
theorem flushLoop_any (hsn : SnappyOk env unsnap) (hd : Keeps p content) {n : Bytes → Bytes → Nat} (hn : bad = true → ∀ d m, n d m < 3000)
    {buf : Bytes → Bytes → List Point} (hlen : ∀ d m, (buf d m).length < 2 ^ 32)
    (gs : BMap GroupWriter) {gs' : BMap GroupWriter} (hsorted : BMap.Sorted gs)
    (h : ∀ e ∈ gs, LooseDev env unsnap bad schema buf n e) {io io' : Stream.Io σ} {locs : List ChunkLoc}
    (hio : IoOk env unsnap schema content io locs) {lm lm' : BMap (BMap W64)} {e : Option TsFileError}
    (hw : Stream.Writer.flushLoop env p gs io lm = some (gs', io', lm', e))
    (hF : (content io'.out.writer).length < 2 ^ 64) :
    ∃ new buf', IoOk env unsnap schema content io' (locs ++ new)
      ∧ (∀ e ∈ gs', LooseDev env unsnap true schema buf' n e)
      ∧ gs'.map Prod.fst = gs.map Prod.fst
      ∧ (∀ d m, (locPts new d m ++ buf' d m).Sublist (buf d m))
      ∧ (∀ d, d ∉ gs.map Prod.fst → ∀ m, locPts new d m = [])
      ∧ (∀ disk, Buffering p content disk → e = none ∧ ∃ groups, content io'.out.writer = content io.out.writer ++ groups.flatMap (groupBytes env)
          ∧ new = fileLocs env (content io.out.writer).length groups ∧ GroupsOk env unsnap schema groups
          ∧ Surviving env (content io.out.writer) (disk io.out.writer) (disk io'.out.writer) groups)
      ∧ (Faithful p content → ∀ d ∈ gs.map Prod.fst, ∀ m, schema.Has d m → locPts new d m = buf d m) := by
  induction gs generalizing io gs' lm locs with
  | nil =>
    simp only [Stream.Writer.flushLoop, Option.some.injEq, Prod.mk.injEq] at hw
    obtain ⟨rfl, rfl, rfl, rfl⟩ := hw
    exact ⟨[], buf, by simpa using hio, by simp, rfl, by simp [locPts, locsIn], by simp [locPts, locsIn],
      fun _ _ => ⟨rfl, [], by simp, rfl, by intro g hg; simp at hg, List.prefix_refl _, [], [], rfl, by simp, .inl rfl⟩, fun _ d hd => by simp at hd⟩
  | cons x gs ih =>
    obtain ⟨d, g⟩ := x
    have hs' := List.pairwise_cons.1 hsorted
    have hnot : d ∉ gs.map Prod.fst := by
      intro hm
      obtain ⟨e, he, hee⟩ := List.mem_map.1 hm
      exact bytesLt_ne (hs'.1 e he) hee.symm
    rw [Stream.Writer.flushLoop] at hw
    cases h1 : io.startChunkGroup p d with
    | none => rw [h1] at hw; cases hw
    | some r =>
      obtain ⟨io1, ok⟩ := r
      rw [h1] at hw
      obtain ⟨s1, s2, s3⟩ := startChunkGroup_any h1
      have hio1 := hio.grow (startChunkGroup_grows hd.stores h1) s1 s2
      cases ok with
      | false =>
        cases hw
        exact ⟨[], buf, by simpa using hio1, fun e he => (h e he).worse, rfl, by simp [locPts, locsIn], by simp [locPts, locsIn],
          (fun _ hf => by cases (startChunkGroup_faithful hf.toFaithful hio.counts h1).1),
          (fun hf => by cases (startChunkGroup_faithful hf hio.counts h1).1)⟩
      | true =>
        simp only at hw
        obtain ⟨t1, t2⟩ := s3 rfl
        obtain ⟨ms, hms, hrep, hsort, hkeys⟩ := h (d, g) (by simp)
        simp only at hms hrep hsort hkeys
        cases h2 : Stream.flushToFilewriter env p g io1 with
        | none => rw [h2] at hw; cases hw
        | some r =>
          obtain ⟨g', io2, sz⟩ := r
          rw [h2] at hw
          simp only at hw
          have hg2 := flushToFilewriter_grows hd.stores h2
          rw [Stream.flushToFilewriter] at h2
          obtain ⟨cs1, hseal, hshut, hk1⟩ := sealAll_any hsn (fun hx => hn hx d) g.chunkWriters hrep
          rw [hseal] at h2
          simp only at h2
          cases h3 : Stream.writeAllChunks env p cs1 io1 with
          | none => rw [h3] at h2; cases h2
          | some r =>
            obtain ⟨cs2, io2'⟩ := r
            rw [h3] at h2
            simp only [Option.some.injEq, Prod.mk.injEq] at h2
            obtain ⟨rfl, rfl, rfl⟩ := h2
            obtain ⟨i1, i2, i3, i4, i5, i6, chunks, b, metas, i7, i8, i9, i10, i11, i12, i13, i14, i15⟩ :=
              writeAllChunks_any hd.stores cs1 hshut (sorted_like hk1 hsort) (hlen d) hio1.counts h3
            have hio2 := hio1.grow hg2 i5 i6
            have hdev : ∀ buf', (∀ m, buf' d m = []) →
                LooseDev env unsnap true schema buf' n (d, { g with chunkWriters := cs2 }) := by
              intro buf' hb
              refine ⟨ms, hms, ?_, sorted_like (i2.trans hk1) hsort, ?_⟩
              · intro e he
                obtain ⟨sch, q1, q2⟩ := i1 e he
                refine ⟨sch, q1, ?_⟩
                simp only [hb]
                exact q2.mono (Nat.zero_le _)
              · intro m
                simp only
                rw [i2, hk1]
                exact hkeys m
            by_cases hsz : (io2'.out.getPosition - io1.out.getPosition).toNat ≠ GroupWriter.chunkGroupSize cs1
            · rw [if_pos hsz] at hw
              cases hw
              have hno : ¬ Faithful p content := by
                intro hf
                refine absurd ?_ hsz
                rw [Counts.pos hio1.counts, Counts.pos i3, i7, List.length_append, pos_diff (by rw [i7, List.length_append] at hF; exact hF),
                  chunkGroupSize_eq, ← i11, i15 hf]
              refine ⟨[], fun d' m => if d' = d then [] else buf d' m, by simpa using hio2, ?_, rfl, ?_, by simp [locPts, locsIn],
                fun _ hf => absurd hf.toFaithful hno, fun hf => absurd hf hno⟩
              · intro e he
                rcases List.mem_cons.1 he with rfl | he
                · exact hdev _ (by simp)
                · obtain ⟨ms', a1, a2, a3, a4⟩ := (h e (by simp [he])).worse
                  have hne : e.1 ≠ d := fun hc => hnot (List.mem_map.2 ⟨e, he, hc⟩)
                  refine ⟨ms', a1, ?_, a3, a4⟩
                  simp only [hne, if_false]
                  exact a2
              · intro d' m
                simp only [locPts, locsIn, List.filter_nil, List.map_nil, List.flatMap_nil, List.nil_append]
                split <;> simp
            · rw [if_neg hsz] at hw
              cases h4 : Stream.Writer.flushLoop env p gs (io2'.endChunkGroup p) (lm.insert d g.lastTimeMap) with
              | none => simp only at hw; rw [h4] at hw; cases hw
              | some r =>
                obtain ⟨gs1, io3, lm1, e1⟩ := r
                simp only at hw
                rw [h4] at hw
                cases hw
                have hg3 := (endChunkGroup_grows hd _).trans (flushLoop_grows hd _ h4)
                have hb2 : (content io2'.out.writer).length < 2 ^ 64 := by
                  have := (hg3 hio2.counts).2.length_le
                  omega
                -- all the bytes arrived
                have hpos := Decidable.of_not_not hsz
                rw [Counts.pos hio1.counts, Counts.pos i3, i7, List.length_append, pos_diff (by rw [i7, List.length_append] at hb2; exact hb2),
                  chunkGroupSize_eq, ← i11] at hpos
                have hm := i9 hpos
                have hbe := i8.eq_of_length hpos
                subst hbe
                -- the chunks are listed
                have hio3 : IoOk env unsnap schema content (io2'.endChunkGroup p)
                    (locs ++ groupLocs env d (content io1.out.writer).length chunks) := by
                  have hcd : io2'.currentDevice = some d := by rw [i4, t1]
                  have hml : io2'.chunkMetadataList = chunkMetas env (content io1.out.writer).length chunks := by
                    rw [i10, t2, hm, List.nil_append]
                  have hlist : (io2'.endChunkGroup p).chunkGroupMetadataList.flatMap (fun g => g.2.map (fun c => (IoWriter.seriesPath g.1 c.measurementId, c)))
                      = io2'.chunkGroupMetadataList.flatMap (fun g => g.2.map (fun c => (IoWriter.seriesPath g.1 c.measurementId, c)))
                        ++ (chunkMetas env (content io1.out.writer).length chunks).map (fun c => (IoWriter.seriesPath d c.measurementId, c)) := by
                    rw [Stream.Io.endChunkGroup, hcd]
                    simp only
                    by_cases he : io2'.chunkMetadataList.isEmpty
                    · rw [if_pos he]
                      have : chunkMetas env (content io1.out.writer).length chunks = [] := by
                        rw [← hml]; simpa using he
                      rw [this]; simp
                    · rw [if_neg he]
                      simp [hml]
                  have htsm : (io2'.endChunkGroup p).timeseriesMetadataMap = io2'.timeseriesMetadataMap := by
                    rw [Stream.Io.endChunkGroup, hcd]
                    simp only
                    split <;> rfl
                  refine ⟨endChunkGroup_counts hd hio2.counts, by rw [endChunkGroup_content hd]; exact hio2.head_eq, ?_, ?_, by rw [htsm]; exact hio2.tsm⟩
                  · rw [hlist, hio2.metas, List.map_append, groupLocs_metas]
                  · rw [endChunkGroup_content hd]
                    intro l hl
                    rcases List.mem_append.1 hl with hl | hl
                    · exact hio2.ok l hl
                    · obtain ⟨l', hl', rfl⟩ := List.mem_map.1 hl
                      have hc := i12 _ (chunkLocs_mem hl')
                      refine ⟨ms, hms, hc.1, hc.2.1, ?_⟩
                      rw [i7]
                      exact chunkLocs_at (At.append _ _) hl'
                obtain ⟨new, buf', j1, j2, j3, j4, j5, j6, j7⟩ := ih hs'.2 (fun e he => h e (by simp [he])) hio3 h4
                have hbuf' : ∀ d', d' ≠ d → ∀ m, (fun d' m => if d' = d then [] else buf' d' m) d' m = buf' d' m := by
                  intro d' hne m; simp [hne]
                refine ⟨groupLocs env d (content io1.out.writer).length chunks ++ new, fun d' m => if d' = d then [] else buf' d' m,
                  by rw [← List.append_assoc]; exact j1, ?_, by simp [j3], ?_, ?_, ?_, ?_⟩
                · intro e he
                  rcases List.mem_cons.1 he with rfl | he
                  · exact hdev _ (by simp)
                  · obtain ⟨ms', a1, a2, a3, a4⟩ := j2 e he
                    have hne : e.1 ≠ d := by
                      intro hc
                      apply hnot
                      rw [← j3]
                      exact List.mem_map.2 ⟨e, he, hc⟩
                    refine ⟨ms', a1, ?_, a3, a4⟩
                    simp only [hne, if_false]
                    exact a2
                · intro d' m
                  rw [locPts_append, groupLocs_pts]
                  by_cases hdd : d' = d
                  · subst hdd
                    rw [if_pos rfl, j5 d' hnot, i13]
                    simp only [if_true, List.append_nil]
                    split <;> simp
                  · rw [if_neg (fun hc => hdd hc.symm)]
                    simp only [hdd, if_false, List.nil_append]
                    exact j4 d' m
                · intro d' hd' m
                  simp only [List.map_cons, List.mem_cons, not_or] at hd'
                  rw [locPts_append, groupLocs_pts, if_neg (fun hc => hd'.1 hc.symm), j5 d' hd'.2]
                  rfl
                · intro disk hf
                  obtain ⟨he, groups, g1, g2, g3, g4, a, b, e1, e2, e3⟩ := j6 disk hf
                  obtain ⟨_, c1⟩ := startChunkGroup_faithful hf.toFaithful hio.counts h1
                  have d1 := (startChunkGroup_disk hf h1).trans (writeAllChunks_disk hf _ h3)
                  refine ⟨he, (d, chunks) :: groups, ?_, ?_, ?_, (d1.trans (endChunkGroup_disk hf _)).trans g4, ?_⟩
                  · rw [g1, endChunkGroup_content hd, i7, c1]
                    simp [groupBytes]
                  · rw [fileLocs, g2, endChunkGroup_content hd, i7, c1]
                    simp [groupLocs, groupBytes]
                  · intro g hg
                    rcases List.mem_cons.1 hg with rfl | hg
                    · exact ⟨ms, hms, fun c hc => ⟨(i12 c hc).1, (i12 c hc).2.1⟩, i14⟩
                    · exact g3 g hg
                  · have hall : content io2'.out.writer = content io.out.writer ++ groupBytes env (d, chunks) := by
                      rw [i7, c1]
                      simp [groupBytes]
                    by_cases ha : a = []
                    · subst ha
                      by_cases hch : chunks = []
                      · exact ⟨[], (d, chunks) :: b, by rw [e1]; rfl, fun g hg => by
                          rcases List.mem_cons.1 hg with rfl | hg
                          · exact hch
                          · exact e2 g hg, .inl rfl⟩
                      · refine ⟨[(d, chunks)], b, by rw [e1]; rfl, e2, .inr ?_⟩
                        have hfl := endChunkGroup_flushed hf (io := io2') (d := d) (by rw [i4, t1]) (by
                          rw [i10, t2, hm, List.nil_append, chunkMetas_eq]
                          intro hc
                          cases chunks with
                          | nil => exact hch rfl
                          | cons c cs => simp [chunkLocs] at hc)
                        rw [hfl, hall] at g4
                        simpa using g4
                    · refine ⟨(d, chunks) :: a, b, by rw [e1]; rfl, e2, .inr ?_⟩
                      have := e3.resolve_left ha
                      rw [endChunkGroup_content hd, hall] at this
                      simpa using this
                · intro hf d' hd' m hm
                  rw [locPts_append, groupLocs_pts]
                  by_cases hdd : d' = d
                  · subst hdd
                    obtain ⟨ms', sch, q1, q2⟩ := hm
                    rw [hms] at q1
                    cases q1
                    have hmk : m ∈ cs1.map Prod.fst := by rw [hk1]; exact (hkeys m).2 (by rw [q2]; rfl)
                    rw [if_pos rfl, j5 d' hnot, i13, if_pos hmk, List.append_nil]
                  · rw [if_neg (fun hc => hdd hc.symm), List.nil_append]
                    refine j7 hf d' ?_ m hm
                    rw [List.map_cons, List.mem_cons] at hd'
                    exact hd'.resolve_left hdd

end

/-! ## The whole writer -/

section
variable {σ : Type} {p : Port σ} {content : σ → Bytes} {env : Env} {unsnap : Bytes → Option Bytes} {schema : Schema} {bad : Bool}

/-- The writer after any history on any output. -/
structure Torn (env : Env) (unsnap : Bytes → Option Bytes) (bad : Bool) (schema : Schema) (content : σ → Bytes) (w : Stream.Writer σ)
    (locs : List ChunkLoc) (buf : Bytes → Bytes → List Point) (n : Bytes → Bytes → Nat) : Prop where
  schema_eq : w.schema = schema
  io : IoOk env unsnap schema content w.io locs
  sorted : BMap.Sorted w.groupWriters
  keys : ∀ d, d ∈ w.groupWriters.map Prod.fst ↔ (look d schema).isSome
  devices : ∀ e ∈ w.groupWriters, LooseDev env unsnap bad schema buf n e

theorem LooseDev.mono {buf : Bytes → Bytes → List Point} {n n' : Bytes → Bytes → Nat} {e : Bytes × GroupWriter}
    (h : LooseDev env unsnap bad schema buf n e) (hn : ∀ d m, n d m ≤ n' d m) : LooseDev env unsnap bad schema buf n' e := by
  obtain ⟨ms, a1, a2, a3, a4⟩ := h
  refine ⟨ms, a1, ?_, a3, a4⟩
  intro x hx
  obtain ⟨sch, q1, q2⟩ := a2 x hx
  exact ⟨sch, q1, q2.mono (hn _ _)⟩

theorem Torn.mono {w : Stream.Writer σ} {locs : List ChunkLoc} {buf : Bytes → Bytes → List Point} {n n' : Bytes → Bytes → Nat}
    (h : Torn env unsnap bad schema content w locs buf n) (hn : ∀ d m, n d m ≤ n' d m) :
    Torn env unsnap bad schema content w locs buf n' :=
  ⟨h.schema_eq, h.io, h.sorted, h.keys, fun e he => (h.devices e he).mono hn⟩

theorem newGroupWriters_torn (hwf : schema.WF) (n : Bytes → Bytes → Nat) :
    BMap.Sorted (Writer.newGroupWriters env schema)
    ∧ (∀ d, d ∈ (Writer.newGroupWriters env schema).map Prod.fst ↔ (look d schema).isSome)
    ∧ ∀ e ∈ Writer.newGroupWriters env schema, LooseDev env unsnap bad schema (fun _ _ => []) n e := by
  obtain ⟨h1, h2, h3⟩ := newGroupWriters_rep env unsnap schema hwf AState.init rfl rfl
  refine ⟨h1, h2, fun e he => ?_⟩
  obtain ⟨ms, a1, a2⟩ := h3 e he
  refine ⟨ms, a1, ?_, a2.sorted, a2.keys⟩
  intro x hx
  obtain ⟨sch, pages, cur, q1, q2, q3, q4, q5⟩ := a2.chunks x hx
  exact ⟨sch, q1, .inl ⟨pages, cur, q2, q3, by rw [q4]; rfl, q5.full⟩⟩

/-- Only whole chunk groups have been written, all their chunks are listed, and all but a rest without chunks is on the disk. -/
def Whole (env : Env) (unsnap : Bytes → Option Bytes) (schema : Schema) (content disk : σ → Bytes) (io : Stream.Io σ)
    (locs : List ChunkLoc) : Prop :=
  ∃ groups, content io.out.writer = fileBytes env groups ∧ locs = fileLocs env 7 groups ∧ GroupsOk env unsnap schema groups
    ∧ ∃ a b, groups = a ++ b ∧ (∀ g ∈ b, g.2 = []) ∧ (a = [] ∨ fileBytes env a <+: disk io.out.writer)

theorem fileLocs_append (env : Env) (pos : Nat) (a b : List GGroup) :
    fileLocs env pos (a ++ b) = fileLocs env pos a ++ fileLocs env (pos + (a.flatMap (groupBytes env)).length) b := by
  induction a generalizing pos with
  | nil => simp [fileLocs]
  | cons g a ih =>
    simp only [List.cons_append, fileLocs, ih, List.flatMap_cons, List.length_append, Nat.add_assoc, List.append_assoc]

theorem fileBytes_length (env : Env) (groups : List GGroup) :
    (fileBytes env groups).length = 7 + (groups.flatMap (groupBytes env)).length := by
  rw [fileBytes, List.length_append]
  rfl

theorem Whole.grow {disk : σ → Bytes} {io io' : Stream.Io σ} {locs new : List ChunkLoc} (h : Whole env unsnap schema content disk io locs)
    (hg : ∃ groups, content io'.out.writer = content io.out.writer ++ groups.flatMap (groupBytes env)
          ∧ new = fileLocs env (content io.out.writer).length groups ∧ GroupsOk env unsnap schema groups
          ∧ Surviving env (content io.out.writer) (disk io.out.writer) (disk io'.out.writer) groups) :
    Whole env unsnap schema content disk io' (locs ++ new) := by
  obtain ⟨g1, a1, a2, a3, a, b, a4, a5, a6⟩ := h
  obtain ⟨g2, b1, b2, b3, b4, a', b', b5, b6, b7⟩ := hg
  refine ⟨g1 ++ g2, by rw [b1, a1, fileBytes_append], ?_, ?_, ?_⟩
  · rw [fileLocs_append, a2, b2, a1, fileBytes_length]
  · intro g hg
    rcases List.mem_append.1 hg with hg | hg
    · exact a3 g hg
    · exact b3 g hg
  · by_cases ha : a' = []
    · subst ha
      refine ⟨a, b ++ b', by rw [a4, b5]; simp, fun g hg => ?_, a6.imp_right (·.trans b4)⟩
      rcases List.mem_append.1 hg with hg | hg
      · exact a5 g hg
      · exact b6 g hg
    · refine ⟨g1 ++ a', b', by rw [b5, List.append_assoc], b6, .inr ?_⟩
      have := b7.resolve_left ha
      rw [a1, ← fileBytes_append] at this
      exact this

theorem Torn.good {w : Stream.Writer σ} {locs : List ChunkLoc} {buf : Bytes → Bytes → List Point} {n n' : Bytes → Bytes → Nat}
    (h : Torn env unsnap false schema content w locs buf n) : Torn env unsnap bad schema content w locs buf n' :=
  ⟨h.schema_eq, h.io, h.sorted, h.keys, fun e he => (h.devices e he).good⟩

theorem flushAll_any (hsn : SnappyOk env unsnap) (hwf : schema.WF) (hd : Keeps p content) {w w' : Stream.Writer σ}
    {locs : List ChunkLoc} {buf : Bytes → Bytes → List Point} {n : Bytes → Bytes → Nat}
    (h : Torn env unsnap bad schema content w locs buf n) (hn : bad = true → ∀ d m, n d m < 3000) (hf : bad = false → Faithful p content)
    (hlen : ∀ d m, (buf d m).length < 2 ^ 32) {e : Option TsFileError}
    (hw : w.flushAllChunkGroups env p = some (w', e)) (hF : (content w'.io.out.writer).length < 2 ^ 64) :
    ∃ new buf', Torn env unsnap bad schema content w' (locs ++ new) buf' n
      ∧ (∀ d m, (locPts new d m ++ buf' d m).Sublist (buf d m))
      ∧ (∀ disk, Buffering p content disk → Whole env unsnap schema content disk w.io locs → Whole env unsnap schema content disk w'.io (locs ++ new)) := by
  rw [Stream.Writer.flushAllChunkGroups] at hw
  split at hw
  · cases h1 : Stream.Writer.flushLoop env p w.groupWriters w.io w.nonAlignedLastTimeMap with
    | none => rw [h1] at hw; cases hw
    | some r =>
      obtain ⟨gs, io, lm, e1⟩ := r
      rw [h1] at hw
      cases e1 with
      | some e1 =>
        cases hw
        obtain ⟨new, buf', j1, j2, j3, j4, _, j6, _⟩ := flushLoop_any hsn hd hn hlen _ h.sorted h.devices h.io h1 hF
        refine ⟨new, buf', ⟨h.schema_eq, j1, sorted_like j3 h.sorted, by intro d; simp only [j3]; exact h.keys d, ?_⟩, j4, fun _ hf' => by cases (j6 _ hf').1⟩
        cases bad with
        | true => exact j2
        | false => cases (j6 _ (hf rfl).buffering).1
      | none =>
        cases hw
        obtain ⟨new, buf', j1, _, _, j4, _, j6, _⟩ := flushLoop_any hsn hd hn hlen _ h.sorted h.devices h.io h1 hF
        obtain ⟨k1, k2, k3⟩ := newGroupWriters_torn (env := env) (unsnap := unsnap) hwf n
        refine ⟨new, fun _ _ => [], ⟨h.schema_eq, j1, ?_, ?_, ?_⟩, fun d m => ?_, fun _ hf' hw' => hw'.grow (j6 _ hf').2⟩
        · simp only [Stream.Writer.reset, h.schema_eq]; exact k1
        · simp only [Stream.Writer.reset, h.schema_eq]; exact k2
        · simp only [Stream.Writer.reset, h.schema_eq]; exact k3
        · rw [List.append_nil]
          exact (List.sublist_append_left _ _).trans (j4 d m)
  · cases hw
    exact ⟨[], buf, by simpa using h, by simp [locPts, locsIn], fun _ _ hw' => by simpa using hw'⟩

theorem checkMemory_any (hsn : SnappyOk env unsnap) (hwf : schema.WF) (hd : Keeps p content) {w w' : Stream.Writer σ}
    {locs : List ChunkLoc} {buf : Bytes → Bytes → List Point} {n : Bytes → Bytes → Nat}
    (h : Torn env unsnap bad schema content w locs buf n) (hn : bad = true → ∀ d m, n d m < 3000) (hf : bad = false → Faithful p content)
    (hlen : ∀ d m, (buf d m).length < 2 ^ 32)
    (hw : w.checkMemorySize env p = some w') (hF : (content w'.io.out.writer).length < 2 ^ 64) :
    ∃ new buf', Torn env unsnap bad schema content w' (locs ++ new) buf' n
      ∧ (∀ d m, (locPts new d m ++ buf' d m).Sublist (buf d m))
      ∧ (∀ disk, Buffering p content disk → Whole env unsnap schema content disk w.io locs → Whole env unsnap schema content disk w'.io (locs ++ new)) := by
  have triv : ∀ w1 : Stream.Writer σ, w1.io = w.io → Torn env unsnap bad schema content w1 locs buf n →
      ∃ new buf', Torn env unsnap bad schema content w1 (locs ++ new) buf' n
        ∧ (∀ d m, (locPts new d m ++ buf' d m).Sublist (buf d m))
        ∧ (∀ disk, Buffering p content disk → Whole env unsnap schema content disk w.io locs → Whole env unsnap schema content disk w1.io (locs ++ new)) :=
    fun w1 hi h1 => ⟨[], buf, by simpa using h1, by simp [locPts, locsIn], fun _ _ hw' => by
      rw [List.append_nil, hi]; exact hw'⟩
  have h' : ∀ k, Torn env unsnap bad schema content { w with recordCountForNextMemCheck := k } locs buf n :=
    fun k => ⟨h.schema_eq, h.io, h.sorted, h.keys, h.devices⟩
  rw [Stream.Writer.checkMemorySize] at hw
  split at hw
  · simp only at hw
    split at hw
    · cases hw
    · split at hw
      · rw [Option.map_eq_some_iff] at hw
        obtain ⟨⟨w1, e⟩, h1, rfl⟩ := hw
        have h2 := h' (TsFile.Writer.nextMemCheck w.recordCountForNextMemCheck w.memSize)
        have h3 := flushAll_any hsn hwf hd h2 hn hf hlen h1 hF
        exact h3
      · cases hw; exact triv _ rfl (h' _)
  · cases hw; exact triv _ rfl h

/-- Points added to what is held. -/
def plus (buf : Bytes → Bytes → List Point) (l : List Rec) : Bytes → Bytes → List Point := fun d m => buf d m ++ series l d m

/-- The same for the counts. -/
def more (n : Bytes → Bytes → Nat) (l : List Rec) : Bytes → Bytes → Nat := fun d m => n d m + (series l d m).length

theorem plus_nil (buf : Bytes → Bytes → List Point) : plus buf [] = buf := by
  funext d m; simp [plus, series]

theorem plus_append (buf : Bytes → Bytes → List Point) (a b : List Rec) : plus (plus buf a) b = plus buf (a ++ b) := by
  funext d m; simp [plus, series_append]

theorem more_append (n : Bytes → Bytes → Nat) (a b : List Rec) : more (more n a) b = more n (a ++ b) := by
  funext d m; simp [more, series_append, Nat.add_assoc]

theorem more_le (n : Bytes → Bytes → Nat) (a : List Rec) (d m : Bytes) : n d m ≤ more n a d m := Nat.le_add_right _ _

theorem checkIsHistory_chunks (g : GroupWriter) (m : Bytes) (t : W64) :
    (g.checkIsHistoryData m t).1.chunkWriters = g.chunkWriters := by
  rw [GroupWriter.checkIsHistoryData]
  split <;> rfl

theorem group_write_any (hsn : SnappyOk env unsnap) {d : Bytes} {g : GroupWriter} {buf : Bytes → Bytes → List Point}
    {n : Bytes → Bytes → Nat} (h : LooseDev env unsnap bad schema buf n (d, g)) (m : Bytes) (t : W64) (v : IoTDBValue)
    (hn : bad = true → ∀ d' m', more n [⟨d, m, t, v⟩] d' m' < 3000) :
    match (g.write env m t v).2 with
    | .ok _ => LooseDev env unsnap bad schema (plus buf [⟨d, m, t, v⟩]) (more n [⟨d, m, t, v⟩]) (d, (g.write env m t v).1)
    | .err _ => LooseDev env unsnap bad schema buf n (d, (g.write env m t v).1)
    | .panic => True := by
  have hcw := checkIsHistory_chunks g m t
  rw [GroupWriter.write]
  rcases hck : g.checkIsHistoryData m t with ⟨g1, b⟩
  rw [hck] at hcw
  simp only at hcw
  have h1 : LooseDev env unsnap bad schema buf n (d, g1) := by
    obtain ⟨ms, a1, a2, a3, a4⟩ := h
    exact ⟨ms, a1, by simp only at a2 ⊢; rw [hcw]; exact a2, by simp only at a3 ⊢; rw [hcw]; exact a3,
      by simp only at a4 ⊢; rw [hcw]; exact a4⟩
  cases b with
  | false => exact h1
  | true =>
    simp only
    cases hg : BMap.get? m g1.chunkWriters with
    | none => exact h1
    | some c =>
      simp only
      cases hw : c.write env t v with
      | err e => trivial
      | panic => trivial
      | ok r =>
        obtain ⟨c', k⟩ := r
        simp only
        obtain ⟨ms, a1, a2, a3, a4⟩ := h1
        simp only at a1 a2 a3 a4
        have hmem := BMap.mem_of_get? hg
        obtain ⟨sch, q1, q2⟩ := a2 (m, c) hmem
        simp only at q1 q2
        have hs : ∀ m', series [⟨d, m, t, v⟩] d m' = if m = m' then [(t, v)] else [] := by
          intro m'; rw [series_single]; simp
        have hnm : bad = true → n d m + 1 < 3000 := by
          intro hb
          have := hn hb d m
          simp only [more, hs, if_true, List.length_cons, List.length_nil] at this
          omega
        refine ⟨ms, a1, ?_, BMap.sorted_insert a3, ?_⟩
        · intro e he
          rcases mem_insert_sorted a3 he with rfl | ⟨he, hne⟩
          · refine ⟨sch, q1, ?_⟩
            simp only [plus, more, hs, if_true, List.length_cons, List.length_nil]
            exact q2.write hsn hnm hw
          · obtain ⟨s', r1, r2⟩ := a2 e he
            refine ⟨s', r1, ?_⟩
            simp only [plus, more, hs, hne, if_false, List.append_nil, List.length_nil, Nat.add_zero]
            exact r2
        · intro m'
          simp only
          rw [keys_insert (List.mem_map.2 ⟨_, hmem, rfl⟩)]
          exact a4 m'

theorem group_writeMany_any (hsn : SnappyOk env unsnap) {d : Bytes} (t : W64) (vs : List (Bytes × IoTDBValue)) {g : GroupWriter}
    {buf : Bytes → Bytes → List Point} {n : Bytes → Bytes → Nat} (h : LooseDev env unsnap bad schema buf n (d, g))
    (hn : bad = true → ∀ d' m', more n (vs.map (fun q => ⟨d, q.1, t, q.2⟩)) d' m' < 3000) (k : W32)
    (hp : (GroupWriter.writeMany env t vs k g).2 ≠ .panic) :
    ∃ l, l <+: vs.map (fun q => (⟨d, q.1, t, q.2⟩ : Rec))
      ∧ LooseDev env unsnap bad schema (plus buf l) (more n l) (d, (GroupWriter.writeMany env t vs k g).1) := by
  induction vs generalizing g buf n k with
  | nil => exact ⟨[], List.nil_prefix, by rw [plus_nil, GroupWriter.writeMany]; exact h.mono (fun d m => more_le n _ d m)⟩
  | cons e vs ih =>
    obtain ⟨m, v⟩ := e
    have hn1 : bad = true → ∀ d' m', more n [⟨d, m, t, v⟩] d' m' < 3000 := by
      intro hb d' m'
      have := hn hb d' m'
      rw [List.map_cons, ← List.singleton_append, ← more_append] at this
      exact Nat.lt_of_le_of_lt (more_le _ _ d' m') this
    have h1 := group_write_any hsn h m t v hn1
    rw [GroupWriter.writeMany] at hp ⊢
    rcases hg : g.write env m t v with ⟨g', r⟩
    rw [hg] at h1 hp
    cases r with
    | ok k' =>
      simp only at h1 hp ⊢
      obtain ⟨l, l1, l2⟩ := ih h1 (by
        intro hb d' m'
        have := hn hb d' m'
        rw [List.map_cons, ← List.singleton_append, ← more_append] at this
        exact this) _ hp
      rw [plus_append, more_append] at l2
      refine ⟨⟨d, m, t, v⟩ :: l, ?_, l2⟩
      rw [List.map_cons]
      exact List.prefix_cons_inj _ |>.2 l1
    | err e =>
      exact ⟨[], List.nil_prefix, by rw [plus_nil]; exact LooseDev.mono h1 (fun d m => more_le n _ d m)⟩
    | panic => exact absurd rfl hp

/-- A changed device. -/
theorem Torn.insert {w : Stream.Writer σ} {locs : List ChunkLoc} {buf : Bytes → Bytes → List Point} {n : Bytes → Bytes → Nat}
    (h : Torn env unsnap bad schema content w locs buf n) {d : Bytes} {g g' : GroupWriter} (hg : BMap.get? d w.groupWriters = some g)
    {l : List Rec} (hl : ∀ r ∈ l, r.device = d) (h' : LooseDev env unsnap bad schema (plus buf l) (more n l) (d, g')) (rc : W32) :
    Torn env unsnap bad schema content { w with groupWriters := w.groupWriters.insert d g', recordCount := rc } locs (plus buf l) (more n l) := by
  have hmem := BMap.mem_of_get? hg
  refine ⟨h.schema_eq, h.io, BMap.sorted_insert h.sorted, ?_, ?_⟩
  · intro d'
    simp only
    rw [keys_insert (List.mem_map.2 ⟨_, hmem, rfl⟩)]
    exact h.keys d'
  · intro e he
    rcases mem_insert_sorted h.sorted he with rfl | ⟨he, hne⟩
    · exact h'
    · have hs : ∀ m, series l e.1 m = [] := by
        intro m
        simp only [series, List.map_eq_nil_iff, List.filter_eq_nil_iff]
        intro r hr
        simp only [decide_eq_true_eq]
        intro hc
        exact hne ((hl r hr).symm.trans hc.1)
      obtain ⟨ms, a1, a2, a3, a4⟩ := h.devices e he
      refine ⟨ms, a1, ?_, a3, a4⟩
      intro x hx
      obtain ⟨sch, q1, q2⟩ := a2 x hx
      refine ⟨sch, q1, ?_⟩
      simp only [plus, more, hs, List.append_nil, List.length_nil, Nat.add_zero]
      exact q2

/-- What a call may hand over. -/
def handedBy (op : Op) (r : Res Unit) : List Rec :=
  match op with
  | .write d m t v => if r = .ok () then [⟨d, m, t, v⟩] else []
  | .writeMany d t vs => (Op.writeMany d t vs).recs

theorem handedBy_sublist (op : Op) (r : Res Unit) : (handedBy op r).Sublist op.recs := by
  cases op with
  | write d m t v => simp only [handedBy, Op.recs]; split <;> simp
  | writeMany d t vs => exact List.Sublist.refl _

theorem offered_cons (op : Op) (ops : List Op) (r : Res Unit) (rs : List (Res Unit)) :
    offered (op :: ops) (r :: rs) = handedBy op r ++ offered ops rs := by
  cases op <;> rfl

theorem series_sublist {a b : List Rec} (h : a.Sublist b) (d m : Bytes) : (series a d m).Sublist (series b d m) :=
  (h.filter _).map _

theorem step_any (hsn : SnappyOk env unsnap) (hwf : schema.WF) (hd : Keeps p content) {w : Stream.Writer σ}
    {locs : List ChunkLoc} {buf : Bytes → Bytes → List Point} {n : Bytes → Bytes → Nat}
    (h : Torn env unsnap bad schema content w locs buf n) (op : Op) (hn : bad = true → ∀ d m, more n op.recs d m < 3000)
    (hf : bad = false → Faithful p content)
    (hlen : ∀ d m, (plus buf op.recs d m).length < 2 ^ 32)
    (hp : (w.step env p op).2 ≠ .panic) (hF : (content (w.step env p op).1.io.out.writer).length < 2 ^ 64) :
    ∃ new buf', Torn env unsnap bad schema content (w.step env p op).1 (locs ++ new) buf' (more n op.recs)
      ∧ (∀ d m, (locPts new d m ++ buf' d m).Sublist (plus buf (handedBy op (w.step env p op).2) d m))
      ∧ (∀ disk, Buffering p content disk → Whole env unsnap schema content disk w.io locs → Whole env unsnap schema content disk (w.step env p op).1.io (locs ++ new)) := by
  have triv : ∀ (w1 : Stream.Writer σ) (l : List Rec) (k : List Rec), w1.io = w.io → l.Sublist k → Torn env unsnap bad schema content w1 locs (plus buf l) (more n op.recs) →
      ∃ new buf', Torn env unsnap bad schema content w1 (locs ++ new) buf' (more n op.recs)
        ∧ (∀ d m, (locPts new d m ++ buf' d m).Sublist (plus buf k d m))
        ∧ (∀ disk, Buffering p content disk → Whole env unsnap schema content disk w.io locs → Whole env unsnap schema content disk w1.io (locs ++ new)) :=
    fun w1 l k hi hlk h1 => ⟨[], plus buf l, by simpa using h1, fun d m => by
      simp only [locPts, locsIn, List.filter_nil, List.map_nil, List.flatMap_nil, List.nil_append, plus]
      exact (List.Sublist.refl _).append (series_sublist hlk d m), fun _ _ hw' => by
      rw [List.append_nil, hi]; exact hw'⟩
  have hmono : Torn env unsnap bad schema content w locs (plus buf []) (more n op.recs) := by
    rw [plus_nil]; exact h.mono (fun d m => more_le n _ d m)
  cases op with
  | write d m t v =>
    simp only [Stream.Writer.step, Stream.Writer.write] at hp hF ⊢
    cases hg : BMap.get? d w.groupWriters with
    | none => exact triv _ _ _ rfl (List.nil_sublist _) hmono
    | some g =>
      rw [hg] at hp hF
      simp only at hp hF ⊢
      have h1 := group_write_any hsn (h.devices _ (BMap.mem_of_get? hg)) m t v hn
      rcases hgw : g.write env m t v with ⟨g', r⟩
      rw [hgw] at h1 hp hF
      cases r with
      | panic => exact absurd rfl hp
      | err e =>
        simp only at h1 hp hF ⊢
        have h2 := h.insert hg (l := []) (by simp) (g' := g') (by rw [plus_nil]; exact h1.mono (fun d m => more_le n _ d m)) w.recordCount
        exact triv _ _ _ rfl (List.nil_sublist _) (h2.mono (fun d m => by simp only [more, series]; simp))
      | ok k =>
        simp only at h1 hp hF ⊢
        have h2 := h.insert hg (l := [⟨d, m, t, v⟩]) (by simp) h1 (w.recordCount + k)
        cases hc : Stream.Writer.checkMemorySize env p { w with groupWriters := w.groupWriters.insert d g', recordCount := w.recordCount + k } with
        | none => rw [hc] at hp; exact absurd rfl hp
        | some w2 =>
          rw [hc] at hF
          simp only at hF ⊢
          have h3 := checkMemory_any hsn hwf hd h2 hn hf hlen hc hF
          exact h3
  | writeMany d t vs =>
    simp only [Stream.Writer.step, Stream.Writer.writeMany] at hp hF ⊢
    cases hg : BMap.get? d w.groupWriters with
    | none => exact triv _ _ _ rfl (List.nil_sublist _) hmono
    | some g =>
      rw [hg] at hp hF
      simp only at hp hF ⊢
      have hp1 : (GroupWriter.writeMany env t vs 0 g).2 ≠ .panic := by
        intro hc
        rcases hgw : GroupWriter.writeMany env t vs 0 g with ⟨g', r⟩
        rw [hgw] at hc hp
        simp only at hc
        subst hc
        exact hp rfl
      obtain ⟨l, l1, l2⟩ := group_writeMany_any hsn t vs (h.devices _ (BMap.mem_of_get? hg)) hn 0 hp1
      have hle : ∀ d' m', more n l d' m' ≤ more n (Op.writeMany d t vs).recs d' m' := by
        intro d' m'
        exact Nat.add_le_add_left (series_sublist l1.sublist d' m').length_le _
      have hdev : ∀ r ∈ l, r.device = d := by
        intro r hr
        obtain ⟨q, _, rfl⟩ := List.mem_map.1 (l1.subset hr)
        rfl
      rcases hgw : GroupWriter.writeMany env t vs 0 g with ⟨g', r⟩
      rw [hgw] at l2 hp hF
      cases r with
      | panic => exact absurd rfl hp
      | err e =>
        simp only at l2 hp hF ⊢
        have h2 := h.insert hg (l := l) hdev l2 w.recordCount
        exact triv _ _ _ rfl l1.sublist (h2.mono hle)
      | ok k =>
        simp only at l2 hp hF ⊢
        have h2 := (h.insert hg (l := l) hdev l2 (w.recordCount + k)).mono hle
        cases hc : Stream.Writer.checkMemorySize env p { w with groupWriters := w.groupWriters.insert d g', recordCount := w.recordCount + k } with
        | none => rw [hc] at hp; exact absurd rfl hp
        | some w2 =>
          rw [hc] at hF
          simp only at hF ⊢
          obtain ⟨new, buf', j1, j2, j3⟩ := checkMemory_any hsn hwf hd h2 hn hf (fun d' m' => Nat.lt_of_le_of_lt
            (by simp only [plus, List.length_append]
                exact Nat.add_le_add_left (series_sublist l1.sublist d' m').length_le _) (hlen d' m')) hc hF
          exact ⟨new, buf', j1, fun d' m' => (j2 d' m').trans
            ((List.Sublist.refl _).append (series_sublist l1.sublist d' m')), j3⟩

theorem run_any (hsn : SnappyOk env unsnap) (hwf : schema.WF) (hd : Keeps p content) (ops : List Op) {w : Stream.Writer σ}
    {locs : List ChunkLoc} {buf : Bytes → Bytes → List Point} {n : Bytes → Bytes → Nat}
    (h : Torn env unsnap bad schema content w locs buf n) (hn : bad = true → ∀ d m, more n (ops.flatMap Op.recs) d m < 3000)
    (hf : bad = false → Faithful p content)
    (hlen : ∀ d m, (plus buf (ops.flatMap Op.recs) d m).length < 2 ^ 32)
    (hp : Res.panic ∉ (w.run env p ops).2) (hF : (content (w.run env p ops).1.io.out.writer).length < 2 ^ 64) :
    ∃ new buf', Torn env unsnap bad schema content (w.run env p ops).1 (locs ++ new) buf' (more n (ops.flatMap Op.recs))
      ∧ (∀ d m, (locPts new d m ++ buf' d m).Sublist (plus buf (offered ops (w.run env p ops).2) d m))
      ∧ (∀ disk, Buffering p content disk → Whole env unsnap schema content disk w.io locs → Whole env unsnap schema content disk (w.run env p ops).1.io (locs ++ new)) := by
  induction ops generalizing w locs buf n with
  | nil =>
    refine ⟨[], buf, by simpa [Stream.Writer.run] using h.mono (fun d m => more_le n _ d m), ?_, fun _ _ hw' => by
      simpa [Stream.Writer.run] using hw'⟩
    simp [locPts, locsIn, plus]
  | cons op ops ih =>
    simp only [Stream.Writer.run, List.mem_cons, not_or] at hp hF ⊢
    rw [List.flatMap_cons] at hn hlen ⊢
    rw [← more_append] at hn ⊢
    have hg := run_grows (env := env) hd ops (w.step env p op).1
    have hc1 := (step_grows (env := env) hd w op h.io.counts).1
    have hl1 := (hg hc1).2.length_le
    obtain ⟨new1, buf1, a1, a2, a3⟩ := step_any hsn hwf hd h op (fun hb d m => Nat.lt_of_le_of_lt (more_le _ _ d m) (hn hb d m)) hf
      (fun d m => by
        have := hlen d m
        simp only [plus, series_append, List.length_append] at this ⊢
        omega) (fun hc => hp.1 hc.symm) (by omega)
    obtain ⟨new2, buf2, b1, b2, b3⟩ := ih a1 hn (fun d m => by
        have h1 := hlen d m
        have h2 := (a2 d m).length_le
        have h3 := (series_sublist (handedBy_sublist op (w.step env p op).2) d m).length_le
        simp only [plus, series_append, List.length_append] at h1 h2 h3 ⊢
        omega) hp.2 hF
    refine ⟨new1 ++ new2, buf2, by rw [← List.append_assoc]; exact b1, fun d m => ?_, fun disk hf' hw' => by
      rw [← List.append_assoc]; exact b3 disk hf' (a3 disk hf' hw')⟩
    rw [offered_cons, ← plus_append, locPts_append, List.append_assoc]
    have h1 := (List.Sublist.refl (locPts new1 d m)).append (b2 d m)
    refine h1.trans ?_
    have h2 := (a2 d m).append (List.Sublist.refl (series (offered ops (w.step env p op |>.1.run env p ops).2) d m))
    simp only [plus, List.append_assoc] at h2 ⊢
    exact h2

end

end TsFile
