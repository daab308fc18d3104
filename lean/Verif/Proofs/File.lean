import Verif.Proofs.Chunk
import Verif.Proofs.BMap
/-! # Flushing: what reaches the file -/

namespace TsFile
open Spec

theorem look_eq {α : Type} (k : Bytes) (l : List (Bytes × α)) : look k l = BMap.get? k l := by
  induction l with
  | nil => rfl
  | cons e l ih => obtain ⟨k', v⟩ := e; simp [look, BMap.get?, ih]

/-- A chunk group in the file. -/
abbrev GGroup := Bytes × List GChunk

/-- The bytes of a chunk group. -/
def groupBytes (env : Env) (g : GGroup) : Bytes := chunkGroupHeader g.1 ++ g.2.flatMap (GChunk.bytes env)

/-- The data part of a file. -/
def fileBytes (env : Env) (groups : List GGroup) : Bytes :=
  magic ++ [3] ++ groups.flatMap (groupBytes env)

/-- The metadata of a chunk at a position. -/
def chunkMeta (env : Env) (pos : Nat) (c : GChunk) : ChunkMetadata :=
  { measurementId := c.name, dataType := c.ms.dataType, mask := 0, offsetOfChunkHeader := BitVec.ofNat 64 pos,
    statistics := chunkStats env c.ms.dataType c.pages }

/-- The metadata of consecutive chunks. -/
def chunkMetas (env : Env) : Nat → List GChunk → List ChunkMetadata
  | _, [] => []
  | pos, c :: cs => chunkMeta env pos c :: chunkMetas env (pos + (c.bytes env).length) cs

/-- The chunk group metadata of consecutive groups (groups without chunks have none). -/
def groupMetas (env : Env) : Nat → List GGroup → List (Bytes × List ChunkMetadata)
  | _, [] => []
  | pos, g :: gs =>
    (if g.2 = [] then [] else [(g.1, chunkMetas env (pos + (chunkGroupHeader g.1).length) g.2)])
      ++ groupMetas env (pos + (groupBytes env g).length) gs

theorem chunkMetas_append (env : Env) (pos : Nat) (a b : List GChunk) :
    chunkMetas env pos (a ++ b)
      = chunkMetas env pos a ++ chunkMetas env (pos + (a.flatMap (GChunk.bytes env)).length) b := by
  induction a generalizing pos with
  | nil => simp [chunkMetas]
  | cons c a ih =>
    simp only [List.cons_append, chunkMetas, ih, List.flatMap_cons, List.length_append, Nat.add_assoc]

theorem groupMetas_append (env : Env) (pos : Nat) (a b : List GGroup) :
    groupMetas env pos (a ++ b)
      = groupMetas env pos a ++ groupMetas env (pos + (a.flatMap (groupBytes env)).length) b := by
  induction a generalizing pos with
  | nil => simp [groupMetas]
  | cons c a ih =>
    simp only [List.cons_append, groupMetas, ih, List.flatMap_cons, List.length_append, Nat.add_assoc,
      List.append_assoc]

/-- The points of one measurement in a list of chunks. -/
def chunkPts (cs : List GChunk) (m : Bytes) : List Point :=
  cs.flatMap (fun c => if c.name = m then c.points else [])

/-- The points of one series in the file. -/
def filePts (groups : List GGroup) (d m : Bytes) : List Point :=
  groups.flatMap (fun g => if g.1 = d then chunkPts g.2 m else [])

theorem chunkPts_append (a b : List GChunk) (m : Bytes) : chunkPts (a ++ b) m = chunkPts a m ++ chunkPts b m := by
  simp [chunkPts]

theorem filePts_append (a b : List GGroup) (d m : Bytes) : filePts (a ++ b) d m = filePts a d m ++ filePts b d m := by
  simp [filePts]

theorem pagesBytes_ne_nil (env : Env) (dt : TSDataType) (pages : List GPage) (h : pages ≠ []) :
    pagesBytes env dt pages ≠ [] := by
  match pages with
  | [] => exact absurd rfl h
  | [g] => exact gpage_bytes_ne_nil _ _ _ _
  | g0 :: g1 :: rest =>
    simp only [pagesBytes, List.flatMap_cons]
    intro hc
    exact gpage_bytes_ne_nil env dt true g0 (List.append_eq_nil_iff.1 hc).1

theorem pagesPoints_ne_nil {unsnap : Bytes → Option Bytes} {ms : MeasurementSchema} (pages : List GPage)
    (hok : ∀ g ∈ pages, g.Ok unsnap ms) (h : pages ≠ []) : pagesPoints pages ≠ [] := by
  match pages with
  | [] => exact absurd rfl h
  | g :: rest =>
    simp only [pagesPoints, List.map_cons, List.flatten_cons]
    intro hc
    exact (hok g (by simp)).ne (List.append_eq_nil_iff.1 hc).1

/-- The announced size of a sealed chunk is its real size. -/
theorem getSerializedChunkSize_eq {env : Env} {unsnap : Bytes → Option Bytes} {id : Bytes}
    {ms : MeasurementSchema} {c : ChunkWriter} {pages : List GPage} {cur : List Point}
    (h : ChunkRep env unsnap id ms c pages cur) :
    c.getSerializedChunkSize = if pages = [] then 0 else (GChunk.bytes env ⟨id, ms, pages⟩).length := by
  rw [ChunkWriter.getSerializedChunkSize, h.buffer]
  by_cases hp : pages = []
  · subst hp; simp [pagesBytes]
  · have : (pagesBytes env ms.dataType pages).isEmpty = false := by
      simpa using pagesBytes_ne_nil env ms.dataType pages hp
    rw [this, if_neg (by simp), if_neg hp]
    simp only [GChunk.bytes, GChunk.header, ChunkHeader.serialize, writeStr, List.length_append,
      List.length_cons, List.length_nil, sizeVarI32_eq, sizeVarU32_eq, h.id_eq]
    omega

/-- Writing a sealed chunk to the file. -/
theorem writeToFileWriter_rep {env : Env} {unsnap : Bytes → Option Bytes} (hsn : SnappyOk env unsnap)
    {id : Bytes} {ms : MeasurementSchema} {c : ChunkWriter} {pages : List GPage}
    (h : ChunkRep env unsnap id ms c pages []) (hlen : (pagesPoints pages).length < 2 ^ 32)
    (io : IoWriter) (hcap : io.out.cap = none) :
    ∃ c' io', c.writeToFileWriter env io = some (c', io')
      ∧ io'.out.cap = none
      ∧ io'.currentDevice = io.currentDevice
      ∧ io'.chunkGroupMetadataList = io.chunkGroupMetadataList
      ∧ io'.timeseriesMetadataMap = io.timeseriesMetadataMap
      ∧ io'.out.bytes = io.out.bytes ++ (if pages = [] then [] else GChunk.bytes env ⟨id, ms, pages⟩)
      ∧ io'.chunkMetadataList = io.chunkMetadataList
          ++ (if pages = [] then [] else [chunkMeta env io.out.bytes.length ⟨id, ms, pages⟩]) := by
  obtain ⟨c1, pages1, hseal, hr, hpts, _⟩ := chunkRep_seal hsn h (by simp)
  -- nothing to seal: the pages stay the same
  have hsame : c.sealCurrentPage env = some c := by
    have hp := h.page
    rw [ChunkWriter.sealCurrentPage]
    cases hc : c.currentPageWriter with
    | none => rfl
    | some p =>
      rw [hc] at hp
      simp only at hp ⊢
      rw [if_neg (by rw [hp.count]; simp)]
  rw [ChunkWriter.writeToFileWriter, hsame]
  simp only
  have hcount : c.statistics.count = u32 (pagesPoints pages).length := by
    rw [h.stats]
    exact chunkStats_count env ms.dataType pages (fun g hg => (h.ok g hg).typed)
  have hz : c.statistics.count = 0 ↔ pages = [] := by
    rw [hcount]
    constructor
    · intro h0
      by_contra hne
      have h1 := pagesPoints_ne_nil pages h.ok hne
      have h2 := congrArg BitVec.toNat h0
      rw [u32_toNat _ hlen] at h2
      exact h1 (List.length_eq_zero_iff.1 (by simpa using h2))
    · intro hp; subst hp; rfl
  by_cases hp : pages = []
  · rw [if_pos (hz.2 hp)]
    exact ⟨_, io, rfl, hcap, rfl, rfl, rfl, by simp [hp], by simp [hp]⟩
  · rw [if_neg (fun h0 => hp (hz.1 h0))]
    simp only [IoWriter.startFlushChunk, IoWriter.endCurrentChunk]
    refine ⟨_, _, rfl, ?_, rfl, rfl, rfl, ?_, ?_⟩
    · simp [Sink.write, hcap]
    · simp [Sink.write, hcap, hp, GChunk.bytes, GChunk.header, h.buffer, h.id_eq, h.dataType, h.encoding,
        h.compression, h.numPages]
    · simp [hp, chunkMeta, Sink.pos, h.id_eq, h.dataType, h.stats]

/-- A list of chunk writers with buffered points `buf`. -/
def ChunksRep (env : Env) (unsnap : Bytes → Option Bytes) (ms : List (Bytes × MeasurementSchema))
    (cs : BMap ChunkWriter) (buf : Bytes → List Point) : Prop :=
  ∀ e ∈ cs, ∃ sch pages cur, look e.1 ms = some sch ∧ ChunkRep env unsnap e.1 sch e.2 pages cur
    ∧ cur.length ≤ 1048576 ∧ pagesPoints pages ++ cur = buf e.1 ∧ Exact env sch e.2.nextCheck pages cur

/-- The same with everything sealed. -/
def SealedRep (env : Env) (unsnap : Bytes → Option Bytes) (ms : List (Bytes × MeasurementSchema))
    (cs : BMap ChunkWriter) (buf : Bytes → List Point) : Prop :=
  ∀ e ∈ cs, ∃ sch pages, look e.1 ms = some sch ∧ ChunkRep env unsnap e.1 sch e.2 pages []
    ∧ pagesPoints pages = buf e.1 ∧ FullPages pages.dropLast ∧ GChunk.Exact env ⟨e.1, sch, pages⟩

theorem sealAll_rep {env : Env} {unsnap : Bytes → Option Bytes} (hsn : SnappyOk env unsnap)
    {ms : List (Bytes × MeasurementSchema)} {buf : Bytes → List Point} (cs : BMap ChunkWriter)
    (h : ChunksRep env unsnap ms cs buf) :
    ∃ cs', GroupWriter.sealAll env cs = some cs' ∧ SealedRep env unsnap ms cs' buf
      ∧ cs'.map Prod.fst = cs.map Prod.fst := by
  induction cs with
  | nil => exact ⟨[], rfl, by intro e he; simp at he, rfl⟩
  | cons e cs ih =>
    obtain ⟨m, c⟩ := e
    obtain ⟨sch, pages, cur, hs, hr, hl, hb, hfp⟩ := h (m, c) (by simp)
    obtain ⟨c', pages', hseal, hr', hpts, hfd, hex⟩ := chunkRep_seal hsn hr (by omega)
    obtain ⟨cs', hall, hrep, hk⟩ := ih (fun e he => h e (by simp [he]))
    refine ⟨(m, c') :: cs', by simp [GroupWriter.sealAll, hseal, hall], ?_, by simp [hk]⟩
    intro e he
    rcases List.mem_cons.1 he with rfl | he
    · exact ⟨sch, pages', hs, hr', by rw [hpts, hb], hfd hfp.full, hex hfp⟩
    · exact hrep e he

theorem writeAllChunks_rep {env : Env} {unsnap : Bytes → Option Bytes} (hsn : SnappyOk env unsnap)
    {ms : List (Bytes × MeasurementSchema)} {buf : Bytes → List Point} (cs : BMap ChunkWriter)
    (h : SealedRep env unsnap ms cs buf) (hsorted : BMap.Sorted cs) (hlen : ∀ m, (buf m).length < 2 ^ 32)
    (io : IoWriter) (hcap : io.out.cap = none) :
    ∃ cs' io' chunks, GroupWriter.writeAllChunks env cs io = some (cs', io')
      ∧ io'.out.cap = none
      ∧ io'.currentDevice = io.currentDevice
      ∧ io'.chunkGroupMetadataList = io.chunkGroupMetadataList
      ∧ io'.timeseriesMetadataMap = io.timeseriesMetadataMap
      ∧ io'.out.bytes = io.out.bytes ++ chunks.flatMap (GChunk.bytes env)
      ∧ io'.chunkMetadataList = io.chunkMetadataList ++ chunkMetas env io.out.bytes.length chunks
      ∧ (chunks.flatMap (GChunk.bytes env)).length
          = (cs.map (fun e => e.2.getSerializedChunkSize)).sum
      ∧ (∀ c ∈ chunks, look c.name ms = some c.ms ∧ c.Ok env unsnap ∧ c.name ∈ cs.map Prod.fst ∧ c.Exact env)
      ∧ (chunks.map GChunk.name).Pairwise (fun a b => bytesLt a b = true)
      ∧ (∀ m, chunkPts chunks m = if m ∈ cs.map Prod.fst then buf m else []) := by
  induction cs generalizing io with
  | nil => exact ⟨[], io, [], rfl, hcap, rfl, rfl, rfl, by simp, by simp [chunkMetas], rfl, by simp, by simp, by simp [chunkPts]⟩
  | cons e cs ih =>
    obtain ⟨m, c⟩ := e
    have hs' := List.pairwise_cons.1 hsorted
    obtain ⟨sch, pages, hsch, hr, hb, hfd, hex⟩ := h (m, c) (by simp)
    obtain ⟨c1, io1, hw, hcap1, hd1, hg1, ht1, hbytes1, hmeta1⟩ :=
      writeToFileWriter_rep hsn hr (by rw [hb]; exact hlen m) io hcap
    obtain ⟨cs', io', chunks, hall, hcap', hd', hg', ht', hbytes', hmeta', hsz, hok, hpw, hpts⟩ :=
      ih (fun e he => h e (by simp [he])) hs'.2 io1 hcap1
    have hsize := getSerializedChunkSize_eq hr
    have hnotmem : m ∉ cs.map Prod.fst := by
      intro hm
      obtain ⟨e, he, hee⟩ := List.mem_map.1 hm
      exact bytesLt_ne (hs'.1 e he) hee.symm
    have hnew : GroupWriter.writeAllChunks env ((m, c) :: cs) io = some ((m, c1) :: cs', io') := by
      simp [GroupWriter.writeAllChunks, hw, hall]
    by_cases hp : pages = []
    · simp only [hp, if_true, List.append_nil] at hbytes1 hmeta1 hsize
      refine ⟨_, io', chunks, hnew, hcap', by rw [hd', hd1], by rw [hg', hg1], by rw [ht', ht1],
        by rw [hbytes', hbytes1], by rw [hmeta', hmeta1, hbytes1], ?_, ?_, hpw, ?_⟩
      · simp [hsz, hsize]
      · intro c hc
        obtain ⟨h1, h2, h3, h4⟩ := hok c hc
        exact ⟨h1, h2, by simp [h3], h4⟩
      · intro m'
        rw [hpts m']
        by_cases hm : m' = m
        · subst hm
          rw [if_neg hnotmem, if_pos (by simp), ← hb, hp]
          rfl
        · simp only [List.map_cons, List.mem_cons, hm, false_or]
    · simp only [hp, if_false] at hbytes1 hmeta1 hsize
      refine ⟨_, io', ⟨m, sch, pages⟩ :: chunks, hnew, hcap', by rw [hd', hd1], by rw [hg', hg1],
        by rw [ht', ht1], ?_, ?_, ?_, ?_, ?_, ?_⟩
      · rw [hbytes', hbytes1]; simp
      · rw [hmeta', hmeta1, hbytes1]; simp [chunkMetas]
      · simp only [List.flatMap_cons, List.length_append, List.map_cons, List.sum_cons, hsz, hsize]
      · intro c hc
        rcases List.mem_cons.1 hc with rfl | hc
        · exact ⟨hsch, ⟨hp, hr.ok, hfd⟩, by simp, hex⟩
        · obtain ⟨h1, h2, h3, h4⟩ := hok c hc
          exact ⟨h1, h2, by simp [h3], h4⟩
      · rw [List.map_cons]
        refine List.pairwise_cons.2 ⟨?_, hpw⟩
        intro n hn
        obtain ⟨c, hc, rfl⟩ := List.mem_map.1 hn
        obtain ⟨e, he, hee⟩ := List.mem_map.1 (hok c hc).2.2.1
        have := hs'.1 e he
        rw [hee] at this
        exact this
      · intro m'
        have : chunkPts (⟨m, sch, pages⟩ :: chunks) m' = (if m = m' then pagesPoints pages else []) ++ chunkPts chunks m' := by
          simp [chunkPts, GChunk.points]
        rw [this, hpts m']
        by_cases hm : m = m'
        · subst hm
          rw [if_pos rfl, if_neg hnotmem, if_pos (by simp), hb]
          simp
        · have hm' : ¬ m' = m := fun e => hm e.symm
          simp only [if_neg hm, List.nil_append, List.map_cons, List.mem_cons, hm', false_or]

theorem chunkGroupSize_eq (cs : BMap ChunkWriter) :
    GroupWriter.chunkGroupSize cs = (cs.map (fun e => e.2.getSerializedChunkSize)).sum := by
  have : ∀ (cs : BMap ChunkWriter) (a : Nat), cs.foldl (fun s c => s + c.2.getSerializedChunkSize) a
      = a + (cs.map (fun e => e.2.getSerializedChunkSize)).sum := by
    intro cs
    induction cs with
    | nil => intro a; simp
    | cons e cs ih => intro a; rw [List.foldl_cons, ih]; simp; omega
  rw [GroupWriter.chunkGroupSize, this]
  simp

/-- Flushing one device. -/
theorem flushToFilewriter_rep {env : Env} {unsnap : Bytes → Option Bytes} (hsn : SnappyOk env unsnap)
    {ms : List (Bytes × MeasurementSchema)} {buf : Bytes → List Point} (g : GroupWriter)
    (h : ChunksRep env unsnap ms g.chunkWriters buf) (hsorted : BMap.Sorted g.chunkWriters)
    (hlen : ∀ m, (buf m).length < 2 ^ 32) (io : IoWriter) (hcap : io.out.cap = none) :
    ∃ g' io' chunks size, g.flushToFilewriter env io = some (g', io', size)
      ∧ io'.out.pos - io.out.pos = size
      ∧ io'.out.cap = none
      ∧ io'.currentDevice = io.currentDevice
      ∧ io'.chunkGroupMetadataList = io.chunkGroupMetadataList
      ∧ io'.timeseriesMetadataMap = io.timeseriesMetadataMap
      ∧ io'.out.bytes = io.out.bytes ++ chunks.flatMap (GChunk.bytes env)
      ∧ io'.chunkMetadataList = io.chunkMetadataList ++ chunkMetas env io.out.bytes.length chunks
      ∧ (∀ c ∈ chunks, look c.name ms = some c.ms ∧ c.Ok env unsnap)
      ∧ (chunks.map GChunk.name).Pairwise (fun a b => bytesLt a b = true)
      ∧ (∀ m, chunkPts chunks m = if m ∈ g.chunkWriters.map Prod.fst then buf m else [])
      ∧ (∀ c ∈ chunks, c.Exact env) := by
  obtain ⟨cs1, hseal, hsr, hk⟩ := sealAll_rep hsn g.chunkWriters h
  have hsorted1 : BMap.Sorted cs1 := by
    have h1 : (g.chunkWriters.map Prod.fst).Pairwise (fun a b => bytesLt a b = true) :=
      List.pairwise_map.2 hsorted
    rw [← hk] at h1
    exact List.pairwise_map.1 h1
  obtain ⟨cs2, io', chunks, hw, h1, h2, h3, h4, h5, h6, h7, h8, h9, h10⟩ :=
    writeAllChunks_rep hsn cs1 hsr hsorted1 hlen io hcap
  refine ⟨{ g with chunkWriters := cs2 }, io', chunks, GroupWriter.chunkGroupSize cs1, ?_, ?_, h1, h2, h3, h4, h5, h6,
    fun c hc => ⟨(h8 c hc).1, (h8 c hc).2.1⟩, h9, by rw [hk] at h10; exact h10, fun c hc => (h8 c hc).2.2.2⟩
  · simp [GroupWriter.flushToFilewriter, hseal, hw]
  · rw [chunkGroupSize_eq, ← h7, Sink.pos, Sink.pos, h5]
    simp

/-- The file after any number of flushes. -/
structure FileRep (env : Env) (unsnap : Bytes → Option Bytes) (schema : Schema) (io : IoWriter)
    (groups : List GGroup) : Prop where
  cap : io.out.cap = none
  bytes : io.out.bytes = fileBytes env groups
  metas : io.chunkGroupMetadataList = groupMetas env 7 groups
  ok : ∀ g ∈ groups, ∃ ms, look g.1 schema = some ms
    ∧ (∀ c ∈ g.2, look c.name ms = some c.ms ∧ c.Ok env unsnap)
    ∧ (g.2.map GChunk.name).Pairwise (fun a b => bytesLt a b = true)
  tsm : io.timeseriesMetadataMap = []

/-- The group writers hold the points `buf`. -/
def GroupsRep (env : Env) (unsnap : Bytes → Option Bytes) (schema : Schema) (gs : BMap GroupWriter)
    (buf : Bytes → Bytes → List Point) : Prop :=
  ∀ e ∈ gs, ∃ ms, look e.1 schema = some ms ∧ ChunksRep env unsnap ms e.2.chunkWriters (buf e.1)
    ∧ BMap.Sorted e.2.chunkWriters
    ∧ (∀ m, m ∈ e.2.chunkWriters.map Prod.fst ↔ (look m ms).isSome)

theorem fileBytes_append (env : Env) (a b : List GGroup) :
    fileBytes env (a ++ b) = fileBytes env a ++ b.flatMap (groupBytes env) := by
  simp [fileBytes]

/-- Flushing all devices. -/
theorem flushLoop_rep {env : Env} {unsnap : Bytes → Option Bytes} (hsn : SnappyOk env unsnap)
    {schema : Schema} {buf : Bytes → Bytes → List Point} (gs : BMap GroupWriter)
    (h : GroupsRep env unsnap schema gs buf) (hsorted : BMap.Sorted gs)
    (hlen : ∀ d m, (buf d m).length < 2 ^ 32)
    (hout : ∀ d ms, look d schema = some ms → ∀ m, look m ms = none → buf d m = [])
    (io : IoWriter) (lm : BMap (BMap W64)) (groups : List GGroup) (hio : FileRep env unsnap schema io groups) :
    ∃ gs' io' lm' new, Writer.flushLoop env gs io lm = some (gs', io', lm', none)
      ∧ FileRep env unsnap schema io' (groups ++ new)
      ∧ new.map Prod.fst = gs.map Prod.fst
      ∧ (∀ d m, filePts new d m = if d ∈ gs.map Prod.fst then buf d m else [])
      ∧ (∀ g ∈ new, ∀ c ∈ g.2, c.Exact env) := by
  induction gs generalizing io lm groups with
  | nil => exact ⟨[], io, lm, [], rfl, by simpa using hio, rfl, by simp [filePts], by simp⟩
  | cons e gs ih =>
    obtain ⟨d, g⟩ := e
    have hs' := List.pairwise_cons.1 hsorted
    obtain ⟨ms, hms, hcr, hcs, hck⟩ := h (d, g) (by simp)
    -- the group header
    let io1 : IoWriter := { io with out := io.out.write (chunkGroupHeader d), currentDevice := some d, chunkMetadataList := [] }
    have hstart : io.startChunkGroup d = (io1, true) := by
      simp [IoWriter.startChunkGroup, Sink.ok, hio.cap, io1]
    have hb1 : io1.out.bytes = fileBytes env groups ++ chunkGroupHeader d := by
      simp [io1, Sink.write, hio.cap, hio.bytes]
    obtain ⟨g', io2, chunks, size, hfl, hpos, hcap2, hdev2, hg2, ht2, hbytes2, hmeta2, hok2, hpw2, hpts2, hex2⟩ :=
      flushToFilewriter_rep hsn g hcr hcs (fun m => hlen d m) io1 (by simp [io1, Sink.write, hio.cap])
    have hrep3 : FileRep env unsnap schema io2.endChunkGroup (groups ++ [(d, chunks)]) := by
      have hdev : io2.currentDevice = some d := by rw [hdev2]
      have hml : io2.chunkMetadataList = chunkMetas env (7 + (groups.flatMap (groupBytes env)).length + (chunkGroupHeader d).length) chunks := by
        rw [hmeta2, hb1]
        simp [io1, fileBytes, magic]
        congr 1
        omega
      have hgl : io2.chunkGroupMetadataList = groupMetas env 7 groups := by rw [hg2]; exact hio.metas
      have hbytes : io2.out.bytes = fileBytes env (groups ++ [(d, chunks)]) := by
        rw [hbytes2, hb1, fileBytes_append]
        simp [groupBytes]
      have htsm : io2.timeseriesMetadataMap = [] := by rw [ht2]; exact hio.tsm
      have hokg : ∀ g ∈ groups ++ [(d, chunks)], ∃ ms, look g.1 schema = some ms
          ∧ (∀ c ∈ g.2, look c.name ms = some c.ms ∧ c.Ok env unsnap)
          ∧ (g.2.map GChunk.name).Pairwise (fun a b => bytesLt a b = true) := by
        intro g hg
        rcases List.mem_append.1 hg with hg | hg
        · exact hio.ok g hg
        · simp at hg; subst hg; exact ⟨ms, hms, hok2, hpw2⟩
      by_cases hce : chunks = []
      · have : io2.endChunkGroup = io2 := by
          simp [IoWriter.endChunkGroup, hdev, hml, hce, chunkMetas]
        rw [this]
        refine ⟨hcap2, hbytes, ?_, hokg, htsm⟩
        rw [hgl, groupMetas_append]
        simp [groupMetas, hce]
      · have hne : io2.chunkMetadataList.isEmpty = false := by
          rw [hml]
          cases chunks with
          | nil => exact absurd rfl hce
          | cons c cs => rfl
        have : io2.endChunkGroup = { io2 with
            chunkGroupMetadataList := io2.chunkGroupMetadataList ++ [(d, io2.chunkMetadataList)]
            currentDevice := none
            chunkMetadataList := [] } := by
          simp [IoWriter.endChunkGroup, hdev, hne]
        rw [this]
        refine ⟨hcap2, hbytes, ?_, hokg, htsm⟩
        simp only
        rw [hgl, groupMetas_append, hml]
        simp [groupMetas, hce]
    obtain ⟨gs', io', lm', new, hloop, hrep', hk', hpts', hex'⟩ :=
      ih (fun e he => h e (by simp [he])) hs'.2 io2.endChunkGroup (lm.insert d g'.lastTimeMap)
        (groups ++ [(d, chunks)]) hrep3
    have hnotmem : d ∉ gs.map Prod.fst := by
      intro hm
      obtain ⟨e, he, hee⟩ := List.mem_map.1 hm
      exact bytesLt_ne (hs'.1 e he) hee.symm
    refine ⟨(d, g') :: gs', io', lm', (d, chunks) :: new, ?_, by simpa using hrep', by simp [hk'], ?_, ?_⟩
    · simp only [Writer.flushLoop, hstart, hfl]
      rw [if_neg (by simp [hpos])]
      simp [hloop]
    · intro d' m
      have hsplit : filePts ((d, chunks) :: new) d' m = (if d = d' then chunkPts chunks m else []) ++ filePts new d' m := by
        simp [filePts]
      rw [hsplit, hpts']
      by_cases hd : d = d'
      · subst hd
        rw [if_pos rfl, if_neg hnotmem, if_pos (by simp), hpts2 m]
        simp only [List.append_nil]
        by_cases hm : m ∈ g.chunkWriters.map Prod.fst
        · rw [if_pos hm]
        · rw [if_neg hm]
          have : look m ms = none := by
            have := (hck m).not.1 hm
            simpa using this
          exact (hout d ms hms m this).symm
      · have hd' : ¬ d' = d := fun e => hd e.symm
        simp only [if_neg hd, List.nil_append, List.map_cons, List.mem_cons, hd', false_or]
    · intro x hx
      rcases List.mem_cons.1 hx with rfl | hx
      · exact hex2
      · exact hex' x hx

end TsFile
