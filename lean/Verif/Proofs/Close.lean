import Verif.Proofs.Index
/-! # Closing the file: what the index contains and where everything is -/

namespace TsFile
open Spec

/-! ## Positions of the chunks -/

/-- Chunks with their positions. -/
def chunkLocs (env : Env) : Nat → List GChunk → List (Nat × GChunk)
  | _, [] => []
  | pos, c :: cs => (pos, c) :: chunkLocs env (pos + (c.bytes env).length) cs

/-- All the chunks of a file: device, position, chunk. -/
def fileLocs (env : Env) : Nat → List GGroup → List (Bytes × Nat × GChunk)
  | _, [] => []
  | pos, g :: gs =>
    (chunkLocs env (pos + (chunkGroupHeader g.1).length) g.2).map (fun c => (g.1, c))
      ++ fileLocs env (pos + (groupBytes env g).length) gs

/-- The chunks of one series. -/
def locsOf (env : Env) (groups : List GGroup) (d m : Bytes) : List (Nat × GChunk) :=
  ((fileLocs env 7 groups).filter (fun l => decide (l.1 = d ∧ l.2.2.name = m))).map Prod.snd

theorem chunkMetas_eq (env : Env) (pos : Nat) (cs : List GChunk) :
    chunkMetas env pos cs = (chunkLocs env pos cs).map (fun l => chunkMeta env l.1 l.2) := by
  induction cs generalizing pos with
  | nil => rfl
  | cons c cs ih => simp [chunkMetas, chunkLocs, ih]

theorem groupMetas_flat (env : Env) (pos : Nat) (groups : List GGroup) :
    (groupMetas env pos groups).flatMap (fun g => g.2.map (fun c => (IoWriter.seriesPath g.1 c.measurementId, c)))
      = (fileLocs env pos groups).map
          (fun l => (IoWriter.seriesPath l.1 l.2.2.name, chunkMeta env l.2.1 l.2.2)) := by
  induction groups generalizing pos with
  | nil => rfl
  | cons g gs ih =>
    simp only [groupMetas, fileLocs, List.flatMap_append, List.map_append, ih]
    congr 1
    by_cases h : g.2 = []
    · rw [if_pos h, h]; rfl
    · rw [if_neg h]
      simp [chunkMetas_eq, Function.comp_def, chunkMeta]

theorem chunkLocs_mem {env : Env} {pos : Nat} {cs : List GChunk} {l : Nat × GChunk}
    (h : l ∈ chunkLocs env pos cs) : l.2 ∈ cs := by
  induction cs generalizing pos with
  | nil => simp [chunkLocs] at h
  | cons c cs ih =>
    rcases List.mem_cons.1 h with rfl | h
    · simp
    · exact List.mem_cons_of_mem _ (ih h)

theorem chunkLocs_at {env : Env} {F : Bytes} {pos : Nat} {cs : List GChunk}
    (hF : At F pos (cs.flatMap (GChunk.bytes env))) {l : Nat × GChunk} (h : l ∈ chunkLocs env pos cs) :
    At F l.1 (l.2.bytes env) := by
  induction cs generalizing pos with
  | nil => simp [chunkLocs] at h
  | cons c cs ih =>
    rw [List.flatMap_cons] at hF
    rcases List.mem_cons.1 h with rfl | h
    · exact hF.left
    · exact ih hF.right h

theorem fileLocs_mem {env : Env} {pos : Nat} {groups : List GGroup} {l : Bytes × Nat × GChunk}
    (h : l ∈ fileLocs env pos groups) : ∃ g ∈ groups, g.1 = l.1 ∧ l.2.2 ∈ g.2 := by
  induction groups generalizing pos with
  | nil => simp [fileLocs] at h
  | cons g gs ih =>
    rw [fileLocs] at h
    rcases List.mem_append.1 h with h | h
    · obtain ⟨c, hc, rfl⟩ := List.mem_map.1 h
      exact ⟨g, by simp, rfl, chunkLocs_mem hc⟩
    · obtain ⟨g', h1, h2⟩ := ih h
      exact ⟨g', by simp [h1], h2⟩

theorem fileLocs_at' {env : Env} {F : Bytes} {pos : Nat} {groups : List GGroup}
    (hF : At F pos (groups.flatMap (groupBytes env))) {l : Bytes × Nat × GChunk} (h : l ∈ fileLocs env pos groups) :
    At F l.2.1 (l.2.2.bytes env) := by
  induction groups generalizing pos with
  | nil => simp [fileLocs] at h
  | cons g gs ih =>
    rw [List.flatMap_cons] at hF
    rw [fileLocs] at h
    rcases List.mem_append.1 h with h | h
    · obtain ⟨c, hc, rfl⟩ := List.mem_map.1 h
      have := hF.left
      rw [groupBytes] at this
      exact chunkLocs_at this.right hc
    · exact ih hF.right h

theorem fileLocs_at {env : Env} {groups : List GGroup} {l : Bytes × Nat × GChunk}
    (h : l ∈ fileLocs env 7 groups) : At (fileBytes env groups) l.2.1 (l.2.2.bytes env) := by
  refine fileLocs_at' ?_ h
  exact ⟨magic ++ [3], [], by simp [fileBytes], rfl⟩

theorem locsOf_mem {env : Env} {groups : List GGroup} {d m : Bytes} {l : Nat × GChunk}
    (h : l ∈ locsOf env groups d m) : (d, l) ∈ fileLocs env 7 groups ∧ l.2.name = m := by
  obtain ⟨x, hx, rfl⟩ := List.mem_map.1 h
  rw [List.mem_filter] at hx
  simp only [decide_eq_true_eq] at hx
  refine ⟨?_, hx.2.2⟩
  rw [← hx.2.1]
  exact hx.1

/-- The points of a series are those of its chunks. -/
theorem filePts_eq_locs (env : Env) (groups : List GGroup) (d m : Bytes) :
    filePts groups d m = (locsOf env groups d m).flatMap (fun l => l.2.points) := by
  have hc : ∀ (cs : List GChunk) (pos : Nat), chunkPts cs m
      = ((chunkLocs env pos cs).filter (fun l => decide (l.2.name = m))).flatMap (fun l => l.2.points) := by
    intro cs
    induction cs with
    | nil => intro pos; rfl
    | cons c cs ih =>
      intro pos
      have := ih (pos + (c.bytes env).length)
      simp only [chunkPts] at this
      by_cases h : c.name = m
      · simp [chunkPts, chunkLocs, h, this]
      · simp [chunkPts, chunkLocs, h, this]
  have hg : ∀ (gs : List GGroup) (pos : Nat), filePts gs d m
      = (((fileLocs env pos gs).filter (fun l => decide (l.1 = d ∧ l.2.2.name = m))).map Prod.snd).flatMap
          (fun l => l.2.points) := by
    intro gs
    induction gs with
    | nil => intro pos; rfl
    | cons g gs ih =>
      intro pos
      have := ih (pos + (groupBytes env g).length)
      simp only [filePts] at this
      simp only [filePts, List.flatMap_cons, fileLocs, List.filter_append, List.map_append, List.flatMap_append, this]
      congr 1
      by_cases h : g.1 = d
      · rw [if_pos h, hc g.2 (pos + (chunkGroupHeader g.1).length)]
        simp [List.filter_map, Function.comp_def, h]
      · rw [if_neg h]
        simp [List.filter_map, Function.comp_def, h]
  exact hg groups 7

/-! ## The chunk metadata map -/

/-- Append to an optional list. -/
def optAppend {α : Type} : Option (List α) → List α → Option (List α)
  | none, [] => none
  | none, a :: l => some (a :: l)
  | some a, l => some (a ++ l)

theorem optAppend_none {α : Type} (l : List α) : optAppend none l = if l = [] then none else some l := by
  cases l <;> simp [optAppend]

theorem optAppend_nil {α : Type} (o : Option (List α)) : optAppend o [] = o := by
  cases o <;> simp [optAppend]

theorem optAppend_assoc {α : Type} (o : Option (List α)) (a b : List α) :
    optAppend (optAppend o a) b = optAppend o (a ++ b) := by
  cases o with
  | none => cases a <;> cases b <;> simp [optAppend]
  | some x => simp [optAppend]

/-- Inserting an element at the end of the list of a key. -/
theorem get?_push {α : Type} (m : BMap (List α)) (k : Bytes) (x : α) (k' : Bytes) :
    BMap.get? k' (m.push k x) = optAppend (m.get? k') (if k = k' then [x] else []) := by
  rw [BMap.push]
  by_cases h : k = k'
  · subst h
    cases hk : BMap.get? k m <;> simp [BMap.get?_insert, optAppend]
  · cases hk : BMap.get? k m <;> simp [BMap.get?_insert, h, optAppend_nil]

theorem sorted_push {α : Type} {m : BMap (List α)} (hs : BMap.Sorted m) (k : Bytes) (x : α) :
    BMap.Sorted (m.push k x) := by
  rw [BMap.push]
  cases BMap.get? k m <;> exact BMap.sorted_insert hs

theorem foldl_addChunk (l : List (Bytes × ChunkMetadata)) (m : BMap (List ChunkMetadata)) (hs : BMap.Sorted m) :
    BMap.Sorted (l.foldl (fun m e => IoWriter.addChunkMetadata m e.1 e.2) m)
    ∧ ∀ k, BMap.get? k (l.foldl (fun m e => IoWriter.addChunkMetadata m e.1 e.2) m)
        = optAppend (m.get? k) ((l.filter (fun e => decide (e.1 = k))).map Prod.snd) := by
  induction l generalizing m with
  | nil => exact ⟨hs, fun k => by simp [optAppend_nil]⟩
  | cons e l ih =>
    rw [List.foldl_cons]
    have h1 : BMap.Sorted (IoWriter.addChunkMetadata m e.1 e.2) := sorted_push hs e.1 e.2
    obtain ⟨h2, h3⟩ := ih _ h1
    refine ⟨h2, fun k => ?_⟩
    rw [h3 k]
    have : BMap.get? k (IoWriter.addChunkMetadata m e.1 e.2) = optAppend (m.get? k) (if e.1 = k then [e.2] else []) :=
      get?_push m e.1 e.2 k
    rw [this, optAppend_assoc]
    congr 1
    by_cases h : e.1 = k <;> simp [h]

theorem foldl_nested {β : Type} (f : β → Bytes × ChunkMetadata → β) (l : List (Bytes × List ChunkMetadata)) (b : β) :
    l.foldl (fun m g => g.2.foldl (fun m c => f m (IoWriter.seriesPath g.1 c.measurementId, c)) m) b
      = (l.flatMap (fun g => g.2.map (fun c => (IoWriter.seriesPath g.1 c.measurementId, c)))).foldl f b := by
  induction l generalizing b with
  | nil => rfl
  | cons g l ih => simp [List.foldl_map, ih]

/-- The map built from a file. -/
theorem chunkMetadataMap_rep {env : Env} {unsnap : Bytes → Option Bytes} {schema : Schema} {io : IoWriter}
    {groups : List GGroup} (h : FileRep env unsnap schema io groups) :
    BMap.Sorted io.chunkMetadataMap
    ∧ ∀ k, BMap.get? k io.chunkMetadataMap = optAppend none
        (((fileLocs env 7 groups).filter (fun l => decide (IoWriter.seriesPath l.1 l.2.2.name = k))).map
          (fun l => chunkMeta env l.2.1 l.2.2)) := by
  rw [IoWriter.chunkMetadataMap]
  have := foldl_nested (fun m e => IoWriter.addChunkMetadata m e.1 e.2) io.chunkGroupMetadataList []
  rw [this, h.metas, groupMetas_flat]
  obtain ⟨h1, h2⟩ := foldl_addChunk ((fileLocs env 7 groups).map
    (fun l => (IoWriter.seriesPath l.1 l.2.2.name, chunkMeta env l.2.1 l.2.2))) [] List.Pairwise.nil
  refine ⟨h1, fun k => ?_⟩
  rw [h2 k]
  simp [BMap.get?, List.filter_map, Function.comp_def]

/-! ## Paths -/

theorem splitDot_noDot (m : Bytes) (h : NoDot m) : IoWriter.splitDot m = [m] := by
  induction m with
  | nil => rfl
  | cons b m ih =>
    simp only [NoDot, List.mem_cons, not_or] at h
    rw [IoWriter.splitDot, ih h.2, if_neg (fun e => h.1 e.symm)]

theorem splitDot_ne_nil (b : Bytes) : IoWriter.splitDot b ≠ [] := by
  cases b with
  | nil => simp [IoWriter.splitDot]
  | cons x b =>
    rw [IoWriter.splitDot]
    split
    · simp
    · split <;> simp

theorem splitDot_path (d m : Bytes) (h : NoDot m) :
    IoWriter.splitDot (d ++ 0x2e :: m) = IoWriter.splitDot d ++ [m] := by
  induction d with
  | nil => simp [IoWriter.splitDot, splitDot_noDot m h]
  | cons b d ih =>
    rw [List.cons_append, IoWriter.splitDot, IoWriter.splitDot, ih]
    split
    · simp
    · cases hd : IoWriter.splitDot d with
      | nil => exact absurd hd (splitDot_ne_nil d)
      | cons p ps => simp

theorem joinDot_splitDot (b : Bytes) : IoWriter.joinDot (IoWriter.splitDot b) = b := by
  induction b with
  | nil => rfl
  | cons x b ih =>
    rw [IoWriter.splitDot]
    cases hs : IoWriter.splitDot b with
    | nil => exact absurd hs (splitDot_ne_nil b)
    | cons p ps =>
      rw [hs] at ih
      split
      · next hx => rw [IoWriter.joinDot, ih, hx]; rfl
      · cases ps with
        | nil => simp only [IoWriter.joinDot] at ih ⊢; rw [ih]
        | cons q qs =>
          simp only [IoWriter.joinDot] at ih ⊢
          rw [← ih]
          simp

theorem deviceOfPath_path (d m : Bytes) (h : NoDot m) : IoWriter.deviceOfPath (IoWriter.seriesPath d m) = d := by
  rw [IoWriter.deviceOfPath, IoWriter.seriesPath, List.append_assoc, List.singleton_append, splitDot_path d m h]
  simp [joinDot_splitDot]

theorem seriesPath_inj {d m d' m' : Bytes} (h : NoDot m) (h' : NoDot m')
    (he : IoWriter.seriesPath d m = IoWriter.seriesPath d' m') : d = d' ∧ m = m' := by
  have hd : d = d' := by rw [← deviceOfPath_path d m h, he, deviceOfPath_path d' m' h']
  subst hd
  simp only [IoWriter.seriesPath, List.append_cancel_left_eq] at he
  exact ⟨rfl, he⟩

/-! ## Series metadata -/

/-- The metadata of a series with the given chunks. -/
def tsOf (env : Env) (m : Bytes) (dt : TSDataType) (locs : List (Nat × GChunk)) : TimeSeriesMetadata :=
  let many := decide (locs.length > 1)
  let buffer := locs.flatMap (fun l => (chunkMeta env l.1 l.2).serialize env many)
  { metadataType := if many then 1 else 0
    chunkMetaDataListDataSize := buffer.length
    measurementId := m
    dataType := dt
    statistics := locs.foldl (fun s l => s.mrg env (chunkStats env dt l.2.pages)) (Statistics.new env dt)
    buffer := buffer }

theorem mergeChunks_eq (env : Env) (dt : TSDataType) (flag : Bool) (locs : List (Nat × GChunk))
    (hdt : ∀ l ∈ locs, l.2.ms.dataType = dt) (buf : Bytes) (st : Statistics) (hst : st.type = dt) :
    IoWriter.mergeChunks env dt flag (locs.map (fun l => chunkMeta env l.1 l.2)) buf st
      = some (buf ++ locs.flatMap (fun l => (chunkMeta env l.1 l.2).serialize env flag),
          locs.foldl (fun s l => s.mrg env (chunkStats env dt l.2.pages)) st) := by
  induction locs generalizing buf st with
  | nil => simp [IoWriter.mergeChunks]
  | cons l locs ih =>
    have h1 := hdt l (by simp)
    rw [List.map_cons, IoWriter.mergeChunks]
    have h2 : (chunkMeta env l.1 l.2).dataType = dt := h1
    rw [if_neg (by rw [h2]; simp)]
    have h3 : (chunkMeta env l.1 l.2).statistics = chunkStats env dt l.2.pages := by simp [chunkMeta, h1]
    rw [h3, merge_some env st _ (by rw [hst, chunkStats_type])]
    simp only
    rw [ih (fun l hl => hdt l (by simp [hl])) _ _ (by rw [mrg_type, hst])]
    simp

theorem timeSeriesMetadata_eq (env : Env) (m : Bytes) (dt : TSDataType) (locs : List (Nat × GChunk))
    (hne : locs ≠ []) (hdt : ∀ l ∈ locs, l.2.ms.dataType = dt) (hm : ∀ l ∈ locs, l.2.name = m) :
    IoWriter.timeSeriesMetadata env (locs.map (fun l => chunkMeta env l.1 l.2)) = some (tsOf env m dt locs) := by
  cases locs with
  | nil => exact absurd rfl hne
  | cons l locs =>
    have h1 := hdt l (by simp)
    have h2 := hm l (by simp)
    have hmc := mergeChunks_eq env dt (decide ((l :: locs).length > 1)) (l :: locs) hdt [] (Statistics.new env dt)
      (new_type env dt)
    rw [List.map_cons] at hmc ⊢
    rw [IoWriter.timeSeriesMetadata]
    have h3 : (chunkMeta env l.1 l.2).dataType = dt := h1
    have hl : (chunkMeta env l.1 l.2 :: locs.map (fun l => chunkMeta env l.1 l.2)).length = (l :: locs).length := by
      simp
    rw [h3, hl, hmc]
    simp [tsOf, chunkMeta, h2]

/-! ## The loop over the series -/

theorem flushIndexLoop_eq (env : Env) (T : Bytes × List ChunkMetadata → TimeSeriesMetadata)
    (cmm : BMap (List ChunkMetadata)) (hs : BMap.Sorted cmm)
    (hT : ∀ e ∈ cmm, IoWriter.timeSeriesMetadata env e.2 = some (T e))
    (last : Option Bytes) (hlast : ∀ p, last = some p → ∀ e ∈ cmm, bytesLt p e.1 = true)
    (tsm : BMap (List TimeSeriesMetadata)) (hts : BMap.Sorted tsm) :
    ∃ tsm', IoWriter.flushIndexLoop env last cmm tsm = some tsm' ∧ BMap.Sorted tsm'
      ∧ ∀ d, BMap.get? d tsm' = optAppend (tsm.get? d)
          ((cmm.filter (fun e => decide (IoWriter.deviceOfPath e.1 = d))).map T) := by
  induction cmm generalizing last tsm with
  | nil => exact ⟨tsm, rfl, hts, fun d => by simp [optAppend_nil]⟩
  | cons e rest ih =>
    obtain ⟨path, metadata⟩ := e
    rw [IoWriter.flushIndexLoop]
    have hok : IoWriter.pathInOrder last path = true := by
      cases last with
      | none => rfl
      | some p => exact hlast p rfl (path, metadata) (by simp)
    have hs' := List.pairwise_cons.1 hs
    have hnew : ∀ p, some (last.getD path) = some p → ∀ e ∈ rest, bytesLt p e.1 = true := by
      intro p hp e he
      cases last with
      | none => simp only [Option.getD_none, Option.some.injEq] at hp; subst hp; exact hs'.1 e he
      | some q => simp only [Option.getD_some, Option.some.injEq] at hp; subst hp; exact hlast q rfl e (by simp [he])
    rw [hT (path, metadata) (by simp)]
    simp only [hok, if_true]
    obtain ⟨tsm', h1, h2, h3⟩ := ih hs'.2 (fun e he => hT e (by simp [he])) _ hnew _
      (sorted_push hts (IoWriter.deviceOfPath path) (T (path, metadata)))
    refine ⟨tsm', h1, h2, fun d => ?_⟩
    rw [h3 d, get?_push, optAppend_assoc]
    congr 1
    by_cases hd : IoWriter.deviceOfPath path = d <;> simp [hd]

end TsFile
