import Verif.Proofs.CloseOk
import Verif.Proofs.DeepIndex
import Verif.Proofs.Local
/-! # When closing completes, for any schema -/

namespace TsFile
open Spec

theorem beforeLastDot_path (d m : Bytes) (h : NoDot m) : beforeLastDot (d ++ [0x2e] ++ m) = d := by
  rw [beforeLastDot]
  have h0 : (d ++ [0x2e] ++ m).reverse = m.reverse ++ 0x2e :: d.reverse := by simp
  rw [h0, List.dropWhile_append_of_pos]
  · simp
  · intro b hb
    have : b ∈ m := by simpa using hb
    simp only [bne_iff_ne, ne_eq]
    rintro rfl
    exact h this

theorem deviceOfPath_eq (p : Bytes) (h : (0x2e : UInt8) ∈ p) : IoWriter.deviceOfPath p = beforeLastDot p := by
  obtain ⟨m, h1, h2⟩ := splitLast p h
  have := beforeLastDot_path (IoWriter.deviceOfPath p) m h1
  rw [IoWriter.seriesPath] at h2
  rw [← h2] at this
  exact this.symm

theorem dot_mem_pathsOf {l : List Rec} {p : Bytes} (h : p ∈ pathsOf l) : (0x2e : UInt8) ∈ p := by
  rw [pathsOf, List.mem_dedup, List.mem_map] at h
  obtain ⟨r, _, rfl⟩ := h
  simp

theorem mem_pathsOf {l : List Rec} {p : Bytes} :
    p ∈ pathsOf l ↔ ∃ d m, series l d m ≠ [] ∧ d ++ [0x2e] ++ m = p := by
  simp only [series_ne_nil, pathsOf, List.mem_dedup, List.mem_map]
  constructor
  · rintro ⟨r, hr, h⟩; exact ⟨_, _, ⟨r, hr, rfl, rfl⟩, h⟩
  · rintro ⟨_, _, ⟨r, hr, rfl, rfl⟩, h⟩; exact ⟨r, hr, h⟩

/-- Without dots in measurement names, the names before the last dots are the devices. -/
theorem indexDevicesOf_length {l : List Rec} (h : ∀ r ∈ l, NoDot r.measurement) :
    (indexDevicesOf l).length = (devicesOf l).length := by
  refine length_eq_of_mem_iff (List.nodup_dedup _) (List.nodup_dedup _) (fun d => ?_)
  rw [indexDevicesOf, List.mem_dedup, List.mem_map, devicesOf, List.mem_dedup, List.mem_map]
  constructor
  · rintro ⟨p, hp, rfl⟩
    rw [pathsOf, List.mem_dedup, List.mem_map] at hp
    obtain ⟨r, hr, rfl⟩ := hp
    exact ⟨r, hr, (beforeLastDot_path _ _ (h r hr)).symm⟩
  · rintro ⟨r, hr, rfl⟩
    exact ⟨_, by rw [pathsOf, List.mem_dedup]; exact List.mem_map.2 ⟨r, hr, rfl⟩, beforeLastDot_path _ _ (h r hr)⟩

/-! ## The metadata of one path -/

theorem mergeChunks_isSome (env : Env) (dt : TSDataType) (flag : Bool) (l : List ChunkMetadata)
    (h : ∀ c ∈ l, c.statistics.type = c.dataType) (buf : Bytes) (st : Statistics) (hst : st.type = dt) :
    (IoWriter.mergeChunks env dt flag l buf st).isSome := by
  induction l generalizing buf st with
  | nil => rfl
  | cons c l ih =>
    rw [IoWriter.mergeChunks]
    by_cases hc : c.dataType ≠ dt
    · rw [if_pos hc]
      exact ih (fun c hc => h c (by simp [hc])) _ _ hst
    · rw [if_neg hc, merge_some env st _ (by rw [hst, h c (by simp)]; exact (not_not.1 hc).symm)]
      exact ih (fun c hc => h c (by simp [hc])) _ _ (by rw [mrg_type, hst])

theorem timeSeriesMetadata_isSome (env : Env) (l : List ChunkMetadata) (hne : l ≠ [])
    (h : ∀ c ∈ l, c.statistics.type = c.dataType) : (IoWriter.timeSeriesMetadata env l).isSome := by
  cases l with
  | nil => exact absurd rfl hne
  | cons c l =>
    rw [IoWriter.timeSeriesMetadata]
    have := mergeChunks_isSome env c.dataType (decide ((c :: l).length > 1)) (c :: l) h [] (Statistics.new env c.dataType)
      (new_type env _)
    obtain ⟨r, hr⟩ := Option.isSome_iff_exists.1 this
    simp only [hr]
    rfl

/-- The map of the devices, and its keys. -/
theorem flushIndex_any {env : Env} {groups : List GGroup} {cmm : BMap (List ChunkMetadata)} (hsorted : BMap.Sorted cmm)
    (hget : ∀ k, BMap.get? k cmm = optAppend none
      (((fileLocs env 7 groups).filter (fun l => decide (IoWriter.seriesPath l.1 l.2.2.name = k))).map
        (fun l => chunkMeta env l.2.1 l.2.2))) :
    ∃ tsm, IoWriter.flushIndexLoop env none cmm [] = some tsm ∧ BMap.Sorted tsm
      ∧ (∀ e ∈ tsm, e.2 ≠ [])
      ∧ ∀ d, d ∈ tsm.map Prod.fst ↔ ∃ p ∈ cmm.map Prod.fst, IoWriter.deviceOfPath p = d := by
  have hts : ∀ e ∈ cmm, (IoWriter.timeSeriesMetadata env e.2).isSome := by
    intro e he
    have hg := BMap.get?_of_mem hsorted (k := e.1) (v := e.2) he
    rw [hget, optAppend_none] at hg
    split at hg
    · simp at hg
    · next hne =>
      simp only [Option.some.injEq] at hg
      rw [← hg]
      refine timeSeriesMetadata_isSome env _ hne ?_
      intro c hc
      obtain ⟨l, _, rfl⟩ := List.mem_map.1 hc
      exact chunkStats_type ..
  obtain ⟨T, hT⟩ : ∃ T : Bytes × List ChunkMetadata → TimeSeriesMetadata, ∀ e ∈ cmm,
      IoWriter.timeSeriesMetadata env e.2 = some (T e) := by
    refine ⟨fun e => if h : (IoWriter.timeSeriesMetadata env e.2).isSome then
      (IoWriter.timeSeriesMetadata env e.2).get h else ⟨0, 0, [], .INT32, Statistics.new env .INT32, []⟩, fun e he => ?_⟩
    simp only
    rw [dif_pos (hts e he)]
    simp
  obtain ⟨tsm, hloop, hsort, hg⟩ := flushIndexLoop_eq env T cmm hsorted hT none (by simp) [] List.Pairwise.nil
  refine ⟨tsm, hloop, hsort, ?_, ?_⟩
  · intro e he
    have := BMap.get?_of_mem hsort (k := e.1) (v := e.2) he
    rw [hg, show BMap.get? e.1 ([] : BMap (List TimeSeriesMetadata)) = none from rfl, optAppend_none] at this
    split at this
    · simp at this
    · next hne =>
      simp only [Option.some.injEq] at this
      rw [← this]
      exact hne
  · intro d
    rw [← BMap.get?_isSome_iff, hg, show BMap.get? d ([] : BMap (List TimeSeriesMetadata)) = none from rfl, optAppend_none]
    simp only [List.mem_map]
    constructor
    · intro hs
      split at hs
      · simp at hs
      · next hne =>
        obtain ⟨t, ht⟩ := List.exists_mem_of_ne_nil _ hne
        obtain ⟨x, hx, _⟩ := List.mem_map.1 ht
        rw [List.mem_filter] at hx
        exact ⟨x.1, ⟨x, hx.1, rfl⟩, of_decide_eq_true hx.2⟩
    · rintro ⟨p, ⟨x, hx, rfl⟩, hd⟩
      rw [if_neg]
      · rfl
      · exact List.ne_nil_of_mem (List.mem_map.2 ⟨x, List.mem_filter.2 ⟨hx, decide_eq_true hd⟩, rfl⟩)

/-! ## The index -/

theorem devicesLoop_any (env : Env) (tsm : BMap (List TimeSeriesMetadata)) (b : Bytes) (hne : ∀ e ∈ tsm, e.2 ≠ []) :
    ∃ out map, devicesLoop env ⟨b, none⟩ tsm = some (out, map) ∧ map.map Prod.fst = tsm.map Prod.fst := by
  induction tsm generalizing b with
  | nil => exact ⟨_, _, rfl, rfl⟩
  | cons e rest ih =>
    obtain ⟨d, l⟩ := e
    have hl : l.isEmpty = false := by
      have := hne (d, l) (by simp)
      cases l with
      | nil => exact absurd rfl this
      | cons => rfl
    obtain ⟨r, hr⟩ := Option.isSome_iff_exists.1 (deviceIndex_total env b l)
    obtain ⟨o, n⟩ := r
    have ho := deviceIndex_out hr
    obtain ⟨out, map, h1, h2⟩ := ih (b ++ l.flatMap (TimeSeriesMetadata.serialize env)) (fun e he => hne e (by simp [he]))
    refine ⟨out, (d, n) :: map, ?_, by simp [h2]⟩
    rw [devicesLoop]
    simp only [hl, Bool.false_eq_true, if_false, hr, ho, h1]

/-- When `end_file` completes. -/
theorem endFile_isSome {env : Env} {unsnap : Bytes → Option Bytes} {schema : Schema} {io : IoWriter}
    {groups : List GGroup} (h : FileRep env unsnap schema io groups) :
    ∃ tsm : BMap (List TimeSeriesMetadata), BMap.Sorted tsm
      ∧ (∀ d, d ∈ tsm.map Prod.fst ↔ ∃ p ∈ io.chunkMetadataMap.map Prod.fst, IoWriter.deviceOfPath p = d)
      ∧ ((io.endFile env).isSome ↔ tsm.length ≤ 256
        ∧ ((BloomFilter.build env (io.chunkMetadataMap.map Prod.fst)).bind BloomFilter.serialize).isSome) := by
  obtain ⟨hsorted, hget⟩ := chunkMetadataMap_rep h
  obtain ⟨tsm, hloop, hsort, hne, hkeys⟩ := flushIndex_any hsorted hget
  rw [← h.tsm] at hloop
  refine ⟨tsm, hsort, hkeys, ?_⟩
  rw [IoWriter.endFile]
  simp only [hloop]
  have hout : io.out.write [2] = ⟨fileBytes env groups ++ [2], none⟩ := by
    rw [Sink.write, h.cap]
    simp only [h.bytes]
  obtain ⟨out, map, h1, h2⟩ := devicesLoop_any env tsm (fileBytes env groups ++ [2]) hne
  have hlen : map.length = tsm.length := by
    have := congrArg List.length h2
    simpa using this
  rw [hout, constructMetadataIndex, h1]
  simp only [hlen]
  have hd : maxDegree = 256 := rfl
  by_cases hfew : tsm.length ≤ 256
  · rw [hd, if_pos hfew]
    simp only [hfew, true_and]
    cases hb : BloomFilter.build env (io.chunkMetadataMap.map Prod.fst) with
    | none => simp
    | some bf =>
      cases hbs : bf.serialize with
      | none => simp [hbs]
      | some bb => simp [hbs]
  · rw [hd, if_neg hfew]
    simp [hfew]

/-- The paths of the chunks are the paths of the stored points. -/
theorem chunkPaths_mem {env : Env} {unsnap : Bytes → Option Bytes} {schema : Schema} {groups : List GGroup}
    (hok : GroupsOk env unsnap schema groups) {cmm : BMap (List ChunkMetadata)}
    (hget : ∀ k, BMap.get? k cmm = optAppend none
      (((fileLocs env 7 groups).filter (fun l => decide (IoWriter.seriesPath l.1 l.2.2.name = k))).map
        (fun l => chunkMeta env l.2.1 l.2.2)))
    {stored : List Rec} (hst : ∀ d m, filePts groups d m = series stored d m) (p : Bytes) :
    p ∈ cmm.map Prod.fst ↔ p ∈ pathsOf stored := by
  have hloc : ∀ d m, locsOf env groups d m ≠ [] ↔ series stored d m ≠ [] := by
    intro d m
    rw [locsOf_ne_nil hok, hst]
  rw [← BMap.get?_isSome_iff, hget p, optAppend_isSome, mem_pathsOf]
  constructor
  · rintro ⟨x, hx, hp⟩
    refine ⟨x.1, x.2.2.name, (hloc _ _).1 ?_, of_decide_eq_true hp⟩
    apply List.ne_nil_of_mem (a := x.2)
    exact List.mem_map.2 ⟨x, List.mem_filter.2 ⟨hx, by simp⟩, rfl⟩
  · rintro ⟨d, m, he, hp⟩
    have h1 := (hloc d m).2 he
    obtain ⟨l, hl⟩ := List.exists_mem_of_ne_nil _ h1
    obtain ⟨q1, q2⟩ := locsOf_mem hl
    refine ⟨_, q1, decide_eq_true ?_⟩
    simp only [q2]
    exact hp

theorem mem_indexDevicesOf {l : List Rec} {d : Bytes} :
    d ∈ indexDevicesOf l ↔ ∃ p ∈ pathsOf l, IoWriter.deviceOfPath p = d := by
  rw [indexDevicesOf, List.mem_dedup, List.mem_map]
  constructor
  · rintro ⟨p, hp, h⟩; exact ⟨p, hp, by rw [deviceOfPath_eq p (dot_mem_pathsOf hp), h]⟩
  · rintro ⟨p, hp, h⟩; exact ⟨p, hp, by rw [← deviceOfPath_eq p (dot_mem_pathsOf hp), h]⟩

/-- When `end_file` completes, in terms of the stored points. -/
theorem endFile_closable {env : Env} {unsnap : Bytes → Option Bytes} {schema : Schema} {io : IoWriter}
    {groups : List GGroup} (h : FileRep env unsnap schema io groups) {stored : List Rec}
    (hst : ∀ d m, filePts groups d m = series stored d m)
    (hsize : env.bloomSize (pathsOf stored).length < 2 ^ 31) :
    (io.endFile env).isSome ↔ Closable env stored := by
  obtain ⟨tsm, hsort, hkeys, hiff⟩ := endFile_isSome h
  obtain ⟨hsorted, hget⟩ := chunkMetadataMap_rep h
  have hmem := chunkPaths_mem h.ok hget hst
  have hdev : tsm.length = (indexDevicesOf stored).length := by
    rw [← List.length_map (f := Prod.fst)]
    refine length_eq_of_mem_iff hsort.nodup (List.nodup_dedup _) (fun d => ?_)
    rw [hkeys, mem_indexDevicesOf]
    simp only [hmem]
  have hlen : (io.chunkMetadataMap.map Prod.fst).length = (pathsOf stored).length :=
    length_eq_of_mem_iff hsorted.nodup (List.nodup_dedup _) hmem
  rw [hiff, hdev, BloomFilter.build_serialize_isSome (by rw [hlen]; exact hsize), hlen]
  constructor
  · rintro ⟨h1, h2, h3⟩
    exact ⟨h1, h2, fun p hp seed hs => h3 _ ((hmem _).2 hp) seed hs⟩
  · rintro ⟨h1, h2, h3⟩
    exact ⟨h1, h2, fun p hp seed hs => h3 p ((hmem p).1 hp) seed hs⟩

/-- More than 256 names before last dots. -/
theorem endFile_many {env : Env} {unsnap : Bytes → Option Bytes} {schema : Schema} {io : IoWriter}
    {groups : List GGroup} (h : FileRep env unsnap schema io groups) {stored : List Rec}
    (hst : ∀ d m, filePts groups d m = series stored d m) (hmany : 256 < (indexDevicesOf stored).length) :
    io.endFile env = none := by
  obtain ⟨tsm, hsort, hkeys, hiff⟩ := endFile_isSome h
  obtain ⟨hsorted, hget⟩ := chunkMetadataMap_rep h
  have hmem := chunkPaths_mem h.ok hget hst
  have hdev : tsm.length = (indexDevicesOf stored).length := by
    rw [← List.length_map (f := Prod.fst)]
    refine length_eq_of_mem_iff hsort.nodup (List.nodup_dedup _) (fun d => ?_)
    rw [hkeys, mem_indexDevicesOf]
    simp only [hmem]
  rw [← Option.not_isSome_iff_eq_none, hiff]
  omega

theorem devEntries_names (p : Nat) (l : List (Bytes × IndexNode)) : (devEntries p l).map IndexEntry.name = l.map Prod.fst := by
  induction l generalizing p with
  | nil => rfl
  | cons e l ih => obtain ⟨d, n⟩ := e; simp [devEntries, ih]

/-- The names in the root node. -/
theorem Coarse.rootNames {env : Env} {unsnap : Bytes → Option Bytes} {schema : Schema} {groups : List GGroup}
    {paths : List Bytes} {F : Bytes} (L : Coarse env groups paths F) (hok : GroupsOk env unsnap schema groups)
    {stored : List Rec} (hst : ∀ d m, filePts groups d m = series stored d m) :
    (L.root.children.map IndexEntry.name).Perm (indexDevicesOf stored) := by
  obtain ⟨tsm, hloop, hsort, hne, hkeys⟩ := flushIndex_any L.cmm_sorted L.cmm_get
  have htsm : tsm = L.tsm := by
    rw [L.tsm_eq] at hloop
    exact (Option.some.inj hloop).symm
  subst htsm
  obtain ⟨out, map, h1, h2⟩ := devicesLoop_any env L.tsm (fileBytes env groups ++ [2]) hne
  rw [L.nodes_eq] at h1
  simp only [Option.some.injEq, Prod.mk.injEq] at h1
  rw [← h1.2] at h2
  rw [L.entries, devEntries_names]
  refine (L.order_perm.map _).trans ?_
  rw [h2]
  refine (List.perm_ext_iff_of_nodup hsort.nodup (List.nodup_dedup _)).2 (fun d => ?_)
  have hi := mem_indexDevicesOf (l := stored) (d := d)
  rw [indexDevicesOf] at hi
  rw [hkeys, hi]
  simp only [chunkPaths_mem hok L.cmm_get hst]

/-- The end of a session whose calls do not panic. -/
theorem session_end {env : Env} {unsnap : Bytes → Option Bytes} (he : EnvOk env unsnap) {schema : Schema}
    (hsch : schema.WF) {ops : List Op} {w : Writer} (hn : Writer.new env schema ⟨[], none⟩ = .ok w)
    (hlen : burstsBelow (2 ^ 32) 0 (ops.zip ((w.grown env ops).map (fun n => decide (0 < n)))))
    (hp : .panic ∉ (w.run env ops).2) :
    ∃ io groups, FileRep env unsnap schema io groups
      ∧ (∀ d m, filePts groups d m = series (storedBy schema ops (w.grown env ops)) d m)
      ∧ ((session env schema ops).isSome ↔ (io.endFile env).isSome) := by
  obtain ⟨new, hres, hs1, hl, _⟩ := sim_run he.snappy hsch ops (sim_new unsnap hsch hn) 0 (by simp [AState.init])
    hlen hp
  have hl' : (AState.init.run schema (ops.zip ((w.grown env ops).map (fun n => decide (0 < n))))).1.pending.length
      < 2 ^ 32 := by
    by_cases ho : ops = []
    · subst ho; simp [AState.run, AState.init]
    · exact hl ho
  obtain ⟨w2, new2, hf, hs2, _⟩ := sim_flush he.snappy hsch hs1 hl'
  refine ⟨w2.io, _, hs2.file, hs2.stored, ?_⟩
  rw [session, hn]
  simp only
  rw [if_neg hp, Writer.close, hf]
  simp only
  cases w2.io.endFile env <;> simp

theorem stored_noDot {env : Env} {unsnap : Bytes → Option Bytes} {schema : Schema} {groups : List GGroup}
    (hok : GroupsOk env unsnap schema groups) {stored : List Rec} (hst : ∀ d m, filePts groups d m = series stored d m)
    (hd : ∀ d ∈ schema, ∀ m ∈ d.2, NoDot m.1) : ∀ r ∈ stored, NoDot r.measurement := by
  intro r hr
  have hne : series stored r.device r.measurement ≠ [] := series_ne_nil.2 ⟨r, hr, rfl, rfl⟩
  rw [← hst, ← locsOf_ne_nil hok] at hne
  obtain ⟨l, hl⟩ := List.exists_mem_of_ne_nil _ hne
  obtain ⟨q1, q2⟩ := locsOf_mem hl
  obtain ⟨g, hg, hg1, hg2⟩ := fileLocs_mem q1
  obtain ⟨ms, h1, h2, _⟩ := hok g hg
  rw [← q2]
  exact hd _ (look_mem h1) _ (look_mem (h2 _ hg2).1)

/-- When a session completes whose calls do not panic. -/
theorem session_closable {env : Env} {unsnap : Bytes → Option Bytes} (he : EnvOk env unsnap) {schema : Schema}
    (hsch : schema.WF) {ops : List Op} {w : Writer} (hn : Writer.new env schema ⟨[], none⟩ = .ok w)
    (hlen : burstsBelow (2 ^ 32) 0 (ops.zip ((w.grown env ops).map (fun n => decide (0 < n)))))
    (hp : .panic ∉ (w.run env ops).2)
    (hsize : env.bloomSize (pathsOf (storedBy schema ops (w.grown env ops))).length < 2 ^ 31) :
    (session env schema ops).isSome ↔ Closable env (storedBy schema ops (w.grown env ops)) := by
  obtain ⟨io, groups, h1, h2, h3⟩ := session_end he hsch hn hlen hp
  rw [h3, endFile_closable h1 h2 hsize]

end TsFile
