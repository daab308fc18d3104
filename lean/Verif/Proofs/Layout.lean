import Verif.Proofs.Close
import Mathlib.Data.List.Perm.Subperm
/-! # The layout of a closed file -/

namespace TsFile
open Spec

/-- The content of the index of a file with the given chunks. -/
structure IndexRep (env : Env) (schema : Schema) (groups : List GGroup) (tsm : BMap (List TimeSeriesMetadata)) :
    Prop where
  sorted : BMap.Sorted tsm
  ne : ∀ e ∈ tsm, e.2 ≠ []
  few : ∀ e ∈ tsm, e.2.length ≤ 65536
  names : ∀ e ∈ tsm, e.2.Pairwise (fun a b => a.measurementId < b.measurementId)
  mem : ∀ e ∈ tsm, ∀ t ∈ e.2, ∃ ms s, look e.1 schema = some ms ∧ look t.measurementId ms = some s
    ∧ locsOf env groups e.1 t.measurementId ≠ []
    ∧ t = tsOf env t.measurementId s.dataType (locsOf env groups e.1 t.measurementId)
  all : ∀ d m, locsOf env groups d m ≠ [] → ∃ l, (d, l) ∈ tsm ∧ ∃ t ∈ l, t.measurementId = m

theorem look_mem {α : Type} {k : Bytes} {l : List (Bytes × α)} {v : α} (h : look k l = some v) : (k, v) ∈ l := by
  rw [look_eq] at h
  exact BMap.mem_of_get? h

theorem flushIndex_rep {env : Env} {unsnap : Bytes → Option Bytes} {schema : Schema} (hsch : schema.Indexable)
    {io : IoWriter} {groups : List GGroup} (h : FileRep env unsnap schema io groups) :
    ∃ tsm, IoWriter.flushIndexLoop env none io.chunkMetadataMap io.timeseriesMetadataMap = some tsm
      ∧ IndexRep env schema groups tsm := by
  obtain ⟨hsorted, hget⟩ := chunkMetadataMap_rep h
  -- every chunk belongs to the schema
  have hloc : ∀ l ∈ fileLocs env 7 groups, ∃ ms, look l.1 schema = some ms ∧ look l.2.2.name ms = some l.2.2.ms
      ∧ NoDot l.2.2.name := by
    intro l hl
    obtain ⟨g, hg, hg1, hg2⟩ := fileLocs_mem hl
    obtain ⟨ms, h1, h2, _⟩ := h.ok g hg
    refine ⟨ms, by rw [← hg1]; exact h1, (h2 _ hg2).1, ?_⟩
    exact hsch.noDot _ (look_mem h1) _ (look_mem (h2 _ hg2).1)
  -- the entries of the map are the series
  have hfilter : ∀ d m, NoDot m → ((fileLocs env 7 groups).filter
      (fun l => decide (IoWriter.seriesPath l.1 l.2.2.name = IoWriter.seriesPath d m))).map
          (fun l => chunkMeta env l.2.1 l.2.2)
      = (locsOf env groups d m).map (fun l => chunkMeta env l.1 l.2) := by
    intro d m hm
    rw [locsOf, List.map_map]
    simp only [Function.comp_def]
    congr 1
    apply List.filter_congr
    intro l hl
    obtain ⟨ms, _, _, hnd⟩ := hloc l hl
    apply Bool.eq_iff_iff.2
    simp only [decide_eq_true_eq]
    constructor
    · exact fun e => seriesPath_inj hnd hm e
    · rintro ⟨rfl, rfl⟩; rfl
  have hentry : ∀ e ∈ io.chunkMetadataMap, ∃ d m ms s, NoDot m ∧ look d schema = some ms ∧ look m ms = some s
      ∧ e = (IoWriter.seriesPath d m, (locsOf env groups d m).map (fun l => chunkMeta env l.1 l.2))
      ∧ locsOf env groups d m ≠ [] := by
    intro e he
    have hg := BMap.get?_of_mem hsorted (k := e.1) (v := e.2) he
    rw [hget, optAppend_none] at hg
    split at hg
    · simp at hg
    · next hne =>
      simp only [Option.some.injEq] at hg
      obtain ⟨l, hl⟩ : ∃ l, l ∈ (fileLocs env 7 groups).filter
          (fun l => decide (IoWriter.seriesPath l.1 l.2.2.name = e.1)) := by
        apply List.exists_mem_of_ne_nil
        intro hc
        rw [hc] at hne
        exact hne rfl
      rw [List.mem_filter] at hl
      simp only [decide_eq_true_eq] at hl
      obtain ⟨ms, h1, h2, hnd⟩ := hloc l hl.1
      refine ⟨l.1, l.2.2.name, ms, l.2.2.ms, hnd, h1, h2, ?_, ?_⟩
      · rw [← hfilter _ _ hnd, hl.2, hg]
      · intro hc
        rw [← hl.2, hfilter _ _ hnd, hc] at hne
        exact hne rfl
  have hdtOf : ∀ d m ms s, look d schema = some ms → look m ms = some s →
      ∀ l ∈ locsOf env groups d m, l.2.ms.dataType = s.dataType := by
    intro d m ms s h1 h2 l hl
    obtain ⟨hl1, hl2⟩ := locsOf_mem hl
    obtain ⟨ms', q1, q2, _⟩ := hloc _ hl1
    simp only at q1 q2
    rw [h1] at q1
    cases q1
    rw [hl2, h2] at q2
    cases q2
    rfl
  -- the metadata of each entry
  have hT : ∃ T : Bytes × List ChunkMetadata → TimeSeriesMetadata, ∀ e ∈ io.chunkMetadataMap,
      IoWriter.timeSeriesMetadata env e.2 = some (T e) := by
    refine ⟨fun e => (IoWriter.timeSeriesMetadata env e.2).getD (tsOf env [] .INT32 []), fun e he => ?_⟩
    obtain ⟨d, m, ms, s, hm, h1, h2, rfl, hne⟩ := hentry e he
    simp only
    rw [timeSeriesMetadata_eq env m s.dataType _ hne (hdtOf d m ms s h1 h2) (fun l hl => (locsOf_mem hl).2)]
    rfl
  obtain ⟨T, hT⟩ := hT
  have hTe : ∀ d m ms s, look d schema = some ms → look m ms = some s → locsOf env groups d m ≠ [] →
      (IoWriter.seriesPath d m, (locsOf env groups d m).map (fun l => chunkMeta env l.1 l.2)) ∈ io.chunkMetadataMap →
      T (IoWriter.seriesPath d m, (locsOf env groups d m).map (fun l => chunkMeta env l.1 l.2))
        = tsOf env m s.dataType (locsOf env groups d m) := by
    intro d m ms s h1 h2 hne hmem
    have := hT _ hmem
    simp only at this
    rw [timeSeriesMetadata_eq env m s.dataType _ hne (hdtOf d m ms s h1 h2) (fun l hl => (locsOf_mem hl).2)] at this
    exact (Option.some.inj this).symm
  rw [h.tsm]
  obtain ⟨tsm, hloop, hts, htg⟩ := flushIndexLoop_eq env T io.chunkMetadataMap hsorted hT none (by simp) []
    List.Pairwise.nil
  refine ⟨tsm, hloop, ?_⟩
  -- the list of one device
  have hdev : ∀ e ∈ tsm, e.2 = (io.chunkMetadataMap.filter
      (fun x => decide (IoWriter.deviceOfPath x.1 = e.1))).map T ∧ e.2 ≠ [] := by
    intro e he
    have hg := BMap.get?_of_mem hts (k := e.1) (v := e.2) he
    rw [htg, show BMap.get? e.1 ([] : BMap (List TimeSeriesMetadata)) = none from rfl, optAppend_none] at hg
    split at hg
    · simp at hg
    · next hne =>
      simp only [Option.some.injEq] at hg
      exact ⟨hg.symm, by rw [← hg]; exact hne⟩
  have hmem : ∀ e ∈ tsm, ∀ t ∈ e.2, ∃ ms s, look e.1 schema = some ms ∧ look t.measurementId ms = some s
      ∧ locsOf env groups e.1 t.measurementId ≠ []
      ∧ t = tsOf env t.measurementId s.dataType (locsOf env groups e.1 t.measurementId) := by
    intro e he t ht
    rw [(hdev e he).1] at ht
    obtain ⟨x, hx, rfl⟩ := List.mem_map.1 ht
    rw [List.mem_filter] at hx
    simp only [decide_eq_true_eq] at hx
    obtain ⟨d, m, ms, s, hm, h1, h2, rfl, hne⟩ := hentry x hx.1
    have hd : d = e.1 := by rw [← hx.2, deviceOfPath_path d m hm]
    subst hd
    rw [hTe _ m ms s h1 h2 hne hx.1]
    exact ⟨ms, s, h1, h2, hne, rfl⟩
  have hnames : ∀ e ∈ tsm, e.2.Pairwise (fun a b => a.measurementId < b.measurementId) := by
    intro e he
    rw [(hdev e he).1, List.pairwise_map]
    have hp : (io.chunkMetadataMap.filter (fun x => decide (IoWriter.deviceOfPath x.1 = e.1))).Pairwise
        (fun a b => bytesLt a.1 b.1 = true) := List.Pairwise.filter _ hsorted
    refine List.Pairwise.imp_of_mem ?_ hp
    intro a b ha hb hab
    rw [List.mem_filter] at ha hb
    simp only [decide_eq_true_eq] at ha hb
    obtain ⟨da, ma, msa, sa, hma, h1, h2, rfl, hnea⟩ := hentry a ha.1
    obtain ⟨db, mb, msb, sb, hmb, h3, h4, rfl, hneb⟩ := hentry b hb.1
    rw [hTe da ma msa sa h1 h2 hnea ha.1, hTe db mb msb sb h3 h4 hneb hb.1]
    have e1 : da = e.1 := by rw [← ha.2, deviceOfPath_path da ma hma]
    have e2 : db = e.1 := by rw [← hb.2, deviceOfPath_path db mb hmb]
    rw [← e2] at e1
    subst e1
    simp only [IoWriter.seriesPath, bytesLt_append_left] at hab
    exact (bytesLt_iff _ _).1 hab
  refine ⟨hts, fun e he => (hdev e he).2, ?_, hnames, hmem, ?_⟩
  · intro e he
    cases hne : e.2 with
    | nil => simp
    | cons t0 ts0 =>
      obtain ⟨ms, _, h1, _⟩ := hmem e he t0 (by rw [hne]; simp)
      rw [← hne]
      have hnd : (e.2.map TimeSeriesMetadata.measurementId).Nodup := by
        rw [List.Nodup, List.pairwise_map]
        refine List.Pairwise.imp ?_ (hnames e he)
        intro a b hab heq
        rw [heq] at hab
        exact not_lt_of_lt' hab hab
      have hsub : e.2.map TimeSeriesMetadata.measurementId ⊆ ms.map Prod.fst := by
        intro m hm
        obtain ⟨t, ht, rfl⟩ := List.mem_map.1 hm
        obtain ⟨ms', s, q1, q2, _⟩ := hmem e he t ht
        rw [h1] at q1
        cases q1
        exact List.mem_map.2 ⟨_, look_mem q2, rfl⟩
      have := (List.subperm_of_subset hnd hsub).length_le
      simp only [List.length_map] at this
      exact Nat.le_trans this (hsch.few _ (look_mem h1))
  · intro d m hne
    obtain ⟨l, hl⟩ := List.exists_mem_of_ne_nil _ hne
    obtain ⟨hl1, hl2⟩ := locsOf_mem hl
    obtain ⟨ms, h1, h2, hnd⟩ := hloc _ hl1
    simp only at h1 h2 hnd
    rw [hl2] at h2 hnd
    have hcm : (IoWriter.seriesPath d m, (locsOf env groups d m).map (fun l => chunkMeta env l.1 l.2))
        ∈ io.chunkMetadataMap := by
      apply BMap.mem_of_get?
      rw [hget, hfilter d m hnd, optAppend_none, if_neg]
      intro hc
      exact hne (by simpa using hc)
    have hin : T (IoWriter.seriesPath d m, (locsOf env groups d m).map (fun l => chunkMeta env l.1 l.2))
        ∈ (io.chunkMetadataMap.filter (fun x => decide (IoWriter.deviceOfPath x.1 = d))).map T := by
      apply List.mem_map.2
      refine ⟨_, List.mem_filter.2 ⟨hcm, ?_⟩, rfl⟩
      simp [deviceOfPath_path d m hnd]
    refine ⟨_, BMap.mem_of_get? (k := d) (v := (io.chunkMetadataMap.filter
      (fun x => decide (IoWriter.deviceOfPath x.1 = d))).map T) ?_, _, hin, ?_⟩
    · rw [htg, show BMap.get? d ([] : BMap (List TimeSeriesMetadata)) = none from rfl, optAppend_none, if_neg]
      exact List.ne_nil_of_mem hin
    · rw [hTe d m ms l.2.ms h1 h2 hne hcm]
      rfl

/-- The footer. -/
def footerBytes (root : IndexNode) (metaOffset : Nat) (bloom : Bytes) : Bytes :=
  tsFileMetadataSerialize root metaOffset ++ bloom

/-- The bytes of a closed file. -/
structure Layout (env : Env) (schema : Schema) (groups : List GGroup) (paths : List Bytes) (F : Bytes) where
  tsm : BMap (List TimeSeriesMetadata)
  rep : IndexRep env schema groups tsm
  few : tsm.length ≤ 256
  filter : BloomFilter
  filter_eq : BloomFilter.build env paths = some filter
  bloom : Bytes
  bloom_eq : filter.serialize = some bloom
  order : List (Bytes × IndexNode)
  order_eq : order = env.hashOrder (devNodes env ((fileBytes env groups).length + 1) tsm)
  root : IndexNode
  root_eq : root =
    { children := devEntries ((fileBytes env groups).length + 1 + (metaBytes env tsm).length) order
      endOffset := (fileBytes env groups).length + 1 + (metaBytes env tsm).length
        + (order.flatMap (fun e => e.2.serialize)).length
      nodeType := .leafDevice }
  bytes : F = fileBytes env groups ++ ([2] ++ (metaBytes env tsm ++ (order.flatMap (fun e => e.2.serialize)
    ++ (footerBytes root (fileBytes env groups).length bloom
      ++ (be32 (u32 (footerBytes root (fileBytes env groups).length bloom).length) ++ magic)))))

theorem endFile_layout {env : Env} {unsnap : Bytes → Option Bytes} {schema : Schema} (hsch : schema.Indexable)
    {io io' : IoWriter} {groups : List GGroup} (h : FileRep env unsnap schema io groups)
    (hend : io.endFile env = some io') :
    Nonempty (Layout env schema groups (io.chunkMetadataMap.map Prod.fst) io'.out.bytes) := by
  obtain ⟨tsm, hloop, hrep⟩ := flushIndex_rep hsch h
  rw [IoWriter.endFile] at hend
  simp only [hloop] at hend
  have hout : io.out.write [2] = ⟨fileBytes env groups ++ [2], none⟩ := by
    rw [Sink.write, h.cap]
    simp only [h.bytes]
  rw [hout, constructMetadataIndex_eq env tsm _ hrep.ne hrep.few] at hend
  by_cases hfew : tsm.length ≤ 256
  · rw [if_pos hfew] at hend
    simp only [List.length_append, List.length_singleton] at hend
    cases hb : BloomFilter.build env (io.chunkMetadataMap.map Prod.fst) with
    | none => rw [hb] at hend; simp at hend
    | some bf =>
      rw [hb] at hend
      simp only at hend
      cases hbs : bf.serialize with
      | none => rw [hbs] at hend; simp at hend
      | some bb =>
        rw [hbs] at hend
        simp only [Option.some.injEq] at hend
        refine ⟨⟨tsm, hrep, hfew, bf, hb, bb, hbs, _, rfl, _, rfl, ?_⟩⟩
        rw [← hend]
        have hsub : ∀ a b c d x y : Nat, a + (b + (c + (d + (x + y)))) - (a + (b + (c + d))) = x + y := by
          intros; omega
        simp only [Sink.write, Sink.pos, footerBytes, List.append_assoc, List.length_append, h.bytes, hsub]
  · rw [if_neg hfew] at hend
    simp at hend

end TsFile
