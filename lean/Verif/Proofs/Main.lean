import Verif.Proofs.Writer
import Verif.Proofs.ReadData
/-! # Whole sessions -/

namespace TsFile
open Spec

theorem optAppend_isSome {α β : Type} (p : α → Bool) (f : α → β) (l : List α) :
    (optAppend none ((l.filter p).map f)).isSome ↔ ∃ x ∈ l, p x = true := by
  rw [optAppend_none]
  by_cases h : l.filter p = []
  · rw [if_pos (by rw [h]; rfl)]
    rw [List.filter_eq_nil_iff] at h
    simp only [Option.isSome_none, Bool.false_eq_true, false_iff]
    rintro ⟨x, hx, hp⟩
    exact h x hx hp
  · rw [if_neg (by simpa using h)]
    simp only [Option.isSome_some, true_iff]
    obtain ⟨x, hx⟩ := List.exists_mem_of_ne_nil _ h
    rw [List.mem_filter] at hx
    exact ⟨x, hx⟩

theorem run_length (env : Env) (ops : List Op) (w : Writer) :
    (w.run env ops).2.length = ops.length ∧ (w.grown env ops).length = ops.length := by
  induction ops generalizing w with
  | nil => exact ⟨rfl, rfl⟩
  | cons op ops ih => simp [Writer.run, Writer.grown, ih]

theorem session_grown_length {env : Env} {schema : Schema} {ops : List Op} {s : Session}
    (hs : session env schema ops = some s) : s.grown.length = ops.length := by
  rw [session] at hs
  split at hs
  · simp at hs
  · split at hs
    · simp at hs
    · split at hs
      · simp at hs
      · simp only [Option.some.injEq] at hs
        subst hs
        exact (run_length env ops _).2

/-- Everything known about the file of a session. -/
structure Closed (env : Env) (unsnap : Bytes → Option Bytes) (schema : Schema) (ops : List Op) (s : Session) where
  groups : List GGroup
  paths : List Bytes
  layout : Layout env schema groups paths s.file
  ok : GroupsOk env unsnap schema groups
  fits : Fits env layout
  results : (AState.init.run schema (ops.zip (s.grown.map (fun n => decide (0 < n))))).2 = s.results
  pts : ∀ d m, filePts groups d m = series (storedBy schema ops s.grown) d m
  path : ∀ p, p ∈ paths ↔ ∃ l ∈ fileLocs env 7 groups, p = IoWriter.seriesPath l.1 l.2.2.name
  nodup : paths.Nodup
  data : ∀ w w2 e, Writer.new env schema ⟨[], none⟩ = .ok w → (w.run env ops).1.flushAllChunkGroups env = some (w2, e) →
    w2.io.out.bytes = fileBytes env groups
  blocks : ∃ parts : List (List GGroup), groups = parts.flatten
    ∧ List.Forall₂ (fun part b => part.map Prod.fst = (Writer.newGroupWriters env schema).map Prod.fst
        ∧ ∀ d m, filePts part d m = series b d m) parts (burstsBy schema ops s.grown)
  exact : ∀ g ∈ groups, ∀ c ∈ g.2, c.Exact env

theorem session_closed {env : Env} {unsnap : Bytes → Option Bytes} (he : EnvOk env unsnap) {schema : Schema}
    (hsch : schema.Indexable) {ops : List Op} {s : Session} (hs : session env schema ops = some s)
    (hw : s.Within ops) : Nonempty (Closed env unsnap schema ops s) := by
  rw [session] at hs
  cases hnew : Writer.new env schema ⟨[], none⟩ with
  | error e => rw [hnew] at hs; simp at hs
  | ok w =>
    rw [hnew] at hs
    simp only at hs
    split at hs
    · simp at hs
    · next hnp =>
      split at hs
      · simp at hs
      · next w' hcl =>
        simp only [Option.some.injEq] at hs
        subst hs
        have hsim := sim_new unsnap hsch.wf hnew
        obtain ⟨new, hres, hs1, hlen, hgr⟩ := sim_run he.snappy hsch.wf ops hsim 0 (by simp [AState.init])
          hw.bursts hnp
        have hlen' : (AState.init.run schema (ops.zip ((w.grown env ops).map (fun n => decide (0 < n))))).1.pending.length
            < 2 ^ 32 := by
          by_cases ho : ops = []
          · subst ho; simp [AState.run, AState.init]
          · exact hlen ho
        obtain ⟨w2, new2, hf, hs2, _⟩ := sim_flush he.snappy hsch.wf hs1 hlen'
        rw [Writer.close, hf] at hcl
        simp only at hcl
        split at hcl
        · simp at hcl
        · next io hend =>
          simp only [Option.some.injEq] at hcl
          subst hcl
          obtain ⟨L⟩ := endFile_layout hsch hs2.file hend
          have hF := L.bytes
          have hc := hw.closing
          have hgr' := hgr hw.calls
          have hlF := congrArg List.length hF
          simp only [List.nil_append] at hc hgr' hlF hs1 hs2
          rw [hs1.file.bytes] at hc
          simp only [fileBytes_append, List.length_append] at hc hlF
          have hfits : Fits env L := by
            refine ⟨hw.file, by simp only [List.nil_append, fileBytes_append, List.length_append] at hc hlF ⊢; omega, ?_, ?_⟩
            · intro e he t ht
              have h1 := mem_flatMap_length (fun e : Bytes × List TimeSeriesMetadata =>
                e.2.flatMap (fun t => t.serialize env)) L.tsm he
              have h2 := mem_flatMap_length (fun t : TimeSeriesMetadata => t.serialize env) e.2 ht
              have h3 : t.buffer.length ≤ (t.serialize env).length := by
                simp only [TimeSeriesMetadata.serialize, List.length_append]; omega
              have h4 : (metaBytes env L.tsm).length = (L.tsm.flatMap (fun e : Bytes × List TimeSeriesMetadata =>
                e.2.flatMap (fun t => t.serialize env))).length := rfl
              omega
            · intro g hg c hcg
              have h2 := mem_flatMap_length (GChunk.bytes env) g.2 hcg
              have h3 : (groupBytes env g).length
                  = (chunkGroupHeader g.1).length + (g.2.flatMap (GChunk.bytes env)).length := by
                simp [groupBytes]
              have h4 : (c.bytes env).length
                  = (c.header env).serialize.length + (pagesBytes env c.ms.dataType c.pages).length := by
                simp [GChunk.bytes]
              have h5 : (groupBytes env g).length < 2 ^ 32 := by
                rcases List.mem_append.1 hg with hg | hg
                · exact hgr' g (by simpa using hg)
                · have := mem_flatMap_length (groupBytes env) new2 hg
                  omega
              omega
          obtain ⟨hsorted, hget⟩ := chunkMetadataMap_rep hs2.file
          refine ⟨⟨_, _, L, hs2.file.ok, hfits, hres, hs2.stored, ?_, ?_, ?_, hs2.blocks, hs2.exact⟩⟩
          · intro p
            rw [← BMap.get?_isSome_iff, hget p]
            rw [optAppend_isSome]
            constructor
            · rintro ⟨x, hx, hp⟩
              exact ⟨x, by simpa using hx, by simpa using (of_decide_eq_true hp).symm⟩
            · rintro ⟨x, hx, hp⟩
              exact ⟨x, by simpa using hx, by simpa using hp.symm⟩
          · exact (List.pairwise_map.2 (hsorted.imp (fun {a b} h => by
              intro e
              rw [e] at h
              rw [bytesLt_irrefl] at h
              simp at h)))
          · intro w' w2' e h1 h2
            rw [hnew] at h1
            cases h1
            rw [hf] at h2
            cases h2
            exact hs2.file.bytes

end TsFile
