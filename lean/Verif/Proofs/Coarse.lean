import Verif.Proofs.Sparse
/-! # The outline of a closed file, for any schema

`Layout` describes the whole file, for schemas whose index is correct. Here only the data part, the footer and the Bloom
filter are described, without assumptions on dots in names and on the number of series. -/

namespace TsFile
open Spec

/-- The outline of a closed file. -/
abbrev Coarse (env : Env) (groups : List GGroup) (paths : List Bytes) (F : Bytes) :=
  Sparse env (fileBytes env groups) (fileLocs env 7 groups) paths F

theorem fileBytes_head (env : Env) (groups : List GGroup) : (fileBytes env groups).take 7 = head := by
  have : fileBytes env groups = head ++ groups.flatMap (groupBytes env) := by
    simp [fileBytes, head, magic]
  rw [this]
  simp [head]

theorem endFile_coarse {env : Env} {unsnap : Bytes → Option Bytes} (ho : HashOrderOk env) {schema : Schema}
    {io io' : IoWriter} {groups : List GGroup} (h : FileRep env unsnap schema io groups)
    (hend : io.endFile env = some io') :
    Nonempty (Coarse env groups (io.chunkMetadataMap.map Prod.fst) io'.out.bytes) := by
  have hio : io.out = ⟨fileBytes env groups, none⟩ := by
    have h1 := h.cap
    have h2 := h.bytes
    cases hs : io.out with
    | mk b c => rw [hs] at h1 h2; simp only at h1 h2; rw [h1, h2]
  exact endFile_sparse (locs := fileLocs env 7 groups) ho (fileBytes_head env groups) hio
    (by rw [h.metas, groupMetas_flat]) h.tsm hend

section
variable {env : Env} {unsnap : Bytes → Option Bytes} {schema : Schema} {groups : List GGroup}
  {paths : List Bytes} {F : Bytes}

theorem GroupsOk.locs (hok : GroupsOk env unsnap schema groups) :
    LocsOk env unsnap schema (fileBytes env groups) (fileLocs env 7 groups) := by
  intro l hl
  obtain ⟨g, hg, hg1, hg2⟩ := fileLocs_mem hl
  obtain ⟨ms, h1, h2, _⟩ := hok g hg
  exact ⟨ms, by rw [← hg1]; exact h1, (h2 _ hg2).1, (h2 _ hg2).2, fileLocs_at hl⟩

theorem mem_chunkLocs (env : Env) {cs : List GChunk} {c : GChunk} (h : c ∈ cs) (pos : Nat) :
    ∃ off, (off, c) ∈ chunkLocs env pos cs := by
  induction cs generalizing pos with
  | nil => simp at h
  | cons x cs ih =>
    rcases List.mem_cons.1 h with rfl | h
    · exact ⟨pos, by simp [chunkLocs]⟩
    · obtain ⟨off, ho⟩ := ih h (pos + (x.bytes env).length)
      exact ⟨off, by simp [chunkLocs, ho]⟩

theorem mem_fileLocs (env : Env) {groups : List GGroup} {g : GGroup} (hg : g ∈ groups) {c : GChunk} (hc : c ∈ g.2) (pos : Nat) :
    ∃ off, (g.1, off, c) ∈ fileLocs env pos groups := by
  induction groups generalizing pos with
  | nil => simp at hg
  | cons x groups ih =>
    rcases List.mem_cons.1 hg with rfl | hg
    · obtain ⟨off, ho⟩ := mem_chunkLocs env hc (pos + (chunkGroupHeader g.1).length)
      exact ⟨off, by simp [fileLocs, ho]⟩
    · obtain ⟨off, ho⟩ := ih hg (pos + (groupBytes env x).length)
      exact ⟨off, by simp [fileLocs, ho]⟩

theorem Coarse.fits_chunk {L : Coarse env groups paths F} (hf : L.Fits) {g : GGroup} (hg : g ∈ groups) {c : GChunk}
    (hc : c ∈ g.2) : (pagesBytes env c.ms.dataType c.pages).length < 2 ^ 32 := by
  obtain ⟨off, h⟩ := mem_fileLocs env hg hc 7
  exact hf.chunks _ h

/-- Scanning a closed file. -/
theorem Coarse.scan (hsch : schema.Named) (hok : GroupsOk env unsnap schema groups)
    (L : Coarse env groups paths F) (hf : L.Fits) :
    Spec.scan unsnap F = some (groups.flatMap (groupItems env), (fileBytes env groups).length) := by
  have hb := L.bytes
  have hlen : F.length = _ := congrArg List.length hb
  have hdrop : F.drop 7 = groups.flatMap (groupBytes env) ++ 2 :: (L.mid
      ++ (footerBytes L.root (fileBytes env groups).length L.bloom
        ++ (be32 (u32 (footerBytes L.root (fileBytes env groups).length L.bloom).length) ++ magic))) := by
    conv_lhs => rw [hb]
    rfl
  have htake : F.take 7 = head := by
    conv_lhs => rw [hb]
    rfl
  rw [Spec.scan, if_pos htake, hdrop, scanFuel_groups]
  · simp only [Option.map_some, Option.some.injEq, Prod.mk.injEq, true_and]
    rw [hlen]
    simp only [List.length_append, List.length_cons, List.length_nil]
    omega
  · intro g hg
    have := hok.names hsch g hg
    exact ⟨this.1, fun c hc => ⟨(this.2 c hc).1, (this.2 c hc).2, Coarse.fits_chunk hf hg hc⟩⟩
  · rw [hlen]
    simp only [List.length_append, fileBytes]
    simp only [List.length_cons, List.length_nil]
    omega

/-- The chunks of a closed file and their positions. -/
theorem Coarse.chunksOf (hsch : schema.Named) (hok : GroupsOk env unsnap schema groups)
    (L : Coarse env groups paths F) (hf : L.Fits) :
    Spec.chunksOf unsnap F = some ((fileLocs env 7 groups).map (fun l => (l.1, l.2.1, l.2.2.toSpec env))) := by
  have hb := L.bytes
  have hlen : F.length = _ := congrArg List.length hb
  have hdrop : F.drop 7 = groups.flatMap (groupBytes env) ++ 2 :: (L.mid
      ++ (footerBytes L.root (fileBytes env groups).length L.bloom
        ++ (be32 (u32 (footerBytes L.root (fileBytes env groups).length L.bloom).length) ++ magic))) := by
    conv_lhs => rw [hb]
    rfl
  rw [Spec.chunksOf]
  refine chunksFrom_groups groups _ ?_ 7 none hdrop _ ?_
  · intro g hg
    have := hok.names hsch g hg
    exact ⟨this.1, fun c hc => ⟨(this.2 c hc).1, (this.2 c hc).2, Coarse.fits_chunk hf hg hc⟩⟩
  · rw [hlen]
    simp only [List.length_append, fileBytes]
    simp only [List.length_cons, List.length_nil]
    omega

theorem Coarse.at_chunk (L : Coarse env groups paths F) {l : Bytes × Nat × GChunk} (h : l ∈ fileLocs env 7 groups) :
    At F l.2.1 (l.2.2.bytes env) := by
  have := (fileLocs_at h).extend ([2] ++ (L.mid ++ (footerBytes L.root (fileBytes env groups).length L.bloom
        ++ (be32 (u32 (footerBytes L.root (fileBytes env groups).length L.bloom).length) ++ magic))))
  rwa [← L.bytes] at this

end

/-- What is known about the file of a session, for any schema. -/
structure Outlined (env : Env) (unsnap : Bytes → Option Bytes) (schema : Schema) (ops : List Op) (s : Session) where
  groups : List GGroup
  paths : List Bytes
  layout : Coarse env groups paths s.file
  ok : GroupsOk env unsnap schema groups
  fits : layout.Fits
  results : (AState.init.run schema (ops.zip (s.grown.map (fun n => decide (0 < n))))).2 = s.results
  pts : ∀ d m, filePts groups d m = series (storedBy schema ops s.grown) d m
  path : ∀ p, p ∈ paths ↔ ∃ l ∈ fileLocs env 7 groups, p = IoWriter.seriesPath l.1 l.2.2.name
  nodup : paths.Nodup
  blocks : ∃ parts : List (List GGroup), groups = parts.flatten
    ∧ List.Forall₂ (fun part b => part.map Prod.fst = (Writer.newGroupWriters env schema).map Prod.fst
        ∧ ∀ d m, filePts part d m = series b d m) parts (burstsBy schema ops s.grown)
  exact : ∀ g ∈ groups, ∀ c ∈ g.2, c.Exact env
  flushed : ∀ w w2 e, Writer.new env schema ⟨[], none⟩ = .ok w → (w.run env ops).1.flushAllChunkGroups env = some (w2, e) →
    w2.io.out.bytes = fileBytes env groups
  closed : ∃ io io' : IoWriter, io.out = ⟨fileBytes env groups, none⟩ ∧ io.chunkGroupMetadataList = groupMetas env 7 groups
    ∧ io.timeseriesMetadataMap = [] ∧ io.endFile env = some io' ∧ s.file = io'.out.bytes

theorem session_outlined {env : Env} {unsnap : Bytes → Option Bytes} (he : EnvOk env unsnap) {schema : Schema}
    (hsch : schema.Named) {ops : List Op} {s : Session} (hs : session env schema ops = some s)
    (hw : s.Within ops) : Nonempty (Outlined env unsnap schema ops s) := by
  rw [session] at hs
  cases hnew : Writer.new env schema ⟨[], none⟩ with
  | error e => rw [hnew] at hs; simp at hs
  | ok w =>
    rw [hnew] at hs
    simp only at hs
    split at hs
    · simp at hs
    · next hnp =>
      split at hs
      · simp at hs
      · next w' hcl =>
        simp only [Option.some.injEq] at hs
        subst hs
        have hsim := sim_new unsnap hsch.wf hnew
        obtain ⟨new, hres, hs1, hlen, hgr⟩ := sim_run he.snappy hsch.wf ops hsim 0 (by simp [AState.init])
          hw.bursts hnp
        have hlen' : (AState.init.run schema (ops.zip ((w.grown env ops).map (fun n => decide (0 < n))))).1.pending.length
            < 2 ^ 32 := by
          by_cases ho : ops = []
          · subst ho; simp [AState.run, AState.init]
          · exact hlen ho
        obtain ⟨w2, new2, hf, hs2, _⟩ := sim_flush he.snappy hsch.wf hs1 hlen'
        rw [Writer.close, hf] at hcl
        simp only at hcl
        split at hcl
        · simp at hcl
        · next io hend =>
          simp only [Option.some.injEq] at hcl
          subst hcl
          obtain ⟨L⟩ := endFile_coarse he.order hs2.file hend
          have hF := L.bytes
          have hc := hw.closing
          have hgr' := hgr hw.calls
          have hlF := congrArg List.length hF
          simp only [List.nil_append] at hc hgr' hlF hs1 hs2
          rw [hs1.file.bytes] at hc
          simp only [fileBytes_append, List.length_append] at hc hlF
          obtain ⟨hsorted, hget⟩ := chunkMetadataMap_rep hs2.file
          have hpath : ∀ p, p ∈ w2.io.chunkMetadataMap.map Prod.fst
              ↔ ∃ l ∈ fileLocs env 7 (new ++ new2), p = IoWriter.seriesPath l.1 l.2.2.name := by
            intro p
            rw [← BMap.get?_isSome_iff, hget p]
            rw [optAppend_isSome]
            constructor
            · rintro ⟨x, hx, hp⟩
              exact ⟨x, by simpa using hx, by simpa using (of_decide_eq_true hp).symm⟩
            · rintro ⟨x, hx, hp⟩
              exact ⟨x, by simpa using hx, by simpa using hp.symm⟩
          have hfits : L.Fits := by
            refine ⟨hw.file, by simp only [List.nil_append, fileBytes_append, List.length_append] at hc hlF ⊢; omega, ?_, ?_,
              by simp only [List.nil_append, fileBytes_append, List.length_append] at hc hlF ⊢; omega⟩
            · intro p hp
              obtain ⟨l, hl, rfl⟩ := (hpath p).1 hp
              obtain ⟨g, hg, hg1, hg2⟩ := fileLocs_mem hl
              obtain ⟨ms, h1, h2, _⟩ := hs2.file.ok g (by simpa using hg)
              have := hsch.paths _ (look_mem h1) _ (look_mem (h2 _ hg2).1)
              rw [hg1] at this
              simp only [IoWriter.seriesPath, List.length_append, List.length_singleton]
              exact this
            · intro l hl
              obtain ⟨g, hg, _, hcg⟩ := fileLocs_mem hl
              generalize l.2.2 = c at hcg ⊢
              have h2 := mem_flatMap_length (GChunk.bytes env) g.2 hcg
              have h3 : (groupBytes env g).length
                  = (chunkGroupHeader g.1).length + (g.2.flatMap (GChunk.bytes env)).length := by
                simp [groupBytes]
              have h4 : (c.bytes env).length
                  = (c.header env).serialize.length + (pagesBytes env c.ms.dataType c.pages).length := by
                simp [GChunk.bytes]
              have h5 : (groupBytes env g).length < 2 ^ 32 := by
                rcases List.mem_append.1 hg with hg | hg
                · exact hgr' g (by simpa using hg)
                · have := mem_flatMap_length (groupBytes env) new2 hg
                  omega
              omega
          refine ⟨⟨_, _, L, hs2.file.ok, hfits, hres, hs2.stored, by simpa using hpath, ?_, hs2.blocks, hs2.exact, ?_,
            ⟨w2.io, io, by rw [List.nil_append, ← hs2.file.cap, ← hs2.file.bytes], hs2.file.metas, hs2.file.tsm, hend, rfl⟩⟩⟩
          · exact (List.pairwise_map.2 (hsorted.imp (fun {a b} h => by
              intro e
              rw [e] at h
              rw [bytesLt_irrefl] at h
              simp at h)))
          · intro w' w2' e h1 h2
            rw [hnew] at h1
            cases h1
            rw [hf] at h2
            cases h2
            exact hs2.file.bytes

end TsFile
