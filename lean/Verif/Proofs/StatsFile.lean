import Verif.Proofs.Stats
import Verif.Proofs.Local
/-! # The statistics in a closed file -/

namespace TsFile
open Spec

section
variable {env : Env} {unsnap : Bytes → Option Bytes} {schema : Schema} {groups : List GGroup}
  {paths : List Bytes} {F : Bytes}

/-- The chunk at an offset in the index. -/
theorem Coarse.chunk_at (hsch : schema.Named) (hok : GroupsOk env unsnap schema groups)
    (L : Coarse env groups paths F) (hf : L.Fits) {d m : Bytes} {l : Nat × GChunk}
    (hl : l ∈ locsOf env groups d m) : ∃ post, pChunk unsnap (F.drop l.1) = some (l.2.toSpec env, post) := by
  obtain ⟨h1, _, h3, h4, h5⟩ := L.locsOf_ok hsch hok hf d m l hl
  obtain ⟨post, hpost⟩ := h1.drop
  exact ⟨post, by rw [hpost, pChunk_bytes l.2 h4 h3 h5]⟩

theorem locsOf_typed (hok : GroupsOk env unsnap schema groups) {d m : Bytes} {ms : List (Bytes × MeasurementSchema)}
    {s : MeasurementSchema} (h1 : look d schema = some ms) (h2 : look m ms = some s) {l : Nat × GChunk}
    (hl : l ∈ locsOf env groups d m) : l.2.ms = s ∧ l.2.Ok env unsnap := by
  obtain ⟨q1, q2⟩ := locsOf_mem hl
  obtain ⟨g, hg, hg1, hg2⟩ := fileLocs_mem q1
  obtain ⟨ms', e1, e2, _⟩ := hok g hg
  simp only at hg1 hg2
  rw [hg1, h1] at e1
  cases e1
  have := e2 _ hg2
  rw [q2, h2] at this
  exact ⟨(Option.some.inj this.1).symm, this.2⟩

/-- Whatever statistics are in the file, they describe the points. -/
theorem Coarse.statsAbout {d m : Bytes} (hsch : schema.IndexableAt d)
    (hok : GroupsOk env unsnap schema groups) (L : Coarse env groups paths F) (hf : L.Fits)
    {st : Stats} {pts : List Point} (h : StatsAbout unsnap F d m st pts) :
    ∃ ms s stm, look d schema = some ms ∧ look m ms = some s ∧ st = Statistics.toSpec stm ∧ stm.type = s.dataType
      ∧ Describes env stm pts ∧ pts ≠ [] ∧ pts ⊆ filePts groups d m := by
  have key : ∀ sm, Spec.readSeriesMeta F d m = some (some sm) → ∃ ms s, NoDot m ∧ look d schema = some ms ∧ look m ms = some s
      ∧ locsOf env groups d m ≠ [] ∧ sm = seriesMeta env m s.dataType (locsOf env groups d m) := by
    intro sm hsm
    rcases L.readSeriesMeta hsch hok hf m with ⟨h1, h2⟩ | ⟨ms, s, hm, h1, h2, h3, h4⟩
    · rw [h2] at hsm; simp at hsm
    · rw [h4] at hsm
      simp only [Option.some.injEq] at hsm
      exact ⟨ms, s, hm, h2, h3, h1, hsm.symm⟩
  have hpt : ∀ l ∈ locsOf env groups d m, l.2.points ⊆ filePts groups d m := by
    intro l hl p hp
    rw [filePts_eq_locs env]
    exact List.mem_flatMap.2 ⟨l, hl, hp⟩
  cases h with
  | @series sm _ hsm hp =>
    obtain ⟨ms, s, hm, h1, h2, hne, rfl⟩ := key _ hsm
    have hr := L.readSeries hsch hok hf m
    rw [hp, if_pos hm] at hr
    simp only [Option.some.injEq] at hr
    subst hr
    refine ⟨ms, s, _, h1, h2, rfl, ?_, ?_, ?_, List.Subset.refl _⟩
    · rw [foldl_mrg_type, new_type]
    · rw [filePts_eq_locs env]
      have := describes_foldl (env := env) (fun l : Nat × GChunk => chunkStats env s.dataType l.2.pages)
        (fun l => l.2.points) (locsOf env groups d m) (Statistics.new env s.dataType) [] (describes_new env _) (by
          intro l hl
          obtain ⟨e1, e2⟩ := locsOf_typed hok h1 h2 hl
          refine ⟨describes_chunkStats (fun g hg => ?_), by rw [chunkStats_type, new_type]⟩
          rw [← e1]
          exact (e2.pages g hg).typed)
      simpa using this
    · obtain ⟨l, hl⟩ := List.exists_mem_of_ne_nil _ hne
      obtain ⟨e1, e2⟩ := locsOf_typed hok h1 h2 hl
      have := pagesPoints_ne_nil l.2.pages e2.pages e2.ne
      obtain ⟨p, hp⟩ := List.exists_mem_of_ne_nil _ this
      exact List.ne_nil_of_mem (hpt l hl hp)
  | @chunk sm c _ chunk rest hsm hc hst hp =>
    obtain ⟨ms, s, hm, h1, h2, hne, rfl⟩ := key _ hsm
    obtain ⟨l, hl, rfl⟩ := List.mem_map.1 hc
    obtain ⟨post, hpost⟩ := L.chunk_at hsch.toNamed hok hf hl
    simp only at hp hst
    rw [hp] at hpost
    simp only [Option.some.injEq, Prod.mk.injEq] at hpost
    split at hst
    · simp only [Option.some.injEq] at hst
      obtain ⟨e1, e2⟩ := locsOf_typed hok h1 h2 hl
      rw [hpost.1, GChunk.toSpec_points]
      refine ⟨ms, s, _, h1, h2, hst.symm, chunkStats_type _ _ _, describes_chunkStats (fun g hg => ?_),
        pagesPoints_ne_nil l.2.pages e2.pages e2.ne, hpt l hl⟩
      rw [← e1]
      exact (e2.pages g hg).typed
    · simp at hst
  | @page sm c _ chunk rest _ hsm hc hp hpage =>
    obtain ⟨ms, s, hm, h1, h2, hne, rfl⟩ := key _ hsm
    obtain ⟨l, hl, rfl⟩ := List.mem_map.1 hc
    obtain ⟨post, hpost⟩ := L.chunk_at hsch.toNamed hok hf hl
    simp only at hp
    rw [hp] at hpost
    simp only [Option.some.injEq, Prod.mk.injEq] at hpost
    rw [hpost.1] at hpage
    obtain ⟨g, hg, hgp⟩ := List.mem_map.1 hpage
    simp only [Prod.mk.injEq] at hgp
    obtain ⟨e1, e2⟩ := locsOf_typed hok h1 h2 hl
    obtain ⟨hg1, rfl⟩ := hgp
    split at hg1
    · simp at hg1
    · simp only [Option.some.injEq] at hg1
      refine ⟨ms, s, _, h1, h2, hg1.symm, by rw [statsOf_type, e1], describes_statsOf _ _ _ (e2.pages g hg).typed,
        (e2.pages g hg).ne, ?_⟩
      intro p hp
      exact hpt l hl (List.mem_flatten.2 ⟨g.pts, List.mem_map.2 ⟨g, hg, rfl⟩, hp⟩)

/-- The statistics of every page describe its points. -/
theorem Coarse.pageStats {d m : Bytes} (hsch : schema.Named) (hok : GroupsOk env unsnap schema groups)
    (L : Coarse env groups paths F) (hf : L.Fits) {st : Stats} {pts : List Point} (h : PageStats unsnap F d m st pts) :
    ∃ ms s stm, look d schema = some ms ∧ look m ms = some s ∧ st = Statistics.toSpec stm ∧ stm.type = s.dataType
      ∧ Describes env stm pts ∧ pts ≠ [] ∧ pts ⊆ filePts groups d m := by
  obtain ⟨hall, hc, hm, hpage⟩ := h
  rw [L.chunksOf hsch hok hf] at hall
  cases hall
  obtain ⟨l, hl, he⟩ := List.mem_map.1 hc
  simp only [Prod.mk.injEq] at he
  obtain ⟨rfl, rfl, rfl⟩ := he
  have hname : l.2.2.name = m := hm
  have hll : l.2 ∈ locsOf env groups l.1 m := by
    rw [locsOf]
    exact List.mem_map.2 ⟨l, List.mem_filter.2 ⟨hl, by simp [hname]⟩, rfl⟩
  obtain ⟨g0, hg0, hg1, hg2⟩ := fileLocs_mem hl
  obtain ⟨ms, h1, h2, _⟩ := hok g0 hg0
  rw [hg1] at h1
  have h2' := (h2 _ hg2).1
  rw [hname] at h2'
  obtain ⟨e1, e2⟩ := locsOf_typed hok h1 h2' hll
  obtain ⟨g, hg, hgp⟩ := List.mem_map.1 hpage
  simp only [Prod.mk.injEq] at hgp
  obtain ⟨hg3, rfl⟩ := hgp
  split at hg3
  · simp at hg3
  · simp only [Option.some.injEq] at hg3
    refine ⟨ms, _, _, h1, h2', hg3.symm, by rw [statsOf_type], describes_statsOf _ _ _ (e2.pages g hg).typed,
      (e2.pages g hg).ne, ?_⟩
    intro p hp
    rw [filePts_eq_locs env]
    exact List.mem_flatMap.2 ⟨l.2, hll, List.mem_flatten.2 ⟨g.pts, List.mem_map.2 ⟨g, hg, rfl⟩, hp⟩⟩

end

end TsFile
