import Verif.Props.Structure
/-! # The file says of every chunk and series what the schema says: C57 -/

namespace TsFile
open Spec

section
variable {env : Env} {unsnap : Bytes → Option Bytes} {schema : Schema} {ops : List Op} {s : Session}

/-- **C57**, for the chunks of the file: each belongs to a series of the schema, its header has the data type, the encoding and
the compression of the schema, and all of its values have that type. -/
theorem C57_chunks (he : EnvOk env unsnap) (hsch : schema.Named) (hs : session env schema ops = some s) (hw : s.Within ops) :
    ∃ all, chunksOf unsnap s.file = some all
      ∧ ∀ x ∈ all, ∃ ms sc, look x.1 schema = some ms ∧ look x.2.2.measurement ms = some sc
        ∧ x.2.2.dataType = sc.dataType ∧ x.2.2.encoding = sc.encoding ∧ x.2.2.compression = sc.compression
        ∧ ∀ p ∈ x.2.2.points, fits sc.dataType p.2 = true := by
  obtain ⟨c⟩ := session_outlined he hsch hs hw
  refine ⟨_, c.layout.chunksOf hsch c.ok c.fits, fun x hx => ?_⟩
  obtain ⟨l, hl, rfl⟩ := List.mem_map.1 hx
  obtain ⟨g, hg, hg1, hg2⟩ := fileLocs_mem hl
  obtain ⟨ms, h1, h2, _⟩ := c.ok g hg
  obtain ⟨h3, h4⟩ := h2 _ hg2
  refine ⟨ms, l.2.2.ms, by rw [← hg1]; exact h1, h3, rfl, rfl, rfl, fun p hp => ?_⟩
  rw [GChunk.toSpec_points, GChunk.points, pagesPoints] at hp
  obtain ⟨pts, hpts, hp⟩ := List.mem_flatten.1 hp
  obtain ⟨pg, hpg, rfl⟩ := List.mem_map.1 hpts
  exact (h4.pages pg hpg).typed p hp

/-- **C57**, for the index: what it lists is a series of the schema, with its name and its data type. -/
theorem C57_index (he : EnvOk env unsnap) {d m : Bytes} (hsch : schema.IndexableAt d) (hs : session env schema ops = some s)
    (hw : s.Within ops) {sm : SeriesMeta} (h : readSeriesMeta s.file d m = some (some sm)) :
    ∃ ms sc, look d schema = some ms ∧ look m ms = some sc ∧ sm.measurement = m ∧ sm.dataType = sc.dataType := by
  obtain ⟨c⟩ := session_outlined he hsch.toNamed hs hw
  rcases c.layout.readSeriesMeta hsch c.ok c.fits m with ⟨_, h2⟩ | ⟨ms, sc, _, _, h2, h3, h4⟩
  · rw [h2] at h; simp at h
  · rw [h4] at h
    simp only [Option.some.injEq] at h
    subst h
    exact ⟨ms, sc, h2, h3, rfl, rfl⟩

end

example := C57_chunks Demo.envOk Demo.indexable.toNamed Demo.session_eq Demo.within
example : (chunksOf some Demo.result.file).map (fun all => all.map (fun x => (x.2.2.dataType, x.2.2.encoding, x.2.2.compression)))
    = some [(.INT32, .TS2DIFF, .UNCOMPRESSED), (.INT64, .TS2DIFF, .SNAPPY), (.FLOAT, .PLAIN, .UNCOMPRESSED)] := by
  decide +kernel
example : ∃ sm, readSeriesMeta Demo.result.file (str "root.sg.d2") (str "s2") = some (some sm) ∧ sm.dataType = .FLOAT := by
  have h : ((readSeriesMeta Demo.result.file (str "root.sg.d2") (str "s2")).getD none).isSome = true := by decide +kernel
  cases e : readSeriesMeta Demo.result.file (str "root.sg.d2") (str "s2") with
  | none => rw [e] at h; simp at h
  | some r =>
    cases r with
    | none => rw [e] at h; simp at h
    | some sm =>
      obtain ⟨ms, sc, h1, h2, _, h4⟩ := C57_index Demo.envOk (Demo.indexable.at _) Demo.session_eq Demo.within e
      refine ⟨sm, rfl, ?_⟩
      rw [h4]
      have h1' : some ms = some _ := h1.symm.trans (by rfl : look (str "root.sg.d2") Demo.schema = _)
      cases h1'
      have h2' : some sc = some _ := h2.symm.trans (by rfl)
      cases h2'
      rfl

end TsFile
