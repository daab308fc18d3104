import Verif.Proofs.IndexList
import Verif.Proofs.CloseOk
import Verif.Props.ReadBack
/-! # The structure of a closed file: pages (C13, C14), chunk offsets (C22), index (C23, C24)

Chunks with their devices and positions are found by `chunksOf` in `Spec/Structure.lean`, which scans the file from the
beginning and does not use the index. -/

namespace TsFile
open Spec

section
variable {env : Env} {unsnap : Bytes → Option Bytes} {schema : Schema} {ops : List Op} {s : Session}

/-- The chunks found by a scan, and what is known of each. -/
theorem session_chunks (he : EnvOk env unsnap) (hsch : schema.Named) (hs : session env schema ops = some s)
    (hw : s.Within ops) :
    ∃ all, chunksOf unsnap s.file = some all ∧ ∀ x ∈ all, ∃ c : GChunk, x.2.2 = c.toSpec env ∧ c.Ok env unsnap
      ∧ At s.file x.2.1 (c.bytes env) := by
  obtain ⟨c⟩ := session_outlined he hsch hs hw
  refine ⟨_, c.layout.chunksOf hsch c.ok c.fits, ?_⟩
  intro x hx
  obtain ⟨l, hl, rfl⟩ := List.mem_map.1 hx
  obtain ⟨g, hg, _, hgc⟩ := fileLocs_mem hl
  obtain ⟨ms, _, h2, _⟩ := c.ok g hg
  exact ⟨l.2.2, rfl, (h2 _ hgc).2, c.layout.at_chunk hl⟩

/-- **C14.** Every page of the file has at least one and at most 1048577 points. -/
theorem C14_page_points (he : EnvOk env unsnap) (hsch : schema.Named) (hs : session env schema ops = some s)
    (hw : s.Within ops) :
    ∃ all, chunksOf unsnap s.file = some all
      ∧ ∀ x ∈ all, ∀ pg ∈ x.2.2.pages, 1 ≤ pg.2.length ∧ pg.2.length ≤ 1048577 := by
  obtain ⟨all, h1, h2⟩ := session_chunks he hsch hs hw
  refine ⟨all, h1, fun x hx pg hpg => ?_⟩
  obtain ⟨c, hc, hok, _⟩ := h2 x hx
  rw [hc] at hpg
  obtain ⟨g, hg, rfl⟩ := List.mem_map.1 hpg
  have := hok.pages g hg
  exact ⟨List.length_pos_iff.2 this.ne, this.le⟩

/-- **C14.** Pages are not small: every page but the last of a chunk has at least 3000 points. -/
theorem C14_full_pages (he : EnvOk env unsnap) (hsch : schema.Named) (hs : session env schema ops = some s)
    (hw : s.Within ops) :
    ∃ all, chunksOf unsnap s.file = some all
      ∧ ∀ x ∈ all, ∀ pg ∈ x.2.2.pages.dropLast, 3000 ≤ pg.2.length := by
  obtain ⟨all, h1, h2⟩ := session_chunks he hsch hs hw
  refine ⟨all, h1, fun x hx pg hpg => ?_⟩
  obtain ⟨c, hc, hok, _⟩ := h2 x hx
  rw [hc] at hpg
  have hpg' : pg ∈ (c.toSpec env).pages.dropLast := hpg
  simp only [GChunk.toSpec, ← List.map_dropLast] at hpg'
  obtain ⟨g, hg, rfl⟩ := List.mem_map.1 hpg'
  exact hok.full g hg

/-- **C13.** The first byte of a chunk is 5 if it has one page, which then carries no statistics, and 1 if it has several
pages, all of which carry statistics. There is no chunk without pages. -/
theorem C13_marker (he : EnvOk env unsnap) (hsch : schema.Named) (hs : session env schema ops = some s)
    (hw : s.Within ops) :
    ∃ all, chunksOf unsnap s.file = some all
      ∧ ∀ x ∈ all, (s.file[x.2.1]? = some 5 ∧ x.2.2.pages.length = 1 ∧ ∀ pg ∈ x.2.2.pages, pg.1 = none)
        ∨ (s.file[x.2.1]? = some 1 ∧ 2 ≤ x.2.2.pages.length ∧ ∀ pg ∈ x.2.2.pages, pg.1.isSome) := by
  obtain ⟨all, h1, h2⟩ := session_chunks he hsch hs hw
  refine ⟨all, h1, fun x hx => ?_⟩
  obtain ⟨c, hc, hok, hat⟩ := h2 x hx
  obtain ⟨b, hb⟩ := chunk_bytes_cons (env := env) c
  obtain ⟨post, hdrop⟩ := hat.drop
  have hpos : 1 ≤ c.pages.length := List.length_pos_iff.2 hok.ne
  have hbyte : s.file[x.2.1]? = some (if c.pages.length ≤ 1 then (5 : UInt8) else 1) := by
    have := congrArg (fun l : Bytes => l[0]?) hdrop
    simp only [List.getElem?_drop, Nat.add_zero] at this
    rw [this, hb]
    rfl
  rw [hbyte, hc]
  by_cases hl : c.pages.length = 1
  · refine Or.inl ⟨by rw [if_pos (by omega)], by simp [GChunk.toSpec, hl], ?_⟩
    intro pg hpg
    obtain ⟨g, hg, rfl⟩ := List.mem_map.1 hpg
    simp [hl]
  · refine Or.inr ⟨by rw [if_neg (by omega)], by simp [GChunk.toSpec]; omega, ?_⟩
    intro pg hpg
    obtain ⟨g, hg, rfl⟩ := List.mem_map.1 hpg
    simp [hl]

/-- **C13.** How points are split into pages cannot be seen: two sessions with the same calls and the same results, under
any two page policies (`nextCheck`), compressors and so on, give files with the same points in every series. -/
theorem C13_policy_invisible {env' : Env} {unsnap' : Bytes → Option Bytes} {s' : Session}
    (he : EnvOk env unsnap) (he' : EnvOk env' unsnap') {d : Bytes} (hsch : schema.IndexableAt d)
    (hs : session env schema ops = some s) (hs' : session env' schema ops = some s') (hw : s.Within ops)
    (hw' : s'.Within ops) (hres : s.results = s'.results)
    (hmany : ∀ d t vs r, (Op.writeMany d t vs, r) ∈ ops.zip s.results → r = .ok ()) (m : Bytes) :
    readSeries unsnap s.file d m = readSeries unsnap' s'.file d m := by
  rw [C01_device_accepted_partial he hsch hs hw hmany,
    C01_device_accepted_partial he' hsch hs' hw' (by rw [← hres]; exact hmany), hres]

/-- **C13**, for any schema: a scan of either file finds the same points in every series. -/
theorem C13_policy_scan {env' : Env} {unsnap' : Bytes → Option Bytes} {s' : Session}
    (he : EnvOk env unsnap) (he' : EnvOk env' unsnap') (hsch : schema.Named)
    (hs : session env schema ops = some s) (hs' : session env' schema ops = some s') (hw : s.Within ops)
    (hw' : s'.Within ops) (hres : s.results = s'.results)
    (hmany : ∀ d t vs r, (Op.writeMany d t vs, r) ∈ ops.zip s.results → r = .ok ()) :
    ∃ items stop items' stop', scan unsnap s.file = some (items, stop) ∧ scan unsnap' s'.file = some (items', stop')
      ∧ ∀ d m, scanPoints d m none items = scanPoints d m none items' := by
  obtain ⟨i, p, h1, h2⟩ := C02_scan_accepted he hsch hs hw hmany
  obtain ⟨i', p', h1', h2'⟩ := C02_scan_accepted he' hsch hs' hw' (by rw [← hres]; exact hmany)
  exact ⟨i, p, i', p', h1, h1', fun d m => by rw [h2, h2', hres]⟩

end

/-! ### one chunk, any page policy -/

/-- Write points to a chunk writer, one after the other; stops at the first that is not accepted. -/
def ChunkWriter.writes (env : Env) (c : ChunkWriter) : List Point → Option ChunkWriter
  | [] => some c
  | p :: ps =>
    match c.write env p.1 p.2 with
    | .ok (c, _) => c.writes env ps
    | _ => none

theorem chunkRep_writes {env : Env} {unsnap : Bytes → Option Bytes} (hsn : SnappyOk env unsnap) {id : Bytes}
    {ms : MeasurementSchema} (henc : encodable ms.dataType ms.encoding = true) (pts : List Point)
    (hpts : ∀ p ∈ pts, fits ms.dataType p.2 = true) {c : ChunkWriter} {pages : List GPage} {cur : List Point}
    (h : ChunkRep env unsnap id ms c pages cur) (hle : cur.length ≤ 1048576) (hfp : FullPages pages) :
    ∃ c' pages' cur', c.writes env pts = some c' ∧ ChunkRep env unsnap id ms c' pages' cur'
      ∧ pagesPoints pages' ++ cur' = pagesPoints pages ++ cur ++ pts ∧ cur'.length ≤ 1048576 ∧ FullPages pages' := by
  induction pts generalizing c pages cur with
  | nil => exact ⟨c, pages, cur, rfl, h, by simp, hle, hfp⟩
  | cons p ps ih =>
    obtain ⟨c1, pages1, cur1, hw, hr, hp, hl, _, hf1, _⟩ :=
      (chunkRep_write hsn h hle p.1 p.2).1 (hpts p (by simp)) henc
    obtain ⟨c2, pages2, cur2, hw2, hr2, hp2, hl2, hf2⟩ := ih (fun q hq => hpts q (by simp [hq])) hr hl (hf1 hfp)
    refine ⟨c2, pages2, cur2, ?_, hr2, ?_, hl2, hf2⟩
    · rw [ChunkWriter.writes, hw]; exact hw2
    · rw [hp2, hp]; simp

/-- **C13.** For every list of points of the right type, under every page policy (`env.nextCheck` is arbitrary): writing
the points to a fresh chunk writer succeeds, and so does writing the chunk to an output. What is added to the output
decodes to exactly these points. -/
theorem C13_chunk {env : Env} {unsnap : Bytes → Option Bytes} (hsn : SnappyOk env unsnap) (id : Bytes)
    (hid : id.length < 2 ^ 31) (ms : MeasurementSchema) (henc : encodable ms.dataType ms.encoding = true)
    (pts : List Point) (hne : pts ≠ []) (hlen : pts.length < 2 ^ 32) (hpts : ∀ p ∈ pts, fits ms.dataType p.2 = true)
    (io : IoWriter) (hcap : io.out.cap = none) :
    ∃ c c' io' added, (ChunkWriter.new env id ms.dataType ms.compression ms.encoding).writes env pts = some c
      ∧ (c.sealCurrentPage env).bind (fun c => c.writeToFileWriter env io) = some (c', io')
      ∧ io'.out.bytes = io.out.bytes ++ added
      ∧ (added.length < 2 ^ 32 → ∃ chunk, pChunk unsnap added = some (chunk, []) ∧ chunk.measurement = id
        ∧ chunk.dataType = ms.dataType ∧ chunk.points = pts) := by
  obtain ⟨c, pages, cur, hw, hr, hp, hl, hf⟩ :=
    chunkRep_writes hsn henc pts hpts (chunkRep_new env unsnap id ms) (by simp) (by intro g hg; simp at hg)
  obtain ⟨c1, pages1, hseal, hr1, hp1, hf1, _⟩ := chunkRep_seal hsn hr (by omega)
  have hpp : pagesPoints pages1 = pts := by rw [hp1, hp]; simp [pagesPoints]
  have hpne : pages1 ≠ [] := by
    rintro rfl
    exact hne hpp.symm
  obtain ⟨c2, io', hwf, _, _, _, _, hb, _⟩ := writeToFileWriter_rep hsn hr1 (by rw [hpp]; exact hlen) io hcap
  rw [if_neg hpne] at hb
  refine ⟨c, c2, io', _, hw, by rw [hseal]; exact hwf, hb, fun hlt => ?_⟩
  have hpl : (pagesBytes env ms.dataType pages1).length < 2 ^ 32 := by
    simp only [GChunk.bytes, List.length_append] at hlt
    omega
  have := pChunk_bytes (env := env) (unsnap := unsnap) ⟨id, ms, pages1⟩ ⟨hpne, hr1.ok, hf1 hf⟩ hid hpl []
  rw [List.append_nil] at this
  exact ⟨_, this, rfl, rfl, by rw [GChunk.toSpec_points]; exact hpp⟩

section
variable {env : Env} {unsnap : Bytes → Option Bytes} {schema : Schema} {ops : List Op} {s : Session}

/-- **C22.** The chunk offsets that the index gives for a series are the positions of the chunks of that series in the
file, all of them and in order. -/
theorem C22_offsets (he : EnvOk env unsnap) (hsch : schema.Named) (hs : session env schema ops = some s)
    (hw : s.Within ops) :
    ∃ all, chunksOf unsnap s.file = some all ∧ ∀ d m, schema.IndexableAt d → NoDot m → ∃ r, readSeriesMeta s.file d m = some r
      ∧ (match r with | none => [] | some sm => sm.chunks.map ChunkMeta.offset)
        = (all.filter (fun x => decide (x.1 = d ∧ x.2.2.measurement = m))).map (fun x => x.2.1) := by
  obtain ⟨c⟩ := session_outlined he hsch hs hw
  refine ⟨_, c.layout.chunksOf hsch c.ok c.fits, fun d m hat hm => ?_⟩
  have hloc : (locsOf env c.groups d m).map Prod.fst
      = (((fileLocs env 7 c.groups).map (fun l => (l.1, l.2.1, l.2.2.toSpec env))).filter
        (fun x => decide (x.1 = d ∧ x.2.2.measurement = m))).map (fun x => x.2.1) := by
    rw [locsOf, List.filter_map, List.map_map, List.map_map]
    rfl
  rcases c.layout.readSeriesMeta hat c.ok c.fits m with ⟨h1, h2⟩ | ⟨ms, sc, _, h1, h2, h3, h4⟩
  · refine ⟨_, h2, ?_⟩
    rw [← hloc, h1 hm]
    rfl
  · refine ⟨_, h4, ?_⟩
    rw [← hloc]
    simp [seriesMeta, Function.comp_def]

theorem nodup_key {α : Type} {l : List (Bytes × α)} (h : (l.map Prod.fst).Nodup) {k : Bytes} {v v' : α}
    (hv : (k, v) ∈ l) (hv' : (k, v') ∈ l) : v = v' := by
  induction l with
  | nil => simp at hv
  | cons e l ih =>
    rw [List.map_cons, List.nodup_cons] at h
    rcases List.mem_cons.1 hv with e1 | h1 <;> rcases List.mem_cons.1 hv' with e2 | h2
    · exact (Prod.mk.inj (e1.trans e2.symm)).2
    · exact absurd (List.mem_map.2 ⟨_, h2, by rw [← e1]⟩) h.1
    · exact absurd (List.mem_map.2 ⟨_, h1, by rw [← e2]⟩) h.1
    · exact ih h.2 h1 h2

/-- **C23**, partial: the index lists exactly the devices with stored points, each once, and under each exactly the
measurements with stored points, each once. The restriction is in `Schema.Indexable`: no dots in measurement names, and
at most 65536 measurements per device. With dots the property is false: `C23_dots_wrong`. -/
theorem C23_index_partial (he : EnvOk env unsnap) (hsch : schema.Indexable) (hs : session env schema ops = some s)
    (hw : s.Within ops) :
    ∃ idx, listIndex s.file = some idx ∧ (idx.map Prod.fst).Nodup
      ∧ (∀ d, d ∈ idx.map Prod.fst ↔ ∃ m, series (storedBy schema ops s.grown) d m ≠ [])
      ∧ ∀ x ∈ idx, (x.2.map SeriesMeta.measurement).Nodup
        ∧ ∀ m, m ∈ x.2.map SeriesMeta.measurement ↔ series (storedBy schema ops s.grown) x.1 m ≠ [] := by
  obtain ⟨c⟩ := session_closed he hsch hs hw
  obtain ⟨idx, h1, h2, h3⟩ := c.layout.listIndex hsch he.order c.ok c.fits
  have hloc : ∀ d m, locsOf env c.groups d m ≠ [] ↔ series (storedBy schema ops s.grown) d m ≠ [] := by
    intro d m
    rw [locsOf_ne_nil c.ok, c.pts]
  have hkey : ∀ {d : Bytes} {l l' : List TimeSeriesMetadata}, (d, l) ∈ c.layout.tsm → (d, l') ∈ c.layout.tsm →
      l = l' := by
    intro d l l' hl hl'
    have hnd := tsm_nodup c.layout.rep.sorted
    exact nodup_key hnd hl hl'
  refine ⟨idx, h1, h2.nodup_iff.2 (tsm_nodup c.layout.rep.sorted), fun d => ?_, fun x hx => ?_⟩
  · rw [h2.mem_iff]
    constructor
    · intro hd
      obtain ⟨e, he', rfl⟩ := List.mem_map.1 hd
      obtain ⟨t, ht⟩ := List.exists_mem_of_ne_nil _ (c.layout.rep.ne e he')
      obtain ⟨_, _, _, _, h, _⟩ := c.layout.rep.mem e he' t ht
      exact ⟨_, (hloc _ _).1 h⟩
    · rintro ⟨m, hm⟩
      obtain ⟨l, hl, _⟩ := c.layout.rep.all d m ((hloc d m).2 hm)
      exact List.mem_map.2 ⟨_, hl, rfl⟩
  · have hx' := h3 x hx
    obtain ⟨l, hl, hmap⟩ := hx'.ex
    have hsorted := c.layout.rep.names _ hl
    refine ⟨?_, fun m => ?_⟩
    · rw [hmap, List.nodup_iff_pairwise_ne, List.pairwise_map]
      exact hsorted.imp (fun {a b} hab => bytesLt_ne ((bytesLt_iff _ _).2 hab))
    · rw [← hloc]
      constructor
      · intro hm
        obtain ⟨sm, hsm, rfl⟩ := List.mem_map.1 hm
        obtain ⟨_, _, _, _, h, _⟩ := hx'.mem sm hsm
        exact h
      · intro hne
        obtain ⟨l', hl', t, ht, htm⟩ := c.layout.rep.all x.1 m hne
        have := hkey hl hl'
        subst this
        rw [hmap]
        exact List.mem_map.2 ⟨t, ht, htm⟩

/-- **C24**, partial: in every measurement node the names are strictly ascending, in byte order. For the root node, which
lists the devices in the iteration order of a hash map, it is false: `C24_devices_wrong`; here the names are distinct. -/
theorem C24_sorted_partial (he : EnvOk env unsnap) (hsch : schema.Indexable) (hs : session env schema ops = some s)
    (hw : s.Within ops) :
    ∃ footer, readFooter s.file = some footer ∧ (footer.root.entries.map Entry.name).Nodup
      ∧ ∀ e ∈ footer.root.entries, ∃ node, readNode s.file e.offset = some node ∧ node.kind = 3
        ∧ (node.entries.map Entry.name).Pairwise (· < ·) := by
  obtain ⟨c⟩ := session_closed he hsch hs hw
  obtain ⟨footer, h1, h2, h3⟩ := c.layout.nodes hsch he.order c.fits
  refine ⟨footer, h1, ?_, h3⟩
  rw [h2, c.layout.order_eq, ((he.order _).map Prod.fst).nodup_iff, devNodes_keys]
  exact tsm_nodup c.layout.rep.sorted

end

/-! ### the hypotheses are met, and what the conclusions say there -/

example : ∃ all, chunksOf some Demo.result.file = some all
    ∧ ∀ x ∈ all, ∀ pg ∈ x.2.2.pages, 1 ≤ pg.2.length ∧ pg.2.length ≤ 1048577 :=
  C14_page_points Demo.envOk Demo.indexable.toNamed Demo.session_eq Demo.within

/-- The demo file has three chunks. -/
example : (chunksOf some Demo.result.file).map (fun all => all.map (fun x => (x.1, x.2.1, x.2.2.measurement)))
    = some [(str "root.sg.d1", 19, str "s1"), (str "root.sg.d2", 82, str "s1"),
      (str "root.sg.d2", 141, str "s2")] := by decide +kernel

example := C13_marker Demo.envOk Demo.indexable.toNamed Demo.session_eq Demo.within
example := C22_offsets Demo.envOk Demo.indexable.toNamed Demo.session_eq Demo.within
example := C23_index_partial Demo.envOk Demo.indexable Demo.session_eq Demo.within
example := C24_sorted_partial Demo.envOk Demo.indexable Demo.session_eq Demo.within

/-- The index of the demo file. -/
example : (listIndex Demo.result.file).map (fun idx => idx.map (fun x => (x.1, x.2.map SeriesMeta.measurement)))
    = some [(str "root.sg.d1", [str "s1"]), (str "root.sg.d2", [str "s1", str "s2"])] := by decide +kernel

/-- Another page policy. -/
def Demo.env' : Env := { Demo.env with nextCheck := fun _ _ => 1 }

example (d m : Bytes) : ∀ s', session Demo.env' Demo.schema Demo.ops = some s' → s'.Within Demo.ops →
    Demo.result.results = s'.results → readSeries some Demo.result.file d m = readSeries some s'.file d m :=
  fun _ h1 h2 h3 => C13_policy_invisible Demo.envOk
    ⟨fun x hx => ⟨x, rfl, rfl, by omega⟩, fun l => List.Perm.refl l⟩ (Demo.indexable.at d) Demo.session_eq h1 Demo.within h2 h3
    Demo.manyOk m

example : (session Demo.env' Demo.schema Demo.ops).map Session.results = some Demo.result.results := by decide +kernel

example : ∀ s', session Demo.env' Demo.schema Demo.ops = some s' → s'.Within Demo.ops → Demo.result.results = s'.results →
    ∃ items stop items' stop', scan some Demo.result.file = some (items, stop) ∧ scan some s'.file = some (items', stop')
      ∧ ∀ d m, scanPoints d m none items = scanPoints d m none items' :=
  fun _ h1 h2 h3 => C13_policy_scan Demo.envOk
    ⟨fun x hx => ⟨x, rfl, rfl, by omega⟩, fun l => List.Perm.refl l⟩ Demo.indexable.toNamed Demo.session_eq h1 Demo.within h2 h3 Demo.manyOk

example := C14_full_pages Demo.envOk Demo.indexable.toNamed Demo.session_eq Demo.within

example (n : Nat) (hn : n < 2 ^ 32 - 1) (io : IoWriter) (hcap : io.out.cap = none) :=
  C13_chunk (env := Demo.env') (unsnap := some) (fun x hx => ⟨x, rfl, rfl, by omega⟩) (str "s") (by decide)
    ⟨.INT32, .TS2DIFF, .SNAPPY⟩ rfl ((List.range (n + 1)).map (fun i => (BitVec.ofNat 64 i, .INT (BitVec.ofNat 32 i))))
    (by simp) (by simp; omega) (by
      intro p hp
      obtain ⟨i, _, rfl⟩ := List.mem_map.1 hp
      rfl) io hcap

/-! ### counterexamples -/

/-- **C23** is false with dots in measurement names: the point of series `a.b` of device `root.d` was accepted and stored,
but the index has no device `root.d`; it has a device `root.d.a`, which does not exist. The point cannot be read. -/
theorem C23_dots_wrong : ∃ s, session Demo.env Demo.dotSchema Demo.dotOps = some s ∧ s.results = [.ok ()]
    ∧ series (storedBy Demo.dotSchema Demo.dotOps s.grown) (str "root.d") (str "a.b") = [(1, .INT 1)]
    ∧ (listIndex s.file).map (fun idx => idx.map (fun x => (x.1, x.2.map SeriesMeta.measurement)))
      = some [(str "root.d.a", [str "a.b"])]
    ∧ readSeries some s.file (str "root.d") (str "a.b") = some [] := by
  have h : (session Demo.env Demo.dotSchema Demo.dotOps).any (fun s => decide (s.results = [.ok ()]
      ∧ series (storedBy Demo.dotSchema Demo.dotOps s.grown) (str "root.d") (str "a.b") = [(1, .INT 1)]
      ∧ (listIndex s.file).map (fun idx => idx.map (fun x => (x.1, x.2.map SeriesMeta.measurement)))
        = some [(str "root.d.a", [str "a.b"])]
      ∧ readSeries some s.file (str "root.d") (str "a.b") = some [])) = true := by decide +kernel
  obtain ⟨s, hs, he⟩ := (Option.any_eq_true _ _).1 h
  exact ⟨s, hs, of_decide_eq_true he⟩

/-- A hash map that happens to be iterated backwards. -/
def Demo.revEnv : Env := { Demo.env with hashOrder := List.reverse }

theorem Demo.revEnvOk : EnvOk Demo.revEnv some :=
  ⟨fun x hx => ⟨x, rfl, rfl, by omega⟩, fun l => List.reverse_perm l⟩

/-- **C24** is false for the root node: with an iteration order that a hash map can have, the devices are not in
ascending order. -/
theorem C24_devices_wrong : ∃ s footer, session Demo.revEnv Demo.schema Demo.ops = some s
    ∧ readFooter s.file = some footer
    ∧ footer.root.entries.map Entry.name = [str "root.sg.d2", str "root.sg.d1"]
    ∧ ¬ (footer.root.entries.map Entry.name).Pairwise (· < ·) := by
  have h : (session Demo.revEnv Demo.schema Demo.ops).bind (fun s => (readFooter s.file).map
      (fun f => f.root.entries.map Entry.name)) = some [str "root.sg.d2", str "root.sg.d1"] := by decide +kernel
  obtain ⟨s, hs, hf⟩ := Option.bind_eq_some_iff.1 h
  obtain ⟨f, hf, he⟩ := Option.map_eq_some_iff.1 hf
  refine ⟨s, f, hs, hf, he, ?_⟩
  rw [he]
  decide +kernel

end TsFile
