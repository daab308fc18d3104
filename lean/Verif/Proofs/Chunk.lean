import Verif.Spec.Assumptions
import Verif.Model.Writer
import Verif.Proofs.PageMem
/-! # Chunk writer: representation and chunk round trip -/

namespace TsFile
open Spec

/-- A sealed page: its points, the uncompressed and the compressed content. -/
structure GPage where
  pts : List Point
  raw : Bytes
  data : Bytes

namespace GPage

/-- A correct page. -/
structure Ok (unsnap : Bytes → Option Bytes) (ms : MeasurementSchema) (g : GPage) : Prop where
  ne : g.pts ≠ []
  le : g.pts.length ≤ 1048577
  typed : ∀ q ∈ g.pts, fits ms.dataType q.2 = true
  rawLe : g.raw.length ≤ 18 * g.pts.length + 38
  dataLe : g.data.length ≤ 32 + g.raw.length + g.raw.length / 6
  dec : decompress unsnap ms.compression g.data = some g.raw
  page : decodePage ms.dataType ms.encoding g.raw = some g.pts
  plain : ms.encoding = .PLAIN → g.pts.length ≤ g.raw.length
  content : g.raw = Ref.pageContent ms g.pts

theorem Ok.rawLen {unsnap : Bytes → Option Bytes} {ms : MeasurementSchema} {g : GPage} (h : g.Ok unsnap ms) :
    g.raw.length < 2 ^ 32 := by
  have := h.le; have := h.rawLe; omega

theorem Ok.dataLen {unsnap : Bytes → Option Bytes} {ms : MeasurementSchema} {g : GPage} (h : g.Ok unsnap ms) :
    g.data.length < 2 ^ 32 := by
  have := h.le; have := h.rawLe; have := h.dataLe; omega

/-- The two sizes in front of a page. -/
def hdr (g : GPage) : Bytes := writeVarU32 (u32 g.raw.length) ++ writeVarU32 (u32 g.data.length)

/-- The bytes of a page. -/
def bytes (env : Env) (dt : TSDataType) (withStats : Bool) (g : GPage) : Bytes :=
  g.hdr ++ (if withStats then (statsOf env dt g.pts).serialize env else []) ++ g.data

end GPage

/-- The bytes of the pages of a chunk. -/
def pagesBytes (env : Env) (dt : TSDataType) : List GPage → Bytes
  | [g] => g.bytes env dt false
  | l => l.flatMap (GPage.bytes env dt true)

/-- The points of the pages. -/
def pagesPoints (l : List GPage) : List Point := (l.map GPage.pts).flatten

/-- The statistics of a chunk. -/
def chunkStats (env : Env) (dt : TSDataType) (pages : List GPage) : Statistics :=
  (pages.map (fun g => statsOf env dt g.pts)).foldl (Statistics.mrg env) (Statistics.new env dt)

theorem pagesPoints_append (l : List GPage) (g : GPage) : pagesPoints (l ++ [g]) = pagesPoints l ++ g.pts := by
  simp [pagesPoints]

theorem chunkStats_append (env : Env) (dt : TSDataType) (l : List GPage) (g : GPage) :
    chunkStats env dt (l ++ [g]) = (chunkStats env dt l).mrg env (statsOf env dt g.pts) := by
  simp [chunkStats]

theorem chunkStats_type (env : Env) (dt : TSDataType) (l : List GPage) : (chunkStats env dt l).type = dt := by
  have : ∀ (ss : List Statistics) (s : Statistics), (ss.foldl (Statistics.mrg env) s).type = s.type := by
    intro ss
    induction ss with
    | nil => intro s; rfl
    | cons x ss ih => intro s; rw [List.foldl_cons, ih, mrg_type]
  rw [chunkStats, this, new_type]

theorem foldl_mrg_count (env : Env) (ss : List Statistics) (s : Statistics) (h : ∀ x ∈ ss, x.type = s.type) :
    (ss.foldl (Statistics.mrg env) s).count = s.count + (ss.map Statistics.count).foldl (· + ·) 0 := by
  have hz : ∀ (l : List W32) (a : W32), l.foldl (· + ·) a = a + l.foldl (· + ·) 0 := by
    intro l
    induction l with
    | nil => intro a; simp
    | cons x l ih =>
      intro a
      rw [List.foldl_cons, List.foldl_cons, ih, ih (0 + x)]
      simp [BitVec.add_assoc]
  induction ss generalizing s with
  | nil => simp
  | cons x ss ih =>
    rw [List.foldl_cons, ih _ (by rw [mrg_type]; exact fun y hy => h y (by simp [hy])),
      mrg_count env s x (h x (by simp)).symm, List.map_cons, List.foldl_cons, hz _ (0 + x.count)]
    simp [BitVec.add_assoc]

theorem foldl_add_u32 (l : List Nat) : (l.map u32).foldl (· + ·) 0 = u32 l.sum := by
  have hz : ∀ (l : List Nat) (a : Nat), (l.map u32).foldl (· + ·) (u32 a) = u32 (a + l.sum) := by
    intro l
    induction l with
    | nil => intro a; simp
    | cons x l ih =>
      intro a
      rw [List.map_cons, List.foldl_cons, show u32 a + u32 x = u32 (a + x) by simp [u32, BitVec.ofNat_add], ih,
        List.sum_cons, Nat.add_assoc]
  have := hz l 0
  simpa [u32] using this

/-- The number of points in the statistics of a chunk (modulo 2^32). -/
theorem chunkStats_count (env : Env) (dt : TSDataType) (l : List GPage)
    (h : ∀ g ∈ l, ∀ q ∈ g.pts, fits dt q.2 = true) :
    (chunkStats env dt l).count = u32 (pagesPoints l).length := by
  rw [chunkStats, foldl_mrg_count env _ _ (by
    intro x hx
    obtain ⟨g, _, rfl⟩ := List.mem_map.1 hx
    rw [statsOf_type, new_type]), new_count, List.map_map]
  have : l.map (Statistics.count ∘ fun g => statsOf env dt g.pts) = (l.map (fun g => g.pts.length)).map u32 := by
    rw [List.map_map]
    apply List.map_congr_left
    intro g hg
    simp [statsOf_count env dt g.pts (h g hg)]
  rw [this, foldl_add_u32, pagesPoints, List.length_flatten, List.map_map]
  simp [Function.comp_def]

/-- The chunk writer holds the sealed `pages` and the points `cur` of the open page. -/
structure ChunkRep (env : Env) (unsnap : Bytes → Option Bytes) (id : Bytes) (ms : MeasurementSchema)
    (c : ChunkWriter) (pages : List GPage) (cur : List Point) : Prop where
  id_eq : c.measurementId = id
  dataType : c.dataType = ms.dataType
  encoding : c.encoding = ms.encoding
  compression : c.compression = ms.compression
  ok : ∀ g ∈ pages, g.Ok unsnap ms
  stats : c.statistics = chunkStats env ms.dataType pages
  numPages : c.numPages = pages.length
  buffer : c.pageBuffer = pagesBytes env ms.dataType pages
  first : ∀ g, pages = [g] → c.firstPageStatistics = some (statsOf env ms.dataType g.pts)
  size0 : pages = [] → c.sizeWithoutStatistics = 0
  size1 : ∀ g, pages = [g] → c.sizeWithoutStatistics = g.hdr.length
  page : match c.currentPageWriter with
    | none => cur = [] ∧ pages = []
    | some p => PageRep env ms.dataType ms.encoding p cur

theorem chunkRep_new (env : Env) (unsnap : Bytes → Option Bytes) (id : Bytes) (ms : MeasurementSchema) :
    ChunkRep env unsnap id ms (ChunkWriter.new env id ms.dataType ms.compression ms.encoding) [] [] :=
  ⟨rfl, rfl, rfl, rfl, by simp, rfl, rfl, rfl, by simp, fun _ => rfl, by simp, rfl, rfl⟩

/-- Writing the open page to the page buffer seals it. -/
theorem chunkRep_writePage {env : Env} {unsnap : Bytes → Option Bytes} (hsn : SnappyOk env unsnap)
    {id : Bytes} {ms : MeasurementSchema} {c : ChunkWriter} {pages : List GPage} {cur : List Point}
    (h : ChunkRep env unsnap id ms c pages cur) (hne : cur ≠ []) (hle : cur.length ≤ 1048577) :
    ∃ c' g, c.writePageToBuffer env = some c' ∧ g.pts = cur
      ∧ ChunkRep env unsnap id ms c' (pages ++ [g]) [] ∧ c'.nextCheck = c.nextCheck
      ∧ Ref.compressed env ms.compression g.raw = some g.data := by
  have hpage := h.page
  rw [ChunkWriter.writePageToBuffer]
  cases hc : c.currentPageWriter with
  | none => rw [hc] at hpage; exact absurd hpage.1 hne
  | some p =>
    rw [hc] at hpage
    simp only at hpage ⊢
    obtain ⟨p', hp', hd, hst, hn, hvr, hdec, hlen, hpl, hraweq⟩ := pageRep_prepare env hpage (by omega)
    have hraw : p'.buffer.length < 2 ^ 31 := by omega
    rw [hp']
    simp only
    obtain ⟨data, hdata, hdl, hcontent, hcomp⟩ : ∃ data, decompress unsnap ms.compression data = some p'.buffer
        ∧ data.length ≤ 32 + p'.buffer.length + p'.buffer.length / 6
        ∧ ChunkWriter.pageContent env c.compression p'.buffer = some (u32 data.length, data)
        ∧ Ref.compressed env ms.compression p'.buffer = some data := by
      rw [h.compression]
      cases hcm : ms.compression with
      | UNCOMPRESSED => exact ⟨p'.buffer, rfl, by omega, rfl, rfl⟩
      | SNAPPY =>
        obtain ⟨y, hy, hu, hl⟩ := hsn p'.buffer hraw
        exact ⟨y, hu, hl, by simp [ChunkWriter.pageContent, hy], hy⟩
    rw [hcontent]
    simp only
    have hok : GPage.Ok unsnap ms ⟨cur, p'.buffer, data⟩ :=
      ⟨hne, hle, hpage.typed, hlen, hdl, hdata, hdec, hpl, hraweq ms.compression⟩
    have hpages : ∀ g ∈ pages ++ [⟨cur, p'.buffer, data⟩], g.Ok unsnap ms := by
      intro g hg
      rcases List.mem_append.1 hg with hg | hg
      · exact h.ok g hg
      · simp at hg; subst hg; exact hok
    have hmerge : c.statistics.merge env (statsOf env ms.dataType cur)
        = some (chunkStats env ms.dataType (pages ++ [⟨cur, p'.buffer, data⟩])) := by
      rw [chunkStats_append, h.stats]
      exact merge_some env _ _ (by rw [chunkStats_type, statsOf_type])
    have hreset : PageRep env ms.dataType ms.encoding (({ p' with buffer := [] } : PageWriter).reset env) [] :=
      pageRep_reset env _ _ _ hd hvr
    rw [h.numPages, hst]
    match pages, h with
    | [], h =>
      rw [if_pos (by rfl)]
      simp only [hmerge]
      refine ⟨_, ⟨cur, p'.buffer, data⟩, rfl, rfl, ?_, rfl, hcomp⟩
      refine ⟨h.id_eq, h.dataType, h.encoding, h.compression, hpages, rfl, by simp, ?_, ?_, ?_, ?_, hreset⟩
      · simp [h.buffer, pagesBytes, GPage.bytes, GPage.hdr]
      · intro g hg
        simp at hg
        subst hg
        rfl
      · simp
      · intro g hg
        simp at hg
        subst hg
        simp [h.size0 rfl, GPage.hdr]
    | [g0], h =>
      rw [if_neg (by simp), if_pos (by simp)]
      have hb := h.buffer
      have hs1 := h.size1 g0 rfl
      simp only [pagesBytes, GPage.bytes] at hb
      rw [if_pos (by rw [hs1, hb]; simp)]
      rw [h.first g0 rfl]
      simp only [hmerge]
      refine ⟨_, ⟨cur, p'.buffer, data⟩, rfl, rfl, ?_, rfl, hcomp⟩
      refine ⟨h.id_eq, h.dataType, h.encoding, h.compression, hpages, rfl, by simp, ?_, ?_, ?_, ?_, hreset⟩
      · simp only [hs1, hb, Bool.false_eq_true, if_false, List.append_nil, List.take_left, List.drop_left]
        simp [GPage.bytes, GPage.hdr, List.append_assoc, pagesBytes]
      · intro g hg; simp at hg
      · simp
      · intro g hg; simp at hg
    | g0 :: g1 :: rest, h =>
      rw [if_neg (by simp), if_neg (by simp)]
      have hb := h.buffer
      simp only [hmerge]
      refine ⟨_, ⟨cur, p'.buffer, data⟩, rfl, rfl, ?_, rfl, hcomp⟩
      refine ⟨h.id_eq, h.dataType, h.encoding, h.compression, hpages, rfl, by simp, ?_, ?_, ?_, ?_, hreset⟩
      · simp only [hb, pagesBytes]
        simp [GPage.bytes, GPage.hdr, List.append_assoc, pagesBytes]
      · intro g hg; simp at hg
      · simp
      · intro g hg; simp at hg

theorem chunkRep_nextCheck {env : Env} {unsnap : Bytes → Option Bytes} {id : Bytes}
    {ms : MeasurementSchema} {c : ChunkWriter} {pages : List GPage} {cur : List Point}
    (h : ChunkRep env unsnap id ms c pages cur) (n : Nat) :
    ChunkRep env unsnap id ms { c with nextCheck := n } pages cur :=
  ⟨h.id_eq, h.dataType, h.encoding, h.compression, h.ok, h.stats, h.numPages, h.buffer, h.first, h.size0,
    h.size1, h.page⟩

/-- Pages that were closed because they were full. -/
def FullPages (pages : List GPage) : Prop := ∀ g ∈ pages, 3000 ≤ g.pts.length

theorem FullPages.append {pages : List GPage} (h : FullPages pages) {g : GPage} (hg : 3000 ≤ g.pts.length) :
    FullPages (pages ++ [g]) := by
  intro x hx
  rcases List.mem_append.1 hx with hx | hx
  · exact h x hx
  · rw [List.mem_singleton] at hx; subst hx; exact hg

/-- A chunk in the file: series name and schema, and its pages. -/
structure GChunk where
  name : Bytes
  ms : MeasurementSchema
  pages : List GPage

namespace GChunk

/-- The header of the chunk. -/
def header (env : Env) (c : GChunk) : ChunkHeader :=
  { measurementId := c.name, dataSize := u32 (pagesBytes env c.ms.dataType c.pages).length,
    dataType := c.ms.dataType, compression := c.ms.compression, encoding := c.ms.encoding,
    numPages := c.pages.length, mask := 0 }

/-- The bytes of the chunk. -/
def bytes (env : Env) (c : GChunk) : Bytes :=
  (c.header env).serialize ++ pagesBytes env c.ms.dataType c.pages

/-- A correct chunk. -/
structure Ok (env : Env) (unsnap : Bytes → Option Bytes) (c : GChunk) : Prop where
  ne : c.pages ≠ []
  pages : ∀ g ∈ c.pages, g.Ok unsnap c.ms
  full : FullPages c.pages.dropLast

/-- The points of the chunk. -/
def points (c : GChunk) : List Point := pagesPoints c.pages

/-- The pages are those of the reference writer, compressed. -/
structure Exact (env : Env) (c : GChunk) : Prop where
  data : ∀ g ∈ c.pages, Ref.compressed env c.ms.compression g.raw = some g.data
  pages : c.pages.map GPage.pts = Ref.pages env c.ms c.points

/-- What the specification reads. -/
def toSpec (env : Env) (c : GChunk) : Spec.Chunk :=
  { measurement := c.name, dataType := c.ms.dataType, encoding := c.ms.encoding, compression := c.ms.compression,
    pages := c.pages.map (fun g =>
      (if c.pages.length = 1 then none else some (statsOf env c.ms.dataType g.pts).toSpec, g.pts)) }

theorem toSpec_points (env : Env) (c : GChunk) : (c.toSpec env).points = c.points := by
  simp [Spec.Chunk.points, toSpec, points, pagesPoints, Function.comp_def]

end GChunk

/-- The pages are those of the reference writer, compressed; `check` is the number of points at which the open page is looked at. -/
structure Exact (env : Env) (ms : MeasurementSchema) (check : Nat) (pages : List GPage) (cur : List Point) : Prop where
  full : FullPages pages
  data : ∀ g ∈ pages, Ref.compressed env ms.compression g.raw = some g.data
  paging : Ref.paging env ms (pagesPoints pages ++ cur) = ⟨pages.map GPage.pts, cur, check⟩

theorem exact_new (env : Env) (ms : MeasurementSchema) : Exact env ms 7989 [] [] := ⟨by intro g hg; simp at hg, by simp, rfl⟩

/-- The page size check: the points stay the same, the open page has at most 1048576 points. -/
theorem chunkRep_checkPageSize {env : Env} {unsnap : Bytes → Option Bytes} (hsn : SnappyOk env unsnap)
    {id : Bytes} {ms : MeasurementSchema} {c : ChunkWriter} {pages : List GPage} {cur : List Point}
    (h : ChunkRep env unsnap id ms c pages cur) (hne : cur ≠ []) (hle : cur.length ≤ 1048577) :
    ∃ c' pages' cur', c.checkPageSize env = some c' ∧ ChunkRep env unsnap id ms c' pages' cur'
      ∧ pagesPoints pages' ++ cur' = pagesPoints pages ++ cur ∧ cur'.length ≤ 1048576
      ∧ c'.currentPageWriter ≠ none ∧ (FullPages pages → FullPages pages')
      ∧ ∀ done p, cur = done ++ [p] → Exact env ms c.nextCheck pages done → Exact env ms c'.nextCheck pages' cur' := by
  have hpage := h.page
  obtain ⟨c1, g, hw, hg, hr, hn, hgd⟩ := chunkRep_writePage hsn h hne hle
  have hadd : ∀ done p, cur = done ++ [p] → Exact env ms c.nextCheck pages done →
      Ref.paging env ms (pagesPoints pages ++ cur) = Ref.Paging.add env ms ⟨pages.map GPage.pts, done, c.nextCheck⟩ p := by
    intro done p hc he
    rw [hc, ← List.append_assoc, Ref.paging, List.foldl_append, List.foldl_cons, List.foldl_nil]
    exact congrArg (fun s => Ref.Paging.add env ms s p) he.paging
  have hdata : ∀ done, Exact env ms c.nextCheck pages done →
      ∀ x ∈ pages ++ [g], Ref.compressed env ms.compression x.raw = some x.data := by
    intro done he x hx
    rcases List.mem_append.1 hx with hx | hx
    · exact he.data x hx
    · rw [List.mem_singleton] at hx; subst hx; exact hgd
  have hcur1 : c1.currentPageWriter ≠ none := by
    intro hnone
    rw [ChunkWriter.writePageToBuffer] at hw
    split at hw
    · next hc => rw [hc] at hpage; exact hne hpage.1
    · split at hw
      · simp at hw
      · simp only at hw
        split at hw
        · simp only [Option.some.injEq] at hw; rw [← hw] at hnone; simp at hnone
        · split at hw
          · simp at hw
          · split at hw
            · simp at hw
            · simp only [Option.some.injEq] at hw; rw [← hw] at hnone; simp at hnone
  rw [ChunkWriter.checkPageSize]
  cases hc : c.currentPageWriter with
  | none => rw [hc] at hpage; exact absurd hpage.1 hne
  | some p =>
    rw [hc] at hpage
    simp only at hpage ⊢
    have hpts : pagesPoints (pages ++ [g]) ++ [] = pagesPoints pages ++ cur := by
      rw [pagesPoints_append, hg]; simp
    split
    · next hmax =>
      rw [hpage.count, maxPointsInPage] at hmax
      have hbig : 3000 ≤ g.pts.length := by rw [hg]; omega
      refine ⟨c1, _, [], hw, hr, hpts, by simp, hcur1, fun hf => hf.append hbig, fun done p hc he => ⟨he.full.append hbig, hdata done he, ?_⟩⟩
      rw [hpts, hadd done p hc he, Ref.Paging.add]
      simp only [← hc]
      rw [if_pos hmax, List.map_append, List.map_singleton, hg, hn]
    · next hmax =>
      have hcl : cur.length ≤ 1048576 := by
        rw [hpage.count, maxPointsInPage] at hmax
        omega
      split
      · next hck =>
        split
        · next hbig =>
          rw [hw]
          have hbig' : 3000 ≤ g.pts.length := by rw [hg]; exact hpage.full hbig
          refine ⟨_, _, [], rfl, chunkRep_nextCheck hr _, hpts, by simp, hcur1, fun hf => hf.append hbig',
            fun done q hq he => ⟨he.full.append hbig', hdata done he, ?_⟩⟩
          rw [hpage.estimate hle, pageSizeThreshold] at hbig
          rw [hpts, hadd done q hq he, Ref.Paging.add]
          simp only [← hq]
          rw [hpage.count] at hck
          rw [if_neg (by omega), if_pos hck, if_pos hbig, List.map_append, List.map_singleton, hg]
          rfl
        · next hbig =>
          refine ⟨_, _, cur, rfl, ?_, rfl, hcl, by simp, fun hf => hf, fun done q hq he => ⟨he.full, he.data, ?_⟩⟩
          · have := chunkRep_nextCheck h (env.nextCheck p.estimateMaxMemSize.toNat p.pointNumber)
            rwa [hc] at this
          · rw [hpage.estimate hle, pageSizeThreshold] at hbig
            rw [hadd done q hq he, Ref.Paging.add]
            simp only [← hq]
            rw [hpage.count] at hck
            rw [if_neg (by omega), if_pos hck, if_neg hbig, hpage.estimate hle, hpage.count]
      · next hck =>
        refine ⟨c, _, cur, rfl, h, rfl, hcl, by simp [hc], fun hf => hf, fun done q hq he => ⟨he.full, he.data, ?_⟩⟩
        rw [hadd done q hq he, Ref.Paging.add]
        simp only [← hq]
        rw [hpage.count] at hck
        rw [if_neg (by omega), if_neg hck]

theorem pageWriter_new_ok (env : Env) (ms : MeasurementSchema) (h : encodable ms.dataType ms.encoding = true) :
    ∃ p, PageWriter.new env ms.dataType ms.encoding = .ok p := by
  obtain ⟨dt, enc, cm⟩ := ms
  cases dt <;> cases enc <;> simp [encodable] at h <;> exact ⟨_, rfl⟩

/-- One write to the chunk writer. -/
theorem chunkRep_write {env : Env} {unsnap : Bytes → Option Bytes} (hsn : SnappyOk env unsnap)
    {id : Bytes} {ms : MeasurementSchema} {c : ChunkWriter} {pages : List GPage} {cur : List Point}
    (h : ChunkRep env unsnap id ms c pages cur) (hle : cur.length ≤ 1048576) (t : W64) (v : IoTDBValue) :
    (fits ms.dataType v = true → encodable ms.dataType ms.encoding = true →
      ∃ c' pages' cur', c.write env t v = .ok (c', 1) ∧ ChunkRep env unsnap id ms c' pages' cur'
        ∧ pagesPoints pages' ++ cur' = pagesPoints pages ++ cur ++ [(t, v)] ∧ cur'.length ≤ 1048576
        ∧ c'.currentPageWriter ≠ none ∧ (FullPages pages → FullPages pages')
        ∧ (Exact env ms c.nextCheck pages cur → Exact env ms c'.nextCheck pages' cur'))
    ∧ (∀ r, c.write env t v = .ok r → fits ms.dataType v = true ∧ encodable ms.dataType ms.encoding = true) := by
  have hpage := h.page
  have key : ∀ p, PageRep env ms.dataType ms.encoding p cur →
      c.openPage env = .ok p →
      (fits ms.dataType v = true → ∃ c' pages' cur', c.write env t v = .ok (c', 1)
        ∧ ChunkRep env unsnap id ms c' pages' cur'
        ∧ pagesPoints pages' ++ cur' = pagesPoints pages ++ cur ++ [(t, v)] ∧ cur'.length ≤ 1048576
        ∧ c'.currentPageWriter ≠ none ∧ (FullPages pages → FullPages pages')
        ∧ (Exact env ms c.nextCheck pages cur → Exact env ms c'.nextCheck pages' cur'))
      ∧ (∀ r, c.write env t v = .ok r → fits ms.dataType v = true) := by
    intro p hp hpe
    constructor
    · intro hv
      obtain ⟨p', hw, hp'⟩ := (pageRep_write env hp t v).1 hv
      have hrep : ChunkRep env unsnap id ms { c with currentPageWriter := some p' } pages (cur ++ [(t, v)]) :=
        ⟨h.id_eq, h.dataType, h.encoding, h.compression, h.ok, h.stats, h.numPages, h.buffer, h.first, h.size0,
          h.size1, hp'⟩
      obtain ⟨c', pages', cur', hck, hr, hpts, hl, hsome, hfull, hexact⟩ :=
        chunkRep_checkPageSize hsn hrep (by simp) (by simp; omega)
      refine ⟨c', pages', cur', ?_, hr, by rw [hpts, List.append_assoc], hl, hsome, hfull, hexact cur (t, v) rfl⟩
      rw [ChunkWriter.write, hpe]
      simp only [hw, hck]
    · intro r hr
      by_cases hv : fits ms.dataType v = true
      · exact hv
      · have hw := (pageRep_write env hp t v).2 (by simpa using hv)
        rw [ChunkWriter.write, hpe] at hr
        simp [hw] at hr
  cases hc : c.currentPageWriter with
  | some p =>
    rw [hc] at hpage
    simp only at hpage
    obtain ⟨h1, h2⟩ := key p hpage (by rw [ChunkWriter.openPage, hc])
    have henc : encodable ms.dataType ms.encoding = true := by
      have := hpage.value
      generalize (List.map Prod.snd cur) = vs at this
      generalize p.valueEncoder = ve at this
      obtain ⟨dt, enc, cm⟩ := ms
      simp only at this
      cases this <;> first | rfl | (cases dt <;> rfl)
    exact ⟨fun hv _ => h1 hv, fun r hr => ⟨h2 r hr, henc⟩⟩
  | none =>
    rw [hc] at hpage
    simp only at hpage
    obtain ⟨rfl, -⟩ := hpage
    constructor
    · intro hv henc
      obtain ⟨p, hp⟩ := pageWriter_new_ok env ms henc
      exact (key p (pageRep_new env _ _ p hp) (by rw [ChunkWriter.openPage, hc, h.dataType, h.encoding]; exact hp)).1 hv
    · intro r hr
      cases hp : PageWriter.new env ms.dataType ms.encoding with
      | error e =>
        rw [ChunkWriter.write, ChunkWriter.openPage, hc] at hr
        simp [h.dataType, h.encoding, hp] at hr
      | ok p =>
        refine ⟨(key p (pageRep_new env _ _ p hp) (by rw [ChunkWriter.openPage, hc, h.dataType, h.encoding]; exact hp)).2 r hr, ?_⟩
        by_contra hne
        obtain ⟨dt, enc, cm⟩ := ms
        cases dt <;> cases enc <;> simp [encodable] at hne
        simp [PageWriter.new, ValueEncoder.new] at hp

/-- Sealing the open page. -/
theorem chunkRep_seal {env : Env} {unsnap : Bytes → Option Bytes} (hsn : SnappyOk env unsnap)
    {id : Bytes} {ms : MeasurementSchema} {c : ChunkWriter} {pages : List GPage} {cur : List Point}
    (h : ChunkRep env unsnap id ms c pages cur) (hle : cur.length ≤ 1048577) :
    ∃ c' pages', c.sealCurrentPage env = some c' ∧ ChunkRep env unsnap id ms c' pages' []
      ∧ pagesPoints pages' = pagesPoints pages ++ cur ∧ (FullPages pages → FullPages pages'.dropLast)
      ∧ (Exact env ms c.nextCheck pages cur → GChunk.Exact env ⟨id, ms, pages'⟩) := by
  have hpage := h.page
  have hsame : cur = [] → Exact env ms c.nextCheck pages cur → GChunk.Exact env ⟨id, ms, pages⟩ := by
    rintro rfl he
    refine ⟨he.data, ?_⟩
    have := he.paging
    rw [List.append_nil] at this
    simp only [GChunk.points, Ref.pages, this]
    rfl
  have hdrop : FullPages pages → FullPages pages.dropLast := fun hf g hg => hf g (List.dropLast_subset _ hg)
  rw [ChunkWriter.sealCurrentPage]
  cases hc : c.currentPageWriter with
  | none =>
    rw [hc] at hpage
    simp only at hpage
    obtain ⟨rfl, -⟩ := hpage
    exact ⟨c, pages, rfl, h, by simp, hdrop, hsame rfl⟩
  | some p =>
    rw [hc] at hpage
    simp only at hpage ⊢
    by_cases hcur : cur = []
    · subst hcur
      rw [if_neg (by rw [hpage.count]; simp)]
      exact ⟨c, pages, rfl, h, by simp, hdrop, hsame rfl⟩
    · rw [if_pos (by rw [hpage.count]; exact List.length_pos_iff.2 hcur)]
      obtain ⟨c', g, hw, hg, hr, _, hgd⟩ := chunkRep_writePage hsn h hcur hle
      refine ⟨c', _, hw, hr, by rw [pagesPoints_append, hg], (fun hf => by rwa [List.dropLast_concat]), fun he => ⟨?_, ?_⟩⟩
      · intro x hx
        rcases List.mem_append.1 hx with hx | hx
        · exact he.data x hx
        · rw [List.mem_singleton] at hx; subst hx; exact hgd
      · have := he.paging
        simp only [GChunk.points, pagesPoints_append, hg, Ref.pages, this]
        rw [if_neg (by simpa using hcur), List.map_append, List.map_singleton, hg]

/-! ## reading a chunk -/

theorem pPage_bytes {env : Env} {unsnap : Bytes → Option Bytes} {ms : MeasurementSchema} (g : GPage)
    (h : g.Ok unsnap ms) (withStats : Bool) (r : Bytes) :
    pPage unsnap ms.dataType ms.compression ms.encoding withStats (g.bytes env ms.dataType withStats ++ r)
      = some ((if withStats then some (statsOf env ms.dataType g.pts).toSpec else none, g.pts), r) := by
  have hst : ∀ r, pStats ms.dataType ((statsOf env ms.dataType g.pts).serialize env ++ r)
      = some ((statsOf env ms.dataType g.pts).toSpec, r) := by
    intro r
    have := pStats_serialize env (statsOf env ms.dataType g.pts) r
    rwa [statsOf_type] at this
  simp only [pPage, GPage.bytes, GPage.hdr, List.append_assoc, pVarU_writeVarU32, Option.bind_eq_bind,
    Option.bind_some]
  cases withStats
  · simp only [Bool.false_eq_true, if_false, List.nil_append, Option.bind_some]
    rw [u32_toNat _ h.dataLen, u32_toNat _ h.rawLen, pTake_append _ _ _ rfl]
    simp [h.dec, h.page]
  · simp only [if_true, List.append_assoc, hst, Option.map_some, Option.bind_some]
    rw [u32_toNat _ h.dataLen, u32_toNat _ h.rawLen, pTake_append _ _ _ rfl]
    simp [h.dec, h.page]

theorem dataTypeOfCode_serialize (dt : TSDataType) : dataTypeOfCode dt.serialize = some dt := by
  cases dt <;> rfl
theorem encodingOfCode_serialize (e : TSEncoding) : encodingOfCode e.serialize = some e := by
  cases e <;> rfl
theorem compressionOfCode_serialize (c : CompressionType) : compressionOfCode c.serialize = some c := by
  cases c <;> rfl

theorem gpage_bytes_ne_nil (env : Env) (dt : TSDataType) (b : Bool) (g : GPage) : g.bytes env dt b ≠ [] := by
  intro h
  have h' := congrArg List.length h
  have := length_writeVarU32_pos (u32 g.raw.length)
  simp only [GPage.bytes, GPage.hdr, List.length_append, List.length_nil] at h'
  omega

/-- A chunk is read back. -/
theorem pChunk_bytes {env : Env} {unsnap : Bytes → Option Bytes} (c : GChunk) (h : c.Ok env unsnap)
    (hname : c.name.length < 2 ^ 31) (hlen : (pagesBytes env c.ms.dataType c.pages).length < 2 ^ 32) (r : Bytes) :
    pChunk unsnap (c.bytes env ++ r) = some (c.toSpec env, r) := by
  have hmark : ∀ m : UInt8, m ||| 0 = m := by intro m; simp
  simp only [pChunk, GChunk.bytes, GChunk.header, ChunkHeader.serialize, hmark, List.append_assoc,
    List.cons_append, List.nil_append, pByte_cons, pStr_writeStr _ hname, pVarU_writeVarU32,
    dataTypeOfCode_serialize, encodingOfCode_serialize, compressionOfCode_serialize,
    Option.bind_eq_bind, Option.bind_some]
  rw [u32_toNat _ hlen, pTake_append _ _ _ rfl]
  simp only [Option.bind_some]
  obtain ⟨name, ms, pages⟩ := c
  match pages, h with
  | [], h => exact absurd rfl h.ne
  | [g], h =>
    have := pPage_bytes (env := env) g (h.pages g (by simp)) false []
    simp only [List.append_nil] at this
    simp [pagesBytes, this, GChunk.toSpec]
  | g0 :: g1 :: rest, h =>
    have hall := pAll_flatMap (pPage unsnap ms.dataType ms.compression ms.encoding true)
      (GPage.bytes env ms.dataType true)
      (fun g => (some (statsOf env ms.dataType g.pts).toSpec, g.pts)) (g0 :: g1 :: rest)
      (fun g hg r => by simpa using pPage_bytes (env := env) g (h.pages g hg) true r)
      (fun g _ => gpage_bytes_ne_nil _ _ _ _)
    simp only [pagesBytes]
    rw [hall]
    simp [GChunk.toSpec]

end TsFile
