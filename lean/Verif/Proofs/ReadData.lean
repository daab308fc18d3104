import Verif.Proofs.Read
/-! # Reading the points of a closed file -/

namespace TsFile
open Spec

section
variable {env : Env} {unsnap : Bytes → Option Bytes} {schema : Schema} {groups : List GGroup}
  {paths : List Bytes} {F : Bytes}

/-- What is known about the chunk groups of a file. -/
def GroupsOk (env : Env) (unsnap : Bytes → Option Bytes) (schema : Schema) (groups : List GGroup) : Prop :=
  ∀ g ∈ groups, ∃ ms, look g.1 schema = some ms
    ∧ (∀ c ∈ g.2, look c.name ms = some c.ms ∧ c.Ok env unsnap)
    ∧ (g.2.map GChunk.name).Pairwise (fun a b => bytesLt a b = true)

theorem GroupsOk.weaken (h : GroupsOk env unsnap schema groups) :
    ∀ g ∈ groups, ∃ ms, look g.1 schema = some ms ∧ ∀ c ∈ g.2, look c.name ms = some c.ms := by
  intro g hg
  obtain ⟨ms, h1, h2, _⟩ := h g hg
  exact ⟨ms, h1, fun c hc => (h2 c hc).1⟩

theorem GroupsOk.names (hsch : schema.Named) (h : GroupsOk env unsnap schema groups) :
    ∀ g ∈ groups, g.1.length < 2 ^ 31 ∧ ∀ c ∈ g.2, c.name.length < 2 ^ 31 ∧ c.Ok env unsnap := by
  intro g hg
  obtain ⟨ms, h1, h2, _⟩ := h g hg
  have := hsch.names _ (look_mem h1)
  exact ⟨this.1, fun c hc => ⟨this.2 _ (look_mem (h2 c hc).1), (h2 c hc).2⟩⟩

/-- The chunks are where their metadata say. -/
theorem readChunks_eq (m : Bytes) (locs : List (Nat × GChunk)) (st : Nat × GChunk → Option Stats)
    (h : ∀ l ∈ locs, At F l.1 (l.2.bytes env) ∧ l.2.name = m ∧ l.2.name.length < 2 ^ 31 ∧ l.2.Ok env unsnap
      ∧ (pagesBytes env l.2.ms.dataType l.2.pages).length < 2 ^ 32) :
    readChunks unsnap F m (locs.map (fun l => ⟨l.1, st l⟩)) = some (locs.map (fun l => l.2.toSpec env)) := by
  induction locs with
  | nil => rfl
  | cons l locs ih =>
    obtain ⟨h1, h2, h3, h4, h5⟩ := h l (by simp)
    obtain ⟨post, hpost⟩ := h1.drop
    simp only [List.map_cons, readChunks, hpost, pChunk_bytes l.2 h4 h3 h5]
    rw [if_pos (show (l.2.toSpec env).measurement = m from h2), ih (fun x hx => h x (by simp [hx]))]
    rfl

theorem locsOf_ok (hsch : schema.Indexable) (hok : GroupsOk env unsnap schema groups)
    (L : Layout env schema groups paths F) (hf : Fits env L) (d m : Bytes) :
    ∀ l ∈ locsOf env groups d m, At F l.1 (l.2.bytes env) ∧ l.2.name = m ∧ l.2.name.length < 2 ^ 31
      ∧ l.2.Ok env unsnap ∧ (pagesBytes env l.2.ms.dataType l.2.pages).length < 2 ^ 32 := by
  intro l hl
  obtain ⟨h1, h2⟩ := locsOf_mem hl
  obtain ⟨g, hg, _, hgc⟩ := fileLocs_mem h1
  have hn := (hok.names hsch.toNamed g hg).2 _ hgc
  refine ⟨?_, h2, hn.1, hn.2, hf.chunks g hg _ hgc⟩
  have := (fileLocs_at h1).extend ([2] ++ (metaBytes env L.tsm ++ (L.order.flatMap (fun e => e.2.serialize)
      ++ (footerBytes L.root (fileBytes env groups).length L.bloom
        ++ (be32 (u32 (footerBytes L.root (fileBytes env groups).length L.bloom).length) ++ magic)))))
  rwa [← L.bytes] at this

/-- Reading a series through the index. -/
theorem Layout.readSeries (hsch : schema.Indexable) (ho : HashOrderOk env)
    (hok : GroupsOk env unsnap schema groups) (L : Layout env schema groups paths F) (hf : Fits env L)
    (d m : Bytes) : readSeries unsnap F d m = some (filePts groups d m) := by
  rw [Spec.readSeries, filePts_eq_locs env]
  rcases L.readSeriesMeta hsch ho hok.weaken hf d m with ⟨h1, h2⟩ | ⟨ms, s, h1, h2, h3, h4⟩
  · rw [h2, h1]; rfl
  · rw [h4]
    simp only [seriesMeta]
    rw [readChunks_eq m _ _ (locsOf_ok hsch hok L hf d m)]
    simp [List.flatMap_map, GChunk.toSpec_points]

/-! ## Scanning -/

/-- What a scan finds in a chunk group. -/
def groupItems (env : Env) (g : GGroup) : List Item :=
  .group g.1 :: g.2.map (fun c => .chunk (c.toSpec env))

theorem chunk_bytes_cons (c : GChunk) : ∃ b, c.bytes env = (if c.pages.length ≤ 1 then 5 else 1) :: b := by
  have hmark : ∀ m : UInt8, m ||| 0 = m := by intro m; simp
  by_cases h : c.pages.length ≤ 1
  · exact ⟨_, by simp only [GChunk.bytes, GChunk.header, ChunkHeader.serialize, hmark, List.cons_append,
      List.nil_append, h, if_true]; rfl⟩
  · exact ⟨_, by simp only [GChunk.bytes, GChunk.header, ChunkHeader.serialize, hmark, List.cons_append,
      List.nil_append, h, if_false]; rfl⟩

theorem scanFuel_chunks (cs : List GChunk) (r : Bytes) (items : List Item) (rest : Bytes) (k : Nat)
    (h : ∀ c ∈ cs, c.name.length < 2 ^ 31 ∧ c.Ok env unsnap
      ∧ (pagesBytes env c.ms.dataType c.pages).length < 2 ^ 32)
    (hr : ∀ fuel, k ≤ fuel → scanFuel unsnap fuel r = some (items, rest)) :
    ∀ fuel, k + (cs.flatMap (GChunk.bytes env)).length ≤ fuel →
      scanFuel unsnap fuel (cs.flatMap (GChunk.bytes env) ++ r)
        = some (cs.map (fun c => .chunk (c.toSpec env)) ++ items, rest) := by
  induction cs with
  | nil => intro fuel hf; simpa using hr fuel (by simpa using hf)
  | cons c cs ih =>
    intro fuel hf
    obtain ⟨h1, h2, h3⟩ := h c (by simp)
    have hp := pChunk_bytes (env := env) c h2 h1 h3 (cs.flatMap (GChunk.bytes env) ++ r)
    obtain ⟨b, hb⟩ := chunk_bytes_cons (env := env) c
    rw [List.flatMap_cons, List.length_append] at hf
    rw [List.flatMap_cons, List.append_assoc]
    rw [hb] at hp hf ⊢
    rw [List.length_cons] at hf
    obtain ⟨f, rfl⟩ : ∃ f, fuel = f + 1 := ⟨fuel - 1, by omega⟩
    have hm2 : (if c.pages.length ≤ 1 then (5 : UInt8) else 1) ≠ 2 := by split <;> decide
    have hm0 : (if c.pages.length ≤ 1 then (5 : UInt8) else 1) ≠ 0 := by split <;> decide
    rw [List.cons_append] at hp ⊢
    rw [scanFuel, if_neg hm2, if_neg hm0, hp]
    simp only
    rw [ih (fun x hx => h x (by simp [hx])) f (by omega)]
    rfl

theorem scanFuel_groups (gs : List GGroup) (r : Bytes)
    (h : ∀ g ∈ gs, g.1.length < 2 ^ 31 ∧ ∀ c ∈ g.2, c.name.length < 2 ^ 31 ∧ c.Ok env unsnap
      ∧ (pagesBytes env c.ms.dataType c.pages).length < 2 ^ 32) :
    ∀ fuel, 1 + (gs.flatMap (groupBytes env)).length ≤ fuel →
      scanFuel unsnap fuel (gs.flatMap (groupBytes env) ++ 2 :: r) 
        = some (gs.flatMap (groupItems env), 2 :: r) := by
  induction gs with
  | nil =>
    intro fuel hf
    obtain ⟨f, rfl⟩ : ∃ f, fuel = f + 1 := ⟨fuel - 1, by simp at hf; omega⟩
    simp [scanFuel]
  | cons g gs ih =>
    intro fuel hf
    have hih := ih (fun x hx => h x (by simp [hx]))
    obtain ⟨h1, h2⟩ := h g (by simp)
    rw [List.flatMap_cons, groupBytes, chunkGroupHeader, List.length_append, List.length_append,
      List.length_append] at hf
    simp only [List.length_cons, List.length_nil] at hf
    rw [List.flatMap_cons, groupBytes, chunkGroupHeader]
    obtain ⟨f, rfl⟩ : ∃ f, fuel = f + 1 := ⟨fuel - 1, by omega⟩
    simp only [List.append_assoc, List.cons_append, List.nil_append]
    rw [scanFuel, if_neg (by decide), if_pos rfl, pStr_writeStr _ h1]
    simp only
    rw [scanFuel_chunks g.2 _ _ _ (1 + (gs.flatMap (groupBytes env)).length) h2 hih f (by omega)]
    simp [groupItems]

/-- Scanning a closed file. -/
theorem Layout.scan (hsch : schema.Indexable) (hok : GroupsOk env unsnap schema groups)
    (L : Layout env schema groups paths F) (hf : Fits env L) :
    Spec.scan unsnap F = some (groups.flatMap (groupItems env), (fileBytes env groups).length) := by
  have hb := L.bytes
  have hlen : F.length = _ := congrArg List.length hb
  have hdrop : F.drop 7 = groups.flatMap (groupBytes env) ++ 2 :: (metaBytes env L.tsm
      ++ (L.order.flatMap (fun e => e.2.serialize)
      ++ (footerBytes L.root (fileBytes env groups).length L.bloom
        ++ (be32 (u32 (footerBytes L.root (fileBytes env groups).length L.bloom).length) ++ magic)))) := by
    conv_lhs => rw [hb]
    rfl
  have htake : F.take 7 = head := by
    conv_lhs => rw [hb]
    rfl
  rw [Spec.scan, if_pos htake, hdrop, scanFuel_groups]
  · simp only [Option.map_some, Option.some.injEq, Prod.mk.injEq, true_and]
    rw [hlen]
    simp only [List.length_append, List.length_cons, List.length_nil]
    omega
  · intro g hg
    have := hok.names hsch.toNamed g hg
    exact ⟨this.1, fun c hc => ⟨(this.2 c hc).1, (this.2 c hc).2, hf.chunks g hg c hc⟩⟩
  · rw [hlen]
    simp only [List.length_append, fileBytes]
    simp only [List.length_cons, List.length_nil]
    omega

theorem scanPoints_groups (d m : Bytes) (gs : List GGroup) (cur : Option Bytes) :
    scanPoints d m cur (gs.flatMap (groupItems env)) = filePts gs d m := by
  have hc : ∀ (cs : List GChunk) (d' : Bytes) (rest : List Item), 
      scanPoints d m (some d') (cs.map (fun c => .chunk (c.toSpec env)) ++ rest)
        = (if d' = d then chunkPts cs m else []) ++ scanPoints d m (some d') rest := by
    intro cs d' rest
    induction cs with
    | nil => simp [chunkPts]
    | cons c cs ih =>
      rw [List.map_cons, List.cons_append, scanPoints, ih, GChunk.toSpec_points]
      have : (c.toSpec env).measurement = c.name := rfl
      rw [this]
      by_cases hd : d' = d
      · subst hd; simp [chunkPts]
      · simp [hd]
  induction gs generalizing cur with
  | nil => cases cur <;> rfl
  | cons g gs ih =>
    rw [List.flatMap_cons, groupItems, List.cons_append, scanPoints, hc, ih]
    simp [filePts]

/-! ## Files of less than 4 GB -/

theorem mem_flatMap_length {α : Type} (f : α → Bytes) (l : List α) {x : α} (hx : x ∈ l) :
    (f x).length ≤ (l.flatMap f).length := by
  obtain ⟨s, t, rfl⟩ := List.append_of_mem hx
  simp only [List.flatMap_append, List.flatMap_cons, List.length_append]
  omega

theorem Layout.fits (L : Layout env schema groups paths F) (hlen : F.length < 2 ^ 32) : Fits env L := by
  have hl := congrArg List.length L.bytes
  simp only [List.length_append] at hl
  refine ⟨by omega, by omega, ?_, ?_⟩
  · intro e he t ht
    have h1 := mem_flatMap_length (fun e : Bytes × List TimeSeriesMetadata =>
      e.2.flatMap (fun t => t.serialize env)) L.tsm he
    have h2 := mem_flatMap_length (fun t : TimeSeriesMetadata => t.serialize env) e.2 ht
    have h3 : t.buffer.length ≤ (t.serialize env).length := by
      simp only [TimeSeriesMetadata.serialize, List.length_append]; omega
    have h4 : (metaBytes env L.tsm).length = (L.tsm.flatMap (fun e : Bytes × List TimeSeriesMetadata =>
      e.2.flatMap (fun t => t.serialize env))).length := rfl
    omega
  · intro g hg c hc
    have h1 := mem_flatMap_length (groupBytes env) groups hg
    have h2 := mem_flatMap_length (GChunk.bytes env) g.2 hc
    have h3 : (groupBytes env g).length = (chunkGroupHeader g.1).length + (g.2.flatMap (GChunk.bytes env)).length := by
      simp [groupBytes]
    have h4 : (c.bytes env).length = (c.header env).serialize.length + (pagesBytes env c.ms.dataType c.pages).length := by
      simp [GChunk.bytes]
    have h5 : (fileBytes env groups).length = 7 + (groups.flatMap (groupBytes env)).length := by
      simp [fileBytes, magic]; omega
    omega

end

end TsFile
