import Verif.Proofs.Layout
/-! # Reading a closed file -/

namespace TsFile
open Spec

theorem ofNat64_toNat (n : Nat) (h : n < 2 ^ 64) : (BitVec.ofNat 64 n).toNat = n := by
  rw [BitVec.toNat_ofNat, Nat.mod_eq_of_lt h]

theorem pEntry_serialize (e : IndexEntry) (hn : e.name.length < 2 ^ 31) (ho : e.offset < 2 ^ 64) (r : Bytes) :
    pEntry (e.serialize ++ r) = some (e.toSpec, r) := by
  simp only [pEntry, IndexEntry.serialize, List.append_assoc, pStr_writeStr _ hn, pBE_be64, ofNat64_toNat _ ho,
    bind, Option.bind, IndexEntry.toSpec]

theorem pRepeat_flatMap {α β : Type} (p : Parser β) (enc : α → Bytes) (f : α → β) (l : List α)
    (h : ∀ a ∈ l, ∀ r, p (enc a ++ r) = some (f a, r)) (r : Bytes) :
    pRepeat p l.length (l.flatMap enc ++ r) = some (l.map f, r) := by
  induction l with
  | nil => rfl
  | cons a l ih =>
    simp only [List.length_cons, pRepeat, List.flatMap_cons, List.append_assoc]
    rw [h a (by simp), ]
    simp only
    rw [ih (fun a ha => h a (by simp [ha]))]
    rfl

/-- The node as the reader sees it. -/
def IndexNode.toSpec (n : IndexNode) : Node := ⟨n.children.map IndexEntry.toSpec, n.endOffset, n.nodeType.serialize⟩

theorem pNode_serialize (n : IndexNode) (hc : n.children.length < 2 ^ 32)
    (hn : ∀ e ∈ n.children, e.name.length < 2 ^ 31 ∧ e.offset < 2 ^ 64) (he : n.endOffset < 2 ^ 64) (r : Bytes) :
    pNode (n.serialize ++ r) = some (n.toSpec, r) := by
  simp only [pNode, IndexNode.serialize, List.append_assoc, pVarU_writeVarU32, u32_toNat _ hc, bind, Option.bind]
  rw [pRepeat_flatMap pEntry IndexEntry.serialize IndexEntry.toSpec n.children
    (fun a ha r => pEntry_serialize a (hn a ha).1 (hn a ha).2 r)]
  simp only [pBE_be64, ofNat64_toNat _ he, List.cons_append, List.nil_append, pByte_cons, IndexNode.toSpec]

/-! ## Series metadata -/

/-- What the reader finds for a series with the given chunks. -/
def seriesMeta (env : Env) (m : Bytes) (dt : TSDataType) (locs : List (Nat × GChunk)) : SeriesMeta :=
  { measurement := m
    dataType := dt
    stats := (locs.foldl (fun s l => s.mrg env (chunkStats env dt l.2.pages)) (Statistics.new env dt)).toSpec
    chunks := locs.map (fun l =>
      ⟨l.1, if locs.length > 1 then some (chunkStats env dt l.2.pages).toSpec else none⟩) }

theorem foldl_mrg_type (env : Env) (dt : TSDataType) (locs : List (Nat × GChunk)) (s : Statistics) :
    (locs.foldl (fun s l => s.mrg env (chunkStats env dt l.2.pages)) s).type = s.type := by
  induction locs generalizing s with
  | nil => rfl
  | cons l locs ih => rw [List.foldl_cons, ih, mrg_type]

theorem pSeriesMeta_serialize (env : Env) (m : Bytes) (dt : TSDataType) (locs : List (Nat × GChunk))
    (hm : m.length < 2 ^ 31) (hb : (tsOf env m dt locs).buffer.length < 2 ^ 32)
    (hdt : ∀ l ∈ locs, l.2.ms.dataType = dt) (hpos : ∀ l ∈ locs, l.1 < 2 ^ 64) (r : Bytes) :
    pSeriesMeta ((tsOf env m dt locs).serialize env ++ r) = some (seriesMeta env m dt locs, r) := by
  have hsz : (tsOf env m dt locs).chunkMetaDataListDataSize = (tsOf env m dt locs).buffer.length := rfl
  have hid : (tsOf env m dt locs).measurementId = m := rfl
  have hdt' : (tsOf env m dt locs).dataType = dt := rfl
  have hst : (tsOf env m dt locs).statistics.type = dt := by
    simp only [tsOf]; rw [foldl_mrg_type, new_type]
  have hps := fun r => pStats_serialize env (tsOf env m dt locs).statistics r
  rw [hst] at hps
  have hchunks : pAll (pChunkMeta dt (decide ((tsOf env m dt locs).metadataType ≠ 0))) (tsOf env m dt locs).buffer
      = some (seriesMeta env m dt locs).chunks := by
    have hflag : decide ((tsOf env m dt locs).metadataType ≠ 0) = decide (locs.length > 1) := by
      simp only [tsOf]
      by_cases h : locs.length > 1 <;> simp [h]
    rw [hflag]
    apply pAll_flatMap
    · intro l hl r
      have hs1 : (chunkMeta env l.1 l.2).statistics = chunkStats env dt l.2.pages := by
        simp [chunkMeta, hdt l hl]
      have hs2 := pStats_serialize env (chunkStats env dt l.2.pages) r
      rw [chunkStats_type] at hs2
      have ho : (chunkMeta env l.1 l.2).offsetOfChunkHeader = BitVec.ofNat 64 l.1 := rfl
      by_cases h : locs.length > 1
      · simp only [pChunkMeta, ChunkMetadata.serialize, h, decide_true, if_true, List.append_assoc, hs1, ho,
          pBE_be64, ofNat64_toNat _ (hpos l hl), hs2, bind, Option.bind, Option.map]
      · simp only [pChunkMeta, ChunkMetadata.serialize, h, decide_false, if_false, List.append_assoc, ho,
          Bool.false_eq_true, pBE_be64, ofNat64_toNat _ (hpos l hl), bind, Option.bind, List.nil_append]
    · intro l hl hc
      have := congrArg List.length hc
      simp [ChunkMetadata.serialize, be64, beBytes] at this
  simp only [pSeriesMeta, TimeSeriesMetadata.serialize, List.append_assoc, List.cons_append, List.nil_append,
    pByte_cons, hid, pStr_writeStr _ hm, hdt', dataTypeOfCode_serialize, pVarU_writeVarU32, hsz, u32_toNat _ hb,
    hps, pTake_append _ _ _ rfl, hchunks, bind, Option.bind]
  rfl

theorem tsOf_serialize_ne_nil (env : Env) (t : TimeSeriesMetadata) : t.serialize env ≠ [] := by
  simp [TimeSeriesMetadata.serialize]

/-! ## The footer -/

/-- The Bloom filter in the file. -/
theorem bloom_parse {f : BloomFilter} {b : Bytes} (h : f.serialize = some b) (hlen : b.length < 2 ^ 32) :
    ∃ bits, f.serializeBits = some bits ∧ ∀ root metaOffset r r', pNode (r ++ (be64 metaOffset ++ b)) = some (root, r') →
      r' = be64 metaOffset ++ b →
      pFooter (r ++ (be64 metaOffset ++ b))
        = some (⟨root, metaOffset.toNat, ⟨bits, (u32 f.size).toNat, (u32 f.hashFunctionSize).toNat⟩⟩, []) := by
  rw [BloomFilter.serialize] at h
  cases hb : f.serializeBits with
  | none => rw [hb] at h; simp at h
  | some bits =>
    rw [hb] at h
    simp only [Option.map_some, Option.some.injEq] at h
    refine ⟨bits, rfl, ?_⟩
    intro root mo r r' hn hr
    subst hr
    simp only [pFooter, hn, bind, Option.bind, pBE_be64]
    have hl : bits.length < 2 ^ 32 := by
      rw [← h] at hlen
      simp only [List.length_append] at hlen
      omega
    rw [← h]
    have h1 := pVarU_writeVarU32 (u32 f.hashFunctionSize) []
    rw [List.append_nil] at h1
    simp only [List.append_assoc, pVarU_writeVarU32, u32_toNat _ hl, pTake_append _ _ _ rfl, h1]

/-! ## Device entries -/

theorem devEntries_find {F : Bytes} (order : List (Bytes × IndexNode)) (p : Nat) (d : Bytes)
    (hF : At F p (order.flatMap (fun e => e.2.serialize))) :
    match ((devEntries p order).map IndexEntry.toSpec).find? (fun e => e.name = d) with
    | none => d ∉ order.map Prod.fst
    | some e => ∃ node, (d, node) ∈ order ∧ At F e.offset node.serialize := by
  induction order generalizing p with
  | nil => simp [devEntries]
  | cons e order ih =>
    obtain ⟨d', node⟩ := e
    rw [List.flatMap_cons] at hF
    simp only [devEntries, List.map_cons, List.find?_cons, toSpec_mk]
    by_cases h : d' = d
    · simp only [h, decide_true]
      exact ⟨node, by simp [h], hF.left⟩
    · simp only [h, decide_false]
      have := ih (p + node.serialize.length) hF.right
      split at this
      · next hf =>
        rw [hf]
        simp only [List.map_cons, List.mem_cons, not_or]
        exact ⟨fun e => h e.symm, this⟩
      · next e hf =>
        rw [hf]
        obtain ⟨n, h1, h2⟩ := this
        exact ⟨n, by simp [h1], h2⟩

theorem devEntries_bound {F : Bytes} (order : List (Bytes × IndexNode)) (p : Nat)
    (hF : At F p (order.flatMap (fun e => e.2.serialize))) :
    ∀ e ∈ devEntries p order, e.name ∈ order.map Prod.fst ∧ e.offset ≤ F.length := by
  induction order generalizing p with
  | nil => simp [devEntries]
  | cons x order ih =>
    obtain ⟨d', node⟩ := x
    rw [List.flatMap_cons] at hF
    intro e he
    rw [devEntries] at he
    rcases List.mem_cons.1 he with rfl | he
    · exact ⟨by simp, by have := hF.le; simp only; omega⟩
    · obtain ⟨h1, h2⟩ := ih _ hF.right e he
      exact ⟨by simp [h1], h2⟩

theorem devNodes_mem {env : Env} {F : Bytes} (tsm : BMap (List TimeSeriesMetadata)) (p : Nat)
    (hF : At F p (metaBytes env tsm)) {d : Bytes} {node : IndexNode} (h : (d, node) ∈ devNodes env p tsm) :
    ∃ q l, (d, l) ∈ tsm ∧ node = leafNode env q l ∧ At F q (l.flatMap (TimeSeriesMetadata.serialize env)) := by
  induction tsm generalizing p with
  | nil => simp [devNodes] at h
  | cons e tsm ih =>
    obtain ⟨d', l⟩ := e
    simp only [metaBytes, List.flatMap_cons] at hF
    rw [devNodes] at h
    rcases List.mem_cons.1 h with h | h
    · cases h
      exact ⟨p, l, by simp, rfl, hF.left⟩
    · obtain ⟨q, l', h1, h2⟩ := ih _ hF.right h
      exact ⟨q, l', by simp [h1], h2⟩

theorem devNodes_keys (env : Env) (tsm : BMap (List TimeSeriesMetadata)) (p : Nat) :
    (devNodes env p tsm).map Prod.fst = tsm.map Prod.fst := by
  induction tsm generalizing p with
  | nil => rfl
  | cons e tsm ih => obtain ⟨d, l⟩ := e; simp [devNodes, ih]

theorem leafEntries_bound {α : Type} (name bytes : α → Bytes) (l : List α) (i p : Nat) :
    ∀ e ∈ leafEntries name bytes i p l, (∃ t ∈ l, e.name = name t) ∧ e.offset ≤ p + (l.flatMap bytes).length := by
  induction l generalizing i p with
  | nil => simp [leafEntries]
  | cons t l ih =>
    intro e he
    rw [leafEntries] at he
    rcases List.mem_append.1 he with he | he
    · split at he
      · simp only [List.mem_singleton] at he
        subst he
        exact ⟨⟨t, by simp, rfl⟩, by simp only; omega⟩
      · simp at he
    · obtain ⟨⟨t', h1, h2⟩, h3⟩ := ih _ _ e he
      refine ⟨⟨t', by simp [h1], h2⟩, ?_⟩
      simp only [List.flatMap_cons, List.length_append]
      omega

/-! ## Whole files -/

/-- The sizes fit into the fields of the format. -/
structure Fits (env : Env) {schema : Schema} {groups : List GGroup} {paths : List Bytes} {F : Bytes}
    (L : Layout env schema groups paths F) : Prop where
  file : F.length < 2 ^ 64
  footer : (footerBytes L.root (fileBytes env groups).length L.bloom).length < 2 ^ 32
  metas : ∀ e ∈ L.tsm, ∀ t ∈ e.2, t.buffer.length < 2 ^ 32
  chunks : ∀ g ∈ groups, ∀ c ∈ g.2, (pagesBytes env c.ms.dataType c.pages).length < 2 ^ 32

section
variable {env : Env} {schema : Schema} {groups : List GGroup} {paths : List Bytes} {F : Bytes}

theorem Layout.at_all (L : Layout env schema groups paths F) :
    At F 0 (fileBytes env groups ++ ([2] ++ (metaBytes env L.tsm ++ (L.order.flatMap (fun e => e.2.serialize)
      ++ (footerBytes L.root (fileBytes env groups).length L.bloom
        ++ (be32 (u32 (footerBytes L.root (fileBytes env groups).length L.bloom).length) ++ magic)))))) :=
  ⟨[], [], by rw [List.append_nil]; exact L.bytes, rfl⟩

theorem Layout.at_meta (L : Layout env schema groups paths F) :
    At F ((fileBytes env groups).length + 1) (metaBytes env L.tsm) := by
  simpa using L.at_all.right.right.left

theorem Layout.at_nodes (L : Layout env schema groups paths F) :
    At F ((fileBytes env groups).length + 1 + (metaBytes env L.tsm).length)
      (L.order.flatMap (fun e => e.2.serialize)) := by
  simpa using L.at_all.right.right.right.left

theorem Layout.at_file (L : Layout env schema groups paths F) : At F 0 (fileBytes env groups) :=
  L.at_all.left

theorem Layout.order_mem (L : Layout env schema groups paths F) (ho : HashOrderOk env) {x : Bytes × IndexNode} :
    x ∈ L.order ↔ x ∈ devNodes env ((fileBytes env groups).length + 1) L.tsm := by
  rw [L.order_eq]
  exact (ho _).mem_iff

theorem Layout.order_keys (L : Layout env schema groups paths F) (ho : HashOrderOk env) (d : Bytes) :
    d ∈ L.order.map Prod.fst ↔ d ∈ L.tsm.map Prod.fst := by
  rw [← devNodes_keys env L.tsm ((fileBytes env groups).length + 1), L.order_eq]
  exact ((ho _).map Prod.fst).mem_iff

theorem Layout.device_name (hsch : schema.Indexable) (L : Layout env schema groups paths F) {d : Bytes}
    (h : d ∈ L.tsm.map Prod.fst) : d.length < 2 ^ 31 := by
  obtain ⟨e, he, rfl⟩ := List.mem_map.1 h
  obtain ⟨t, ht⟩ := List.exists_mem_of_ne_nil _ (L.rep.ne e he)
  obtain ⟨ms, s, h1, _⟩ := L.rep.mem e he t ht
  exact (hsch.names _ (look_mem h1)).1

/-- Reading the footer. -/
theorem Layout.readFooter (hsch : schema.Indexable) (ho : HashOrderOk env) (L : Layout env schema groups paths F)
    (hf : Fits env L) :
    ∃ bits, L.filter.serializeBits = some bits ∧ readFooter F = some
      ⟨L.root.toSpec, (fileBytes env groups).length,
        ⟨bits, (u32 L.filter.size).toNat, (u32 L.filter.hashFunctionSize).toNat⟩⟩ := by
  have hbl : L.bloom.length < 2 ^ 32 := by
    have := hf.footer
    simp only [footerBytes, List.length_append] at this
    omega
  obtain ⟨bits, hbits, hparse⟩ := bloom_parse L.bloom_eq hbl
  refine ⟨bits, hbits, ?_⟩
  have hFlen := hf.file
  have hnodes := L.at_nodes.le
  have hnode : ∀ r, pNode (L.root.serialize ++ r) = some (L.root.toSpec, r) := by
    apply pNode_serialize
    · have hl : ∀ (o : List (Bytes × IndexNode)) (p : Nat), (devEntries p o).length = o.length := by
        intro o
        induction o with
        | nil => intro p; rfl
        | cons e o ih => intro p; obtain ⟨d, n⟩ := e; simp [devEntries, ih]
      rw [L.root_eq]
      simp only [hl, L.order_eq, (ho _).length_eq]
      have := congrArg List.length (devNodes_keys env L.tsm ((fileBytes env groups).length + 1))
      simp only [List.length_map] at this
      rw [this]
      have := L.few
      omega
    · intro e he
      rw [L.root_eq] at he
      obtain ⟨h1, h2⟩ := devEntries_bound L.order _ L.at_nodes e he
      exact ⟨L.device_name hsch ((L.order_keys ho e.name).1 h1), by omega⟩
    · rw [L.root_eq]
      simp only
      omega
  -- the footer
  have hfooter : pFooter (footerBytes L.root (fileBytes env groups).length L.bloom) = some
      (⟨L.root.toSpec, (fileBytes env groups).length,
        ⟨bits, (u32 L.filter.size).toNat, (u32 L.filter.hashFunctionSize).toNat⟩⟩, []) := by
    have := hparse L.root.toSpec (BitVec.ofNat 64 (fileBytes env groups).length) L.root.serialize _ (hnode _) rfl
    rw [ofNat64_toNat _ (by have := L.at_file.le; omega)] at this
    rw [footerBytes, tsFileMetadataSerialize, List.append_assoc]
    exact this
  generalize hfb : footerBytes L.root (fileBytes env groups).length L.bloom = fb at hfooter
  have hfl : fb.length < 2 ^ 32 := by rw [← hfb]; exact hf.footer
  have hF : F = (fileBytes env groups ++ [2] ++ metaBytes env L.tsm ++ L.order.flatMap (fun e => e.2.serialize))
      ++ (fb ++ (be32 (u32 fb.length) ++ magic)) := by
    rw [← hfb]
    simpa only [List.append_assoc] using L.bytes
  have hmagic : magic.length = 6 := rfl
  have hb32 : ∀ x, (be32 x).length = 4 := fun x => rfl
  have hhead : F.take 7 = head := by
    have : fileBytes env groups = head ++ groups.flatMap (groupBytes env) := by
      simp [fileBytes, head, magic]
    rw [hF, this]
    simp [head]
  generalize hpre : (fileBytes env groups ++ [2] ++ metaBytes env L.tsm
    ++ L.order.flatMap (fun e => e.2.serialize)) = pre at hF
  have hn : F.length = pre.length + fb.length + 10 := by
    rw [hF]; simp only [List.length_append, hmagic, hb32]; omega
  rw [Spec.readFooter]
  have htail : F.drop (F.length - 6) = tailMagic := by
    have : F = (pre ++ (fb ++ be32 (u32 fb.length))) ++ magic := by rw [hF]; simp
    rw [hn]
    conv_lhs => rw [this]
    rw [List.drop_append_of_le_length (by simp only [List.length_append, hb32]; omega)]
    rw [List.drop_eq_nil_of_le (by simp only [List.length_append, hb32]; omega)]
    rfl
  have hsize : beNat ((F.drop (F.length - 10)).take 4) = fb.length := by
    have : F = (pre ++ fb) ++ (be32 (u32 fb.length) ++ magic) := by rw [hF]; simp
    rw [hn]
    conv_lhs => rw [this]
    rw [show pre.length + fb.length + 10 - 10 = (pre ++ fb).length by simp]
    rw [List.drop_left, List.take_left' (hb32 _)]
    have := pBE_be32 (u32 fb.length) []
    rw [pBE, pTake_append 4 _ _ (hb32 _)] at this
    simp only [Option.some.injEq, Prod.mk.injEq, and_true] at this
    rw [this, u32_toNat _ hfl]
  have hfoot : (F.drop (F.length - 10 - fb.length)).take fb.length = fb := by
    rw [hn, show pre.length + fb.length + 10 - 10 - fb.length = pre.length by omega]
    conv_lhs => rw [hF]
    rw [List.drop_left, List.take_left]
  simp only
  rw [if_pos ⟨hhead, htail⟩, hsize, if_pos (by omega), hfoot, hfooter]

/-- Reading the metadata of a series. -/
theorem Layout.readSeriesMeta (hsch : schema.Indexable) (ho : HashOrderOk env)
    (hok : ∀ g ∈ groups, ∃ ms, look g.1 schema = some ms ∧ ∀ c ∈ g.2, look c.name ms = some c.ms)
    (L : Layout env schema groups paths F) (hf : Fits env L) (d m : Bytes) :
    (locsOf env groups d m = [] ∧ readSeriesMeta F d m = some none)
    ∨ (∃ ms s, locsOf env groups d m ≠ [] ∧ look d schema = some ms ∧ look m ms = some s
        ∧ readSeriesMeta F d m = some (some (seriesMeta env m s.dataType (locsOf env groups d m)))) := by
  obtain ⟨bits, _, hfooter⟩ := L.readFooter hsch ho hf
  have hFlen := hf.file
  -- the parser on the metadata of a device
  have hlocs : ∀ d m ms s, look d schema = some ms → look m ms = some s → ∀ l ∈ locsOf env groups d m,
      l.2.ms.dataType = s.dataType ∧ l.1 < 2 ^ 64 := by
    intro d m ms s h1 h2 l hl
    obtain ⟨hl1, hl2⟩ := locsOf_mem hl
    obtain ⟨g, hg, hg1, hg2⟩ := fileLocs_mem hl1
    obtain ⟨ms', q1, q2⟩ := hok g hg
    simp only at hg1 hg2
    rw [hg1, h1] at q1
    cases q1
    have := q2 _ hg2
    rw [hl2, h2] at this
    cases this
    refine ⟨rfl, ?_⟩
    have h3 := (fileLocs_at hl1).le
    have h4 := L.at_file.le
    simp only at h3
    omega
  have hparse : ∀ e ∈ L.tsm, ∀ t ∈ e.2, ∃ sm : SeriesMeta, sm.measurement = t.measurementId
      ∧ (∀ r, pSeriesMeta (t.serialize env ++ r) = some (sm, r))
      ∧ ∃ ms s, look e.1 schema = some ms ∧ look t.measurementId ms = some s
        ∧ locsOf env groups e.1 t.measurementId ≠ []
        ∧ sm = seriesMeta env t.measurementId s.dataType (locsOf env groups e.1 t.measurementId) := by
    intro e he t ht
    obtain ⟨ms, s, h1, h2, h3, h4⟩ := L.rep.mem e he t ht
    refine ⟨seriesMeta env t.measurementId s.dataType (locsOf env groups e.1 t.measurementId), rfl, ?_,
      ms, s, h1, h2, h3, rfl⟩
    have hbuf := hf.metas e he t ht
    rw [h4] at hbuf
    have := pSeriesMeta_serialize env t.measurementId s.dataType (locsOf env groups e.1 t.measurementId)
      ((hsch.names _ (look_mem h1)).2 _ (look_mem h2)) hbuf
      (fun l hl => (hlocs _ _ _ _ h1 h2 l hl).1) (fun l hl => (hlocs _ _ _ _ h1 h2 l hl).2)
    rw [← h4] at this
    exact this
  rw [Spec.readSeriesMeta, hfooter]
  simp only [bind, Option.bind]
  have hkind : L.root.toSpec.kind = 1 := by rw [L.root_eq]; rfl
  rw [if_pos hkind]
  have hfind := devEntries_find L.order _ d L.at_nodes
  have hroot : L.root.toSpec.entries = (devEntries ((fileBytes env groups).length + 1
      + (metaBytes env L.tsm).length) L.order).map IndexEntry.toSpec := by rw [L.root_eq]; rfl
  rw [hroot]
  cases hfd : ((devEntries ((fileBytes env groups).length + 1
      + (metaBytes env L.tsm).length) L.order).map IndexEntry.toSpec).find? (fun e => e.name = d) with
  | none =>
    rw [hfd] at hfind
    simp only at hfind
    left
    refine ⟨?_, rfl⟩
    by_contra hne
    obtain ⟨l, hl, _⟩ := L.rep.all d m hne
    exact hfind ((L.order_keys ho d).2 (List.mem_map.2 ⟨_, hl, rfl⟩))
  | some e =>
    rw [hfd] at hfind
    simp only at hfind ⊢
    obtain ⟨node, hnode, hat⟩ := hfind
    obtain ⟨q, l, hl, rfl, hatl⟩ := devNodes_mem L.tsm _ L.at_meta ((L.order_mem ho).1 hnode)
    have hlf := L.rep.few _ hl
    simp only at hlf
    -- the device node
    obtain ⟨post, hdrop⟩ := hat.drop
    have hrn : readNode F e.offset = some (leafNode env q l).toSpec := by
      rw [readNode, hdrop, pNode_serialize]
      · rfl
      · simp only [leafNode, length_leafEntries]; omega
      · intro x hx
        obtain ⟨⟨t, ht, hxn⟩, h2⟩ := leafEntries_bound _ _ l 0 q x hx
        obtain ⟨ms, s, h3, h4, _⟩ := L.rep.mem _ hl t ht
        have := hatl.le
        exact ⟨by rw [hxn]; exact (hsch.names _ (look_mem h3)).2 _ (look_mem h4), by omega⟩
      · have := hatl.le
        simp only [leafNode]
        omega
    rw [hrn]
    simp only
    have hpos : ∃ n, F.length = n + 1 := ⟨F.length - 1, by
      have := L.at_file.le
      simp only [fileBytes, magic, List.length_append, List.length_cons, List.length_nil] at this
      omega⟩
    obtain ⟨n, hn⟩ := hpos
    rw [hn, locate]
    have hent : (leafNode env q l).toSpec.entries = (leafEntries TimeSeriesMetadata.measurementId
        (TimeSeriesMetadata.serialize env) 0 q l).map IndexEntry.toSpec := rfl
    have hend : (leafNode env q l).toSpec.endOffset = q + (l.flatMap (TimeSeriesMetadata.serialize env)).length := rfl
    have hk : (leafNode env q l).toSpec.kind = 3 := rfl
    rw [hent, hend, hk]
    have hlu : ∀ l', (d, l') ∈ L.tsm → l' = l := by
      intro l' hl'
      have h1 := BMap.get?_of_mem L.rep.sorted hl'
      have h2 := BMap.get?_of_mem L.rep.sorted hl
      rw [h1] at h2
      exact Option.some.inj h2
    rcases select_leafNode TimeSeriesMetadata.measurementId (TimeSeriesMetadata.serialize env) m l q
      (L.rep.names _ hl) with ⟨hsel, hno⟩ | ⟨a, seg, b, hsplit, hsel, hin⟩
    · rw [hsel]
      left
      refine ⟨?_, rfl⟩
      by_contra hne
      obtain ⟨l', hl', t, ht, htm⟩ := L.rep.all d m hne
      rw [hlu l' hl'] at ht
      exact hno t ht htm
    · rw [hsel]
      simp only [if_true]
      have hats : At F (q + (a.flatMap (TimeSeriesMetadata.serialize env)).length)
          (seg.flatMap (TimeSeriesMetadata.serialize env)) := by
        rw [hsplit] at hatl
        simp only [List.flatMap_append] at hatl
        exact hatl.left.right
      rw [hats.slice]
      have hsub : ∀ t ∈ seg, t ∈ l := by intro t ht; rw [hsplit]; simp [ht]
      -- parse the segment
      have hpa : ∃ f : TimeSeriesMetadata → SeriesMeta, pAll pSeriesMeta
          (seg.flatMap (TimeSeriesMetadata.serialize env)) = some (seg.map f)
          ∧ ∀ t ∈ seg, (f t).measurement = t.measurementId ∧ ∃ ms s, look d schema = some ms
            ∧ look t.measurementId ms = some s ∧ locsOf env groups d t.measurementId ≠ []
            ∧ f t = seriesMeta env t.measurementId s.dataType (locsOf env groups d t.measurementId) := by
        refine ⟨fun t => ((pSeriesMeta (t.serialize env)).map Prod.fst).getD
          (seriesMeta env [] .INT32 []), ?_, ?_⟩
        · apply pAll_flatMap
          · intro t ht r
            obtain ⟨sm, _, h2, _⟩ := hparse _ hl t (hsub t ht)
            have := h2 []
            rw [List.append_nil] at this
            rw [h2 r, this]
            rfl
          · intro t _
            exact tsOf_serialize_ne_nil env t
        · intro t ht
          obtain ⟨sm, h1, h2, h3⟩ := hparse _ hl t (hsub t ht)
          have := h2 []
          rw [List.append_nil] at this
          simp only [this]
          exact ⟨h1, h3⟩
      obtain ⟨f, hpa, hf⟩ := hpa
      rw [hpa]
      simp only
      by_cases hne : locsOf env groups d m = []
      · left
        refine ⟨hne, ?_⟩
        congr 1
        rw [List.find?_eq_none]
        intro x hx
        obtain ⟨t, ht, rfl⟩ := List.mem_map.1 hx
        obtain ⟨h1, ms, s, _, _, h2, _⟩ := hf t ht
        simp only [decide_eq_true_eq]
        intro hc
        rw [h1] at hc
        rw [hc] at h2
        exact h2 hne
      · right
        obtain ⟨l', hl', t, ht, htm⟩ := L.rep.all d m hne
        rw [hlu l' hl'] at ht
        have hts := hin t ht htm
        have hfind : ∃ t', t' ∈ seg ∧ t'.measurementId = m
            ∧ (seg.map f).find? (fun s => decide (s.measurement = m)) = some (f t') := by
          cases hfi : (seg.map f).find? (fun s => decide (s.measurement = m)) with
          | none =>
            rw [List.find?_eq_none] at hfi
            have := hfi (f t) (List.mem_map.2 ⟨t, hts, rfl⟩)
            simp only [decide_eq_true_eq] at this
            exact absurd (by rw [(hf t hts).1, htm]) this
          | some x =>
            have h1 := List.find?_some hfi
            obtain ⟨t', ht', rfl⟩ := List.mem_map.1 (List.mem_of_find?_eq_some hfi)
            simp only [decide_eq_true_eq] at h1
            exact ⟨t', ht', by rw [← (hf t' ht').1]; exact h1, rfl⟩
        obtain ⟨t', ht', htm', hfi⟩ := hfind
        obtain ⟨_, ms, s, h1, h2, _, h3⟩ := hf t' ht'
        rw [htm'] at h2 h3
        exact ⟨ms, s, hne, h1, h2, by rw [hfi, h3]⟩

end

end TsFile
