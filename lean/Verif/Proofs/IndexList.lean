import Verif.Proofs.ReadData
import Verif.Spec.Structure
/-! # Listing the whole index, and the chunks with their positions -/

namespace TsFile
open Spec

section
variable {env : Env} {unsnap : Bytes → Option Bytes} {schema : Schema} {groups : List GGroup}
  {paths : List Bytes} {F : Bytes}

/-- The metadata of a series, as parsed. -/
theorem Layout.parseSeries (hsch : schema.Indexable) (hok : GroupsOk env unsnap schema groups)
    (L : Layout env schema groups paths F) (hf : Fits env L) {e : Bytes × List TimeSeriesMetadata} (he : e ∈ L.tsm)
    {t : TimeSeriesMetadata} (ht : t ∈ e.2) :
    ∃ ms s, look e.1 schema = some ms ∧ look t.measurementId ms = some s
      ∧ locsOf env groups e.1 t.measurementId ≠ []
      ∧ ∀ r, pSeriesMeta (t.serialize env ++ r)
        = some (seriesMeta env t.measurementId s.dataType (locsOf env groups e.1 t.measurementId), r) := by
  obtain ⟨ms, s, h1, h2, h3, h4⟩ := L.rep.mem e he t ht
  refine ⟨ms, s, h1, h2, h3, ?_⟩
  have hbuf := hf.metas e he t ht
  rw [h4] at hbuf
  have hlocs : ∀ l ∈ locsOf env groups e.1 t.measurementId, l.2.ms.dataType = s.dataType ∧ l.1 < 2 ^ 64 := by
    intro l hl
    obtain ⟨hl1, hl2⟩ := locsOf_mem hl
    obtain ⟨g, hg, hg1, hg2⟩ := fileLocs_mem hl1
    obtain ⟨ms', q1, q2⟩ := hok.weaken g hg
    simp only at hg1 hg2
    rw [hg1, h1] at q1
    cases q1
    have := q2 _ hg2
    rw [hl2, h2] at this
    cases this
    refine ⟨rfl, ?_⟩
    have h3 := (fileLocs_at hl1).le
    have h4 := L.at_file.le
    have := hf.file
    simp only at h3
    omega
  have := pSeriesMeta_serialize env t.measurementId s.dataType (locsOf env groups e.1 t.measurementId)
    ((hsch.names _ (look_mem h1)).2 _ (look_mem h2)) hbuf (fun l hl => (hlocs l hl).1) (fun l hl => (hlocs l hl).2)
  rw [← h4] at this
  exact this

/-- The node of a device, as read. -/
theorem Layout.readDevNode (hsch : schema.Indexable) (L : Layout env schema groups paths F) (hf : Fits env L)
    {d : Bytes} {l : List TimeSeriesMetadata} (hl : (d, l) ∈ L.tsm) {q o : Nat}
    (hatl : At F q (l.flatMap (TimeSeriesMetadata.serialize env))) (hat : At F o (leafNode env q l).serialize) :
    readNode F o = some (leafNode env q l).toSpec := by
  have hlf := L.rep.few _ hl
  have hFlen := hf.file
  simp only at hlf
  obtain ⟨post, hdrop⟩ := hat.drop
  rw [readNode, hdrop, pNode_serialize]
  · rfl
  · simp only [leafNode, length_leafEntries]; omega
  · intro x hx
    obtain ⟨⟨t, ht, hxn⟩, h2⟩ := leafEntries_bound _ _ l 0 q x hx
    obtain ⟨ms, s, h3, h4, _⟩ := L.rep.mem _ hl t ht
    have := hatl.le
    exact ⟨by rw [hxn]; exact (hsch.names _ (look_mem h3)).2 _ (look_mem h4), by omega⟩
  · have := hatl.le
    simp only [leafNode]
    omega

/-- The names in a leaf node are some of the names, in order. -/
theorem leafEntries_sublist {α : Type} (name bytes : α → Bytes) (l : List α) (i p : Nat) :
    ((leafEntries name bytes i p l).map IndexEntry.name).Sublist (l.map name) := by
  induction l generalizing i p with
  | nil => exact List.Sublist.refl _
  | cons t l ih =>
    rw [leafEntries]
    split
    · exact List.Sublist.cons_cons _ (ih _ _)
    · exact List.Sublist.cons _ (ih _ _)

theorem leafEntries_head {α : Type} (name bytes : α → Bytes) (t : α) (l : List α) (p : Nat) :
    ∃ es, leafEntries name bytes 0 p (t :: l) = ⟨name t, p⟩ :: es := by
  rw [leafEntries]
  exact ⟨_, by rw [if_pos (by decide)]; rfl⟩

/-- What the index says about one device. -/
structure DevOk (env : Env) (schema : Schema) (groups : List GGroup) (tsm : BMap (List TimeSeriesMetadata))
    (x : Bytes × List SeriesMeta) : Prop where
  ex : ∃ l, (x.1, l) ∈ tsm ∧ x.2.map SeriesMeta.measurement = l.map TimeSeriesMetadata.measurementId
  mem : ∀ sm ∈ x.2, ∃ ms s, look x.1 schema = some ms ∧ look sm.measurement ms = some s
    ∧ locsOf env groups x.1 sm.measurement ≠ []
    ∧ sm = seriesMeta env sm.measurement s.dataType (locsOf env groups x.1 sm.measurement)

theorem Layout.nodeSeries (hsch : schema.Indexable) (hok : GroupsOk env unsnap schema groups)
    (L : Layout env schema groups paths F) (hf : Fits env L) {d : Bytes} {l : List TimeSeriesMetadata}
    (hl : (d, l) ∈ L.tsm) {q : Nat} (hatl : At F q (l.flatMap (TimeSeriesMetadata.serialize env))) :
    ∃ metas, nodeSeries F (leafNode env q l).toSpec = some metas ∧ DevOk env schema groups L.tsm (d, metas) := by
  have hne := L.rep.ne _ hl
  simp only at hne
  have hpa : ∃ f : TimeSeriesMetadata → SeriesMeta, pAll pSeriesMeta
      (l.flatMap (TimeSeriesMetadata.serialize env)) = some (l.map f)
      ∧ ∀ t ∈ l, (f t).measurement = t.measurementId ∧ ∃ ms s, look d schema = some ms
        ∧ look t.measurementId ms = some s ∧ locsOf env groups d t.measurementId ≠ []
        ∧ f t = seriesMeta env t.measurementId s.dataType (locsOf env groups d t.measurementId) := by
    refine ⟨fun t => ((pSeriesMeta (t.serialize env)).map Prod.fst).getD (seriesMeta env [] .INT32 []), ?_, ?_⟩
    · apply pAll_flatMap
      · intro t ht r
        obtain ⟨ms, s, h1, h2, h3, h4⟩ := L.parseSeries hsch hok hf hl ht
        have := h4 []
        rw [List.append_nil] at this
        rw [h4 r, this]
        rfl
      · intro t _
        exact tsOf_serialize_ne_nil env t
    · intro t ht
      obtain ⟨ms, s, h1, h2, h3, h4⟩ := L.parseSeries hsch hok hf hl ht
      have := h4 []
      rw [List.append_nil] at this
      simp only [this]
      exact ⟨rfl, ms, s, h1, h2, h3, rfl⟩
  obtain ⟨f, hpa, hfs⟩ := hpa
  refine ⟨l.map f, ?_, ⟨l, hl, ?_⟩, ?_⟩
  · obtain ⟨t, l', rfl⟩ : ∃ t l', l = t :: l' := by cases l with
      | nil => exact absurd rfl hne
      | cons t l' => exact ⟨t, l', rfl⟩
    obtain ⟨es, hes⟩ := leafEntries_head TimeSeriesMetadata.measurementId (TimeSeriesMetadata.serialize env) t l' q
    have hent : (leafNode env q (t :: l')).toSpec.entries
        = IndexEntry.toSpec ⟨t.measurementId, q⟩ :: es.map IndexEntry.toSpec := by
      show ((leafEntries TimeSeriesMetadata.measurementId (TimeSeriesMetadata.serialize env) 0 q (t :: l')).map
        IndexEntry.toSpec) = _
      rw [hes]; rfl
    rw [Spec.nodeSeries, hent]
    simp only
    rw [if_pos (by rfl), toSpec_mk]
    have : (leafNode env q (t :: l')).toSpec.endOffset
      = q + ((t :: l').flatMap (TimeSeriesMetadata.serialize env)).length := rfl
    rw [this, hatl.slice, hpa]
  · simp only [List.map_map]
    exact List.map_congr_left (fun t ht => (hfs t ht).1)
  · intro sm hsm
    obtain ⟨t, ht, rfl⟩ := List.mem_map.1 hsm
    obtain ⟨h1, ms, s, h2, h3, h4, h5⟩ := hfs t ht
    rw [h1]
    exact ⟨ms, s, h2, h3, h4, h5⟩

theorem Layout.entriesSeries (hsch : schema.Indexable) (hok : GroupsOk env unsnap schema groups)
    (L : Layout env schema groups paths F) (hf : Fits env L) (order : List (Bytes × IndexNode))
    (hmem : ∀ x ∈ order, x ∈ devNodes env ((fileBytes env groups).length + 1) L.tsm) (p : Nat)
    (hF : At F p (order.flatMap (fun e => e.2.serialize))) :
    ∃ idx, entriesSeries F ((devEntries p order).map IndexEntry.toSpec) = some idx
      ∧ idx.map Prod.fst = order.map Prod.fst ∧ ∀ x ∈ idx, DevOk env schema groups L.tsm x := by
  induction order generalizing p with
  | nil => exact ⟨[], rfl, rfl, by simp⟩
  | cons e order ih =>
    obtain ⟨d, node⟩ := e
    rw [List.flatMap_cons] at hF
    obtain ⟨q, l, hl, rfl, hatl⟩ := devNodes_mem L.tsm _ L.at_meta (hmem (d, node) (by simp))
    obtain ⟨idx, h1, h2, h3⟩ := ih (fun x hx => hmem x (by simp [hx])) _ hF.right
    obtain ⟨metas, h4, h5⟩ := L.nodeSeries hsch hok hf hl hatl
    refine ⟨(d, metas) :: idx, ?_, by simp [h2], ?_⟩
    · simp only [devEntries, List.map_cons, toSpec_mk, Spec.entriesSeries]
      rw [L.readDevNode hsch hf hl hatl hF.left]
      simp only [bind, Option.bind, h4, h1]
    · intro x hx
      rcases List.mem_cons.1 hx with rfl | hx
      · exact h5
      · exact h3 x hx

theorem tsm_nodup {tsm : BMap (List TimeSeriesMetadata)} (h : BMap.Sorted tsm) : (tsm.map Prod.fst).Nodup := by
  rw [List.nodup_iff_pairwise_ne, List.pairwise_map]
  exact List.Pairwise.imp (fun hab => bytesLt_ne hab) h

/-- The whole index. -/
theorem Layout.listIndex (hsch : schema.Indexable) (ho : HashOrderOk env) (hok : GroupsOk env unsnap schema groups)
    (L : Layout env schema groups paths F) (hf : Fits env L) :
    ∃ idx, listIndex F = some idx ∧ (idx.map Prod.fst).Perm (L.tsm.map Prod.fst)
      ∧ ∀ x ∈ idx, DevOk env schema groups L.tsm x := by
  obtain ⟨bits, _, hfooter⟩ := L.readFooter hsch ho hf
  obtain ⟨idx, h1, h2, h3⟩ := L.entriesSeries hsch hok hf L.order (fun x hx => (L.order_mem ho).1 hx) _ L.at_nodes
  refine ⟨idx, ?_, ?_, h3⟩
  · rw [Spec.listIndex, hfooter]
    simp only [bind, Option.bind]
    have hkind : L.root.toSpec.kind = 1 := by rw [L.root_eq]; rfl
    rw [if_pos hkind]
    have hroot : L.root.toSpec.entries = (devEntries ((fileBytes env groups).length + 1
        + (metaBytes env L.tsm).length) L.order).map IndexEntry.toSpec := by rw [L.root_eq]; rfl
    rw [hroot, h1]
  · rw [h2, ← devNodes_keys env L.tsm ((fileBytes env groups).length + 1), L.order_eq]
    exact (ho _).map Prod.fst

/-- The nodes of the index. -/
theorem Layout.nodes (hsch : schema.Indexable) (ho : HashOrderOk env)
    (L : Layout env schema groups paths F) (hf : Fits env L) :
    ∃ footer, Spec.readFooter F = some footer
      ∧ footer.root.entries.map Entry.name = L.order.map Prod.fst
      ∧ ∀ e ∈ footer.root.entries, ∃ node, readNode F e.offset = some node ∧ node.kind = 3
        ∧ (node.entries.map Entry.name).Pairwise (· < ·) := by
  obtain ⟨bits, _, hfooter⟩ := L.readFooter hsch ho hf
  refine ⟨_, hfooter, ?_, ?_⟩
  · have hroot : L.root.toSpec.entries = (devEntries ((fileBytes env groups).length + 1
        + (metaBytes env L.tsm).length) L.order).map IndexEntry.toSpec := by rw [L.root_eq]; rfl
    simp only [hroot]
    generalize (fileBytes env groups).length + 1 + (metaBytes env L.tsm).length = p
    generalize L.order = o
    induction o generalizing p with
    | nil => rfl
    | cons e o ih => obtain ⟨d, n⟩ := e; simp only [devEntries, List.map_cons, ih, toSpec_mk]
  · have hroot : L.root.toSpec.entries = (devEntries ((fileBytes env groups).length + 1
        + (metaBytes env L.tsm).length) L.order).map IndexEntry.toSpec := by rw [L.root_eq]; rfl
    simp only [hroot]
    have hgen : ∀ (order : List (Bytes × IndexNode)) (p : Nat),
        (∀ x ∈ order, x ∈ devNodes env ((fileBytes env groups).length + 1) L.tsm) →
        At F p (order.flatMap (fun e => e.2.serialize)) →
        ∀ e ∈ (devEntries p order).map IndexEntry.toSpec, ∃ node, readNode F e.offset = some node ∧ node.kind = 3
          ∧ (node.entries.map Entry.name).Pairwise (· < ·) := by
      intro order
      induction order with
      | nil => intro p _ _ e he; simp [devEntries] at he
      | cons e order ih =>
        obtain ⟨d, node⟩ := e
        intro p hmem hF e he
        rw [List.flatMap_cons] at hF
        simp only [devEntries, List.map_cons, List.mem_cons, toSpec_mk] at he
        rcases he with rfl | he
        · obtain ⟨q, l, hl, rfl, hatl⟩ := devNodes_mem L.tsm _ L.at_meta (hmem (d, node) (by simp))
          refine ⟨_, L.readDevNode hsch hf hl hatl hF.left, rfl, ?_⟩
          have h1 := leafEntries_sublist TimeSeriesMetadata.measurementId (TimeSeriesMetadata.serialize env) l 0 q
          have h2 : (l.map TimeSeriesMetadata.measurementId).Pairwise (· < ·) :=
            List.pairwise_map.2 (L.rep.names _ hl)
          have h3 := h2.sublist h1
          have h4 : (leafNode env q l).toSpec.entries.map Entry.name = (leafEntries TimeSeriesMetadata.measurementId
              (TimeSeriesMetadata.serialize env) 0 q l).map IndexEntry.name := by
            show ((leafEntries TimeSeriesMetadata.measurementId (TimeSeriesMetadata.serialize env) 0 q l).map
              IndexEntry.toSpec).map Entry.name = _
            rw [List.map_map]; rfl
          rw [h4]
          exact h3
        · exact ih _ (fun x hx => hmem x (by simp [hx])) hF.right e he
    exact hgen L.order _ (fun x hx => (L.order_mem ho).1 hx) L.at_nodes

/-! ## Chunks and their positions -/

theorem drop_rest {F b r : Bytes} {pos : Nat} (h : F.drop pos = b ++ r) (hb : b ≠ []) :
    F.length - r.length = pos + b.length ∧ F.drop (pos + b.length) = r := by
  have hl := congrArg List.length h
  have := List.length_pos_iff.2 hb
  simp only [List.length_drop, List.length_append] at hl
  refine ⟨by omega, ?_⟩
  rw [← List.drop_drop, h, List.drop_left]

theorem chunksFrom_chunks (cs : List GChunk) (d r : Bytes) (items : List (Bytes × Nat × Chunk)) (k : Nat)
    (h : ∀ c ∈ cs, c.name.length < 2 ^ 31 ∧ c.Ok env unsnap
      ∧ (pagesBytes env c.ms.dataType c.pages).length < 2 ^ 32) (pos : Nat)
    (hF : F.drop pos = cs.flatMap (GChunk.bytes env) ++ r)
    (hr : ∀ fuel, k ≤ fuel → chunksFrom unsnap F fuel (pos + (cs.flatMap (GChunk.bytes env)).length) (some d) = some items) :
    ∀ fuel, k + (cs.flatMap (GChunk.bytes env)).length ≤ fuel →
      chunksFrom unsnap F fuel pos (some d)
        = some ((chunkLocs env pos cs).map (fun l => (d, l.1, l.2.toSpec env)) ++ items) := by
  induction cs generalizing pos with
  | nil => intro fuel hf; simpa [chunkLocs] using hr fuel (by simpa using hf)
  | cons c cs ih =>
    intro fuel hf
    obtain ⟨h1, h2, h3⟩ := h c (by simp)
    rw [List.flatMap_cons, List.append_assoc] at hF
    have hp := pChunk_bytes (env := env) c h2 h1 h3 (cs.flatMap (GChunk.bytes env) ++ r)
    obtain ⟨b, hb⟩ := chunk_bytes_cons (env := env) c
    obtain ⟨hd1, hd2⟩ := drop_rest hF (by rw [hb]; simp)
    rw [List.flatMap_cons, List.length_append] at hf
    have hbl : 1 ≤ (c.bytes env).length := by rw [hb]; simp
    obtain ⟨f, rfl⟩ : ∃ f, fuel = f + 1 := ⟨fuel - 1, by omega⟩
    have hm2 : (if c.pages.length ≤ 1 then (5 : UInt8) else 1) ≠ 2 := by split <;> decide
    have hm0 : (if c.pages.length ≤ 1 then (5 : UInt8) else 1) ≠ 0 := by split <;> decide
    have hhead : (F.drop pos).head? = some (if c.pages.length ≤ 1 then (5 : UInt8) else 1) := by
      rw [hF, hb]; rfl
    rw [chunksFrom, hhead]
    dsimp only
    rw [if_neg hm2, if_neg hm0, hF, hp]
    simp only
    rw [hd1, ih (fun x hx => h x (by simp [hx])) _ hd2 (by
      intro fuel hfu
      rw [Nat.add_assoc, ← List.length_append, ← List.flatMap_cons]
      exact hr fuel hfu) f (by omega)]
    simp [chunkLocs]

theorem chunksFrom_groups (gs : List GGroup) (r : Bytes)
    (h : ∀ g ∈ gs, g.1.length < 2 ^ 31 ∧ ∀ c ∈ g.2, c.name.length < 2 ^ 31 ∧ c.Ok env unsnap
      ∧ (pagesBytes env c.ms.dataType c.pages).length < 2 ^ 32) (pos : Nat) (cur : Option Bytes)
    (hF : F.drop pos = gs.flatMap (groupBytes env) ++ 2 :: r) :
    ∀ fuel, 1 + (gs.flatMap (groupBytes env)).length ≤ fuel →
      chunksFrom unsnap F fuel pos cur
        = some ((fileLocs env pos gs).map (fun l => (l.1, l.2.1, l.2.2.toSpec env))) := by
  induction gs generalizing pos cur with
  | nil =>
    intro fuel hf
    obtain ⟨f, rfl⟩ : ∃ f, fuel = f + 1 := ⟨fuel - 1, by simp at hf; omega⟩
    have : (F.drop pos).head? = some 2 := by rw [hF]; rfl
    rw [chunksFrom.eq_def]
    dsimp only
    rw [this]
    simp [fileLocs]
  | cons g gs ih =>
    intro fuel hf
    obtain ⟨h1, h2⟩ := h g (by simp)
    rw [List.flatMap_cons, List.append_assoc] at hF
    obtain ⟨_, hd2⟩ := drop_rest hF (by simp [groupBytes, chunkGroupHeader])
    have hhead : (F.drop pos).head? = some 0 := by rw [hF]; rfl
    rw [List.flatMap_cons, List.length_append] at hf
    rw [groupBytes, List.append_assoc] at hF
    have hne : chunkGroupHeader g.1 ≠ [] := by simp [chunkGroupHeader]
    obtain ⟨he1, he2⟩ := drop_rest hF hne
    have hgl : (groupBytes env g).length = (chunkGroupHeader g.1).length + (g.2.flatMap (GChunk.bytes env)).length := by
      simp [groupBytes]
    have hhl : 1 ≤ (chunkGroupHeader g.1).length := List.length_pos_iff.2 hne
    obtain ⟨f, rfl⟩ : ∃ f, fuel = f + 1 := ⟨fuel - 1, by omega⟩
    rw [chunksFrom.eq_def]
    dsimp only
    rw [hhead]
    dsimp only
    rw [if_neg (by decide), if_pos rfl, ← List.drop_drop, hF, chunkGroupHeader]
    simp only [List.append_assoc, List.cons_append, List.nil_append, List.drop_succ_cons, List.drop_zero]
    rw [pStr_writeStr _ h1]
    simp only
    rw [he1]
    rw [chunksFrom_chunks g.2 g.1 _ ((fileLocs env (pos + (groupBytes env g).length) gs).map
        (fun l => (l.1, l.2.1, l.2.2.toSpec env))) (1 + (gs.flatMap (groupBytes env)).length) h2 _ he2 (by
      intro fuel hfu
      rw [Nat.add_assoc, ← hgl]
      exact ih (fun x hx => h x (by simp [hx])) _ _ hd2 fuel hfu) f (by omega)]
    simp [fileLocs, Function.comp_def]

/-- The chunks of a closed file and their positions. -/
theorem Layout.chunksOf (hsch : schema.Indexable) (hok : GroupsOk env unsnap schema groups)
    (L : Layout env schema groups paths F) (hf : Fits env L) :
    Spec.chunksOf unsnap F = some ((fileLocs env 7 groups).map (fun l => (l.1, l.2.1, l.2.2.toSpec env))) := by
  have hb := L.bytes
  have hlen : F.length = _ := congrArg List.length hb
  have hdrop : F.drop 7 = groups.flatMap (groupBytes env) ++ 2 :: (metaBytes env L.tsm
      ++ (L.order.flatMap (fun e => e.2.serialize)
      ++ (footerBytes L.root (fileBytes env groups).length L.bloom
        ++ (be32 (u32 (footerBytes L.root (fileBytes env groups).length L.bloom).length) ++ magic)))) := by
    conv_lhs => rw [hb]
    rfl
  rw [Spec.chunksOf]
  refine chunksFrom_groups groups _ ?_ 7 none hdrop _ ?_
  · intro g hg
    have := hok.names hsch.toNamed g hg
    exact ⟨this.1, fun c hc => ⟨(this.2 c hc).1, (this.2 c hc).2, hf.chunks g hg c hc⟩⟩
  · rw [hlen]
    simp only [List.length_append, fileBytes]
    simp only [List.length_cons, List.length_nil]
    omega

end

end TsFile
