import Verif.Proofs.CloseAny
/-! # The nodes of the index for one isolated device -/

namespace TsFile
open Spec

theorem devEntries_mem {F : Bytes} (order : List (Bytes × IndexNode)) (p : Nat)
    (hF : At F p (order.flatMap (fun e => e.2.serialize))) :
    ∀ e ∈ (devEntries p order).map IndexEntry.toSpec, ∃ node, (e.name, node) ∈ order ∧ At F e.offset node.serialize := by
  induction order generalizing p with
  | nil => intro e he; simp [devEntries] at he
  | cons x order ih =>
    obtain ⟨d, node⟩ := x
    intro e he
    rw [List.flatMap_cons] at hF
    simp only [devEntries, List.map_cons, List.mem_cons, toSpec_mk] at he
    rcases he with rfl | he
    · exact ⟨node, by simp, hF.left⟩
    · obtain ⟨n, h1, h2⟩ := ih _ hF.right e he
      exact ⟨n, by simp [h1], h2⟩

section
variable {env : Env} {unsnap : Bytes → Option Bytes} {schema : Schema} {D : Bytes} {locs : List ChunkLoc}
  {paths : List Bytes} {F : Bytes}

/-- The metadata of a series of a device, as parsed. -/
theorem Sparse.parseSeries {d : Bytes} (hn : schema.Named) (hok : LocsOk env unsnap schema D locs)
    (L : Sparse env D locs paths F) (hf : L.Fits) {l : List TimeSeriesMetadata} (hrep : DeviceRep env schema locs d l)
    (hl : (d, l) ∈ L.tsm) {t : TimeSeriesMetadata} (ht : t ∈ l) :
    ∃ sm : SeriesMeta, sm.measurement = t.measurementId ∧ ∀ r, pSeriesMeta (t.serialize env ++ r) = some (sm, r) := by
  have hFlen := hf.file
  have hfile := L.at_meta.le
  obtain ⟨ms, s, h1, h2, hnd, h3, h4⟩ := hrep.mem t ht
  refine ⟨seriesMeta env t.measurementId s.dataType (locsIn locs d t.measurementId), rfl, ?_⟩
  have hlocs : ∀ l ∈ locsIn locs d t.measurementId, l.2.ms.dataType = s.dataType ∧ l.1 < 2 ^ 64 := by
    intro l hl
    obtain ⟨hl1, hl2⟩ := locsIn_mem hl
    obtain ⟨ms', q1, q2, _, hat⟩ := hok _ hl1
    simp only at q1 q2 hat
    rw [h1] at q1
    cases q1
    rw [hl2, h2] at q2
    cases q2
    refine ⟨rfl, ?_⟩
    have h3 := hat.le
    simp only [List.length_append] at h3 hfile
    omega
  have hbuf : t.buffer.length < 2 ^ 32 := by
    have h1 := mem_flatMap_length (fun e : Bytes × List TimeSeriesMetadata =>
      e.2.flatMap (fun t => t.serialize env)) L.tsm hl
    have h2 := mem_flatMap_length (fun t : TimeSeriesMetadata => t.serialize env) l ht
    have h3 : t.buffer.length ≤ (t.serialize env).length := by
      simp only [TimeSeriesMetadata.serialize, List.length_append]; omega
    have h4 : (metaBytes env L.tsm).length = (L.tsm.flatMap (fun e : Bytes × List TimeSeriesMetadata =>
      e.2.flatMap (fun t => t.serialize env))).length := rfl
    have h5 := hf.mid
    simp only at h1 h2
    rw [L.mid_eq, List.length_append] at h5
    omega
  rw [h4] at hbuf
  have := pSeriesMeta_serialize env t.measurementId s.dataType (locsIn locs d t.measurementId)
    ((hn.names _ (look_mem h1)).2 _ (look_mem h2)) hbuf (fun l hl => (hlocs l hl).1) (fun l hl => (hlocs l hl).2)
  rw [← h4] at this
  exact this

/-- The node of an isolated device, and the series below it. -/
theorem Sparse.deviceNode {d : Bytes} (hsch : schema.IndexableAt d) (hok : LocsOk env unsnap schema D locs)
    (L : Sparse env D locs paths F) (hf : L.Fits) :
    ∃ footer, Spec.readFooter F = some footer ∧ footer.root.kind = 1 ∧ (footer.root.entries.map Entry.name).Nodup
      ∧ (d ∈ footer.root.entries.map Entry.name ↔ ∃ m, NoDot m ∧ locsIn locs d m ≠ [])
      ∧ ∀ e ∈ footer.root.entries, e.name = d → ∃ node metas, readNode F e.offset = some node ∧ node.kind = 3
        ∧ (node.entries.map Entry.name).Pairwise (· < ·)
        ∧ Spec.nodeSeries F node = some metas
        ∧ (metas.map SeriesMeta.measurement).Pairwise (· < ·)
        ∧ ∀ m, m ∈ metas.map SeriesMeta.measurement ↔ NoDot m ∧ locsIn locs d m ≠ [] := by
  obtain ⟨bits, _, hfooter⟩ := L.readFooter hf
  obtain ⟨htsorted, htne, l, hrep, hl⟩ := L.device hok hsch.isolated
  have hFlen := hf.file
  have hkind : L.root.toSpec.kind = 1 := by
    show L.root.nodeType.serialize = 1
    rw [L.kind]
    rfl
  have hroot : L.root.toSpec.entries = (devEntries (D ++ [2] ++ metaBytes env L.tsm).length
      L.order).map IndexEntry.toSpec := by rw [← L.entries]; rfl
  have hnames : L.root.toSpec.entries.map Entry.name = L.order.map Prod.fst := by
    rw [hroot, List.map_map]
    exact devEntries_names _ _
  have hkeys : (L.order.map Prod.fst).Perm (L.tsm.map Prod.fst) := by
    obtain ⟨out, map, h1, h2⟩ := devicesLoop_any env L.tsm (D ++ [2]) htne
    rw [L.nodes_eq] at h1
    simp only [Option.some.injEq, Prod.mk.injEq] at h1
    rw [← h2, ← h1.2]
    exact L.order_perm.map _
  obtain ⟨hnodes, _⟩ := devicesLoop_mem L.tsm _ L.nodes_eq L.at_meta
  refine ⟨_, hfooter, hkind, ?_, ?_, ?_⟩
  · show (L.root.toSpec.entries.map Entry.name).Nodup
    rw [hnames, hkeys.nodup_iff]
    exact htsorted.nodup
  · show d ∈ L.root.toSpec.entries.map Entry.name ↔ _
    rw [hnames, hkeys.mem_iff]
    constructor
    · intro hd
      rcases hl with ⟨_, h0⟩ | ⟨h0, _⟩
      · exact absurd hd h0
      · obtain ⟨t, ht⟩ := List.exists_mem_of_ne_nil _ h0
        obtain ⟨_, _, _, _, h1, h2, _⟩ := hrep.mem t ht
        exact ⟨_, h1, h2⟩
    · rintro ⟨m, hm, hne⟩
      obtain ⟨t, ht, _⟩ := hrep.all m hm hne
      rcases hl with ⟨h0, _⟩ | ⟨_, h1⟩
      · rw [h0] at ht; simp at ht
      · exact List.mem_map.2 ⟨_, h1, rfl⟩
  · intro e he hed
    have he' : e ∈ L.root.toSpec.entries := he
    rw [hroot] at he'
    obtain ⟨node, hnode, hat⟩ := devEntries_mem L.order _ L.at_nodes e he'
    rw [hed] at hnode
    obtain ⟨l', pre, o, hl', hdi, hatl⟩ := hnodes d node (L.order_perm.mem_iff.1 hnode)
    have hin : (d, l) ∈ L.tsm := by
      rcases hl with ⟨_, h0⟩ | ⟨_, h1⟩
      · exact absurd (List.mem_map.2 ⟨_, hl', rfl⟩) h0
      · exact h1
    have hll : l' = l := by
      have h1 := BMap.get?_of_mem htsorted hl'
      have h2 := BMap.get?_of_mem htsorted hin
      rw [h1] at h2
      exact Option.some.inj h2
    subst hll
    have hlf := hrep.few hsch.few
    have hlne := htne _ hin
    simp only at hlne
    rw [deviceIndex_eq env pre l' hlf] at hdi
    simp only [Option.some.injEq, Prod.mk.injEq] at hdi
    obtain ⟨_, rfl⟩ := hdi
    generalize pre.length = q at hatl hat
    obtain ⟨post, hdrop⟩ := hat.drop
    have hrn : readNode F e.offset = some (leafNode env q l').toSpec := by
      rw [readNode, hdrop, pNode_serialize]
      · rfl
      · simp only [leafNode, length_leafEntries]; omega
      · intro x hx
        obtain ⟨⟨t, ht, hxn⟩, h2⟩ := leafEntries_bound _ _ l' 0 q x hx
        obtain ⟨ms, s, h3, h4, _⟩ := hrep.mem t ht
        have := hatl.le
        exact ⟨by rw [hxn]; exact (hsch.names _ (look_mem h3)).2 _ (look_mem h4), by omega⟩
      · have := hatl.le
        simp only [leafNode]
        omega
    have hasc : (l'.map TimeSeriesMetadata.measurementId).Pairwise (· < ·) := List.pairwise_map.2 hrep.names
    let f : TimeSeriesMetadata → SeriesMeta := fun t =>
      ((pSeriesMeta (t.serialize env)).map Prod.fst).getD (seriesMeta env [] .INT32 [])
    have hfm : ∀ t ∈ l', (f t).measurement = t.measurementId
        ∧ ∀ r, pSeriesMeta (t.serialize env ++ r) = some (f t, r) := by
      intro t ht
      obtain ⟨sm, h1, h2⟩ := L.parseSeries hsch.toNamed hok hf hrep hin ht
      have h3 : f t = sm := by
        have := h2 []
        rw [List.append_nil] at this
        simp only [f, this]
        rfl
      rw [h3]
      exact ⟨h1, h2⟩
    have hpa : pAll pSeriesMeta (l'.flatMap (TimeSeriesMetadata.serialize env)) = some (l'.map f) :=
      pAll_flatMap _ _ _ _ (fun t ht => (hfm t ht).2) (fun t _ => tsOf_serialize_ne_nil env t)
    have hmm : (l'.map f).map SeriesMeta.measurement = l'.map TimeSeriesMetadata.measurementId := by
      rw [List.map_map]
      exact List.map_congr_left (fun t ht => (hfm t ht).1)
    refine ⟨_, l'.map f, hrn, rfl, ?_, ?_, ?_, ?_⟩
    · have h1 := leafEntries_sublist TimeSeriesMetadata.measurementId (TimeSeriesMetadata.serialize env) l' 0 q
      have h4 : (leafNode env q l').toSpec.entries.map Entry.name = (leafEntries TimeSeriesMetadata.measurementId
          (TimeSeriesMetadata.serialize env) 0 q l').map IndexEntry.name := by
        show ((leafEntries TimeSeriesMetadata.measurementId (TimeSeriesMetadata.serialize env) 0 q l').map
          IndexEntry.toSpec).map Entry.name = _
        rw [List.map_map]; rfl
      rw [h4]
      exact hasc.sublist h1
    · clear_value f
      clear hmm hfm
      obtain ⟨t, l'', rfl⟩ : ∃ t l'', l' = t :: l'' := by
        cases l' with
        | nil => exact absurd rfl hlne
        | cons t l'' => exact ⟨t, l'', rfl⟩
      obtain ⟨es, hes⟩ := leafEntries_head TimeSeriesMetadata.measurementId (TimeSeriesMetadata.serialize env) t l'' q
      have hent : (leafNode env q (t :: l'')).toSpec.entries
          = IndexEntry.toSpec ⟨t.measurementId, q⟩ :: es.map IndexEntry.toSpec := by
        show ((leafEntries TimeSeriesMetadata.measurementId (TimeSeriesMetadata.serialize env) 0 q (t :: l'')).map
          IndexEntry.toSpec) = _
        rw [hes]; rfl
      rw [Spec.nodeSeries, hent]
      simp only
      rw [if_pos (by rfl), toSpec_mk]
      have : (leafNode env q (t :: l'')).toSpec.endOffset
        = q + ((t :: l'').flatMap (TimeSeriesMetadata.serialize env)).length := rfl
      rw [this, hatl.slice, hpa]
    · rw [hmm]; exact hasc
    · intro m
      rw [hmm]
      constructor
      · intro hm
        obtain ⟨t, ht, rfl⟩ := List.mem_map.1 hm
        obtain ⟨_, _, _, _, h1, h2, _⟩ := hrep.mem t ht
        exact ⟨h1, h2⟩
      · rintro ⟨hm, hne⟩
        obtain ⟨t, ht, htm⟩ := hrep.all m hm hne
        exact List.mem_map.2 ⟨t, ht, htm⟩

end

end TsFile
