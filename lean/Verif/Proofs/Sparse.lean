import Verif.Proofs.Main
import Verif.Proofs.IndexList
import Verif.Spec.Isolated
/-! # Closing a file whose data part may contain anything

`Layout` describes the whole file, for schemas whose index is correct. Here the data part `D` is arbitrary. Of it only the
places of the chunks are used which are listed in the metadata. Nothing is assumed about dots in names and the number of
series; the conditions for reading concern only the device that is read. -/

namespace TsFile
open Spec

theorem leafLoop_out (env : Env) (l : List TimeSeriesMetadata) (i : Nat) (s : LeafState) (b : Bytes)
    (h : s.out = ⟨b, none⟩) :
    (leafLoop env i s l).out = ⟨b ++ l.flatMap (TimeSeriesMetadata.serialize env), none⟩ := by
  induction l generalizing i s b with
  | nil => simpa [leafLoop] using h
  | cons t ts ih =>
    rw [leafLoop, List.flatMap_cons, ← List.append_assoc]
    apply ih
    by_cases hi : i % maxDegree = 0
    · by_cases hf : s.cur.isFull = true
      · simp [hi, hf, h, Sink.write]
      · simp [hi, hf, h, Sink.write]
    · simp [hi, h, Sink.write]

theorem deviceIndex_out {env : Env} {b : Bytes} {l : List TimeSeriesMetadata} {out : Sink} {n : IndexNode}
    (h : deviceIndex env ⟨b, none⟩ l = some (out, n)) :
    out = ⟨b ++ l.flatMap (TimeSeriesMetadata.serialize env), none⟩ := by
  rw [deviceIndex] at h
  simp only [Option.map_eq_some_iff, Prod.mk.injEq] at h
  obtain ⟨_, _, h, _⟩ := h
  rw [← h]
  exact leafLoop_out env l 0 _ b rfl

theorem devicesLoop_out {env : Env} (tsm : BMap (List TimeSeriesMetadata)) (b : Bytes) {out : Sink}
    {map : List (Bytes × IndexNode)} (h : devicesLoop env ⟨b, none⟩ tsm = some (out, map)) :
    out = ⟨b ++ metaBytes env tsm, none⟩ ∧ ∀ e ∈ map, e.1 ∈ tsm.map Prod.fst := by
  induction tsm generalizing b out map with
  | nil =>
    simp only [devicesLoop, Option.some.injEq, Prod.mk.injEq] at h
    obtain ⟨rfl, rfl⟩ := h
    simp [metaBytes]
  | cons e rest ih =>
    obtain ⟨d, l⟩ := e
    rw [devicesLoop] at h
    by_cases hl : l.isEmpty = true
    · rw [if_pos hl] at h
      obtain ⟨h1, h2⟩ := ih _ h
      have : l = [] := by simpa using hl
      subst this
      exact ⟨by simpa [metaBytes] using h1, fun e he => by simp [h2 e he]⟩
    · rw [if_neg hl] at h
      cases hd : deviceIndex env ⟨b, none⟩ l with
      | none => rw [hd] at h; simp at h
      | some r =>
        obtain ⟨o, n⟩ := r
        rw [hd] at h
        simp only at h
        rw [deviceIndex_out hd] at h
        split at h
        · simp at h
        · next o2 m hr =>
          simp only [Option.some.injEq, Prod.mk.injEq] at h
          obtain ⟨rfl, rfl⟩ := h
          obtain ⟨h1, h2⟩ := ih _ hr
          refine ⟨by simpa [metaBytes] using h1, fun e he => ?_⟩
          rcases List.mem_cons.1 he with rfl | he
          · simp
          · simp [h2 e he]

theorem flushIndexLoop_keys {env : Env} (cm : BMap (List ChunkMetadata)) (last : Option Bytes)
    (tsm : BMap (List TimeSeriesMetadata)) {tsm' : BMap (List TimeSeriesMetadata)}
    (h : IoWriter.flushIndexLoop env last cm tsm = some tsm') :
    ∀ e ∈ tsm', e.1 ∈ tsm.map Prod.fst ∨ ∃ p ∈ cm.map Prod.fst, e.1 = IoWriter.deviceOfPath p := by
  induction cm generalizing last tsm with
  | nil =>
    simp only [IoWriter.flushIndexLoop, Option.some.injEq] at h
    subst h
    exact fun e he => .inl (List.mem_map.2 ⟨e, he, rfl⟩)
  | cons c cm ih =>
    obtain ⟨p, ms⟩ := c
    rw [IoWriter.flushIndexLoop] at h
    split at h
    · split at h
      · simp at h
      · next t ht =>
        intro e he
        rcases ih _ _ h e he with h1 | ⟨q, hq, h1⟩
        · obtain ⟨x, hx, hx1⟩ := List.mem_map.1 h1
          rw [BMap.push] at hx
          split at hx
          · rcases BMap.mem_insert hx with rfl | hx
            · exact .inr ⟨p, by simp, hx1.symm⟩
            · exact .inl (List.mem_map.2 ⟨x, hx, hx1⟩)
          · rcases BMap.mem_insert hx with rfl | hx
            · exact .inr ⟨p, by simp, hx1.symm⟩
            · exact .inl (List.mem_map.2 ⟨x, hx, hx1⟩)
        · exact .inr ⟨q, by simp [hq], h1⟩
    · simp at h

theorem joinDot_cons_le (p : Bytes) (ps : List Bytes) :
    (IoWriter.joinDot (p :: ps)).length ≤ p.length + 1 + (IoWriter.joinDot ps).length := by
  cases ps with
  | nil => simp [IoWriter.joinDot]
  | cons q ps => simp [IoWriter.joinDot]; omega

theorem deviceOfPath_length (path : Bytes) : (IoWriter.deviceOfPath path).length ≤ path.length := by
  rw [IoWriter.deviceOfPath]
  induction path with
  | nil => simp [IoWriter.splitDot, IoWriter.joinDot]
  | cons b bs ih =>
    rw [IoWriter.splitDot]
    have hne := splitDot_ne_nil bs
    split
    · rw [List.dropLast_cons_of_ne_nil hne]
      have := joinDot_cons_le [] (IoWriter.splitDot bs).dropLast
      simp only [List.length_nil, List.length_cons] at this ⊢
      omega
    · cases hs : IoWriter.splitDot bs with
      | nil => simp [IoWriter.joinDot]
      | cons p ps =>
        rw [hs] at ih
        cases ps with
        | nil => simp [IoWriter.joinDot]
        | cons q ps =>
          simp only [List.dropLast_cons_cons] at ih ⊢
          cases hq : (q :: ps).dropLast with
          | nil => rw [hq] at ih; simp only [IoWriter.joinDot, List.length_cons] at ih ⊢; omega
          | cons r rs =>
            rw [hq] at ih
            simp only [IoWriter.joinDot, List.length_append, List.length_cons] at ih ⊢
            omega

/-- A path with a dot is its device, a dot and a name without dots. -/
theorem splitLast (p : Bytes) (h : (0x2e : UInt8) ∈ p) :
    ∃ m, NoDot m ∧ p = IoWriter.seriesPath (IoWriter.deviceOfPath p) m := by
  -- cut at the last dot
  have hcut : ∀ p : Bytes, (0x2e : UInt8) ∈ p → ∃ a m, NoDot m ∧ p = IoWriter.seriesPath a m := by
    intro p
    induction p with
    | nil => intro h; simp at h
    | cons b bs ih =>
      intro h
      by_cases hb : (0x2e : UInt8) ∈ bs
      · obtain ⟨a, m, h1, h2⟩ := ih hb
        exact ⟨b :: a, m, h1, by rw [h2]; simp [IoWriter.seriesPath]⟩
      · rcases List.mem_cons.1 h with h0 | h0
        · exact ⟨[], bs, hb, by rw [← h0]; simp [IoWriter.seriesPath]⟩
        · exact absurd h0 hb
  obtain ⟨a, m, h1, h2⟩ := hcut p h
  refine ⟨m, h1, ?_⟩
  rw [h2, deviceOfPath_path a m h1]

theorem flushIndexLoop_some {env : Env} (cm : BMap (List ChunkMetadata)) (last : Option Bytes)
    (tsm : BMap (List TimeSeriesMetadata)) {tsm' : BMap (List TimeSeriesMetadata)}
    (h : IoWriter.flushIndexLoop env last cm tsm = some tsm') :
    ∀ e ∈ cm, (IoWriter.timeSeriesMetadata env e.2).isSome := by
  induction cm generalizing last tsm with
  | nil => simp
  | cons c cm ih =>
    obtain ⟨p, ms⟩ := c
    rw [IoWriter.flushIndexLoop] at h
    split at h
    · split at h
      · simp at h
      · next t ht =>
        intro e he
        rcases List.mem_cons.1 he with rfl | he
        · simp [ht]
        · exact ih _ _ h e he
    · simp at h

/-- Where the metadata of a device are, and what its index node is. -/
theorem devicesLoop_mem {env : Env} (tsm : BMap (List TimeSeriesMetadata)) (b : Bytes) {out : Sink}
    {map : List (Bytes × IndexNode)} (h : devicesLoop env ⟨b, none⟩ tsm = some (out, map)) {F : Bytes}
    (hF : At F b.length (metaBytes env tsm)) :
    (∀ d node, (d, node) ∈ map → ∃ l pre o, (d, l) ∈ tsm ∧ deviceIndex env ⟨pre, none⟩ l = some (o, node)
      ∧ At F pre.length (l.flatMap (TimeSeriesMetadata.serialize env)))
    ∧ ∀ d l, (d, l) ∈ tsm → l ≠ [] → d ∈ map.map Prod.fst := by
  induction tsm generalizing b out map with
  | nil =>
    simp only [devicesLoop, Option.some.injEq, Prod.mk.injEq] at h
    obtain ⟨rfl, rfl⟩ := h
    simp
  | cons e rest ih =>
    obtain ⟨d, l⟩ := e
    rw [devicesLoop] at h
    simp only [metaBytes, List.flatMap_cons] at hF
    by_cases hl : l.isEmpty = true
    · rw [if_pos hl] at h
      have hl0 : l = [] := by simpa using hl
      subst hl0
      simp only [List.flatMap_nil, List.nil_append] at hF
      obtain ⟨h1, h2⟩ := ih _ h hF
      refine ⟨fun d' node hm => ?_, fun d' l' hm hne => ?_⟩
      · obtain ⟨l', pre, o, q1, q2⟩ := h1 d' node hm
        exact ⟨l', pre, o, by simp [q1], q2⟩
      · rcases List.mem_cons.1 hm with hm | hm
        · cases hm; exact absurd rfl hne
        · exact h2 d' l' hm hne
    · rw [if_neg hl] at h
      cases hd : deviceIndex env ⟨b, none⟩ l with
      | none => rw [hd] at h; simp at h
      | some r =>
        obtain ⟨o, n⟩ := r
        rw [hd] at h
        simp only at h
        have ho := deviceIndex_out hd
        rw [ho] at h
        split at h
        · simp at h
        · next o2 m hr =>
          simp only [Option.some.injEq, Prod.mk.injEq] at h
          obtain ⟨rfl, rfl⟩ := h
          obtain ⟨h1, h2⟩ := ih _ hr (by rw [List.length_append]; exact hF.right)
          refine ⟨fun d' node hm => ?_, fun d' l' hm hne => ?_⟩
          · rcases List.mem_cons.1 hm with hm | hm
            · cases hm
              exact ⟨l, b, o, by simp, hd, hF.left⟩
            · obtain ⟨l', pre, o', q1, q2⟩ := h1 d' node hm
              exact ⟨l', pre, o', by simp [q1], q2⟩
          · rcases List.mem_cons.1 hm with hm | hm
            · cases hm; simp
            · simp [h2 d' l' hm hne]

/-- A chunk that is listed in the metadata: device, position, chunk. -/
abbrev ChunkLoc := Bytes × Nat × GChunk

/-- The chunks of one series. -/
def locsIn (locs : List ChunkLoc) (d m : Bytes) : List (Nat × GChunk) :=
  (locs.filter (fun l => decide (l.1 = d ∧ l.2.2.name = m))).map Prod.snd

theorem locsIn_mem {locs : List ChunkLoc} {d m : Bytes} {l : Nat × GChunk}
    (h : l ∈ locsIn locs d m) : (d, l) ∈ locs ∧ l.2.name = m := by
  obtain ⟨x, hx, rfl⟩ := List.mem_map.1 h
  rw [List.mem_filter] at hx
  simp only [decide_eq_true_eq] at hx
  refine ⟨?_, hx.2.2⟩
  rw [← hx.2.1]
  exact hx.1

/-- The points of one series in the listed chunks. -/
def locPts (locs : List ChunkLoc) (d m : Bytes) : List Point := (locsIn locs d m).flatMap (fun l => l.2.points)

/-- The listed chunks are where their metadata say, and are chunks of series of the schema. -/
def LocsOk (env : Env) (unsnap : Bytes → Option Bytes) (schema : Schema) (D : Bytes) (locs : List ChunkLoc) : Prop :=
  ∀ l ∈ locs, ∃ ms, look l.1 schema = some ms ∧ look l.2.2.name ms = some l.2.2.ms ∧ l.2.2.Ok env unsnap
    ∧ At D l.2.1 (l.2.2.bytes env)

/-- The metadata that `end_file` collects. -/
theorem chunkMetadataMap_locs {env : Env} {io : IoWriter} {locs : List ChunkLoc}
    (h : io.chunkGroupMetadataList.flatMap (fun g => g.2.map (fun c => (IoWriter.seriesPath g.1 c.measurementId, c)))
      = locs.map (fun l => (IoWriter.seriesPath l.1 l.2.2.name, chunkMeta env l.2.1 l.2.2))) :
    BMap.Sorted io.chunkMetadataMap
    ∧ ∀ k, BMap.get? k io.chunkMetadataMap = optAppend none
        ((locs.filter (fun l => decide (IoWriter.seriesPath l.1 l.2.2.name = k))).map
          (fun l => chunkMeta env l.2.1 l.2.2)) := by
  rw [IoWriter.chunkMetadataMap]
  have := foldl_nested (fun m e => IoWriter.addChunkMetadata m e.1 e.2) io.chunkGroupMetadataList []
  rw [this, h]
  obtain ⟨h1, h2⟩ := foldl_addChunk (locs.map
    (fun l => (IoWriter.seriesPath l.1 l.2.2.name, chunkMeta env l.2.1 l.2.2))) [] List.Pairwise.nil
  refine ⟨h1, fun k => ?_⟩
  rw [h2 k]
  simp [BMap.get?, List.filter_map, Function.comp_def]

/-- The outline of a closed file. -/
structure Sparse (env : Env) (D : Bytes) (locs : List ChunkLoc) (paths : List Bytes) (F : Bytes) where
  filter : BloomFilter
  filter_eq : BloomFilter.build env paths = some filter
  bloom : Bytes
  bloom_eq : filter.serialize = some bloom
  root : IndexNode
  kind : root.nodeType = .leafDevice
  few : root.children.length ≤ 256
  names : ∀ e ∈ root.children, (∃ p ∈ paths, e.name = IoWriter.deviceOfPath p) ∧ e.offset ≤ F.length
  stop : root.endOffset ≤ F.length
  cmm : BMap (List ChunkMetadata)
  cmm_paths : cmm.map Prod.fst = paths
  cmm_sorted : BMap.Sorted cmm
  cmm_get : ∀ k, BMap.get? k cmm = optAppend none
    (((locs).filter (fun l => decide (IoWriter.seriesPath l.1 l.2.2.name = k))).map
      (fun l => chunkMeta env l.2.1 l.2.2))
  tsm : BMap (List TimeSeriesMetadata)
  tsm_eq : IoWriter.flushIndexLoop env none cmm [] = some tsm
  nodes : List (Bytes × IndexNode)
  nodes_eq : devicesLoop env ⟨D ++ [2], none⟩ tsm
    = some (⟨D ++ [2] ++ metaBytes env tsm, none⟩, nodes)
  order : List (Bytes × IndexNode)
  order_perm : order.Perm nodes
  order_eq : order = env.hashOrder nodes
  entries : root.children = devEntries (D ++ [2] ++ metaBytes env tsm).length order
  ending : root.endOffset = (D ++ [2] ++ metaBytes env tsm ++ order.flatMap (fun e : Bytes × IndexNode => e.2.serialize)).length
  mid : Bytes
  mid_eq : mid = metaBytes env tsm ++ order.flatMap (fun e => e.2.serialize)
  head_eq : D.take 7 = head
  bytes : F = D ++ ([2] ++ (mid ++ (footerBytes root D.length bloom
      ++ (be32 (u32 (footerBytes root D.length bloom).length) ++ magic))))

theorem endFile_sparse {env : Env} (ho : HashOrderOk env)
    {io io' : IoWriter} {D : Bytes} {locs : List ChunkLoc} (hD : D.take 7 = head) (hio : io.out = ⟨D, none⟩)
    (hmetas : io.chunkGroupMetadataList.flatMap (fun g => g.2.map (fun c => (IoWriter.seriesPath g.1 c.measurementId, c)))
      = locs.map (fun l => (IoWriter.seriesPath l.1 l.2.2.name, chunkMeta env l.2.1 l.2.2)))
    (htsm : io.timeseriesMetadataMap = [])
    (hend : io.endFile env = some io') :
    Nonempty (Sparse env D locs (io.chunkMetadataMap.map Prod.fst) io'.out.bytes) := by
  rw [IoWriter.endFile] at hend
  simp only at hend
  cases hloop : IoWriter.flushIndexLoop env none io.chunkMetadataMap io.timeseriesMetadataMap with
  | none => rw [hloop] at hend; simp at hend
  | some tsm =>
    rw [hloop] at hend
    simp only at hend
    have hkeys := flushIndexLoop_keys _ _ _ hloop
    rw [htsm] at hkeys
    have hout : io.out.write [2] = ⟨D ++ [2], none⟩ := by
      rw [hio]; rfl
    rw [hout, constructMetadataIndex] at hend
    cases hdl : devicesLoop env ⟨D ++ [2], none⟩ tsm with
    | none => rw [hdl] at hend; simp at hend
    | some r =>
      obtain ⟨out, map⟩ := r
      rw [hdl] at hend
      simp only at hend
      obtain ⟨hout2, hmap⟩ := devicesLoop_out _ _ hdl
      subst hout2
      by_cases hfew : map.length ≤ maxDegree
      · rw [if_pos hfew] at hend
        simp only [writeDeviceNodes_eq] at hend
        cases hb : BloomFilter.build env (io.chunkMetadataMap.map Prod.fst) with
        | none => rw [hb] at hend; simp at hend
        | some bf =>
          rw [hb] at hend
          simp only at hend
          cases hbs : bf.serialize with
          | none => rw [hbs] at hend; simp at hend
          | some bb =>
            rw [hbs] at hend
            simp only [Option.some.injEq] at hend
            have hl : ∀ (o : List (Bytes × IndexNode)) (p : Nat), (devEntries p o).length = o.length := by
              intro o
              induction o with
              | nil => intro p; rfl
              | cons e o ih => intro p; obtain ⟨d, n⟩ := e; simp [devEntries, ih]
            have hsub : ∀ a b c d x y : Nat, a + (b + (c + (d + (x + y)))) - (a + (b + (c + d))) = x + y := by
              intros; omega
            generalize hord : env.hashOrder map = order at hend
            have hperm : order.Perm map := hord ▸ ho map
            have hF : io'.out.bytes = D ++ ([2] ++ ((metaBytes env tsm
                ++ order.flatMap (fun e => e.2.serialize)) ++ (footerBytes
                  { children := devEntries (D ++ [2] ++ metaBytes env tsm).length order
                    endOffset := (D ++ [2] ++ metaBytes env tsm
                      ++ order.flatMap (fun e : Bytes × IndexNode => e.2.serialize)).length
                    nodeType := .leafDevice } D.length bb
              ++ (be32 (u32 (footerBytes
                  { children := devEntries (D ++ [2] ++ metaBytes env tsm).length order
                    endOffset := (D ++ [2] ++ metaBytes env tsm
                      ++ order.flatMap (fun e : Bytes × IndexNode => e.2.serialize)).length
                    nodeType := .leafDevice } D.length bb).length) ++ magic)))) := by
              rw [← hend]
              simp only [Sink.write, Sink.pos, footerBytes, List.append_assoc, List.length_append, hio, hsub]
            obtain ⟨hcs, hcg⟩ := chunkMetadataMap_locs hmetas
            rw [htsm] at hloop
            refine ⟨⟨bf, hb, bb, hbs, _, rfl, ?_, ?_, ?_, _, rfl, hcs, hcg, tsm, hloop, map, hdl, order, hperm, hord.symm, rfl, rfl, _, rfl, hD, hF⟩⟩
            · simp only [hl, hperm.length_eq]
              exact hfew
            · intro e he
              have hat : At io'.out.bytes (D ++ [2] ++ metaBytes env tsm).length
                  (order.flatMap (fun e => e.2.serialize)) := by
                refine ⟨D ++ [2] ++ metaBytes env tsm, ?_, ?_, rfl⟩
                rotate_left
                · rw [hF]
                  simp only [List.append_assoc]
                  rfl
              obtain ⟨h1, h2⟩ := devEntries_bound order _ hat e he
              refine ⟨?_, h2⟩
              obtain ⟨x, hx, hx1⟩ := List.mem_map.1 h1
              have h3 := hmap x (hperm.mem_iff.1 hx)
              obtain ⟨y, hy, hy1⟩ := List.mem_map.1 h3
              rcases hkeys y hy with h4 | ⟨p, hp, h4⟩
              · simp at h4
              · exact ⟨p, hp, by rw [← hx1, ← hy1, h4]⟩
            · have := congrArg List.length hF
              simp only [List.length_append] at this ⊢
              omega
      · rw [if_neg hfew] at hend
        simp at hend

/-- The numbers of the file fit their fields. -/
structure Sparse.Fits {env : Env} {D : Bytes} {locs : List ChunkLoc} {paths : List Bytes} {F : Bytes}
    (L : Sparse env D locs paths F) : Prop where
  file : F.length < 2 ^ 64
  footer : (footerBytes L.root D.length L.bloom).length < 2 ^ 32
  names : ∀ p ∈ paths, p.length < 2 ^ 31
  chunks : ∀ l ∈ locs, (pagesBytes env l.2.2.ms.dataType l.2.2.pages).length < 2 ^ 32
  mid : L.mid.length < 2 ^ 32

section
variable {env : Env} {unsnap : Bytes → Option Bytes} {schema : Schema} {D : Bytes} {locs : List ChunkLoc}
  {paths : List Bytes} {F : Bytes}

/-- Reading the footer. -/
theorem Sparse.readFooter (L : Sparse env D locs paths F) (hf : L.Fits) :
    ∃ bits, L.filter.serializeBits = some bits ∧ readFooter F = some
      ⟨L.root.toSpec, D.length,
        ⟨bits, (u32 L.filter.size).toNat, (u32 L.filter.hashFunctionSize).toNat⟩⟩ := by
  have hbl : L.bloom.length < 2 ^ 32 := by
    have := hf.footer
    simp only [footerBytes, List.length_append] at this
    omega
  obtain ⟨bits, hbits, hparse⟩ := bloom_parse L.bloom_eq hbl
  refine ⟨bits, hbits, ?_⟩
  have hFlen := hf.file
  have hnode : ∀ r, pNode (L.root.serialize ++ r) = some (L.root.toSpec, r) := by
    apply pNode_serialize
    · have := L.few
      omega
    · intro e he
      obtain ⟨⟨p, hp, h1⟩, h2⟩ := L.names e he
      have h3 := hf.names p hp
      have h4 := deviceOfPath_length p
      exact ⟨by rw [h1]; omega, by omega⟩
    · have := L.stop
      omega
  have hfooter : pFooter (footerBytes L.root D.length L.bloom) = some
      (⟨L.root.toSpec, D.length,
        ⟨bits, (u32 L.filter.size).toNat, (u32 L.filter.hashFunctionSize).toNat⟩⟩, []) := by
    have := hparse L.root.toSpec (BitVec.ofNat 64 D.length) L.root.serialize _ (hnode _) rfl
    rw [ofNat64_toNat _ (by
      have := congrArg List.length L.bytes
      simp only [List.length_append] at this
      omega)] at this
    rw [footerBytes, tsFileMetadataSerialize, List.append_assoc]
    exact this
  generalize hfb : footerBytes L.root D.length L.bloom = fb at hfooter
  have hfl : fb.length < 2 ^ 32 := by rw [← hfb]; exact hf.footer
  have hF : F = (D ++ [2] ++ L.mid) ++ (fb ++ (be32 (u32 fb.length) ++ magic)) := by
    rw [← hfb]
    simpa only [List.append_assoc] using L.bytes
  have hmagic : magic.length = 6 := rfl
  have hb32 : ∀ x, (be32 x).length = 4 := fun x => rfl
  have hhead : F.take 7 = head := by
    have h7 : 7 ≤ D.length := by
      have := congrArg List.length L.head_eq
      simp only [List.length_take, head, List.length_cons, List.length_nil] at this
      omega
    rw [hF, List.append_assoc, List.append_assoc, List.take_append_of_le_length h7, L.head_eq]
  generalize hpre : (D ++ [2] ++ L.mid) = pre at hF
  have hn : F.length = pre.length + fb.length + 10 := by
    rw [hF]; simp only [List.length_append, hmagic, hb32]; omega
  rw [Spec.readFooter]
  have htail : F.drop (F.length - 6) = tailMagic := by
    have : F = (pre ++ (fb ++ be32 (u32 fb.length))) ++ magic := by rw [hF]; simp
    rw [hn]
    conv_lhs => rw [this]
    rw [List.drop_append_of_le_length (by simp only [List.length_append, hb32]; omega)]
    rw [List.drop_eq_nil_of_le (by simp only [List.length_append, hb32]; omega)]
    rfl
  have hsize : beNat ((F.drop (F.length - 10)).take 4) = fb.length := by
    have : F = (pre ++ fb) ++ (be32 (u32 fb.length) ++ magic) := by rw [hF]; simp
    rw [hn]
    conv_lhs => rw [this]
    rw [show pre.length + fb.length + 10 - 10 = (pre ++ fb).length by simp]
    rw [List.drop_left, List.take_left' (hb32 _)]
    have := pBE_be32 (u32 fb.length) []
    rw [pBE, pTake_append 4 _ _ (hb32 _)] at this
    simp only [Option.some.injEq, Prod.mk.injEq, and_true] at this
    rw [this, u32_toNat _ hfl]
  have hfoot : (F.drop (F.length - 10 - fb.length)).take fb.length = fb := by
    rw [hn, show pre.length + fb.length + 10 - 10 - fb.length = pre.length by omega]
    conv_lhs => rw [hF]
    rw [List.drop_left, List.take_left]
  simp only
  rw [if_pos ⟨hhead, htail⟩, hsize, if_pos (by omega), hfoot, hfooter]

/-- The content of the index for one device. -/
structure DeviceRep (env : Env) (schema : Schema) (locs : List ChunkLoc) (d : Bytes) (l : List TimeSeriesMetadata) : Prop where
  few : schema.FewIn d → l.length ≤ 65536
  names : l.Pairwise (fun a b => a.measurementId < b.measurementId)
  mem : ∀ t ∈ l, ∃ ms s, look d schema = some ms ∧ look t.measurementId ms = some s ∧ NoDot t.measurementId
    ∧ locsIn locs d t.measurementId ≠ []
    ∧ t = tsOf env t.measurementId s.dataType (locsIn locs d t.measurementId)
  all : ∀ m, NoDot m → locsIn locs d m ≠ [] → ∃ t ∈ l, t.measurementId = m

/-- The index of an isolated device. -/
theorem Sparse.device (hok : LocsOk env unsnap schema D locs) (L : Sparse env D locs paths F) {d : Bytes}
    (hiso : schema.Isolated d) :
    BMap.Sorted L.tsm ∧ (∀ e ∈ L.tsm, e.2 ≠ [])
    ∧ ∃ l, DeviceRep env schema locs d l ∧ ((l = [] ∧ d ∉ L.tsm.map Prod.fst) ∨ (l ≠ [] ∧ (d, l) ∈ L.tsm)) := by
  have hloc : ∀ l ∈ locs, ∃ ms, look l.1 schema = some ms ∧ look l.2.2.name ms = some l.2.2.ms := by
    intro l hl
    obtain ⟨ms, h1, h2, _⟩ := hok l hl
    exact ⟨ms, h1, h2⟩
  have hiso' : ∀ l ∈ locs, ∀ m, NoDot m → IoWriter.seriesPath l.1 l.2.2.name = IoWriter.seriesPath d m →
      l.1 = d ∧ l.2.2.name = m := by
    intro l hl m hm hp
    obtain ⟨ms, h1, h2⟩ := hloc l hl
    have hd : l.1 = d := hiso _ (look_mem h1) _ (look_mem h2) m hm hp
    rw [hd] at hp
    simp only [IoWriter.seriesPath, List.append_cancel_left_eq] at hp
    exact ⟨hd, hp⟩
  have hfilter : ∀ m, NoDot m → ((locs).filter
      (fun l => decide (IoWriter.seriesPath l.1 l.2.2.name = IoWriter.seriesPath d m))).map
          (fun l => chunkMeta env l.2.1 l.2.2)
      = (locsIn locs d m).map (fun l => chunkMeta env l.1 l.2) := by
    intro m hm
    rw [locsIn, List.map_map]
    simp only [Function.comp_def]
    congr 1
    apply List.filter_congr
    intro l hl
    apply Bool.eq_iff_iff.2
    simp only [decide_eq_true_eq]
    constructor
    · exact fun e => hiso' l hl m hm e
    · rintro ⟨rfl, rfl⟩; rfl
  have hdtOf : ∀ m ms s, look d schema = some ms → look m ms = some s →
      ∀ l ∈ locsIn locs d m, l.2.ms.dataType = s.dataType := by
    intro m ms s h1 h2 l hl
    obtain ⟨hl1, hl2⟩ := locsIn_mem hl
    obtain ⟨ms', q1, q2⟩ := hloc _ hl1
    simp only at q1 q2
    rw [h1] at q1
    cases q1
    rw [hl2, h2] at q2
    cases q2
    rfl
  have hentry : ∀ e ∈ L.cmm, IoWriter.deviceOfPath e.1 = d → ∃ m ms s, NoDot m ∧ look d schema = some ms ∧ look m ms = some s
      ∧ e = (IoWriter.seriesPath d m, (locsIn locs d m).map (fun l => chunkMeta env l.1 l.2))
      ∧ locsIn locs d m ≠ [] := by
    intro e he hd
    have hg := BMap.get?_of_mem L.cmm_sorted (k := e.1) (v := e.2) he
    rw [L.cmm_get, optAppend_none] at hg
    split at hg
    · simp at hg
    · next hne =>
      simp only [Option.some.injEq] at hg
      obtain ⟨l, hl⟩ : ∃ l, l ∈ (locs).filter
          (fun l => decide (IoWriter.seriesPath l.1 l.2.2.name = e.1)) := by
        apply List.exists_mem_of_ne_nil
        intro hc
        rw [hc] at hne
        exact hne rfl
      rw [List.mem_filter] at hl
      simp only [decide_eq_true_eq] at hl
      have hdot : (0x2e : UInt8) ∈ e.1 := by rw [← hl.2]; simp [IoWriter.seriesPath]
      obtain ⟨m, hm, hpm⟩ := splitLast e.1 hdot
      rw [hd] at hpm
      obtain ⟨e1, e2⟩ := hiso' l hl.1 m hm (hl.2.trans hpm)
      obtain ⟨ms, h1, h2⟩ := hloc l hl.1
      rw [e1] at h1
      rw [e2] at h2
      refine ⟨m, ms, l.2.2.ms, hm, h1, h2, ?_, ?_⟩
      · rw [← hfilter m hm, ← hpm, hg]
      · intro hc
        rw [hpm, hfilter m hm, hc] at hne
        exact hne rfl
  have hsome := flushIndexLoop_some _ _ _ L.tsm_eq
  obtain ⟨T, hT⟩ : ∃ T : Bytes × List ChunkMetadata → TimeSeriesMetadata, ∀ e ∈ L.cmm,
      IoWriter.timeSeriesMetadata env e.2 = some (T e) := by
    refine ⟨fun e => (IoWriter.timeSeriesMetadata env e.2).getD (tsOf env [] .INT32 []), fun e he => ?_⟩
    obtain ⟨t, ht⟩ := Option.isSome_iff_exists.1 (hsome e he)
    simp [ht]
  have hTe : ∀ m ms s, look d schema = some ms → look m ms = some s → locsIn locs d m ≠ [] →
      (IoWriter.seriesPath d m, (locsIn locs d m).map (fun l => chunkMeta env l.1 l.2)) ∈ L.cmm →
      T (IoWriter.seriesPath d m, (locsIn locs d m).map (fun l => chunkMeta env l.1 l.2))
        = tsOf env m s.dataType (locsIn locs d m) := by
    intro m ms s h1 h2 hne hmem
    have := hT _ hmem
    simp only at this
    rw [timeSeriesMetadata_eq env m s.dataType _ hne (hdtOf m ms s h1 h2) (fun l hl => (locsIn_mem hl).2)] at this
    exact (Option.some.inj this).symm
  obtain ⟨tsm, hloop, hts, htg⟩ := flushIndexLoop_eq env T L.cmm L.cmm_sorted hT none (by simp) [] List.Pairwise.nil
  have htsm : tsm = L.tsm := by
    rw [L.tsm_eq] at hloop
    exact (Option.some.inj hloop).symm
  subst htsm
  have hg : ∀ d, BMap.get? d L.tsm = optAppend none ((L.cmm.filter (fun e => decide (IoWriter.deviceOfPath e.1 = d))).map T) := by
    intro d
    rw [htg]
    rfl
  refine ⟨hts, ?_, (L.cmm.filter (fun e => decide (IoWriter.deviceOfPath e.1 = d))).map T, ?_, ?_⟩
  · intro e he
    have := BMap.get?_of_mem hts (k := e.1) (v := e.2) he
    rw [hg, optAppend_none] at this
    split at this
    · simp at this
    · next hne =>
      simp only [Option.some.injEq] at this
      rw [← this]
      exact hne
  · have hmem : ∀ t ∈ (L.cmm.filter (fun e => decide (IoWriter.deviceOfPath e.1 = d))).map T, ∃ ms s, look d schema = some ms
        ∧ look t.measurementId ms = some s ∧ NoDot t.measurementId ∧ locsIn locs d t.measurementId ≠ []
        ∧ t = tsOf env t.measurementId s.dataType (locsIn locs d t.measurementId) := by
      intro t ht
      obtain ⟨x, hx, rfl⟩ := List.mem_map.1 ht
      rw [List.mem_filter] at hx
      simp only [decide_eq_true_eq] at hx
      obtain ⟨m, ms, s, hm, h1, h2, rfl, hne⟩ := hentry x hx.1 hx.2
      rw [hTe m ms s h1 h2 hne hx.1]
      exact ⟨ms, s, h1, h2, hm, hne, rfl⟩
    have hnames : ((L.cmm.filter (fun e => decide (IoWriter.deviceOfPath e.1 = d))).map T).Pairwise
        (fun a b => a.measurementId < b.measurementId) := by
      rw [List.pairwise_map]
      have hp : (L.cmm.filter (fun x => decide (IoWriter.deviceOfPath x.1 = d))).Pairwise
          (fun a b => bytesLt a.1 b.1 = true) := List.Pairwise.filter _ L.cmm_sorted
      refine List.Pairwise.imp_of_mem ?_ hp
      intro a b ha hb hab
      rw [List.mem_filter] at ha hb
      simp only [decide_eq_true_eq] at ha hb
      obtain ⟨ma, msa, sa, hma, h1, h2, rfl, hnea⟩ := hentry a ha.1 ha.2
      obtain ⟨mb, msb, sb, hmb, h3, h4, rfl, hneb⟩ := hentry b hb.1 hb.2
      rw [hTe ma msa sa h1 h2 hnea ha.1, hTe mb msb sb h3 h4 hneb hb.1]
      simp only [IoWriter.seriesPath, bytesLt_append_left] at hab
      exact (bytesLt_iff _ _).1 hab
    refine ⟨?_, hnames, hmem, ?_⟩
    · intro hfew
      generalize (L.cmm.filter (fun e => decide (IoWriter.deviceOfPath e.1 = d))).map T = l at hmem hnames
      cases hne : l with
      | nil => simp
      | cons t0 ts0 =>
        obtain ⟨ms, _, h1, _⟩ := hmem t0 (by rw [hne]; simp)
        rw [← hne]
        have hnd : (l.map TimeSeriesMetadata.measurementId).Nodup := by
          rw [List.Nodup, List.pairwise_map]
          refine List.Pairwise.imp ?_ hnames
          intro a b hab heq
          rw [heq] at hab
          exact not_lt_of_lt' hab hab
        have hsub : l.map TimeSeriesMetadata.measurementId ⊆ (ms.filter (fun x => decide (NoDot x.1))).map Prod.fst := by
          intro m hm
          obtain ⟨t, ht, rfl⟩ := List.mem_map.1 hm
          obtain ⟨ms', s, q1, q2, q3, _⟩ := hmem t ht
          rw [h1] at q1
          cases q1
          exact List.mem_map.2 ⟨_, List.mem_filter.2 ⟨look_mem q2, by simpa using q3⟩, rfl⟩
        have := (List.subperm_of_subset hnd hsub).length_le
        simp only [List.length_map] at this
        exact Nat.le_trans this (hfew _ (look_mem h1) rfl)
    · intro m hm hne
      obtain ⟨l, hl⟩ := List.exists_mem_of_ne_nil _ hne
      obtain ⟨hl1, hl2⟩ := locsIn_mem hl
      obtain ⟨ms, h1, h2⟩ := hloc _ hl1
      simp only at h1 h2
      rw [hl2] at h2
      have hcm : (IoWriter.seriesPath d m, (locsIn locs d m).map (fun l => chunkMeta env l.1 l.2)) ∈ L.cmm := by
        apply BMap.mem_of_get?
        rw [L.cmm_get, hfilter m hm, optAppend_none, if_neg]
        intro hc
        exact hne (by simpa using hc)
      refine ⟨T (IoWriter.seriesPath d m, (locsIn locs d m).map (fun l => chunkMeta env l.1 l.2)), ?_, ?_⟩
      · apply List.mem_map.2
        refine ⟨_, List.mem_filter.2 ⟨hcm, ?_⟩, rfl⟩
        simp [deviceOfPath_path d m hm]
      · rw [hTe m ms l.2.ms h1 h2 hne hcm]
        rfl
  · have hgd := hg d
    rw [optAppend_none] at hgd
    split at hgd
    · next h0 =>
      refine .inl ⟨h0, ?_⟩
      intro hc
      have := (BMap.get?_isSome_iff L.tsm d).2 hc
      rw [hgd] at this
      simp at this
    · next h0 => exact .inr ⟨h0, BMap.mem_of_get? hgd⟩

theorem Sparse.at_meta (L : Sparse env D locs paths F) :
    At F (D ++ [2]).length (metaBytes env L.tsm) := by
  refine ⟨D ++ [2], ?_, ?_, rfl⟩
  rotate_left
  · refine L.bytes.trans ?_
    rw [L.mid_eq]
    simp only [List.append_assoc]
    rfl

theorem Sparse.at_nodes (L : Sparse env D locs paths F) :
    At F (D ++ [2] ++ metaBytes env L.tsm).length (L.order.flatMap (fun e => e.2.serialize)) := by
  refine ⟨D ++ [2] ++ metaBytes env L.tsm, ?_, ?_, rfl⟩
  rotate_left
  · refine L.bytes.trans ?_
    rw [L.mid_eq]
    simp only [List.append_assoc]
    rfl

/-- Reading the metadata of a series of an isolated device. -/
theorem Sparse.readSeriesMeta {d : Bytes} (hsch : schema.IndexableAt d) (hok : LocsOk env unsnap schema D locs)
    (L : Sparse env D locs paths F) (hf : L.Fits) (m : Bytes) :
    ((NoDot m → locsIn locs d m = []) ∧ readSeriesMeta F d m = some none)
    ∨ (∃ ms s, NoDot m ∧ locsIn locs d m ≠ [] ∧ look d schema = some ms ∧ look m ms = some s
        ∧ readSeriesMeta F d m = some (some (seriesMeta env m s.dataType (locsIn locs d m)))) := by
  obtain ⟨bits, _, hfooter⟩ := L.readFooter hf
  obtain ⟨htsorted, htne, l, hrep, hl⟩ := L.device hok hsch.isolated
  have hFlen := hf.file
  have hfile := L.at_meta.le
  have hlocs : ∀ m ms s, look d schema = some ms → look m ms = some s → ∀ l ∈ locsIn locs d m,
      l.2.ms.dataType = s.dataType ∧ l.1 < 2 ^ 64 := by
    intro m ms s h1 h2 l hl
    obtain ⟨hl1, hl2⟩ := locsIn_mem hl
    obtain ⟨ms', q1, q2, _, hat⟩ := hok _ hl1
    simp only at q1 q2 hat
    rw [h1] at q1
    cases q1
    rw [hl2, h2] at q2
    cases q2
    refine ⟨rfl, ?_⟩
    have h3 := hat.le
    simp only [List.length_append] at h3 hfile
    omega
  have hmeta : (d, l) ∈ L.tsm → ∀ t ∈ l, t.buffer.length < 2 ^ 32 := by
    intro he t ht
    have h1 := mem_flatMap_length (fun e : Bytes × List TimeSeriesMetadata =>
      e.2.flatMap (fun t => t.serialize env)) L.tsm he
    have h2 := mem_flatMap_length (fun t : TimeSeriesMetadata => t.serialize env) l ht
    have h3 : t.buffer.length ≤ (t.serialize env).length := by
      simp only [TimeSeriesMetadata.serialize, List.length_append]; omega
    have h4 : (metaBytes env L.tsm).length = (L.tsm.flatMap (fun e : Bytes × List TimeSeriesMetadata =>
      e.2.flatMap (fun t => t.serialize env))).length := rfl
    have h5 := hf.mid
    simp only at h1 h2
    rw [L.mid_eq, List.length_append] at h5
    omega
  have hparse : (d, l) ∈ L.tsm → ∀ t ∈ l, ∃ sm : SeriesMeta, sm.measurement = t.measurementId
      ∧ (∀ r, pSeriesMeta (t.serialize env ++ r) = some (sm, r))
      ∧ ∃ ms s, look d schema = some ms ∧ look t.measurementId ms = some s ∧ NoDot t.measurementId
        ∧ locsIn locs d t.measurementId ≠ []
        ∧ sm = seriesMeta env t.measurementId s.dataType (locsIn locs d t.measurementId) := by
    intro he t ht
    obtain ⟨ms, s, h1, h2, hnd, h3, h4⟩ := hrep.mem t ht
    refine ⟨seriesMeta env t.measurementId s.dataType (locsIn locs d t.measurementId), rfl, ?_,
      ms, s, h1, h2, hnd, h3, rfl⟩
    have hbuf := hmeta he t ht
    rw [h4] at hbuf
    have := pSeriesMeta_serialize env t.measurementId s.dataType (locsIn locs d t.measurementId)
      ((hsch.names _ (look_mem h1)).2 _ (look_mem h2)) hbuf
      (fun l hl => (hlocs _ _ _ h1 h2 l hl).1) (fun l hl => (hlocs _ _ _ h1 h2 l hl).2)
    rw [← h4] at this
    exact this
  obtain ⟨hnodes, hnodes'⟩ := devicesLoop_mem L.tsm _ L.nodes_eq L.at_meta
  rw [Spec.readSeriesMeta, hfooter]
  simp only [bind, Option.bind]
  have hkind : L.root.toSpec.kind = 1 := by
    show L.root.nodeType.serialize = 1
    rw [L.kind]
    rfl
  rw [if_pos hkind]
  have hfind := devEntries_find L.order _ d L.at_nodes
  have hroot : L.root.toSpec.entries = (devEntries (D ++ [2] ++ metaBytes env L.tsm).length
      L.order).map IndexEntry.toSpec := by rw [← L.entries]; rfl
  rw [hroot]
  cases hfd : ((devEntries (D ++ [2] ++ metaBytes env L.tsm).length
      L.order).map IndexEntry.toSpec).find? (fun e => e.name = d) with
  | none =>
    rw [hfd] at hfind
    simp only at hfind
    left
    refine ⟨?_, rfl⟩
    intro hm
    by_contra hne
    obtain ⟨t, ht, _⟩ := hrep.all m hm hne
    rcases hl with ⟨h0, _⟩ | ⟨h0, h1⟩
    · rw [h0] at ht; simp at ht
    · apply hfind
      rw [(L.order_perm.map Prod.fst).mem_iff]
      exact hnodes' d l h1 h0
  | some e =>
    rw [hfd] at hfind
    simp only at hfind ⊢
    obtain ⟨node, hnode, hat⟩ := hfind
    obtain ⟨l', pre, o, hl', hdi, hatl⟩ := hnodes d node (L.order_perm.mem_iff.1 hnode)
    have hin : (d, l) ∈ L.tsm := by
      rcases hl with ⟨_, h0⟩ | ⟨_, h1⟩
      · exact absurd (List.mem_map.2 ⟨_, hl', rfl⟩) h0
      · exact h1
    have hll : l' = l := by
      have h1 := BMap.get?_of_mem htsorted hl'
      have h2 := BMap.get?_of_mem htsorted hin
      rw [h1] at h2
      exact Option.some.inj h2
    subst hll
    have hlf := hrep.few hsch.few
    rw [deviceIndex_eq env pre l' hlf] at hdi
    simp only [Option.some.injEq, Prod.mk.injEq] at hdi
    obtain ⟨_, rfl⟩ := hdi
    generalize pre.length = q at hatl hat ⊢
    obtain ⟨post, hdrop⟩ := hat.drop
    have hrn : readNode F e.offset = some (leafNode env q l').toSpec := by
      rw [readNode, hdrop, pNode_serialize]
      · rfl
      · simp only [leafNode, length_leafEntries]; omega
      · intro x hx
        obtain ⟨⟨t, ht, hxn⟩, h2⟩ := leafEntries_bound _ _ l' 0 q x hx
        obtain ⟨ms, s, h3, h4, _⟩ := hrep.mem t ht
        have := hatl.le
        exact ⟨by rw [hxn]; exact (hsch.names _ (look_mem h3)).2 _ (look_mem h4), by omega⟩
      · have := hatl.le
        simp only [leafNode]
        omega
    rw [hrn]
    simp only
    have hpos : ∃ n, F.length = n + 1 := ⟨F.length - 1, by
      simp only [List.length_append, List.length_cons, List.length_nil] at hfile
      omega⟩
    obtain ⟨n, hn⟩ := hpos
    rw [hn, locate]
    have hent : (leafNode env q l').toSpec.entries = (leafEntries TimeSeriesMetadata.measurementId
        (TimeSeriesMetadata.serialize env) 0 q l').map IndexEntry.toSpec := rfl
    have hend : (leafNode env q l').toSpec.endOffset = q + (l'.flatMap (TimeSeriesMetadata.serialize env)).length := rfl
    have hk : (leafNode env q l').toSpec.kind = 3 := rfl
    rw [hent, hend, hk]
    rcases select_leafNode TimeSeriesMetadata.measurementId (TimeSeriesMetadata.serialize env) m l' q
      hrep.names with ⟨hsel, hno⟩ | ⟨a, seg, b, hsplit, hsel, hin'⟩
    · rw [hsel]
      left
      refine ⟨?_, rfl⟩
      intro hm
      by_contra hne
      obtain ⟨t, ht, htm⟩ := hrep.all m hm hne
      exact hno t ht htm
    · rw [hsel]
      simp only [if_true]
      have hats : At F (q + (a.flatMap (TimeSeriesMetadata.serialize env)).length)
          (seg.flatMap (TimeSeriesMetadata.serialize env)) := by
        rw [hsplit] at hatl
        simp only [List.flatMap_append] at hatl
        exact hatl.left.right
      rw [hats.slice]
      have hsub : ∀ t ∈ seg, t ∈ l' := by intro t ht; rw [hsplit]; simp [ht]
      have hpa : ∃ f : TimeSeriesMetadata → SeriesMeta, pAll pSeriesMeta
          (seg.flatMap (TimeSeriesMetadata.serialize env)) = some (seg.map f)
          ∧ ∀ t ∈ seg, (f t).measurement = t.measurementId ∧ ∃ ms s, look d schema = some ms
            ∧ look t.measurementId ms = some s ∧ NoDot t.measurementId ∧ locsIn locs d t.measurementId ≠ []
            ∧ f t = seriesMeta env t.measurementId s.dataType (locsIn locs d t.measurementId) := by
        refine ⟨fun t => ((pSeriesMeta (t.serialize env)).map Prod.fst).getD
          (seriesMeta env [] .INT32 []), ?_, ?_⟩
        · apply pAll_flatMap
          · intro t ht r
            obtain ⟨sm, _, h2, _⟩ := hparse hin t (hsub t ht)
            have := h2 []
            rw [List.append_nil] at this
            rw [h2 r, this]
            rfl
          · intro t _
            exact tsOf_serialize_ne_nil env t
        · intro t ht
          obtain ⟨sm, h1, h2, h3⟩ := hparse hin t (hsub t ht)
          have := h2 []
          rw [List.append_nil] at this
          simp only [this]
          exact ⟨h1, h3⟩
      obtain ⟨f, hpa, hf⟩ := hpa
      rw [hpa]
      simp only
      by_cases hne : NoDot m ∧ locsIn locs d m ≠ []
      · right
        obtain ⟨hm, hne⟩ := hne
        obtain ⟨t, ht, htm⟩ := hrep.all m hm hne
        have hts := hin' t ht htm
        have hfind : ∃ t', t' ∈ seg ∧ t'.measurementId = m
            ∧ (seg.map f).find? (fun s => decide (s.measurement = m)) = some (f t') := by
          cases hfi : (seg.map f).find? (fun s => decide (s.measurement = m)) with
          | none =>
            rw [List.find?_eq_none] at hfi
            have := hfi (f t) (List.mem_map.2 ⟨t, hts, rfl⟩)
            simp only [decide_eq_true_eq] at this
            exact absurd (by rw [(hf t hts).1, htm]) this
          | some x =>
            have h1 := List.find?_some hfi
            obtain ⟨t', ht', rfl⟩ := List.mem_map.1 (List.mem_of_find?_eq_some hfi)
            simp only [decide_eq_true_eq] at h1
            exact ⟨t', ht', by rw [← (hf t' ht').1]; exact h1, rfl⟩
        obtain ⟨t', ht', htm', hfi⟩ := hfind
        obtain ⟨_, ms, s, h1, h2, _, _, h3⟩ := hf t' ht'
        rw [htm'] at h2 h3
        exact ⟨ms, s, hm, hne, h1, h2, by rw [hfi, h3]⟩
      · left
        refine ⟨fun hm => by by_contra hc; exact hne ⟨hm, hc⟩, ?_⟩
        congr 1
        rw [List.find?_eq_none]
        intro x hx
        obtain ⟨t, ht, rfl⟩ := List.mem_map.1 hx
        obtain ⟨h1, ms, s, _, _, hnd, h2, _⟩ := hf t ht
        simp only [decide_eq_true_eq]
        intro hc
        rw [h1] at hc
        rw [hc] at h2 hnd
        exact hne ⟨hnd, h2⟩

theorem Sparse.at_chunk (hok : LocsOk env unsnap schema D locs) (L : Sparse env D locs paths F) {l : ChunkLoc} (h : l ∈ locs) :
    At F l.2.1 (l.2.2.bytes env) := by
  obtain ⟨_, _, _, _, hat⟩ := hok l h
  have := hat.extend ([2] ++ (L.mid ++ (footerBytes L.root D.length L.bloom
        ++ (be32 (u32 (footerBytes L.root D.length L.bloom).length) ++ magic))))
  rwa [← L.bytes] at this

theorem Sparse.locsIn_ok (hsch : schema.Named) (hok : LocsOk env unsnap schema D locs)
    (L : Sparse env D locs paths F) (hf : L.Fits) (d m : Bytes) :
    ∀ l ∈ locsIn locs d m, At F l.1 (l.2.bytes env) ∧ l.2.name = m ∧ l.2.name.length < 2 ^ 31
      ∧ l.2.Ok env unsnap ∧ (pagesBytes env l.2.ms.dataType l.2.pages).length < 2 ^ 32 := by
  intro l hl
  obtain ⟨h1, h2⟩ := locsIn_mem hl
  obtain ⟨ms, q1, q2, q3, _⟩ := hok _ h1
  have h3 := L.at_chunk hok h1
  have h4 := (hsch.names _ (look_mem q1)).2 _ (look_mem q2)
  have h5 := hf.chunks _ h1
  simp only at h3 h4 h5 q3
  exact ⟨h3, h2, h4, q3, h5⟩

/-- Reading a series of an isolated device through the index. -/
theorem Sparse.readSeries {d : Bytes} (hsch : schema.IndexableAt d) (hok : LocsOk env unsnap schema D locs)
    (L : Sparse env D locs paths F) (hf : L.Fits) (m : Bytes) :
    readSeries unsnap F d m = some (if NoDot m then locPts locs d m else []) := by
  rw [Spec.readSeries, locPts]
  rcases L.readSeriesMeta hsch hok hf m with ⟨h1, h2⟩ | ⟨ms, s, hm, h1, h2, h3, h4⟩
  · rw [h2]
    by_cases hm : NoDot m
    · rw [if_pos hm, h1 hm]; rfl
    · rw [if_neg hm]
  · rw [h4, if_pos hm]
    simp only [seriesMeta]
    rw [readChunks_eq m _ _ (L.locsIn_ok hsch.toNamed hok hf d m)]
    simp [List.flatMap_map, GChunk.toSpec_points]

end

end TsFile
