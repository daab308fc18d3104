import Verif.Proofs.DeepNodes
import Verif.Proofs.CloseAny
import Verif.Proofs.Local
/-! # Sessions with more than 65536 series in a device -/

namespace TsFile
open Spec

variable {env : Env} {unsnap : Bytes → Option Bytes} {schema : Schema}

theorem metaBytes_append (a b : BMap (List TimeSeriesMetadata)) :
    metaBytes env (a ++ b) = metaBytes env a ++ metaBytes env b := by
  simp [metaBytes]

theorem mem_anyNodes {tsm : BMap (List TimeSeriesMetadata)} {q : Nat} {d : Bytes} {node : IndexNode}
    (h : (d, node) ∈ anyNodes env q tsm) :
    ∃ a l b, tsm = a ++ (d, l) :: b ∧ node = anyNode env (q + (metaBytes env a).length) l := by
  induction tsm generalizing q with
  | nil => simp [anyNodes] at h
  | cons e rest ih =>
    obtain ⟨d', l'⟩ := e
    rw [anyNodes] at h
    rcases List.mem_cons.1 h with h | h
    · cases h
      exact ⟨[], l', rest, rfl, by simp [metaBytes]⟩
    · obtain ⟨a, l, b, h1, h2⟩ := ih h
      refine ⟨(d', l') :: a, l, b, by rw [h1]; rfl, ?_⟩
      rw [h2]
      simp [metaBytes, Nat.add_assoc]

/-- The number of records of a device is the number of its paths. -/
theorem Outlined.records_length {ops : List Op} {s : Session} (c : Outlined env unsnap schema ops s) {d : Bytes}
    {l : List TimeSeriesMetadata} (h : (d, l) ∈ c.layout.tsm) :
    l.length = ((pathsOf (storedBy schema ops s.grown)).filter (fun p => decide (beforeLastDot p = d))).length := by
  have hsome := flushIndexLoop_some _ _ _ c.layout.tsm_eq
  obtain ⟨T, hT⟩ : ∃ T : Bytes × List ChunkMetadata → TimeSeriesMetadata, ∀ e ∈ c.layout.cmm,
      IoWriter.timeSeriesMetadata env e.2 = some (T e) := by
    refine ⟨fun e => (IoWriter.timeSeriesMetadata env e.2).getD (tsOf env [] .INT32 []), fun e he => ?_⟩
    obtain ⟨t, ht⟩ := Option.isSome_iff_exists.1 (hsome e he)
    simp [ht]
  obtain ⟨tsm, hloop, hts, htg⟩ := flushIndexLoop_eq env T c.layout.cmm c.layout.cmm_sorted hT none (by simp) [] List.Pairwise.nil
  have htsm : tsm = c.layout.tsm := by
    have := c.layout.tsm_eq
    rw [hloop] at this
    exact Option.some.inj this
  subst htsm
  have hg := BMap.get?_of_mem hts h
  rw [htg, show BMap.get? d ([] : BMap (List TimeSeriesMetadata)) = none from rfl, optAppend_none] at hg
  split at hg
  · simp at hg
  · have hg := Option.some.inj hg
    rw [← hg, List.length_map]
    have hperm : (c.layout.cmm.map Prod.fst).Perm (pathsOf (storedBy schema ops s.grown)) := by
      refine (List.perm_ext_iff_of_nodup ?_ (List.nodup_dedup _)).2 (fun p => chunkPaths_mem c.ok c.layout.cmm_get c.pts p)
      rw [c.layout.cmm_paths]
      exact c.nodup
    rw [← (hperm.filter _).length_eq, List.filter_map, List.length_map]
    congr 1
    apply List.filter_congr
    intro e he
    have hm : e.1 ∈ pathsOf (storedBy schema ops s.grown) := hperm.mem_iff.1 (List.mem_map.2 ⟨e, he, rfl⟩)
    simp only [Function.comp_apply]
    rw [deviceOfPath_eq _ (dot_mem_pathsOf hm)]

/-- The devices of the index. -/
theorem Outlined.devices {ops : List Op} {s : Session} (c : Outlined env unsnap schema ops s) :
    BMap.Sorted c.layout.tsm ∧ (∀ e ∈ c.layout.tsm, e.2 ≠ [])
    ∧ (∀ d, d ∈ c.layout.tsm.map Prod.fst ↔ d ∈ indexDevicesOf (storedBy schema ops s.grown))
    ∧ c.layout.nodes = anyNodes env ((fileBytes env c.groups).length + 1) c.layout.tsm := by
  obtain ⟨tsm', hloop, hsort, hne, hkeys⟩ := flushIndex_any c.layout.cmm_sorted c.layout.cmm_get
  have htsm : tsm' = c.layout.tsm := by
    have := c.layout.tsm_eq
    rw [hloop, Option.some.injEq] at this
    exact this
  subst htsm
  refine ⟨hsort, hne, fun d => ?_, ?_⟩
  · rw [hkeys, mem_indexDevicesOf]
    simp only [chunkPaths_mem c.ok c.layout.cmm_get c.pts]
  · have hnodes := c.layout.nodes_eq
    rw [devicesLoop_nodes env _ _ hne, Option.some.injEq, Prod.mk.injEq] at hnodes
    have := hnodes.2
    rw [← this, List.length_append, List.length_singleton]

/-- The names in the records of a device are names of chunks. -/
theorem Outlined.ids {ops : List Op} {s : Session} (hsch : schema.Named) (c : Outlined env unsnap schema ops s) {d : Bytes}
    {l : List TimeSeriesMetadata} (h : (d, l) ∈ c.layout.tsm) : ∀ t ∈ l, t.measurementId.length < 2 ^ 31 := by
  have hsome := flushIndexLoop_some _ _ _ c.layout.tsm_eq
  obtain ⟨T, hT⟩ : ∃ T : Bytes × List ChunkMetadata → TimeSeriesMetadata, ∀ e ∈ c.layout.cmm,
      IoWriter.timeSeriesMetadata env e.2 = some (T e) := by
    refine ⟨fun e => (IoWriter.timeSeriesMetadata env e.2).getD (tsOf env [] .INT32 []), fun e he => ?_⟩
    obtain ⟨t, ht⟩ := Option.isSome_iff_exists.1 (hsome e he)
    simp [ht]
  obtain ⟨tsm, hloop, hts, htg⟩ := flushIndexLoop_eq env T c.layout.cmm c.layout.cmm_sorted hT none (by simp) [] List.Pairwise.nil
  have htsm : tsm = c.layout.tsm := by
    have := c.layout.tsm_eq
    rw [hloop] at this
    exact Option.some.inj this
  subst htsm
  have hg := BMap.get?_of_mem hts h
  rw [htg, show BMap.get? d ([] : BMap (List TimeSeriesMetadata)) = none from rfl, optAppend_none] at hg
  split at hg
  · simp at hg
  · have hg := Option.some.inj hg
    intro t ht
    rw [← hg] at ht
    obtain ⟨e, he, rfl⟩ := List.mem_map.1 ht
    have he := (List.mem_filter.1 he).1
    have hTe := hT e he
    have hg := BMap.get?_of_mem c.layout.cmm_sorted (k := e.1) (v := e.2) he
    rw [c.layout.cmm_get, optAppend_none] at hg
    split at hg
    · simp at hg
    · have hg := Option.some.inj hg
      have hall : ∀ m ∈ e.2, m.measurementId.length < 2 ^ 31 := by
        intro m hm
        rw [← hg] at hm
        obtain ⟨x, hx, rfl⟩ := List.mem_map.1 hm
        obtain ⟨g, hgm, _, hg2⟩ := fileLocs_mem (List.mem_filter.1 hx).1
        exact ((c.ok.names hsch g hgm).2 _ hg2).1
      generalize e.2 = ms at hTe hall
      cases ms with
      | nil => simp [IoWriter.timeSeriesMetadata] at hTe
      | cons m ms =>
        rw [IoWriter.timeSeriesMetadata] at hTe
        split at hTe
        · simp at hTe
        · have := Option.some.inj hTe
          rw [← this]
          exact hall m (by simp)

theorem upper_length (rounds : Nat) (l : List Bytes) : (Ref.upper rounds l).length ≤ l.length := by
  induction rounds generalizing l with
  | zero => simp [Ref.upper]
  | succ r ih =>
    rw [Ref.upper]
    split
    · simp
    · next h =>
      refine Nat.le_trans (ih _) ?_
      simp only [List.length_append, List.length_take, List.length_drop]
      omega

theorem every_length {α : Type} (l : List α) : (Ref.every 65536 l).length ≤ l.length := by
  have h : ∀ L : List Nat, (L.flatMap (fun k => (l.drop (65536 * k)).take 1)).length ≤ L.length := by
    intro L
    induction L with
    | nil => simp
    | cons k L ih =>
      simp only [List.flatMap_cons, List.length_append, List.length_cons, List.length_take]
      omega
  have := h (List.range ((l.length + (65536 - 1)) / 65536))
  rw [List.length_range] at this
  rw [Ref.every]
  omega

theorem records_size (l : List TimeSeriesMetadata) : l.length ≤ (l.flatMap (TimeSeriesMetadata.serialize env)).length := by
  induction l with
  | nil => simp
  | cons t l ih =>
    have := List.length_pos_iff.2 (tsOf_serialize_ne_nil env t)
    simp only [List.length_cons, List.flatMap_cons, List.length_append]
    omega

/-- The records of a device are in the list of the records. -/
theorem metaBytes_mem {tsm : BMap (List TimeSeriesMetadata)} {d : Bytes} {l : List TimeSeriesMetadata} (h : (d, l) ∈ tsm) :
    (l.flatMap (TimeSeriesMetadata.serialize env)).length ≤ (metaBytes env tsm).length :=
  mem_flatMap_length (fun e : Bytes × List TimeSeriesMetadata => e.2.flatMap (TimeSeriesMetadata.serialize env)) tsm h

/-- Reading a node of the index. -/
theorem Outlined.readNode {ops : List Op} {s : Session} (hsch : schema.Named) (c : Outlined env unsnap schema ops s) {p q : Nat}
    {d : Bytes} {l : List TimeSeriesMetadata} (hl : (d, l) ∈ c.layout.tsm)
    (hq : q + (l.flatMap (TimeSeriesMetadata.serialize env)).length ≤ s.file.length)
    (hat : At s.file p (anyNode env q l).serialize) : readNode s.file p = some (anyNode env q l).toSpec := by
  obtain ⟨post, hdrop⟩ := hat.drop
  have hF := c.fits.file
  have hids := c.ids hsch hl
  have hlen : l.length < 2 ^ 32 := by
    have h1 := records_size (env := env) l
    have h2 := metaBytes_mem (env := env) hl
    have h3 := c.fits.mid
    have h4 := congrArg List.length c.layout.mid_eq
    rw [List.length_append] at h4
    omega
  rw [Spec.readNode, hdrop, pNode_serialize]
  · rfl
  · rw [anyNode]
    split
    · simp only [leafNode, length_leafEntries]; omega
    · simp only [List.length_map]
      have h1 := upper_length l.length (Ref.every 65536 (l.map TimeSeriesMetadata.measurementId))
      have h2 := every_length (l.map TimeSeriesMetadata.measurementId)
      rw [List.length_map] at h2
      omega
  · intro x hx
    rw [anyNode] at hx
    split at hx
    · obtain ⟨⟨t, ht, hxn⟩, h2⟩ := leafEntries_bound _ _ l 0 q x hx
      exact ⟨by rw [hxn]; exact hids t ht, by omega⟩
    · obtain ⟨n, hn, rfl⟩ := List.mem_map.1 hx
      obtain ⟨t, ht, rfl⟩ := List.mem_map.1 (every_subset (upper_subset hn))
      exact ⟨hids t ht, by simp only; omega⟩
  · rw [anyNode]
    split
    · simp only [leafNode]; omega
    · simp only; omega

/-- A single device with more than 65536 series: nothing is found. -/
theorem Outlined.deep {ops : List Op} {s : Session} (hsch : schema.Named) (c : Outlined env unsnap schema ops s) {d : Bytes}
    (hone : ∀ p ∈ pathsOf (storedBy schema ops s.grown), beforeLastDot p = d)
    (hmany : 65536 < (pathsOf (storedBy schema ops s.grown)).length) (m : Bytes) (r : SeriesMeta) :
    readSeriesMeta s.file d m ≠ some (some r) := by
  obtain ⟨hsort, hne, hkeys, hnodes⟩ := c.devices
  have hdev : ∀ d', d' ∈ c.layout.tsm.map Prod.fst → d' = d := by
    intro d' h
    rw [hkeys, mem_indexDevicesOf] at h
    obtain ⟨p, hp, h⟩ := h
    rw [← h, deviceOfPath_eq _ (dot_mem_pathsOf hp), hone p hp]
  obtain ⟨l, htsm⟩ : ∃ l, c.layout.tsm = [(d, l)] := by
    generalize c.layout.tsm = tsm at hsort hkeys hdev
    cases tsm with
    | nil =>
      obtain ⟨p, hp⟩ := List.exists_mem_of_length_pos (Nat.lt_of_le_of_lt (Nat.zero_le _) hmany)
      have := (hkeys d).2 (mem_indexDevicesOf.2 ⟨p, hp, by rw [deviceOfPath_eq _ (dot_mem_pathsOf hp), hone p hp]⟩)
      simp at this
    | cons e rest =>
      obtain ⟨d', l⟩ := e
      cases rest with
      | nil => exact ⟨l, by rw [hdev d' (by simp)]⟩
      | cons e2 rest =>
        have h1 := hdev d' (by simp)
        have h2 := hdev e2.1 (by simp)
        have h3 := (List.pairwise_cons.1 hsort).1 e2 (by simp)
        simp only [h1, h2, bytesLt_irrefl] at h3
        simp at h3
  have hl : (d, l) ∈ c.layout.tsm := by rw [htsm]; simp
  have hlen := c.records_length hl
  rw [List.filter_eq_self.2 (fun p hp => by simpa using hone p hp)] at hlen
  rw [htsm, anyNodes, anyNodes] at hnodes
  have hord : c.layout.order = [(d, anyNode env ((fileBytes env c.groups).length + 1) l)] := by
    have := c.layout.order_perm
    rw [hnodes] at this
    exact List.perm_singleton.1 this
  obtain ⟨bits, _, hfooter⟩ := c.layout.readFooter c.fits
  have hat := c.layout.at_nodes
  have hroot : c.layout.root.toSpec.entries = (devEntries (fileBytes env c.groups ++ [2] ++ metaBytes env c.layout.tsm).length
      c.layout.order).map IndexEntry.toSpec := by rw [← c.layout.entries]; rfl
  have hkind : c.layout.root.toSpec.kind = 1 := by
    show c.layout.root.nodeType.serialize = 1
    rw [c.layout.kind]
    rfl
  have hstop : (fileBytes env c.groups ++ [2] ++ metaBytes env c.layout.tsm).length
      = (fileBytes env c.groups).length + 1 + (l.flatMap (TimeSeriesMetadata.serialize env)).length := by
    rw [htsm]
    simp only [metaBytes, List.flatMap_cons, List.flatMap_nil, List.append_nil, List.length_append, List.length_singleton]
  have hle := c.layout.at_meta.le
  rw [List.length_append, List.length_singleton, htsm] at hle
  simp only [metaBytes, List.flatMap_cons, List.flatMap_nil, List.append_nil] at hle
  rw [hord, List.flatMap_cons, List.flatMap_nil, List.append_nil] at hat
  rw [hstop] at hat
  have hread := c.readNode hsch hl hle hat
  rw [hord, hstop] at hroot
  rw [readSeriesMeta, hfooter]
  simp only [bind, Option.bind, hkind, if_true, hroot, devEntries, List.map_cons, List.map_nil, List.find?_cons, toSpec_mk,
    decide_true, hread]
  have hst := locate_stuck s.file m (anyNode env ((fileBytes env c.groups).length + 1) l).toSpec
    ((fileBytes env c.groups).length + 1 + (l.flatMap (TimeSeriesMetadata.serialize env)).length)
    (by rw [anyNode, if_neg (by omega)]; rfl)
    (by
      intro e he
      rw [anyNode, if_neg (by omega)] at he
      obtain ⟨e', he', rfl⟩ := List.mem_map.1 he
      obtain ⟨n, _, rfl⟩ := List.mem_map.1 he'
      rfl) hread s.file.length
  cases hloc : locate s.file m s.file.length (anyNode env ((fileBytes env c.groups).length + 1) l).toSpec with
  | none => simp
  | some x =>
    cases x with
    | none => simp
    | some r => exact absurd hloc (hst r)

/-! ## a second device -/

/-- The names in the upper node of a device with up to 131072 series. -/
theorem upper_two (l : List Bytes) (h1 : 65536 < l.length) (h2 : l.length ≤ 131072) :
    ∃ x y, Ref.upper l.length (Ref.every 65536 l) = [y, x] ∧ l.head? = some x := by
  have hdiv : (l.length + (65536 - 1)) / 65536 = 2 := by omega
  have hev : Ref.every 65536 l = (l.take 1) ++ (l.drop 65536).take 1 := by
    rw [Ref.every, hdiv]
    simp [List.range_succ]
  cases l with
  | nil => simp at h1
  | cons x l =>
    cases hd : (x :: l).drop 65536 with
    | nil => rw [List.drop_eq_nil_iff] at hd; omega
    | cons y l' =>
      refine ⟨x, y, ?_, rfl⟩
      rw [hev, hd]
      rw [List.length_cons, Ref.upper]
      simp

theorem bmap_two {α : Type} {m : BMap α} (hs : BMap.Sorted m) {a b : Bytes} {x y : α} (ha : (a, x) ∈ m) (hb : (b, y) ∈ m)
    (hlt : bytesLt a b = true) (hall : ∀ e ∈ m, e.1 = a ∨ e.1 = b) : m = [(a, x), (b, y)] := by
  have hs2 : BMap.Sorted [(a, x), (b, y)] := by
    refine List.pairwise_cons.2 ⟨fun e he => ?_, List.pairwise_singleton _ _⟩
    rw [List.mem_singleton.1 he]
    exact hlt
  have hnd : ∀ {m : BMap α}, BMap.Sorted m → m.Nodup := by
    intro m hm
    refine List.Pairwise.imp ?_ hm
    intro u v huv h
    rw [h, bytesLt_irrefl] at huv
    simp at huv
  have hperm : List.Perm m [(a, x), (b, y)] := by
    refine (List.perm_ext_iff_of_nodup (hnd hs) (hnd hs2)).2 (fun e => ?_)
    simp only [List.mem_cons, List.not_mem_nil, or_false]
    constructor
    · intro he
      have hg := BMap.get?_of_mem hs (k := e.1) (v := e.2) he
      rcases hall e he with h | h
      · rw [h, BMap.get?_of_mem hs ha] at hg
        exact .inl (Prod.ext h (Option.some.inj hg).symm)
      · rw [h, BMap.get?_of_mem hs hb] at hg
        exact .inr (Prod.ext h (Option.some.inj hg).symm)
    · rintro (rfl | rfl)
      · exact ha
      · exact hb
  refine hperm.eq_of_pairwise (fun u v _ _ h1 h2 => ?_) hs hs2
  have := bytesLt_trans h1 h2
  rw [bytesLt_irrefl] at this
  simp at this

/-- If the node of another device is the first behind the records, and that of `d` has more than 65536 series and the greatest
name, a reader of `d` ends up with the other device. -/
theorem Outlined.stray {ops : List Op} {s : Session} (hsch : schema.Named) (c : Outlined env unsnap schema ops s) {d d' : Bytes}
    (horder : ∀ n' n, env.hashOrder [(d', n'), (d, n)] = [(d', n'), (d, n)])
    (hdev : ∀ x, x ∈ indexDevicesOf (storedBy schema ops s.grown) ↔ x = d' ∨ x = d) (hlt : bytesLt d' d = true)
    (hmany : 65536 < ((pathsOf (storedBy schema ops s.grown)).filter (fun p => decide (beforeLastDot p = d))).length)
    (hmost : ((pathsOf (storedBy schema ops s.grown)).filter (fun p => decide (beforeLastDot p = d))).length ≤ 131072)
    (hfew : ((pathsOf (storedBy schema ops s.grown)).filter (fun p => decide (beforeLastDot p = d'))).length ≤ 65536)
    {m : Bytes} (hm : ∀ l, (d, l) ∈ c.layout.tsm → ∀ t ∈ l.head?, ¬ m < t.measurementId) :
    readSeriesMeta s.file d m = readSeriesMeta s.file d' m := by
  obtain ⟨hsort, hne, hkeys, hnodes⟩ := c.devices
  have hdd : d' ≠ d := by
    rintro rfl
    rw [bytesLt_irrefl] at hlt
    simp at hlt
  obtain ⟨l', l, htsm⟩ : ∃ l' l, c.layout.tsm = [(d', l'), (d, l)] := by
    have h1 : ∃ l', (d', l') ∈ c.layout.tsm := by
      obtain ⟨e, he, h⟩ := List.mem_map.1 ((hkeys d').2 ((hdev d').2 (.inl rfl)))
      exact ⟨e.2, by rw [← h]; exact he⟩
    have h2 : ∃ l, (d, l) ∈ c.layout.tsm := by
      obtain ⟨e, he, h⟩ := List.mem_map.1 ((hkeys d).2 ((hdev d).2 (.inr rfl)))
      exact ⟨e.2, by rw [← h]; exact he⟩
    obtain ⟨l', h1⟩ := h1
    obtain ⟨l, h2⟩ := h2
    refine ⟨l', l, bmap_two hsort h1 h2 hlt (fun e he => ?_)⟩
    exact (hdev e.1).1 ((hkeys e.1).1 (List.mem_map.2 ⟨e, he, rfl⟩))
  have hl' : (d', l') ∈ c.layout.tsm := by rw [htsm]; simp
  have hl : (d, l) ∈ c.layout.tsm := by rw [htsm]; simp
  have hlen' := c.records_length hl'
  have hlen := c.records_length hl
  rw [htsm, anyNodes, anyNodes, anyNodes] at hnodes
  generalize hq : (fileBytes env c.groups).length + 1 = q at hnodes
  have hord := c.layout.order_eq
  rw [hnodes, horder] at hord
  obtain ⟨bits, _, hfooter⟩ := c.layout.readFooter c.fits
  have hat := c.layout.at_nodes
  have hroot : c.layout.root.toSpec.entries = (devEntries (fileBytes env c.groups ++ [2] ++ metaBytes env c.layout.tsm).length
      c.layout.order).map IndexEntry.toSpec := by rw [← c.layout.entries]; rfl
  have hkind : c.layout.root.toSpec.kind = 1 := by
    show c.layout.root.nodeType.serialize = 1
    rw [c.layout.kind]
    rfl
  have hstop : (fileBytes env c.groups ++ [2] ++ metaBytes env c.layout.tsm).length
      = q + (l'.flatMap (TimeSeriesMetadata.serialize env)).length + (l.flatMap (TimeSeriesMetadata.serialize env)).length := by
    rw [htsm]
    simp only [metaBytes, List.flatMap_cons, List.flatMap_nil, List.append_nil, List.length_append, List.length_singleton]
    omega
  have hle := c.layout.at_meta.le
  rw [List.length_append, List.length_singleton, htsm, hq] at hle
  simp only [metaBytes, List.flatMap_cons, List.flatMap_nil, List.append_nil, List.length_append] at hle
  rw [hord, hstop] at hat
  simp only [List.flatMap_cons, List.flatMap_nil, List.append_nil] at hat
  have hread' := c.readNode hsch hl' (by omega) hat.left
  have hread := c.readNode hsch hl (by omega) hat.right
  rw [hord, hstop] at hroot
  obtain ⟨n, hn⟩ : ∃ n, s.file.length = n + 2 := by
    have := hat.left.le
    have : 65536 < (l.flatMap (TimeSeriesMetadata.serialize env)).length := by
      have := records_size (env := env) l
      omega
    exact ⟨s.file.length - 2, by omega⟩
  have hloc : ∀ fuel fuel', locate s.file m (fuel + 1) (anyNode env q l').toSpec
      = locate s.file m (fuel' + 1) (anyNode env q l').toSpec := by
    intro fuel fuel'
    have hk : (anyNode env q l').toSpec.kind = 3 := by
      rw [anyNode, if_pos (by omega)]
      rfl
    rw [locate, locate, hk]
    cases select m (anyNode env q l').toSpec.entries (anyNode env q l').toSpec.endOffset with
    | none => rfl
    | some x => rfl
  have hdeep : ∀ fuel, locate s.file m (fuel + 2) (anyNode env (q + (l'.flatMap (TimeSeriesMetadata.serialize env)).length) l).toSpec
      = locate s.file m (fuel + 1) (anyNode env q l').toSpec := by
    intro fuel
    have hlong : ¬ l.length ≤ 65536 := by omega
    obtain ⟨x, y, hup, hhead⟩ := upper_two (l.map TimeSeriesMetadata.measurementId) (by rw [List.length_map]; omega)
      (by rw [List.length_map]; omega)
    rw [List.length_map] at hup
    have hx : ¬ m < x := by
      rw [List.head?_map, Option.map_eq_some_iff] at hhead
      obtain ⟨t, ht, rfl⟩ := hhead
      exact hm l hl t ht
    have hk : (anyNode env (q + (l'.flatMap (TimeSeriesMetadata.serialize env)).length) l).toSpec
        = ⟨[⟨y, q + (l'.flatMap (TimeSeriesMetadata.serialize env)).length + (l.flatMap (TimeSeriesMetadata.serialize env)).length⟩,
            ⟨x, q + (l'.flatMap (TimeSeriesMetadata.serialize env)).length + (l.flatMap (TimeSeriesMetadata.serialize env)).length⟩],
            q + (l'.flatMap (TimeSeriesMetadata.serialize env)).length + (l.flatMap (TimeSeriesMetadata.serialize env)).length, 2⟩ := by
      rw [anyNode, if_neg hlong, hup]
      rfl
    rw [hk, locate]
    simp only [select, if_neg hx, hread']
    rfl
  rw [readSeriesMeta, readSeriesMeta, hfooter]
  simp only [bind, Option.bind, hkind, if_true, hroot, devEntries, List.map_cons, List.map_nil, List.find?_cons, toSpec_mk,
    decide_true, hread, hread', decide_eq_false hdd, hn, hdeep, hloc n (n + 1)]

end TsFile
