import Verif.Proofs.RefFile
import Verif.Proofs.CloseAny
import Verif.Proofs.DeepNodes
import Verif.Proofs.Bloom
import Verif.Spec.ReferenceIndex
import Verif.Spec.Size
/-! # The index of a closed file is that of the reference -/

namespace TsFile
open Spec

variable {env : Env} {unsnap : Bytes → Option Bytes}

/-! ## pieces and positions -/

theorem placed_append {α : Type} (p : Nat) (a b : List (α × Bytes)) :
    Ref.placed p (a ++ b) = Ref.placed p a ++ Ref.placed (p + (a.flatMap Prod.snd).length) b := by
  induction a generalizing p with
  | nil => simp [Ref.placed]
  | cons x a ih => simp [Ref.placed, ih, Nat.add_assoc]

/-- What the index knows about a chunk. -/
def GChunk.brief (env : Env) (d : Bytes) (c : GChunk) : Ref.Chunk := ⟨d, c.name, c.ms.dataType, (chunkStats env c.ms.dataType c.pages).summary⟩

/-- The pieces of a group. -/
def gpieces (env : Env) (g : GGroup) : List (Option Ref.Chunk × Bytes) :=
  (none, chunkGroupHeader g.1) :: g.2.map (fun c => (some (c.brief env g.1), c.bytes env))

theorem gpieces_bytes (env : Env) (g : GGroup) : (gpieces env g).flatMap Prod.snd = groupBytes env g := by
  rw [gpieces, List.flatMap_cons, List.flatMap_map, groupBytes]

theorem placed_chunks (env : Env) (d : Bytes) (cs : List GChunk) (p : Nat) :
    (Ref.placed p (cs.map (fun c => (some (c.brief env d), c.bytes env)))).filterMap (fun x => x.1.map (fun c => (c, x.2)))
      = (chunkLocs env p cs).map (fun l => (l.2.brief env d, l.1)) := by
  induction cs generalizing p with
  | nil => rfl
  | cons c cs ih => simp [Ref.placed, chunkLocs, ih]

theorem placed_groups (env : Env) (gs : List GGroup) (p : Nat) :
    (Ref.placed p (gs.flatMap (gpieces env))).filterMap (fun x => x.1.map (fun c => (c, x.2)))
      = (fileLocs env p gs).map (fun l => (l.2.2.brief env l.1, l.2.1)) := by
  induction gs generalizing p with
  | nil => rfl
  | cons g gs ih =>
    rw [List.flatMap_cons, placed_append, List.filterMap_append, ih, gpieces_bytes, fileLocs, List.map_append, List.map_map]
    congr 1
    rw [gpieces, Ref.placed, List.filterMap_cons]
    simp only [Option.map_none]
    rw [placed_chunks]
    rfl

theorem gchunk_stats {pts : Bytes → List Point} {m : Bytes × MeasurementSchema} (h : (gchunk env pts m).Ok env unsnap) :
    (chunkStats env (gchunk env pts m).ms.dataType (gchunk env pts m).pages).summary = Ref.chunkStats env m.2 (pts m.1) := by
  rw [chunkStats_summary env _ _ (fun g hg => (h.pages g hg).typed), gchunk, List.map_map, Ref.chunkStats]
  rfl

theorem ggroup_pieces {b : List Rec} {d : Bytes × List (Bytes × MeasurementSchema)} (h : Fitting env unsnap (ggroup env b d)) :
    gpieces env (ggroup env b d) = Ref.groupPieces env b d := by
  have h1 := h.device
  have h2 := h.chunks
  simp only [ggroup] at h1 h2
  rw [gpieces, Ref.groupPieces]
  simp only [ggroup]
  rw [chunkGroupHeader, string_eq h1, List.map_map]
  congr 1
  refine List.map_congr_left fun m hm => ?_
  obtain ⟨e1, e2, e3, e4⟩ := h2 _ (List.mem_map.2 ⟨m, hm, rfl⟩)
  have := chunk_bytes e2 e3 e1 e4
  rw [gchunk_points] at this
  have hc : Ref.chunk env m.1 m.2 (series b d.1 m.1) = some ((gchunk env (series b d.1) m).bytes env) := this
  simp only [Function.comp_apply, GChunk.brief, gchunk_stats e2, hc, Option.getD_some]
  rfl

theorem chunks_eq {schema : Schema} {bs : List (List Rec)} (h : ∀ b ∈ bs, ∀ g ∈ gburst env schema b, Fitting env unsnap g) :
    Ref.chunks env schema bs = (fileLocs env 7 (bs.flatMap (gburst env schema))).map (fun l => (l.2.2.brief env l.1, l.2.1)) := by
  rw [Ref.chunks, ← placed_groups, List.flatMap_assoc]
  have : ∀ bs : List (List Rec), (∀ b ∈ bs, ∀ g ∈ gburst env schema b, Fitting env unsnap g) →
      bs.flatMap (fun b => (Ref.byName schema).flatMap (Ref.groupPieces env b))
      = bs.flatMap (fun b => (gburst env schema b).flatMap (gpieces env)) := by
    intro bs h
    induction bs with
    | nil => rfl
    | cons b bs ih =>
      rw [List.flatMap_cons, List.flatMap_cons, ih (fun b hb => h b (by simp [hb]))]
      congr 1
      rw [gburst, List.flatMap_map]
      have hb := h b (by simp)
      rw [gburst] at hb
      rw [List.flatMap, List.flatMap]
      congr 1
      exact List.map_congr_left fun d hd => (ggroup_pieces (hb _ (List.mem_map.2 ⟨d, hd, rfl⟩))).symm
  rw [this bs h]

/-! ## records -/

theorem be64_nat (n : Nat) : be64 (BitVec.ofNat 64 n) = Ref.big 8 n := by
  rw [be64, ← big_eq, Ref.big, Ref.big]
  refine List.map_congr_left fun i hi => ?_
  rw [List.mem_range] at hi
  rw [BitVec.toNat_ofNat]
  apply UInt8.toNat_inj.1
  simp only [UInt8.toNat_ofNat']
  obtain ⟨k, hk⟩ : ∃ k, 8 - 1 - i = k := ⟨_, rfl⟩
  rw [hk]
  have h7 : k ≤ 7 := by omega
  have h2 : (2 : Nat) ^ 64 = 256 ^ k * (256 * 256 ^ (7 - k)) := by
    rw [← Nat.mul_assoc, ← Nat.pow_succ, ← Nat.pow_add]
    have : k + 1 + (7 - k) = 8 := by omega
    rw [this]
  rw [h2, Nat.mod_mul_right_div_self]
  show n / 256 ^ k % (256 * 256 ^ (7 - k)) % 256 = n / 256 ^ k % 256
  rw [Nat.mod_mul_right_mod]

theorem mergeChunks_types (env : Env) (dt : TSDataType) (flag : Bool) (l : List ChunkMetadata)
    (h : ∀ c ∈ l, c.statistics.type = c.dataType) (buf : Bytes) (st : Statistics) (hst : st.type = dt) :
    IoWriter.mergeChunks env dt flag l buf st
      = some (buf ++ (l.filter (fun c => decide (c.dataType = dt))).flatMap (fun c => c.serialize env flag),
        ((l.filter (fun c => decide (c.dataType = dt))).map ChunkMetadata.statistics).foldl (Statistics.mrg env) st) := by
  induction l generalizing buf st with
  | nil => simp [IoWriter.mergeChunks]
  | cons c l ih =>
    rw [IoWriter.mergeChunks]
    have ih' := ih (fun c hc => h c (by simp [hc]))
    by_cases hd : c.dataType = dt
    · rw [if_neg (by simp [hd]), merge_some env _ _ (by rw [hst, h c (by simp), hd])]
      simp only
      rw [ih' _ _ (by rw [mrg_type, hst]), List.filter_cons_of_pos (by simp [hd]), List.flatMap_cons, List.map_cons, List.foldl_cons,
        List.append_assoc]
    · rw [if_pos hd, ih' _ _ hst, List.filter_cons_of_neg (by simp [hd])]

theorem record_eq {l : ChunkLoc} {locs : List ChunkLoc} {t : TimeSeriesMetadata} (hm : l.2.2.name.length < 2 ^ 31)
    (h : IoWriter.timeSeriesMetadata env ((l :: locs).map (fun l => chunkMeta env l.2.1 l.2.2)) = some t)
    (hb : t.buffer.length < 2 ^ 32) :
    (t.measurementId, t.serialize env) = Ref.record env ((l :: locs).map (fun l => (l.2.2.brief env l.1, l.2.1))) := by
  rw [List.map_cons, IoWriter.timeSeriesMetadata, mergeChunks_types env _ _ _ (by
    intro c hc
    rw [← List.map_cons (f := fun l : ChunkLoc => chunkMeta env l.2.1 l.2.2)] at hc
    obtain ⟨x, _, rfl⟩ := List.mem_map.1 hc
    exact chunkStats_type ..) _ _ (new_type ..)] at h
  simp only [List.nil_append, Option.some.injEq] at h
  rw [← List.map_cons (f := fun l : ChunkLoc => chunkMeta env l.2.1 l.2.2)] at h
  obtain ⟨same, hsame⟩ : ∃ same, (l :: locs).filter (fun x => decide (x.2.2.ms.dataType = l.2.2.ms.dataType)) = same := ⟨_, rfl⟩
  have hdt : ∀ x ∈ same, x.2.2.ms.dataType = l.2.2.ms.dataType := by
    intro x hx
    rw [← hsame] at hx
    exact of_decide_eq_true (List.mem_filter.1 hx).2
  have hf1 : ((l :: locs).map (fun l => chunkMeta env l.2.1 l.2.2)).filter (fun c => decide (c.dataType = (chunkMeta env l.2.1 l.2.2).dataType))
      = same.map (fun l => chunkMeta env l.2.1 l.2.2) := by
    rw [List.filter_map, ← hsame]
    rfl
  have hf2 : ((l :: locs).map (fun l => (l.2.2.brief env l.1, l.2.1))).filter (fun x => decide (x.1.type = (l.2.2.brief env l.1).type))
      = same.map (fun l => (l.2.2.brief env l.1, l.2.1)) := by
    rw [List.filter_map, ← hsame]
    rfl
  rw [hf1] at h
  have hlist : (same.map (fun l => chunkMeta env l.2.1 l.2.2)).flatMap
        (fun c => c.serialize env (decide (1 < ((l :: locs).map (fun l => chunkMeta env l.2.1 l.2.2)).length)))
      = (same.map (fun l => (l.2.2.brief env l.1, l.2.1))).flatMap (fun x => Ref.big 8 x.2
        ++ (if decide (1 < ((l :: locs).map (fun l : ChunkLoc => (l.2.2.brief env l.1, l.2.1))).length) then
          x.1.stats.bytes l.2.2.ms.dataType else [])) := by
    rw [List.flatMap_map, List.flatMap_map, List.flatMap, List.flatMap]
    congr 1
    refine List.map_congr_left fun x hx => ?_
    have := summary_bytes env (chunkStats env x.2.2.ms.dataType x.2.2.pages)
    rw [chunkStats_type, hdt x hx] at this
    simp only [ChunkMetadata.serialize, chunkMeta, GChunk.brief, be64_nat, hdt x hx, this, List.length_map]
  have hstats : Statistics.serialize env (((same.map (fun l => chunkMeta env l.2.1 l.2.2)).map ChunkMetadata.statistics).foldl
        (Statistics.mrg env) (Statistics.new env l.2.2.ms.dataType))
      = (Ref.together env l.2.2.ms.dataType ((same.map (fun l => (l.2.2.brief env l.1, l.2.1))).map (fun x => x.1.stats))).bytes
        l.2.2.ms.dataType := by
    have h2 : ∀ s ∈ (same.map (fun l => chunkMeta env l.2.1 l.2.2)).map ChunkMetadata.statistics, s.type = l.2.2.ms.dataType := by
      intro s hs
      rw [List.map_map] at hs
      obtain ⟨x, hx, rfl⟩ := List.mem_map.1 hs
      rw [← hdt x hx]
      exact chunkStats_type ..
    have h3 : ∀ (ss : List Statistics) (s : Statistics), (ss.foldl (Statistics.mrg env) s).type = s.type := by
      intro ss
      induction ss with
      | nil => intro s; rfl
      | cons x ss ih => intro s; rw [List.foldl_cons, ih, mrg_type]
    have h4 := summary_bytes env (((same.map (fun l => chunkMeta env l.2.1 l.2.2)).map ChunkMetadata.statistics).foldl
        (Statistics.mrg env) (Statistics.new env l.2.2.ms.dataType))
    rw [h3, new_type] at h4
    rw [← h4, mrgs_summary env _ _ h2, List.map_map, List.map_map, List.map_map]
    rfl
  have hlen : ((l :: locs).map (fun l => chunkMeta env l.2.1 l.2.2)).length
      = ((l :: locs).map (fun l : ChunkLoc => (l.2.2.brief env l.1, l.2.1))).length := by rw [List.length_map, List.length_map]
  simp only [gt_iff_lt] at h
  rw [hlist] at h
  subst h
  simp only at hb
  rw [TimeSeriesMetadata.serialize]
  unfold Ref.record
  simp only [List.map_cons] at hf2 hb ⊢
  rw [hf2]
  simp only [GChunk.brief, chunkMeta, List.length_cons, List.length_map] at hb hstats ⊢
  rw [varint_u32 hb, hstats, string_eq hm]
  have hor : ∀ x : UInt8, x ||| 0 = x := by intro x; simp
  rw [hor]
  cases l.2.2.ms.dataType <;> rfl

/-! ## sorted lists -/

theorem filterMap_sorted {α : Type} {l : List (Bytes × α)} (h : (l.map Prod.fst).Pairwise (· < ·)) (p : Bytes × α → Bool) :
    ((l.filter p).map Prod.fst).Pairwise (· < ·) := h.sublist (List.filter_sublist.map _)

/-- Lists with the same keys and the same values for them. -/
theorem keyed_ext {α : Type} {l l' : List (Bytes × α)} (hk : l.map Prod.fst = l'.map Prod.fst)
    (h : ∀ e ∈ l, ∀ e' ∈ l', e.1 = e'.1 → e.2 = e'.2) : l = l' := by
  induction l generalizing l' with
  | nil => cases l' with
    | nil => rfl
    | cons _ _ => simp at hk
  | cons x l ih => cases l' with
    | nil => simp at hk
    | cons y l' =>
      rw [List.map_cons, List.map_cons, List.cons.injEq] at hk
      rw [ih hk.2 (fun e he e' he' => h e (by simp [he]) e' (by simp [he']))]
      congr 1
      exact Prod.ext hk.1 (h x (by simp) y (by simp) hk.1)

/-- The records of the index, as bytes. -/
def recordsOf (env : Env) (tsm : BMap (List TimeSeriesMetadata)) : List (Bytes × List (Bytes × Bytes)) :=
  tsm.map (fun e => (e.1, e.2.map (fun t => (t.measurementId, t.serialize env))))

theorem names_mem (l : List Bytes) (x : Bytes) : x ∈ Ref.names l ↔ x ∈ l := by
  rw [Ref.names, ((byName_perm _).map Prod.fst).mem_iff, List.map_map]
  have : (Prod.fst ∘ fun x : Bytes => (x, ())) = id := rfl
  rw [this, List.map_id, List.mem_dedup]

theorem names_sorted (l : List Bytes) : (Ref.names l).Pairwise (· < ·) := by
  refine byName_sorted _ ?_
  rw [List.map_map]
  have : (Prod.fst ∘ fun x : Bytes => (x, ())) = id := rfl
  rw [this, List.map_id]
  exact List.nodup_dedup l

theorem names_eq {l l' : List Bytes} (h : l.Pairwise (· < ·)) (hm : ∀ x, x ∈ l ↔ x ∈ l') : l = Ref.names l' :=
  sorted_ext h (names_sorted l') (fun x => by rw [names_mem, hm])

theorem sorted_keys {α : Type} {m : BMap α} (h : BMap.Sorted m) : (m.map Prod.fst).Pairwise (· < ·) :=
  List.pairwise_map.2 (h.imp (fun h => (bytesLt_iff _ _).1 h))

/-- The chunks with a path. -/
abbrev locsBy (env : Env) (groups : List GGroup) (p : Bytes) : List ChunkLoc :=
  (fileLocs env 7 groups).filter (fun l => decide (IoWriter.seriesPath l.1 l.2.2.name = p))

theorem records_eq {groups : List GGroup} {cs : List (Ref.Chunk × Nat)} {cmm : BMap (List ChunkMetadata)}
    {tsm : BMap (List TimeSeriesMetadata)}
    (hcs : cs = (fileLocs env 7 groups).map (fun l => (l.2.2.brief env l.1, l.2.1)))
    (hsorted : BMap.Sorted cmm)
    (hget : ∀ k, BMap.get? k cmm = optAppend none ((locsBy env groups k).map (fun l => chunkMeta env l.2.1 l.2.2)))
    (htsm : IoWriter.flushIndexLoop env none cmm [] = some tsm)
    (hname : ∀ l ∈ fileLocs env 7 groups, l.2.2.name.length < 2 ^ 31)
    (hbuf : ∀ e ∈ tsm, ∀ t ∈ e.2, t.buffer.length < 2 ^ 32) :
    cmm.map Prod.fst = Ref.paths cs ∧ recordsOf env tsm = Ref.records env cs := by
  have hmem : ∀ e ∈ cmm, locsBy env groups e.1 ≠ [] ∧ e.2 = (locsBy env groups e.1).map (fun l => chunkMeta env l.2.1 l.2.2) := by
    intro e he
    have hg := BMap.get?_of_mem hsorted (k := e.1) (v := e.2) he
    rw [hget, optAppend_none] at hg
    split at hg
    · simp at hg
    · next hne =>
      simp only [Option.some.injEq] at hg
      exact ⟨fun h => hne (by rw [h]; rfl), hg.symm⟩
  have hpaths : cmm.map Prod.fst = Ref.paths cs := by
    refine names_eq (sorted_keys hsorted) fun x => ?_
    rw [← BMap.get?_isSome_iff, hget, optAppend_none, hcs, List.map_map, List.mem_map]
    constructor
    · intro h
      split at h
      · simp at h
      · next hne =>
        obtain ⟨y, hy⟩ := List.exists_mem_of_ne_nil _ hne
        obtain ⟨l, hl, _⟩ := List.mem_map.1 hy
        exact ⟨l, (List.mem_filter.1 hl).1, of_decide_eq_true (List.mem_filter.1 hl).2⟩
    · rintro ⟨l, hl, rfl⟩
      rw [if_neg]
      · rfl
      · refine List.ne_nil_of_mem (List.mem_map.2 ⟨l, List.mem_filter.2 ⟨hl, ?_⟩, rfl⟩)
        exact decide_eq_true rfl
  have hts : ∀ e ∈ cmm, ∃ t, IoWriter.timeSeriesMetadata env e.2 = some t := by
    intro e he
    obtain ⟨h1, h2⟩ := hmem e he
    rw [← Option.isSome_iff_exists]
    refine timeSeriesMetadata_isSome env _ (by rw [h2]; simpa using h1) ?_
    intro c hc
    rw [h2] at hc
    obtain ⟨l, _, rfl⟩ := List.mem_map.1 hc
    exact chunkStats_type ..
  obtain ⟨T, hT⟩ : ∃ T : Bytes × List ChunkMetadata → TimeSeriesMetadata, ∀ e ∈ cmm,
      IoWriter.timeSeriesMetadata env e.2 = some (T e) := by
    refine ⟨fun e => (IoWriter.timeSeriesMetadata env e.2).getD ⟨0, 0, [], .INT32, Statistics.new env .INT32, []⟩, fun e he => ?_⟩
    obtain ⟨t, ht⟩ := hts e he
    simp only [ht, Option.getD_some]
  obtain ⟨tsm', hloop, hsort, hg⟩ := flushIndexLoop_eq env T cmm hsorted hT none (by simp) [] List.Pairwise.nil
  rw [htsm, Option.some.injEq] at hloop
  subst hloop
  have hval : ∀ e ∈ tsm, (cmm.filter (fun x => decide (IoWriter.deviceOfPath x.1 = e.1))) ≠ []
      ∧ e.2 = (cmm.filter (fun x => decide (IoWriter.deviceOfPath x.1 = e.1))).map T := by
    intro e he
    have := BMap.get?_of_mem hsort (k := e.1) (v := e.2) he
    rw [hg, show BMap.get? e.1 ([] : BMap (List TimeSeriesMetadata)) = none from rfl, optAppend_none] at this
    split at this
    · simp at this
    · next hne =>
      simp only [Option.some.injEq] at this
      exact ⟨fun h => hne (by rw [h]; rfl), this.symm⟩
  have hdot : ∀ e ∈ cmm, IoWriter.deviceOfPath e.1 = beforeLastDot e.1 := by
    intro e he
    obtain ⟨l, hl⟩ := List.exists_mem_of_ne_nil _ (hmem e he).1
    refine deviceOfPath_eq _ ?_
    rw [← of_decide_eq_true (List.mem_filter.1 hl).2, IoWriter.seriesPath]
    simp
  refine ⟨hpaths, ?_⟩
  rw [Ref.records]
  refine keyed_ext ?_ ?_
  · rw [List.map_map, recordsOf, List.map_map]
    have h1 : (Prod.fst ∘ fun e : Bytes × List TimeSeriesMetadata => (e.1, e.2.map (fun t => (t.measurementId, t.serialize env)))) = Prod.fst := rfl
    rw [h1]
    have h2 : ∀ l : List Bytes, l.map (Prod.fst ∘ fun d => (d, ((Ref.paths cs).filter (fun p => decide (beforeLastDot p = d))).map (fun p =>
      Ref.record env (cs.filter (fun c => decide (c.1.path = p)))))) = l := by
      intro l
      exact List.map_id l
    rw [h2]
    refine names_eq (sorted_keys hsort) fun d => ?_
    rw [← hpaths, List.map_map, List.mem_map, List.mem_map]
    constructor
    · rintro ⟨e, he, rfl⟩
      obtain ⟨x, hx⟩ := List.exists_mem_of_ne_nil _ (hval e he).1
      obtain ⟨h3, h4⟩ := List.mem_filter.1 hx
      exact ⟨x, h3, by rw [Function.comp_apply, ← hdot x h3]; exact of_decide_eq_true h4⟩
    · rintro ⟨x, hx, rfl⟩
      have : (BMap.get? (beforeLastDot x.1) tsm).isSome := by
        rw [hg, show BMap.get? (beforeLastDot x.1) ([] : BMap (List TimeSeriesMetadata)) = none from rfl, optAppend_none, if_neg]
        · rfl
        · exact List.ne_nil_of_mem (List.mem_map.2 ⟨x, List.mem_filter.2 ⟨hx, decide_eq_true (hdot x hx)⟩, rfl⟩)
      rw [BMap.get?_isSome_iff] at this
      exact List.mem_map.1 this
  · intro x hx y hy hxy
    obtain ⟨e, he, rfl⟩ := List.mem_map.1 hx
    obtain ⟨d, hd, rfl⟩ := List.mem_map.1 hy
    simp only at hxy ⊢
    subst hxy
    obtain ⟨_, h2⟩ := hval e he
    rw [h2, List.map_map, ← hpaths, List.filter_map, List.map_map]
    have hfil : cmm.filter (fun x => decide (IoWriter.deviceOfPath x.1 = e.1))
        = cmm.filter ((fun p => decide (beforeLastDot p = e.1)) ∘ Prod.fst) := by
      refine List.filter_congr fun x hx => ?_
      rw [hdot x hx]
      rfl
    rw [← hfil]
    refine List.map_congr_left fun x hx => ?_
    have hx1 := (List.mem_filter.1 hx).1
    obtain ⟨h3, h4⟩ := hmem x hx1
    have h5 := hT x hx1
    simp only [Function.comp_apply]
    have h6 : cs.filter (fun c => decide (c.1.path = x.1)) = (locsBy env groups x.1).map (fun l => (l.2.2.brief env l.1, l.2.1)) := by
      rw [hcs, List.filter_map]
      rfl
    have h7 : (T x).buffer.length < 2 ^ 32 := hbuf e he _ (by rw [h2]; exact List.mem_map.2 ⟨x, hx, rfl⟩)
    rw [h6]
    rw [h4] at h5
    have h8 : ∀ l ∈ locsBy env groups x.1, l.2.2.name.length < 2 ^ 31 := fun l hl => hname l (List.mem_filter.1 hl).1
    generalize locsBy env groups x.1 = locs at h3 h5 h8
    cases locs with
    | nil => exact absurd rfl h3
    | cons l locs => exact record_eq (h8 l (by simp)) h5 h7

/-! ## nodes -/

theorem every256_nil {α : Type} : Ref.every 256 ([] : List α) = [] := by simp [Ref.every]

theorem every256_cons {α : Type} (x : α) (l : List α) : Ref.every 256 (x :: l) = x :: Ref.every 256 (l.drop 255) := by
  rw [Ref.every, Ref.every]
  have h : ((x :: l).length + (256 - 1)) / 256 = ((l.drop 255).length + (256 - 1)) / 256 + 1 := by
    rw [List.length_cons, List.length_drop]; omega
  rw [h, List.range_succ_eq_map, List.flatMap_cons, List.flatMap_map]
  simp only [Nat.mul_zero, List.drop_zero, List.take_succ_cons, List.take_zero, List.singleton_append]
  congr 1
  rw [List.flatMap, List.flatMap]
  congr 1
  refine List.map_congr_left fun k _ => ?_
  rw [List.drop_drop]
  have : 256 * (k + 1) = 255 + 256 * k + 1 := by omega
  simp only [Nat.succ_eq_add_one]
  rw [this, List.drop_succ_cons]

theorem placed_drop {α : Type} (l : List (α × Bytes)) (n p : Nat) :
    (Ref.placed p l).drop n = Ref.placed (p + ((l.take n).flatMap Prod.snd).length) (l.drop n) := by
  induction l generalizing n p with
  | nil => simp [Ref.placed]
  | cons x l ih =>
    cases n with
    | zero => simp
    | succ n => simp [Ref.placed, ih, Nat.add_assoc]

theorem leafEntries_append {α : Type} (name bytes : α → Bytes) (a b : List α) (i p : Nat) :
    leafEntries name bytes i p (a ++ b)
      = leafEntries name bytes i p a ++ leafEntries name bytes (i + a.length) (p + (a.flatMap bytes).length) b := by
  induction a generalizing i p with
  | nil => simp [leafEntries]
  | cons x a ih =>
    simp only [List.cons_append, leafEntries, ih, List.append_assoc, List.length_cons, List.flatMap_cons, List.length_append]
    rw [Nat.add_assoc p, show i + 1 + a.length = i + (a.length + 1) by omega]

theorem leafEntries_none {α : Type} (name bytes : α → Bytes) (a : List α) (i p : Nat) (h : i % 256 ≠ 0) (h' : i % 256 + a.length ≤ 256) :
    leafEntries name bytes i p a = [] := by
  induction a generalizing i p with
  | nil => rfl
  | cons x a ih =>
    rw [List.length_cons] at h'
    rw [leafEntries, if_neg (show i % maxDegree ≠ 0 from h), List.nil_append]
    cases a with
    | nil => rfl
    | cons y a =>
      rw [List.length_cons] at h'
      exact ih (i + 1) _ (by omega) (by rw [List.length_cons]; omega)

theorem leafEntries_eq {α : Type} (name bytes : α → Bytes) (l : List α) (i p : Nat) (hi : i % 256 = 0) :
    leafEntries name bytes i p l = (Ref.every 256 (Ref.placed p (l.map (fun t => (name t, bytes t))))).map (fun e => ⟨e.1, e.2⟩) := by
  induction hn : l.length using Nat.strongRecOn generalizing l i p with
  | ind n ih =>
    cases l with
    | nil => simp [leafEntries, Ref.placed, every256_nil]
    | cons t l =>
      rw [leafEntries, if_pos (show i % maxDegree = 0 from hi), List.map_cons, Ref.placed, every256_cons, List.map_cons,
        List.singleton_append]
      congr 1
      rw [placed_drop, ← List.map_drop, ← List.map_take, List.flatMap_map]
      conv_lhs => rw [← List.take_append_drop 255 l]
      rw [leafEntries_append, leafEntries_none name bytes (l.take 255) (i + 1) _ (by omega) (by rw [List.length_take]; omega),
        List.nil_append]
      by_cases hl : l.length ≤ 255
      · rw [List.drop_eq_nil_of_le hl]
        simp [leafEntries, Ref.placed, every256_nil]
      · have h255 : (l.take 255).length = 255 := by rw [List.length_take]; omega
        rw [h255]
        rw [List.length_cons] at hn
        exact ih (l.drop 255).length (by rw [List.length_drop]; omega) _ _ _ (by omega) rfl

theorem node_eq {n : IndexNode} (hlen : n.children.length < 2 ^ 32) (hn : ∀ e ∈ n.children, e.name.length < 2 ^ 31) :
    n.serialize = Ref.node n.nodeType.serialize (n.children.map (fun e => (e.name, e.offset))) n.endOffset := by
  rw [IndexNode.serialize, Ref.node, varint_u32 hlen, be64_nat, List.length_map, List.flatMap_map]
  congr 3
  rw [List.flatMap, List.flatMap]
  congr 1
  refine List.map_congr_left fun e he => ?_
  rw [IndexEntry.serialize, string_eq (hn e he), be64_nat]

theorem placed_names {α : Type} (p : Nat) (l : List (α × Bytes)) : (Ref.placed p l).map Prod.fst = l.map Prod.fst := by
  induction l generalizing p with
  | nil => rfl
  | cons x l ih => simp [Ref.placed, ih]

theorem leafNode_eq {p : Nat} {l : List TimeSeriesMetadata} (hlen : l.length ≤ 65536) (hn : ∀ t ∈ l, t.measurementId.length < 2 ^ 31) :
    (leafNode env p l).serialize = Ref.node 3 (Ref.every 256 (Ref.placed p (l.map (fun t => (t.measurementId, t.serialize env)))))
      (p + ((l.map (fun t => (t.measurementId, t.serialize env))).flatMap Prod.snd).length) := by
  have he := leafEntries_eq TimeSeriesMetadata.measurementId (TimeSeriesMetadata.serialize env) l 0 p rfl
  have hcnt := length_leafEntries TimeSeriesMetadata.measurementId (TimeSeriesMetadata.serialize env) 0 p l
  rw [node_eq]
  · simp only [leafNode]
    rw [he, List.map_map, List.flatMap_map]
    congr 1
    exact List.map_id _
  · simp only [leafNode]
    rw [hcnt]
    omega
  · simp only [leafNode]
    rw [he]
    intro e hx
    obtain ⟨y, hy, rfl⟩ := List.mem_map.1 hx
    rw [Ref.every, List.mem_flatMap] at hy
    obtain ⟨k, _, hy⟩ := hy
    have hy := List.mem_of_mem_drop (List.mem_of_mem_take hy)
    have : y.1 ∈ (Ref.placed p (l.map (fun t => (t.measurementId, t.serialize env)))).map Prod.fst := List.mem_map.2 ⟨y, hy, rfl⟩
    rw [placed_names, List.map_map, List.mem_map] at this
    obtain ⟨t, ht, heq⟩ := this
    simp only [Function.comp_apply] at heq
    simp only
    rw [← heq]
    exact hn t ht

theorem anyNode_eq {p : Nat} {l : List TimeSeriesMetadata} (hn : ∀ t ∈ l, t.measurementId.length < 2 ^ 31) :
    (anyNode env p l).serialize = Ref.deviceNode p (l.map (fun t => (t.measurementId, t.serialize env))) := by
  rw [anyNode, Ref.deviceNode, List.length_map]
  by_cases hl : l.length ≤ 65536
  · rw [if_pos hl, leafNode_eq hl hn]
    rw [if_pos hl]
  · rw [if_neg hl, if_neg hl]
    obtain ⟨es, h1, h2, h3⟩ := deviceIndex_deep env (fun _ => True) (List.replicate p 0) l (by simp) (by omega)
    rw [deviceIndex_any, anyNode, if_neg hl, Option.some.injEq, Prod.mk.injEq, IndexNode.mk.injEq] at h1
    have hlen := congrArg List.length h1.2.1
    rw [List.length_map] at hlen
    rw [node_eq]
    · simp only
      rw [List.map_map, List.map_map, List.flatMap_map]
      rfl
    · simp only
      rw [List.length_map]
      omega
    · intro e he
      obtain ⟨x, hx, rfl⟩ := List.mem_map.1 he
      obtain ⟨t, ht, rfl⟩ := List.mem_map.1 (every_subset (upper_subset hx))
      exact hn t ht

theorem anyNodes_eq {tsm : BMap (List TimeSeriesMetadata)} (p : Nat)
    (hn : ∀ e ∈ tsm, ∀ t ∈ e.2, t.measurementId.length < 2 ^ 31) :
    (anyNodes env p tsm).map (fun e => (e.1, e.2.serialize)) = Ref.deviceNodes p (recordsOf env tsm) := by
  induction tsm generalizing p with
  | nil => rfl
  | cons e tsm ih =>
    obtain ⟨d, l⟩ := e
    rw [anyNodes, recordsOf, List.map_cons, List.map_cons, Ref.deviceNodes]
    simp only
    rw [anyNode_eq (hn (d, l) (by simp))]
    congr 1
    have : ((l.map (fun t => (t.measurementId, t.serialize env))).flatMap Prod.snd) = l.flatMap (TimeSeriesMetadata.serialize env) := by
      rw [List.flatMap_map]
    rw [this]
    exact ih _ (fun e he => hn e (by simp [he]))

theorem devEntries_eq (p : Nat) (l : List (Bytes × IndexNode)) :
    (devEntries p l).map (fun e => (e.name, e.offset)) = Ref.placed p (l.map (fun e => (e.1, e.2.serialize))) := by
  induction l generalizing p with
  | nil => rfl
  | cons e l ih => obtain ⟨d, n⟩ := e; simp [devEntries, Ref.placed, ih]

/-! ## Bloom filter -/

theorem byte_of_bits {x : UInt8} {p : Nat → Bool} (h : ∀ b, b < 8 → x.toNat.testBit b = p b) :
    x = UInt8.ofNat ((List.range 8).map (fun b => if p b then 2 ^ b else 0)).sum := by
  have key : ∀ y : UInt8, y = UInt8.ofNat ((List.range 8).map (fun b => if y.toNat.testBit b then 2 ^ b else 0)).sum := by
    intro y
    have h : ∀ n : Fin 256, n.val = ((List.range 8).map (fun b => if n.val.testBit b then 2 ^ b else 0)).sum := by decide +kernel
    have h1 := h ⟨y.toNat, y.toNat_lt⟩
    simp only at h1
    rw [← h1, UInt8.ofNat_toNat]
  conv_lhs => rw [key x]
  congr 2
  refine List.map_congr_left fun b hb => ?_
  rw [h b (List.mem_range.1 hb)]

theorem max_ge_each (l : List Nat) (a : Nat) : a ≤ l.foldl max a ∧ ∀ x ∈ l, x ≤ l.foldl max a := by
  induction l generalizing a with
  | nil => simp
  | cons y l ih =>
    obtain ⟨h1, h2⟩ := ih (max a y)
    rw [List.foldl_cons]
    refine ⟨by omega, fun x hx => ?_⟩
    rcases List.mem_cons.1 hx with rfl | hx
    · omega
    · exact h2 x hx

theorem max_le_bound (l : List Nat) (a b : Nat) (ha : a ≤ b) (h : ∀ x ∈ l, x ≤ b) : l.foldl max a ≤ b := by
  induction l generalizing a with
  | nil => exact ha
  | cons y l ih =>
    rw [List.foldl_cons]
    exact ih _ (by have := h y (by simp); omega) (fun x hx => h x (by simp [hx]))

/-- Bytes without zeros at the end are determined by their bits. -/
theorem bits_bytes {bytes : Bytes} {on : List Nat} (h : ∀ i, storedBit bytes i = true ↔ i ∈ on)
    (hlast : ∀ x, bytes.getLast? = some x → x ≠ 0) :
    bytes.length = (on.map (fun i => i / 8 + 1)).foldl max 0
      ∧ bytes = (List.range bytes.length).map (fun j =>
          UInt8.ofNat ((List.range 8).map (fun b => if on.contains (8 * j + b) then 2 ^ b else 0)).sum) := by
  constructor
  · apply Nat.le_antisymm
    · cases hl : bytes.getLast? with
      | none => rw [List.getLast?_eq_none_iff.1 hl]; exact Nat.zero_le _
      | some x =>
        have hne : bytes ≠ [] := by rintro rfl; simp at hl
        have hpos := List.length_pos_iff.2 hne
        have hx : x.toNat ≠ 0 := fun h0 => hlast x hl (UInt8.toNat_inj.1 (by simpa using h0))
        obtain ⟨b, hb⟩ := Nat.exists_testBit_of_ne_zero hx
        have hb8 : b < 8 := by
          by_contra hge
          rw [Nat.testBit_lt_two_pow (Nat.lt_of_lt_of_le x.toNat_lt (Nat.pow_le_pow_right (by omega) (Nat.not_lt.1 hge)))] at hb
          cases hb
        have hget : bytes[bytes.length - 1]? = some x := by rw [← List.getLast?_eq_getElem?, hl]
        have hs : storedBit bytes (8 * (bytes.length - 1) + b) = true := by
          rw [storedBit, show (8 * (bytes.length - 1) + b) / 8 = bytes.length - 1 by omega, hget, Option.getD_some,
            show (8 * (bytes.length - 1) + b) % 8 = b by omega]
          exact hb
        have := (max_ge_each (on.map (fun i => i / 8 + 1)) 0).2 _ (List.mem_map.2 ⟨_, (h _).1 hs, rfl⟩)
        omega
    · refine max_le_bound _ _ _ (Nat.zero_le _) fun x hx => ?_
      obtain ⟨i, hi, rfl⟩ := List.mem_map.1 hx
      by_contra hge
      have hs := (h i).2 hi
      rw [storedBit, List.getElem?_eq_none (by omega)] at hs
      simp at hs
  · apply List.ext_getElem
    · simp
    · intro j h1 h2
      rw [List.getElem_map, List.getElem_range]
      refine byte_of_bits (p := fun b => on.contains (8 * j + b)) fun b hb => ?_
      have hs := h (8 * j + b)
      rw [storedBit, show (8 * j + b) / 8 = j by omega, show (8 * j + b) % 8 = b by omega, List.getElem?_eq_getElem h1,
        Option.getD_some] at hs
      rw [Bool.eq_iff_iff, hs, List.contains_iff_mem]

theorem trimZeros_last (bs : Bytes) (x : UInt8) (h : (BloomFilter.trimZeros bs).getLast? = some x) : x ≠ 0 := by
  rw [BloomFilter.trimZeros, List.getLast?_reverse] at h
  intro h0
  have := List.head?_dropWhile_not (fun b : UInt8 => b == 0) bs.reverse
  rw [h] at this
  simp [h0] at this

theorem bloom_eq {paths paths' : List Bytes} {f : BloomFilter} {b : Bytes} (h : BloomFilter.build env paths = some f)
    (hs : f.size < 2 ^ 31) (hb : f.serialize = some b) (hlen : paths.length = paths'.length) (hm : ∀ p, p ∈ paths ↔ p ∈ paths')
    (hl : b.length < 2 ^ 32) : b = Ref.bloom env paths' := by
  rw [BloomFilter.serialize] at hb
  cases hsb : f.serializeBits with
  | none => rw [hsb] at hb; simp at hb
  | some bytes =>
    rw [hsb, Option.map_some, Option.some.injEq] at hb
    have hbits := BloomFilter.build_exact h hs hsb
    have hspec := BloomFilter.addAll_spec h
    have hsz : f.size = max (env.bloomSize paths'.length) 256 := by rw [hspec.2.1, ← hlen]; rfl
    have hk : f.hashFunctionSize = min env.bloomHashes 8 := by rw [hspec.2.2.2.1]; rfl
    have hk32 : (u32 f.hashFunctionSize).toNat = f.hashFunctionSize := u32_toNat _ (by omega)
    have hs32 : (u32 f.size).toNat = f.size := u32_toNat _ (by omega)
    rw [hk32, hs32, hsz, hk] at hbits
    have hlast : ∀ x, bytes.getLast? = some x → x ≠ 0 := by
      rw [BloomFilter.serializeBits] at hsb
      cases hx : BloomFilter.bitsLoop 0 f.bitSet (List.replicate (BloomFilter.numberOfBytes f.bitSet.length) 0) with
      | none => rw [hx] at hsb; simp at hsb
      | some r =>
        rw [hx, Option.map_some, Option.some.injEq] at hsb
        rw [← hsb]
        exact fun x => trimZeros_last r x
    obtain ⟨h1, h2⟩ := bits_bytes (on := paths'.flatMap (fun p => (bloomSeedsSpec.take (min env.bloomHashes 8)).map
      (fun seed => (pathHash p seed).natAbs % max (env.bloomSize paths'.length) 256))) (by
        intro i
        rw [hbits i, List.mem_flatMap]
        constructor
        · rintro ⟨p, hp, seed, hsd, rfl⟩
          exact ⟨p, (hm p).1 hp, List.mem_map.2 ⟨seed, hsd, rfl⟩⟩
        · rintro ⟨p, hp, hx⟩
          obtain ⟨seed, hsd, rfl⟩ := List.mem_map.1 hx
          exact ⟨p, (hm p).2 hp, seed, hsd, rfl⟩) hlast
    have hbl : bytes.length < 2 ^ 32 := by
      rw [← hb] at hl
      simp only [List.length_append] at hl
      omega
    rw [← hb, varint_u32 hbl, varint_u32 (show f.size < 2 ^ 32 by omega), varint_u32 (show f.hashFunctionSize < 2 ^ 32 by omega),
      hsz, hk]
    simp only [Ref.bloom]
    rw [← h1, ← h2]

/-! ## the file -/

theorem metaBytes_part {tsm : BMap (List TimeSeriesMetadata)} {e : Bytes × List TimeSeriesMetadata} (he : e ∈ tsm)
    {t : TimeSeriesMetadata} (ht : t ∈ e.2) : t.buffer.length ≤ (metaBytes env tsm).length := by
  rw [metaBytes]
  have h1 : t.buffer.length ≤ (t.serialize env).length := by
    rw [TimeSeriesMetadata.serialize, List.length_append]; omega
  have key : ∀ {α : Type} (f : α → Bytes) {l : List α} {x : α}, x ∈ l → (f x).length ≤ (l.flatMap f).length := by
    intro α f l x hx
    obtain ⟨a, b, rfl⟩ := List.append_of_mem hx
    simp only [List.flatMap_append, List.flatMap_cons, List.length_append]
    omega
  have h2 := key (TimeSeriesMetadata.serialize env) ht
  have h3 := key (fun e : Bytes × List TimeSeriesMetadata => e.2.flatMap (TimeSeriesMetadata.serialize env)) he
  omega

theorem Outlined.paths_subset {schema : Schema} {ops : List Op} {s : Session} (c : Outlined env unsnap schema ops s) :
    c.paths ⊆ Ref.schemaPaths schema := by
  intro p hp
  obtain ⟨l, hl, rfl⟩ := (c.path p).1 hp
  obtain ⟨g, hg, hg1, hg2⟩ := fileLocs_mem hl
  obtain ⟨ms, h1, h2⟩ := c.ok g hg
  rw [Ref.schemaPaths, List.mem_flatMap]
  refine ⟨(g.1, ms), look_mem h1, List.mem_map.2 ⟨(l.2.2.name, l.2.2.ms), look_mem (h2.1 _ hg2).1, ?_⟩⟩
  simp only [hg1]
  rfl

theorem Outlined.paths_le {schema : Schema} {ops : List Op} {s : Session} (c : Outlined env unsnap schema ops s) :
    c.paths.length ≤ schema.size := by
  have := (List.subperm_of_subset c.nodup c.paths_subset).length_le
  refine Nat.le_trans this (Nat.le_of_eq ?_)
  simp [Ref.schemaPaths, Schema.size, List.length_flatMap]

/-- The whole file. -/
theorem Outlined.reference {schema : Schema} {ops : List Op} {s : Session} (hsch : schema.Named)
    (c : Outlined env unsnap schema ops s) (hsize : ∀ n, n ≤ schema.size → env.bloomSize n < 2 ^ 31) :
    ∃ head order, Ref.data env schema (burstsBy schema ops s.grown) = some head
      ∧ order.Perm (Ref.deviceNodes (head.length + 1) (Ref.records env (Ref.chunks env schema (burstsBy schema ops s.grown))))
      ∧ s.file = Ref.file env head (Ref.chunks env schema (burstsBy schema ops s.grown)) order := by
  have hg := c.groups_eq hsch.wf
  have hfit : ∀ b ∈ burstsBy schema ops s.grown, ∀ g ∈ gburst env schema b, Fitting env unsnap g := by
    intro b hb g hgb
    have hgm : g ∈ c.groups := by rw [hg]; exact List.mem_flatMap.2 ⟨b, hb, hgb⟩
    have hn := c.ok.names hsch g hgm
    exact ⟨hn.1, fun x hx => ⟨(hn.2 x hx).1, (hn.2 x hx).2, c.exact g hgm x hx, Coarse.fits_chunk c.fits hgm hx⟩⟩
  have hdata := data_bytes hfit
  rw [← hg] at hdata
  have hcs := chunks_eq hfit
  rw [← hg] at hcs
  have hmid : (metaBytes env c.layout.tsm).length < 2 ^ 32 := by
    have h1 := c.fits.mid
    have h2 := congrArg List.length c.layout.mid_eq
    rw [List.length_append] at h2
    omega
  have hname : ∀ l ∈ fileLocs env 7 c.groups, l.2.2.name.length < 2 ^ 31 := by
    intro l hl
    obtain ⟨g, hgm, _, hg2⟩ := fileLocs_mem hl
    exact ((c.ok.names hsch g hgm).2 _ hg2).1
  obtain ⟨hpaths, hrec⟩ := records_eq hcs c.layout.cmm_sorted c.layout.cmm_get c.layout.tsm_eq hname
    (fun e he t ht => by have := metaBytes_part (env := env) he ht; omega)
  rw [c.layout.cmm_paths] at hpaths
  generalize Ref.chunks env schema (burstsBy schema ops s.grown) = cs at hcs hpaths hrec
  obtain ⟨tsm', hloop, hsort, hne, hkeys⟩ := flushIndex_any c.layout.cmm_sorted c.layout.cmm_get
  have htsm : tsm' = c.layout.tsm := by
    have := c.layout.tsm_eq
    rw [hloop, Option.some.injEq] at this
    exact this
  subst htsm
  have hnodes := c.layout.nodes_eq
  rw [devicesLoop_nodes env _ _ hne, Option.some.injEq, Prod.mk.injEq] at hnodes
  have hnodes := hnodes.2
  have hid : ∀ e ∈ c.layout.tsm, ∀ t ∈ e.2, t.measurementId.length < 2 ^ 31 := by
    intro e he t ht
    have h1 : (e.1, e.2.map (fun t => (t.measurementId, t.serialize env))) ∈ Ref.records env cs := by
      rw [← hrec]; exact List.mem_map.2 ⟨e, he, rfl⟩
    obtain ⟨d, _, h2⟩ := List.mem_map.1 h1
    rw [Prod.mk.injEq] at h2
    have h3 : (t.measurementId, t.serialize env) ∈ e.2.map (fun t => (t.measurementId, t.serialize env)) :=
      List.mem_map.2 ⟨t, ht, rfl⟩
    rw [← h2.2] at h3
    obtain ⟨q, _, h4⟩ := List.mem_map.1 h3
    have h5 : t.measurementId = (Ref.record env (cs.filter (fun c => decide (c.1.path = q)))).1 := by rw [h4]
    rw [h5]
    cases hf : cs.filter (fun c => decide (c.1.path = q)) with
    | nil => rw [Ref.record]; simp
    | cons x xs =>
      have hx : x ∈ cs := (List.mem_filter.1 (by rw [hf]; simp : x ∈ cs.filter (fun c => decide (c.1.path = q)))).1
      rw [hcs] at hx
      obtain ⟨l, hl, rfl⟩ := List.mem_map.1 hx
      exact hname l hl
  have hdev := anyNodes_eq (env := env) (fileBytes env c.groups ++ [2]).length hid
  rw [hnodes, hrec, List.length_append, List.length_singleton] at hdev
  refine ⟨_, c.layout.order.map (fun e => (e.1, e.2.serialize)), hdata, ?_, ?_⟩
  · rw [← hdev]
    exact c.layout.order_perm.map _
  · have hlist : metaBytes env c.layout.tsm = (Ref.records env cs).flatMap (fun d => d.2.flatMap Prod.snd) := by
      rw [← hrec, recordsOf, List.flatMap_map, metaBytes]
      simp only [List.flatMap_map]
    have hn : c.layout.order.flatMap (fun e => e.2.serialize) = (c.layout.order.map (fun e => (e.1, e.2.serialize))).flatMap Prod.snd := by
      rw [List.flatMap_map]
    have hroot : c.layout.root.serialize = Ref.node 1 (Ref.placed ((fileBytes env c.groups).length + 1 + (metaBytes env c.layout.tsm).length)
        (c.layout.order.map (fun e => (e.1, e.2.serialize))))
        ((fileBytes env c.groups).length + 1 + (metaBytes env c.layout.tsm).length
          + (c.layout.order.flatMap (fun e => e.2.serialize)).length) := by
      rw [node_eq]
      · rw [c.layout.entries, devEntries_eq, c.layout.ending, c.layout.kind]
        simp only [List.length_append, List.length_singleton]
        rfl
      · have := c.layout.few
        omega
      · intro e hx
        obtain ⟨⟨q, hq, h1⟩, _⟩ := c.layout.names e hx
        have h3 := c.fits.names q hq
        have h4 := deviceOfPath_length q
        rw [h1]
        omega
    have hfl : (footerBytes c.layout.root (fileBytes env c.groups).length c.layout.bloom).length < 2 ^ 32 := c.fits.footer
    have hbl : c.layout.bloom.length < 2 ^ 32 := by
      rw [footerBytes, List.length_append] at hfl
      omega
    have hfs : c.layout.filter.size < 2 ^ 31 := by
      have h := c.layout.filter_eq
      rw [BloomFilter.build] at h
      rw [(BloomFilter.addAll_spec h).2.1]
      have h1 := hsize _ c.paths_le
      have h2 : (BloomFilter.emptyFilter env c.paths.length).size = max (env.bloomSize c.paths.length) 256 := rfl
      rw [h2]
      omega
    have hbloom := bloom_eq c.layout.filter_eq hfs c.layout.bloom_eq rfl (fun _ => Iff.rfl) hbl
    replace hbloom := hbloom.trans (congrArg (Ref.bloom env) hpaths)
    have hfoot : footerBytes c.layout.root (fileBytes env c.groups).length c.layout.bloom
        = Ref.node 1 (Ref.placed ((fileBytes env c.groups).length + 1 + (metaBytes env c.layout.tsm).length)
          (c.layout.order.map (fun e => (e.1, e.2.serialize))))
          ((fileBytes env c.groups).length + 1 + (metaBytes env c.layout.tsm).length
            + (c.layout.order.flatMap (fun e => e.2.serialize)).length) ++ Ref.big 8 (fileBytes env c.groups).length
          ++ Ref.bloom env (Ref.paths cs) := by
      rw [footerBytes, tsFileMetadataSerialize, hroot, be64_nat, hbloom]
    have hb32 : be32 (u32 (footerBytes c.layout.root (fileBytes env c.groups).length c.layout.bloom).length)
        = Ref.big 4 (footerBytes c.layout.root (fileBytes env c.groups).length c.layout.bloom).length := by
      rw [be32, big_eq, u32_toNat _ hfl]
    have hfile := c.layout.bytes
    rw [hb32, hfoot, c.layout.mid_eq, hn, hlist] at hfile
    refine hfile.trans ?_
    simp only [Ref.file, List.append_assoc]
    rfl

end TsFile
