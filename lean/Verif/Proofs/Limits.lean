import Verif.Proofs.Quiet
import Verif.Proofs.Growth
/-! # Sessions of any length

The length of a block, and, for series with PLAIN encoding and without compression, how many points can wait. -/

namespace TsFile
open Spec

/-! ## the length of a block -/

/-- The devices of the groups of a file: the same for each flush. -/
theorem groups_names {env : Env} {unsnap : Bytes → Option Bytes} {schema : Schema} {w : Writer} {a : AState}
    {groups : List GGroup} (h : Sim env unsnap schema w a groups) :
    groups.map Prod.fst = (List.replicate a.flushes ((Writer.newGroupWriters env schema).map Prod.fst)).flatten := by
  obtain ⟨parts, rfl, hf⟩ := h.blocks
  rw [AState.flushes]
  clear h
  revert hf
  generalize a.bursts = bs
  intro hf
  induction hf with
  | nil => simp
  | cons h1 _ ih =>
    rw [List.flatten_cons, List.map_append, ih, h1.1, List.length_cons, List.replicate_succ, List.flatten_cons]

/-- What a flush adds. -/
theorem block_le {env : Env} {unsnap : Bytes → Option Bytes} {schema : Schema} {w w' : Writer}
    {a : AState} {groups new : List GGroup} (h : Sim env unsnap schema w a groups)
    (h' : Sim env unsnap schema w' a.flush (groups ++ new)) {N : Nat} (hN : schema.NamesBelow N) :
    (fileBytes env (groups ++ new)).length ≤ (fileBytes env groups).length + schema.length * (7 + N)
      + 22 * a.pending.length + (167 + N) * schema.size := by
  have hb : (fileBytes env (groups ++ new)).length
      = (fileBytes env groups).length + (new.flatMap (groupBytes env)).length := by
    rw [fileBytes_append, List.length_append]
  rw [hb]
  have hn := groups_names h
  have hn' := groups_names h'
  have hs' := h'.stored
  rw [AState.flush] at hn' hs'
  by_cases h0 : a.counted = 0
  · rw [if_pos h0, List.map_append, hn] at hn'
    have : new = [] := by simpa using hn'
    subst this
    simp
    omega
  · rw [if_neg h0] at hn' hs'
    simp only [AState.flushes, List.length_append, List.length_cons, List.length_nil, Nat.zero_add] at hn' hn
    rw [List.map_append, hn, List.replicate_succ', List.flatten_append, List.flatten_singleton] at hn'
    have hk := List.append_cancel_left hn'
    have hp : ∀ d m, filePts new d m = series a.pending d m := by
      intro d m
      have e1 := hs' d m
      rw [series_append, ← h.stored d m, filePts_append] at e1
      exact List.append_cancel_left e1
    have hok : GroupsOk env unsnap schema new := fun g hg => h'.file.ok g (by simp [hg])
    have h1 := groupsBytes_le new hok hN.devices (fun d hd m hm => by have := hN.paths d hd m hm; omega)
    have h2 := totalPts_le hp
    have h3 : new.length ≤ schema.length := by
      have := congrArg List.length hk
      rw [List.length_map] at this
      rw [this, List.length_map]
      exact Nat.le_trans (keys_ofList_length _) (by simp)
    have h4 : (allChunks new).length ≤ schema.size :=
      block_chunks_le hok (by rw [hk]; exact newGroupWriters_nodup env schema)
    have h5 := Nat.mul_le_mul_right (7 + N) h3
    have h6 := Nat.mul_le_mul_left (167 + N) h4
    omega

/-- What each call adds. -/
theorem run_growth {env : Env} {unsnap : Bytes → Option Bytes} (hsn : SnappyOk env unsnap) {schema : Schema}
    (hwf : schema.WF) (ops : List Op) {w : Writer} {a : AState} {groups : List GGroup}
    (h : Sim env unsnap schema w a groups) {L : Nat} (hL : L ≤ 2 ^ 32) (n : Nat) (hn : a.pending.length ≤ n)
    (hlen : burstsBelow L n (ops.zip ((w.grown env ops).map (fun n => decide (0 < n)))))
    (hnp : .panic ∉ (w.run env ops).2) {N : Nat} (hN : schema.NamesBelow N) :
    (∀ k ∈ w.grown env ops, k ≤ schema.length * (7 + N) + 22 * L + (167 + N) * schema.size)
    ∧ (n ≤ L → (a.run schema (ops.zip ((w.grown env ops).map (fun n => decide (0 < n))))).1.pending.length ≤ L) := by
  induction ops generalizing w a groups n with
  | nil =>
    refine ⟨by simp [Writer.grown], ?_⟩
    simp only [List.zip_nil_left, AState.run]
    omega
  | cons op ops ih =>
    simp only [Writer.grown, List.map_cons, List.zip_cons_cons, burstsBelow] at hlen
    simp only [Writer.run, List.mem_cons, not_or] at hnp
    obtain ⟨new, hres, hok, hs1, hl1⟩ := sim_step hsn hwf h op (by omega) (fun hc => hnp.1 hc.symm)
    have hg := grows_iff h.file hs1.file
    rw [hg.2] at hlen
    obtain ⟨hi1, hi2⟩ := ih hs1 (if decide (new ≠ []) then 0 else n + op.recs.length)
      (by split at hl1 <;> simp_all; omega) hlen.2 hnp.2
    simp only [Writer.grown, List.map_cons, List.zip_cons_cons, AState.run, hg.2]
    refine ⟨?_, fun _ => hi2 (by split <;> omega)⟩
    intro k hk
    rcases List.mem_cons.1 hk with rfl | hk
    · by_cases hnew : new = []
      · rw [hg.1, hnew]
        simp
      · obtain ⟨hle, ⟨hr, w1, hs, hst, _⟩ | ⟨e, w1, hr, hs, hst⟩ | ⟨hr, hst⟩⟩ := sim_exec hsn h op
        · simp only [hnew, ne_eq, not_false_eq_true, decide_true, AState.step, if_true] at hs1
          have hb := block_le hs hs1 hN
          rw [← hs1.file.bytes, ← h.file.bytes] at hb
          omega
        · have := hok hnew
          rw [hst] at this
          simp at this
        · exact absurd hst (fun hc => hnp.1 hc.symm)
    · exact hi1 k hk

theorem session_limits {env : Env} {unsnap : Bytes → Option Bytes} (he : EnvOk env unsnap) {schema : Schema}
    (hwf : schema.WF) {ops : List Op} {s : Session} (hs : session env schema ops = some s) {L : Nat} (hL : L ≤ 2 ^ 32)
    (hb : burstsBelow L 0 (ops.zip (s.grown.map (fun n => decide (0 < n))))) {N : Nat} (hN : schema.NamesBelow N) :
    (∀ n ∈ s.grown, n ≤ schema.length * (7 + N) + 22 * L + (167 + N) * schema.size)
    ∧ s.closing ≤ schema.length * (7 + N) + 22 * L + (167 + N) * schema.size + 53
        + (189 + 3 * N) * ((1 + (s.grown.filter (fun n => decide (0 < n))).length) * schema.size)
        + bloomBits env (pathsOf (storedBy schema ops s.grown)).length / 8 := by
  rw [session] at hs
  cases hnew : Writer.new env schema ⟨[], none⟩ with
  | error e => rw [hnew] at hs; simp at hs
  | ok w =>
    rw [hnew] at hs
    simp only at hs
    split at hs
    · simp at hs
    · next hnp =>
      split at hs
      · simp at hs
      · next w' hcl =>
        simp only [Option.some.injEq] at hs
        subst hs
        have hsim := sim_new unsnap hwf hnew
        obtain ⟨hgrow, hpend⟩ := run_growth he.snappy hwf ops hsim hL 0 (by simp [AState.init]) hb hnp hN
        refine ⟨hgrow, ?_⟩
        obtain ⟨new, hres, hs1, hlen, hgr⟩ := sim_run he.snappy hwf ops hsim 0 (by simp [AState.init])
          (burstsBelow_mono hL _ _ hb) hnp
        have hlen' : (AState.init.run schema (ops.zip ((w.grown env ops).map (fun n => decide (0 < n))))).1.pending.length
            < 2 ^ 32 := by
          by_cases ho : ops = []
          · subst ho; simp [AState.run, AState.init]
          · exact hlen ho
        obtain ⟨w2, new2, hf, hs2, _⟩ := sim_flush he.snappy hwf hs1 hlen'
        have hblk := block_le hs1 hs2 hN
        rw [Writer.close, hf] at hcl
        simp only at hcl
        split at hcl
        · simp at hcl
        · next io hend =>
          simp only [Option.some.injEq] at hcl
          subst hcl
          obtain ⟨C⟩ := endFile_coarse he.order hs2.file hend
          have h1 := C.length_le hs2.file.ok hN
          obtain ⟨hsorted, hget⟩ := chunkMetadataMap_rep hs2.file
          have hmem := chunkPaths_mem hs2.file.ok hget hs2.stored
          rw [length_eq_of_mem_iff hsorted.nodup (List.nodup_dedup _) hmem] at h1
          have hfl := run_flush_flushes env schema ops w
          have h6 : (allChunks (([] ++ new) ++ new2)).length
              ≤ (1 + ((w.grown env ops).filter (fun n => decide (0 < n))).length) * schema.size :=
            Nat.le_trans (chunks_total_le hs2) (Nat.mul_le_mul_right _ hfl)
          have h4 := Nat.mul_le_mul_left (189 + 3 * N) h6
          have hp := hpend (by omega)
          simp only
          rw [hs1.file.bytes]
          have h1' : io.out.bytes.length ≤ (fileBytes env (([] ++ new) ++ new2)).length + 53
              + (189 + 3 * N) * (allChunks (([] ++ new) ++ new2)).length
              + bloomBits env (pathsOf (storedBy schema ops (w.grown env ops))).length / 8 := h1
          omega

/-! ## PLAIN encoding without compression: at least one byte for each point -/

theorem ChunkRep.plain_ge {env : Env} {unsnap : Bytes → Option Bytes} {id : Bytes} {ms : MeasurementSchema}
    {c : ChunkWriter} {pages : List GPage} {cur : List Point} (h : ChunkRep env unsnap id ms c pages cur)
    (he : ms.encoding = .PLAIN) (hc : ms.compression = .UNCOMPRESSED) :
    (pagesPoints pages ++ cur).length ≤ c.memN := by
  have h1 : ∀ g : GPage, g.Ok unsnap ms → ∀ b, g.pts.length ≤ (g.bytes env ms.dataType b).length := by
    intro g hg b
    have e1 := hg.plain he
    have e2 : g.data = g.raw := by simpa [decompress, hc] using hg.dec
    simp only [GPage.bytes, List.length_append, e2]
    omega
  have h2 : (pagesPoints pages).length ≤ (pagesBytes env ms.dataType pages).length := by
    have hall : ∀ (l : List GPage), (∀ g ∈ l, g.Ok unsnap ms) →
        (pagesPoints l).length ≤ (l.flatMap (GPage.bytes env ms.dataType true)).length := by
      intro l
      induction l with
      | nil => simp [pagesPoints]
      | cons g l ih =>
        intro hl
        have h2 := h1 g (hl g (by simp)) true
        have h3 := ih (fun g hg => hl g (by simp [hg]))
        simp only [List.flatMap_cons, List.length_append, pagesPoints, List.map_cons, List.flatten_cons] at *
        omega
    have hok := h.ok
    match pages, hok with
    | [g], hok =>
      have := h1 g (hok g (by simp)) false
      simpa [pagesBytes, pagesPoints] using this
    | [], _ => simp [pagesPoints]
    | a :: b :: l, hok => exact hall _ hok
  have hb := h.buffer
  have hp := h.page
  rw [ChunkWriter.memN]
  split
  · next p hcp =>
    rw [hcp] at hp
    have h3 : cur.length ≤ p.valueEncoder.memN := by
      have hv := hp.value
      rw [he] at hv
      generalize p.valueEncoder = e at hv
      generalize hvs : cur.map Prod.snd = vs at hv
      have hl : cur.length = vs.length := by rw [← hvs]; simp
      rw [hl]
      clear hp h h1 h2 hb hcp
      revert hv
      generalize ms.dataType = dt
      intro hv
      cases hv with
      | plain _ e _ hd hbuf ht =>
        simp only [ValueEncoder.memN, hbuf]
        have := le_length_flatMap vs
        omega
    rw [List.length_append, PageWriter.memN, hb]
    omega
  · next hcp =>
    rw [hcp] at hp
    obtain ⟨rfl, rfl⟩ := hp
    simp [pagesPoints]

theorem Sim.plain_ge {env : Env} {unsnap : Bytes → Option Bytes} {schema : Schema} {w : Writer} {a : AState}
    {groups : List GGroup} (h : Sim env unsnap schema w a groups) (hpl : schema.Plain) : a.pending.length ≤ w.memN := by
  have h1 := sum_by_key_cover (w.groupWriters.map Prod.fst) (fun r : Rec => r.device) (fun _ => 1) a.pending
    (fun r hr => by
      obtain ⟨ms, hms, _⟩ := h.pend r hr
      exact (h.keys _).2 (by rw [hms]; rfl))
  simp only [List.map_const', sum_ones, List.map_map, Function.comp_def] at h1
  refine Nat.le_trans h1 (sum_map_le _ _ _ ?_)
  intro e he
  obtain ⟨ms, hms, hg⟩ := h.devices e he
  have h2 := sum_by_key_cover (e.2.chunkWriters.map Prod.fst) (fun r : Rec => r.measurement) (fun _ => 1)
    (a.pending.filter (fun r => decide (r.device = e.1)))
    (fun r hr => by
      obtain ⟨hr1, hr2⟩ := List.mem_filter.1 hr
      obtain ⟨ms', hms', hm⟩ := h.pend r hr1
      rw [of_decide_eq_true hr2, hms] at hms'
      cases hms'
      exact (hg.keys _).2 hm)
  simp only [List.map_const', sum_ones, List.map_map, Function.comp_def, List.filter_filter] at h2
  refine Nat.le_trans h2 (sum_map_le _ _ _ ?_)
  intro c hc
  obtain ⟨sch, pages, cur, hl, hrep, _, hbuf, _⟩ := hg.chunks c hc
  have hp := hpl _ (look_mem hms) _ (look_mem hl)
  have h3 := hrep.plain_ge hp.1 hp.2
  rw [hbuf, series, List.length_map] at h3
  refine Nat.le_trans (Nat.le_of_eq ?_) h3
  congr 1
  apply List.filter_congr
  intro r _
  simp [Bool.and_comm]

/-- After a successful call the next check is due at 2^27 points at the latest, and if the output did not grow, at
most 2^27 points wait. -/
theorem plain_next {env : Env} {unsnap : Bytes → Option Bytes} (hsn : SnappyOk env unsnap) {schema : Schema}
    (hwf : schema.WF) (hpl : schema.Plain) {w : Writer} {a : AState} {groups : List GGroup}
    (h : Sim env unsnap schema w a groups) {op : Op} (hr : (a.exec schema op).2 = .ok ())
    (hnp : (w.step env op).2 ≠ .panic)
    (hcnt : (a.exec schema op).1.counted = (a.exec schema op).1.pending.length)
    (hlen : 22 * (a.pending.length + op.recs.length) + 120 * schema.size < 2 ^ 32)
    (hnext : w.recordCountForNextMemCheck.toNat ≤ 2 ^ 27) :
    (w.step env op).1.recordCountForNextMemCheck.toNat ≤ 2 ^ 27
    ∧ ((a.exec schema op).1.pending.length ≤ 2 ^ 27 ∨ w.io.out.bytes.length < (w.step env op).1.io.out.bytes.length) := by
  obtain ⟨hle, ⟨_, w1, hs1, hst, hn1, _⟩ | ⟨e, w1, hr', _⟩ | ⟨hr', _⟩⟩ := sim_exec hsn h op
  · rw [hst, Writer.afterOk] at hnp ⊢
    have hge := hs1.plain_ge hpl
    have hle2 := hs1.mem_le
    have hmem : w1.memSize.toNat = w1.memN := by rw [w1.memN_eq, u32_toNat _ (by omega)]
    have hrc : w1.recordCount.toNat = (a.exec schema op).1.pending.length := by
      rw [hs1.count, hcnt, u32_toNat _ (by omega)]
    have hT : chunkGroupSizeThreshold = 2 ^ 27 := rfl
    rw [Writer.checkMemorySize] at hnp ⊢
    by_cases hdue : w1.recordCount.toNat ≥ w1.recordCountForNextMemCheck.toNat
    · rw [if_pos hdue] at hnp ⊢
      simp only at hnp ⊢
      by_cases hz : w1.memSize.toNat = 0
      · rw [if_pos hz] at hnp
        simp at hnp
      rw [if_neg hz]
      clear hnp
      have hnm : (Writer.nextMemCheck w1.recordCountForNextMemCheck w1.memSize).toNat ≤ 2 ^ 27 := by
        rw [Writer.nextMemCheck, hT, hmem]
        have h1 : w1.recordCountForNextMemCheck.toNat * 2 ^ 27 / w1.memN ≤ 2 ^ 27 := by
          apply Nat.div_le_of_le_mul
          have : w1.recordCountForNextMemCheck.toNat ≤ (a.exec schema op).1.pending.length := by omega
          omega
        rw [u32_toNat _ (by omega)]
        exact h1
      by_cases hbig : w1.memSize.toNat > chunkGroupSizeThreshold
      · rw [if_pos hbig]
        obtain ⟨w3, new, hf, hs3, h0⟩ := sim_flush hsn hwf (w := { w1 with
          recordCountForNextMemCheck := Writer.nextMemCheck w1.recordCountForNextMemCheck w1.memSize })
          ⟨hs1.schema_eq, hs1.file, hs1.stored, hs1.sorted, hs1.keys, hs1.devices, hs1.pend, hs1.count, hs1.counted_le, hs1.names,
            hs1.blocks, hs1.exact⟩
          (by omega)
        rw [hf]
        simp only [Option.map_some]
        have hnx : w3.recordCountForNextMemCheck = Writer.nextMemCheck w1.recordCountForNextMemCheck w1.memSize := by
          rw [Writer.flushAllChunkGroups] at hf
          split at hf
          · split at hf
            · simp at hf
            · simp at hf
            · simp only [Option.some.injEq, Prod.mk.injEq, and_true] at hf
              rw [← hf]; rfl
          · simp only [Option.some.injEq, Prod.mk.injEq, and_true] at hf
            rw [← hf]
        refine ⟨by rw [hnx]; exact hnm, ?_⟩
        by_cases hpos : (a.exec schema op).1.pending = []
        · exact .inl (by rw [hpos]; simp)
        refine .inr ?_
        have hpl := List.length_pos_iff.2 hpos
        have hn : new ≠ [] := fun hc => by have := h0.1 hc; omega
        have := (grows_iff h.file hs3.file).2
        simp only [hn, ne_eq, not_false_eq_true, decide_true, decide_eq_true_eq] at this
        omega
      · rw [if_neg hbig]
        exact ⟨hnm, .inl (by rw [hT] at hbig; omega)⟩
    · rw [if_neg hdue]
      exact ⟨by simp only; rw [hn1]; exact hnext, .inl (by rw [hn1] at hdue; omega)⟩
  · rw [hr] at hr'; simp at hr'
  · rw [hr] at hr'; simp at hr'

/-- With calls that succeed and hand over at most `K` points each, at most 2^27 + K points are handed over from one flush to
the next. -/
theorem plain_bursts {env : Env} {unsnap : Bytes → Option Bytes} (hsn : SnappyOk env unsnap) {schema : Schema}
    (hwf : schema.WF) (hpl : schema.Plain) {K : Nat} (hK : 22 * (2 ^ 27 + K) + 120 * schema.size < 2 ^ 32) (ops : List Op)
    {w : Writer} {a : AState} {groups : List GGroup} (h : Sim env unsnap schema w a groups)
    (hops : ∀ op ∈ ops, op.recs.length ≤ K) (hok : ∀ r ∈ (w.run env ops).2, r = .ok ())
    (hcnt : a.counted = a.pending.length) (hp : a.pending.length ≤ 2 ^ 27)
    (hnext : w.recordCountForNextMemCheck.toNat ≤ 2 ^ 27) :
    burstsBelow (2 ^ 27 + K + 1) a.pending.length (ops.zip ((w.grown env ops).map (fun n => decide (0 < n))))
    ∧ (a.run schema (ops.zip ((w.grown env ops).map (fun n => decide (0 < n))))).1.pending.length ≤ 2 ^ 27 := by
  induction ops generalizing w a groups with
  | nil => exact ⟨trivial, hp⟩
  | cons op ops ih =>
    simp only [Writer.run, List.mem_cons, forall_eq_or_imp] at hok hops
    have hnp : (w.step env op).2 ≠ .panic := by rw [hok.1]; simp
    obtain ⟨new, hres, _, hs1, hl1⟩ := sim_step hsn hwf h op (by omega) hnp
    have hr : (a.exec schema op).2 = .ok () := by rw [← hres, hok.1]
    obtain ⟨_, ⟨_, hp1, hc1⟩ | ⟨hne, _⟩⟩ := exec_cases schema a op
    · have hcnt1 : (a.exec schema op).1.counted = (a.exec schema op).1.pending.length := by
        rw [hp1, hc1, List.length_append]; omega
      obtain ⟨hnx, hor⟩ := plain_next hsn hwf hpl h hr hnp hcnt1 (by omega) hnext
      have hg := (grows_iff h.file hs1.file).2
      simp only [Writer.grown, List.map_cons, List.zip_cons_cons, burstsBelow, hg, AState.run]
      refine (fun h => ⟨⟨by omega, h.1⟩, h.2⟩ : _ ∧ _ → _) ?_
      by_cases hnew : new = []
      · simp only [hnew, ne_eq, not_true_eq_false, decide_false, AState.step, Bool.false_eq_true, if_false,
          List.append_nil] at hs1 hg ⊢
        have h2 : (a.exec schema op).1.pending.length ≤ 2 ^ 27 := by
          rcases hor with h2 | h2
          · exact h2
          · simp at hg; omega
        have := ih hs1 hops.2 hok.2 hcnt1 h2 hnx
        refine ⟨?_, this.2⟩
        rw [← List.length_append, ← hp1]
        exact this.1
      · simp only [hnew, ne_eq, not_false_eq_true, decide_true, AState.step, if_true] at hs1 hl1 ⊢
        have hp0 : (a.exec schema op).1.flush.pending = [] := List.length_eq_zero_iff.1 (by omega)
        have hc0 : (a.exec schema op).1.flush.counted = (a.exec schema op).1.flush.pending.length := by
          rw [hp0, AState.flush]
          split
          · assumption
          · rfl
        have := ih hs1 hops.2 hok.2 hc0 (by rw [hp0]; simp) hnx
        refine ⟨?_, this.2⟩
        rw [hp0] at this
        exact this.1
    · exact absurd hr hne

/-! ## calls that fail keep points and do not count them -/

/-- Calls of two points each, the second of an unknown series. -/
def failOps (d m x : Bytes) (t n : Nat) : List Op :=
  (List.range n).map (fun i => Op.writeMany d (BitVec.ofNat 64 (t + i)) [(m, .LONG 0), (x, .LONG 0)])

theorem failOps_succ (d m x : Bytes) (t n : Nat) :
    failOps d m x t (n + 1) = .writeMany d (BitVec.ofNat 64 t) [(m, .LONG 0), (x, .LONG 0)] :: failOps d m x (t + 1) n := by
  simp only [failOps, List.range_succ_eq_map, List.map_cons, List.map_map, Nat.add_zero]
  congr 1
  apply List.map_congr_left
  intro i _
  simp only [Function.comp, Nat.succ_eq_add_one]
  congr 2
  omega

theorem fail_run {env : Env} {unsnap : Bytes → Option Bytes} (hsn : SnappyOk env unsnap) {d m x : Bytes} (hx : x ≠ m)
    (n : Nat) {w : Writer} {a : AState} {groups : List GGroup} (h : Sim env unsnap (wideSchema d m) w a groups) (t : Nat)
    (ht : t + n < 2 ^ 62) (hlast : (a.last d m).toInt < t) (hlx : (a.last d x).toInt < 0) :
    (∀ r ∈ (w.run env (failOps d m x t n)).2, r = .err (.illegalState (some "Unknown measurement id")))
    ∧ ∃ a', Sim env unsnap (wideSchema d m) (w.run env (failOps d m x t n)).1 a' groups
      ∧ (series a'.pending d m).length = (series a.pending d m).length + n
      ∧ a'.pending.length = a.pending.length + n := by
  induction n generalizing w a t with
  | zero => exact ⟨by simp [failOps, Writer.run], a, by simpa [failOps, Writer.run] using h, rfl, rfl⟩
  | succ n ih =>
    have htt : (BitVec.ofNat 64 t).toInt = t := by
      rw [BitVec.toInt_eq_toNat_of_lt] <;> rw [BitVec.toNat_ofNat, Nat.mod_eq_of_lt] <;> omega
    have hexec : a.exec (wideSchema d m) (.writeMany d (BitVec.ofNat 64 t) [(m, .LONG 0), (x, .LONG 0)])
        = ({ a with pending := a.pending ++ [⟨d, m, BitVec.ofNat 64 t, .LONG 0⟩],
                    last := fun d' m' => if d' = d ∧ m' = m then BitVec.ofNat 64 t else a.last d' m' },
            .err (.illegalState (some "Unknown measurement id"))) := by
      have hxm : ¬ (m = x) := fun hc => hx hc.symm
      simp only [AState.exec, wideSchema, look, if_true, AState.putMany, AState.put]
      rw [if_neg (by rw [htt]; omega)]
      have hfit : (fits wide.dataType (.LONG 0) && encodable wide.dataType wide.encoding) = true := rfl
      simp only [hfit, if_true, hx, hxm, and_false, if_false]
      rw [if_neg (by rw [htt]; omega)]
    rw [failOps_succ]
    obtain ⟨_, ⟨hr, _⟩ | ⟨e, w1, hr, hs, hst⟩ | ⟨hr, _⟩⟩ := sim_exec hsn h
      (.writeMany d (BitVec.ofNat 64 t) [(m, .LONG 0), (x, .LONG 0)])
    · rw [hexec] at hr; simp at hr
    · rw [hexec] at hr hs
      simp only [Res.err.injEq] at hr
      subst hr
      obtain ⟨h1, a', h2, h3, h4⟩ := ih hs (t + 1) (by omega)
        (by simp only [and_self, if_true]; rw [htt]; omega)
        (by simp only [hx, and_false, if_false]; exact hlx)
      simp only [Writer.run, hst]
      refine ⟨?_, a', h2, ?_, ?_⟩
      · intro r hr
        rcases List.mem_cons.1 hr with rfl | hr
        · rfl
        · exact h1 r hr
      · rw [h3, series_append, List.length_append]
        simp only [series, List.filter_cons, and_self, decide_true, if_true, List.filter_nil, List.map_cons, List.map_nil,
          List.length_cons, List.length_nil]
        omega
      · rw [h4]; simp; omega
    · rw [hexec] at hr; simp at hr

end TsFile
