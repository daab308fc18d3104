import Verif.Props.Write
import Verif.Proofs.Growth
/-! # The automatic flush, wrong types, closed writers: C15, C41, C42, C43, C49, C50 -/

namespace TsFile
open Spec

/-! ## C50 -/

/-- Scanning the output of an open writer, with the end marker added. -/
theorem FileRep.scan {env : Env} {unsnap : Bytes → Option Bytes} {schema : Schema} (hsch : schema.Named)
    {io : IoWriter} {groups : List GGroup} (h : FileRep env unsnap schema io groups)
    (hg : ∀ g ∈ groups, ∀ c ∈ g.2, (pagesBytes env c.ms.dataType c.pages).length < 2 ^ 32) :
    Spec.scan unsnap (io.out.bytes ++ [2]) = some (groups.flatMap (groupItems env), io.out.bytes.length) := by
  have hb : io.out.bytes ++ [2] = head ++ (groups.flatMap (groupBytes env) ++ 2 :: []) := by
    rw [h.bytes, fileBytes]
    simp [head, magic]
  have hl : io.out.bytes.length = 7 + (groups.flatMap (groupBytes env)).length := by
    have := congrArg List.length hb
    simp only [head, List.length_append, List.length_cons, List.length_nil] at this
    omega
  have htake : (io.out.bytes ++ [2]).take 7 = head := by rw [hb]; simp [head]
  have hdrop : (io.out.bytes ++ [2]).drop 7 = groups.flatMap (groupBytes env) ++ 2 :: [] := by rw [hb]; simp [head]
  rw [Spec.scan, if_pos htake, hdrop, scanFuel_groups]
  · simp
  · intro g hgm
    have hok : GroupsOk env unsnap schema groups := h.ok
    have := hok.names hsch g hgm
    exact ⟨this.1, fun c hc => ⟨(this.2 c hc).1, (this.2 c hc).2, hg g hgm c hc⟩⟩
  · simp only [List.length_append, List.length_cons, List.length_nil]; omega

/-- **C50.** At any moment between two calls, the output written so far (with the end marker added) can be scanned, and
the scan finds exactly the points that the abstract writer has moved to the file. -/
theorem C50_recoverable {env : Env} {unsnap : Bytes → Option Bytes} (hsn : SnappyOk env unsnap) {schema : Schema}
    (hsch : schema.Named) {ops : List Op} {w0 w : Writer} (h : Reached env schema ops w0 w)
    (hcalls : ∀ n ∈ w0.grown env ops, n < 2 ^ 32) :
    ∃ items, scan unsnap (w.io.out.bytes ++ [2]) = some (items, w.io.out.bytes.length)
      ∧ ∀ d m, scanPoints d m none items = series (abstractly env schema ops w0).stored d m := by
  obtain ⟨new, _, h2, _, h4⟩ := sim_run hsn hsch.wf ops (sim_new unsnap hsch.wf h.new) 0 (by simp [AState.init]) h.bursts h.fine
  rw [h.run] at h2
  refine ⟨_, h2.file.scan hsch (fun g hg c hc => ?_), fun d m => ?_⟩
  · have h1 := h4 hcalls g (by simpa using hg)
    have h2 := mem_flatMap_length (GChunk.bytes env) g.2 hc
    simp only [groupBytes, List.length_append] at h1
    simp only [GChunk.bytes, List.length_append] at h2
    omega
  rw [scanPoints_groups, h2.stored]
  rfl

/-- The chunks of a history hold fewer points than the limit. -/
theorem run_chunks {env : Env} {unsnap : Bytes → Option Bytes} (hsn : SnappyOk env unsnap) {schema : Schema}
    (hwf : schema.WF) (limit : Nat) (hlim : limit ≤ 2 ^ 32) (ops : List Op) {w : Writer} {a : AState}
    {groups : List GGroup} (h : Sim env unsnap schema w a groups) (n : Nat) (hn : a.pending.length ≤ n)
    (hlen : burstsBelow limit n (ops.zip ((w.grown env ops).map (fun n => decide (0 < n)))))
    (hnp : .panic ∉ (w.run env ops).2) (hg : ∀ g ∈ groups, ∀ c ∈ g.2, c.points.length < limit) :
    ∃ groups', Sim env unsnap schema (w.run env ops).1
        (a.run schema (ops.zip ((w.grown env ops).map (fun n => decide (0 < n))))).1 groups'
      ∧ ∀ g ∈ groups', ∀ c ∈ g.2, c.points.length < limit := by
  induction ops generalizing w a groups n with
  | nil => exact ⟨groups, by simpa [Writer.run, AState.run] using h, hg⟩
  | cons op ops ih =>
    simp only [Writer.grown, List.map_cons, List.zip_cons_cons, burstsBelow] at hlen
    simp only [Writer.run, List.mem_cons, not_or] at hnp ⊢
    obtain ⟨new1, _, _, hs1, hl1⟩ := sim_step hsn hwf h op (by omega) (fun hc => hnp.1 hc.symm)
    have hgr := grows_iff h.file hs1.file
    rw [hgr.2] at hlen
    simp only [Writer.grown, List.map_cons, List.zip_cons_cons, AState.run]
    rw [hgr.2]
    refine ih hs1 (if decide (new1 ≠ []) then 0 else n + op.recs.length)
      (by split at hl1 <;> simp_all; omega) hlen.2 hnp.2 (fun g hgm c hc => ?_)
    rcases List.mem_append.1 hgm with hgm | hgm
    · exact hg g hgm c hc
    · have hle := (sim_exec hsn h op).1
      have e1 : c.points.length ≤ (filePts new1 g.1 c.name).length := by
        obtain ⟨s, t, rfl⟩ := List.append_of_mem hgm
        obtain ⟨u, v, hu⟩ := List.append_of_mem hc
        simp only [filePts, List.flatMap_append, List.flatMap_cons, if_true, List.length_append, hu, chunkPts]
        omega
      have e2 := hs1.stored g.1 c.name
      have e3 : filePts (groups ++ new1) g.1 c.name = filePts groups g.1 c.name ++ filePts new1 g.1 c.name := by
        simp [filePts]
      have e4 : (a.exec schema op).1.stored = a.stored := (exec_cases schema a op).1
      have e5 : (series (a.step schema op (decide (new1 ≠ []))).1.stored g.1 c.name).length
          ≤ (series a.stored g.1 c.name).length + (a.exec schema op).1.pending.length := by
        simp only [AState.step]
        split
        · rw [AState.flush]
          split
          · rw [e4]; omega
          · simp only [series_append, e4, List.length_append]
            have := length_series_le (a.exec schema op).1.pending g.1 c.name
            omega
        · rw [e4]; omega
      rw [← e2, e3, List.length_append, ← h.stored] at e5
      omega

/-- **C50** with a bound on the number of points instead of the number of bytes. -/
theorem C50_recoverable_points {env : Env} {unsnap : Bytes → Option Bytes} (hsn : SnappyOk env unsnap) {schema : Schema}
    (hsch : schema.Named) {ops : List Op} {w0 w : Writer} (h : Reached env schema ops w0 w)
    (hlen : burstsBelow 195000000 0 (ops.zip ((w0.grown env ops).map (fun n => decide (0 < n))))) :
    ∃ items, scan unsnap (w.io.out.bytes ++ [2]) = some (items, w.io.out.bytes.length)
      ∧ ∀ d m, scanPoints d m none items = series (abstractly env schema ops w0).stored d m := by
  obtain ⟨groups, h1, h2⟩ := run_chunks hsn hsch.wf 195000000 (by omega) ops (sim_new unsnap hsch.wf h.new) 0
    (by simp [AState.init]) hlen h.fine (by simp)
  rw [h.run] at h1
  refine ⟨_, h1.file.scan hsch (fun g hg c hc => ?_), fun d m => ?_⟩
  · obtain ⟨ms, _, hok, _⟩ := h1.file.ok g hg
    have e1 := h2 g hg c hc
    have e2 := pagesBytes_le env (hok c hc).2.pages (hok c hc).2.full
    rw [GChunk.points] at e1
    omega
  · rw [scanPoints_groups, h1.stored]
    rfl

example : ∃ items, scan some ((Demo.w0.run Demo.env Demo.ops).1.io.out.bytes ++ [2])
    = some (items, (Demo.w0.run Demo.env Demo.ops).1.io.out.bytes.length)
    ∧ ∀ d m, scanPoints d m none items = series (abstractly Demo.env Demo.schema Demo.ops Demo.w0).stored d m :=
  C50_recoverable Demo.envOk.snappy Demo.indexable.toNamed Demo.reached (by decide +kernel)

/-! ## C15 -/

/-- **C15.** On an output that accepts everything, a flush of all devices, in whatever state it happens, succeeds: the
self check of the number of bytes never fires. -/
theorem C15_self_check {env : Env} {unsnap : Bytes → Option Bytes} (hsn : SnappyOk env unsnap) {schema : Schema}
    (hwf : schema.WF) {ops : List Op} {w0 w : Writer} (h : Reached env schema ops w0 w) :
    ∃ w', w.flushAllChunkGroups env = some (w', none)
      ∧ ((abstractly env schema ops w0).counted ≠ 0 → w.io.out.bytes.length < w'.io.out.bytes.length) := by
  obtain ⟨groups, hs, hl⟩ := h.sim hsn hwf
  obtain ⟨w', new, h1, h2, h3⟩ := sim_flush hsn hwf hs hl
  refine ⟨w', h1, fun h0 => ?_⟩
  have := (grows_iff hs.file h2.file).2
  have hn : new ≠ [] := fun hc => h0 (h3.1 hc)
  simp only [hn, ne_eq, not_false_eq_true, decide_true, decide_eq_true_eq] at this
  omega

example : ∃ w', (Demo.w0.run Demo.env Demo.ops).1.flushAllChunkGroups Demo.env = some (w', none)
    ∧ ((abstractly Demo.env Demo.schema Demo.ops Demo.w0).counted ≠ 0 →
      (Demo.w0.run Demo.env Demo.ops).1.io.out.bytes.length < w'.io.out.bytes.length) :=
  C15_self_check Demo.envOk.snappy Demo.indexable.wf Demo.reached

example : (abstractly Demo.env Demo.schema Demo.ops Demo.w0).counted = 5 := by decide +kernel

/-! ## C41 -/

theorem mem_ofList {α : Type} {l : List (Bytes × α)} {e : Bytes × α} (h : e ∈ BMap.ofList l) : e ∈ l := by
  have : ∀ (l : List (Bytes × α)) (m : BMap α), e ∈ l.foldl (fun m p => m.insert p.1 p.2) m → e ∈ m ∨ e ∈ l := by
    intro l
    induction l with
    | nil => intro m h; exact .inl h
    | cons p l ih =>
      intro m h
      rcases ih _ h with h | h
      · rcases BMap.mem_insert h with h | h
        · right; simp [h]
        · left; exact h
      · right; simp [h]
  rcases this l [] h with h | h
  · simp at h
  · exact h

/-- The memory estimate of fresh group writers is 0. -/
theorem memN_reset (env : Env) (w : Writer) : (w.reset env).memN = 0 := by
  have hsum : ∀ (l : List Nat), (∀ x ∈ l, x = 0) → l.sum = 0 := by
    intro l
    induction l with
    | nil => simp
    | cons a l ih => intro h; rw [List.sum_cons, ih (fun x hx => h x (by simp [hx])), h a (by simp)]
  apply hsum
  intro x hx
  obtain ⟨e, he, rfl⟩ := List.mem_map.1 hx
  obtain ⟨d, _, rfl⟩ := List.mem_map.1 (mem_ofList he)
  apply hsum
  intro x hx
  obtain ⟨c, hc, rfl⟩ := List.mem_map.1 hx
  obtain ⟨m, _, rfl⟩ := List.mem_map.1 (mem_ofList hc)
  rfl

/-- **C41** (1). A successful call that hands over points either leaves the memory estimate at or below the threshold
of 128 MB, or the number of points since the last flush has not reached the number at which the next check is due. -/
theorem C41_bounded {env : Env} {unsnap : Bytes → Option Bytes} (hsn : SnappyOk env unsnap) {schema : Schema}
    (hwf : schema.WF) {ops : List Op} {w0 w : Writer} (h : Reached env schema ops w0 w) {op : Op} (hne : op.recs ≠ [])
    (hok : (w.step env op).2 = .ok ())
    (hlen : (abstractly env schema ops w0).pending.length + op.recs.length < 2 ^ 32) :
    (w.step env op).1.memSize.toNat ≤ 128 * 1024 * 1024
    ∨ ((w.step env op).1.recordCount.toNat < w.recordCountForNextMemCheck.toNat
        ∧ (w.step env op).1.recordCountForNextMemCheck = w.recordCountForNextMemCheck) := by
  obtain ⟨groups, hs, _⟩ := h.sim hsn hwf
  generalize abstractly env schema ops w0 = a at hs hlen
  obtain ⟨hle, ⟨hr, w1, hs1, hst, hnext, _⟩ | ⟨e, w1, hr, _, hst⟩ | ⟨hr, hst⟩⟩ := sim_exec hsn hs op
  · rw [hst, Writer.afterOk] at hok ⊢
    have hcnt : (a.exec schema op).1.counted ≠ 0 := by
      obtain ⟨_, h1 | h1⟩ := exec_cases schema a op
      · rw [h1.2.2]
        have := List.length_pos_iff.2 hne
        omega
      · exact absurd hr h1.1
    have hcl := hs1.counted_le
    have hrc : w1.recordCount.toNat ≠ 0 := by rw [hs1.count, u32_toNat _ (by omega)]; exact hcnt
    cases hck : w1.checkMemorySize env with
    | none => rw [hck] at hok; simp at hok
    | some w2 =>
      simp only
      rw [Writer.checkMemorySize] at hck
      by_cases hdue : w1.recordCount.toNat ≥ w1.recordCountForNextMemCheck.toNat
      · rw [if_pos hdue] at hck
        simp only at hck
        split at hck
        · simp at hck
        · split at hck
          · obtain ⟨w3, new, hf, _⟩ := sim_flush hsn hwf (w := { w1 with
              recordCountForNextMemCheck := Writer.nextMemCheck w1.recordCountForNextMemCheck w1.memSize })
              ⟨hs1.schema_eq, hs1.file, hs1.stored, hs1.sorted, hs1.keys, hs1.devices, hs1.pend, hs1.count, hs1.counted_le, hs1.names,
            hs1.blocks, hs1.exact⟩
              (by omega)
            rw [hf] at hck
            simp only [Option.map_some, Option.some.injEq] at hck
            subst hck
            rw [Writer.flushAllChunkGroups, if_pos (by simp only; omega)] at hf
            left
            split at hf
            · simp at hf
            · simp at hf
            · simp only [Option.some.injEq, Prod.mk.injEq, and_true] at hf
              rw [← hf, Writer.memN_eq, memN_reset]
              decide
          · next hT =>
            simp only [Option.some.injEq] at hck
            subst hck
            left
            have : chunkGroupSizeThreshold = 128 * 1024 * 1024 := rfl
            rw [this] at hT
            simpa [Writer.memSize] using hT
      · rw [if_neg hdue] at hck
        simp only [Option.some.injEq] at hck
        subst hck
        right
        rw [← hnext]
        exact ⟨by omega, rfl⟩
  · rw [hst] at hok; simp at hok
  · rw [hst] at hok; simp at hok

theorem arun_append (schema : Schema) (l l' : List (Op × Bool)) (a : AState) :
    (a.run schema (l ++ l')).1 = ((a.run schema l).1.run schema l').1
    ∧ (a.run schema (l ++ l')).2 = (a.run schema l).2 ++ ((a.run schema l).1.run schema l').2 := by
  induction l generalizing a with
  | nil => simp [AState.run]
  | cons e l ih => obtain ⟨op, fl⟩ := e; simp [AState.run, ih]

/-- A reached state and one call more. -/
theorem Reached.snoc {env : Env} {schema : Schema} {ops : List Op} {op : Op} {w0 w : Writer}
    (h : Reached env schema (ops ++ [op]) w0 w) :
    Reached env schema ops w0 (w0.run env ops).1 ∧ ((w0.run env ops).1.step env op).1 = w
    ∧ ((w0.run env ops).1.step env op).2 ≠ .panic
    ∧ (abstractly env schema (ops ++ [op]) w0)
      = ((abstractly env schema ops w0).step schema op
          (decide (0 < w.io.out.bytes.length - (w0.run env ops).1.io.out.bytes.length))).1
    ∧ burstsBelow (2 ^ 32) 0 ((ops ++ [op]).zip ((w0.grown env (ops ++ [op])).map (fun n => decide (0 < n)))) := by
  obtain ⟨h1, h2, h3⟩ := run_append env ops [op] w0
  have hlen : (w0.grown env ops).length = ops.length := (run_length env ops w0).2
  have hzip : (ops ++ [op]).zip ((w0.grown env (ops ++ [op])).map (fun n => decide (0 < n)))
      = ops.zip ((w0.grown env ops).map (fun n => decide (0 < n)))
        ++ [(op, decide (0 < w.io.out.bytes.length - (w0.run env ops).1.io.out.bytes.length))] := by
    have hw : ((w0.run env ops).1.step env op).1 = w := by rw [← h.run, h1]; rfl
    rw [h3, List.map_append, List.zip_append (by simp [hlen])]
    simp only [Writer.grown, List.map_cons, List.map_nil, List.zip_cons_cons, List.zip_nil_left, hw]
  have hb : ∀ (l l' : List (Op × Bool)) (n : Nat), burstsBelow (2 ^ 32) n (l ++ l') → burstsBelow (2 ^ 32) n l := by
    intro l
    induction l with
    | nil => intro _ _ _; trivial
    | cons e l ih => obtain ⟨o, f⟩ := e; intro l' n hh; exact ⟨hh.1, ih _ _ hh.2⟩
  have hf := h.fine
  rw [h2] at hf
  refine ⟨⟨h.new, rfl, fun hc => hf (List.mem_append_left _ hc), ?_⟩, ?_, ?_, ?_, h.bursts⟩
  · have := h.bursts
    rw [hzip] at this
    exact hb _ _ _ this
  · rw [← h.run, h1]; rfl
  · intro hc
    apply hf
    apply List.mem_append_right
    simp [Writer.run, hc]
  · rw [abstractly, hzip, (arun_append ..).1]
    rfl

/-- The bound on the bursts bounds what waits before the last call and the call. -/
theorem burst_last {env : Env} {unsnap : Bytes → Option Bytes} (hsn : SnappyOk env unsnap) {schema : Schema}
    (hwf : schema.WF) (limit : Nat) (hlim : limit ≤ 2 ^ 32) (ops : List Op) {w : Writer} {a : AState} {groups : List GGroup}
    (h : Sim env unsnap schema w a groups) (n : Nat) (hn : a.pending.length ≤ n) {op : Op}
    (hlen : burstsBelow limit n ((ops ++ [op]).zip ((w.grown env (ops ++ [op])).map (fun n => decide (0 < n)))))
    (hnp : .panic ∉ (w.run env ops).2) :
    (a.run schema (ops.zip ((w.grown env ops).map (fun n => decide (0 < n))))).1.pending.length + op.recs.length < limit := by
  induction ops generalizing w a groups n with
  | nil =>
    simp only [List.nil_append, Writer.grown, List.map_cons, List.zip_cons_cons, burstsBelow] at hlen
    simp only [List.zip_nil_left, AState.run]
    omega
  | cons op1 ops ih =>
    simp only [List.cons_append, Writer.grown, List.map_cons, List.zip_cons_cons, burstsBelow] at hlen
    simp only [Writer.run, List.mem_cons, not_or] at hnp
    obtain ⟨new1, _, _, hs1, hl1⟩ := sim_step hsn hwf h op1 (by omega) (fun hc => hnp.1 hc.symm)
    have hg := grows_iff h.file hs1.file
    rw [hg.2] at hlen
    have := ih hs1 (if decide (new1 ≠ []) then 0 else n + op1.recs.length)
      (by split at hl1 <;> simp_all; omega) hlen.2 hnp.2
    simp only [Writer.grown, List.map_cons, List.zip_cons_cons, AState.run]
    rw [hg.2]
    exact this

/-- **C41** (2). A call that makes the output grow leaves no point waiting: a scan of the output finds all the points
that were stored or waiting before and those of the call. -/
theorem C41_all_flushed {env : Env} {unsnap : Bytes → Option Bytes} (hsn : SnappyOk env unsnap) {schema : Schema}
    (hsch : schema.Named) {ops : List Op} {op : Op} {w0 w : Writer} (h : Reached env schema (ops ++ [op]) w0 w)
    (hgrow : (w0.run env ops).1.io.out.bytes.length < w.io.out.bytes.length)
    (hcalls : ∀ n ∈ w0.grown env (ops ++ [op]), n < 2 ^ 32) :
    (∀ d m, waiting env schema (ops ++ [op]) w0 d m = [])
    ∧ ∃ items, scan unsnap (w.io.out.bytes ++ [2]) = some (items, w.io.out.bytes.length)
      ∧ ∀ d m, scanPoints d m none items
        = series ((abstractly env schema ops w0).stored ++ (abstractly env schema ops w0).pending ++ op.recs) d m := by
  obtain ⟨hr, hw, hnp, habs, _⟩ := h.snoc
  obtain ⟨groups, hs, hl⟩ := hr.sim hsn hsch.wf
  obtain ⟨items, hi1, hi2⟩ := C50_recoverable hsn hsch h hcalls
  have hg : decide (0 < w.io.out.bytes.length - (w0.run env ops).1.io.out.bytes.length) = true := by
    simp; omega
  rw [hg] at habs
  have hcall : (abstractly env schema ops w0).pending.length + op.recs.length < 2 ^ 32 :=
    burst_last hsn hsch.wf _ (Nat.le_refl _) ops (sim_new unsnap hsch.wf h.new) 0 (by simp [AState.init]) h.bursts hr.fine
  obtain ⟨new, hres, hnew, hs2, hpl⟩ := sim_step hsn hsch.wf hs op hcall hnp
  rw [hw] at hs2
  have hn := (grows_iff hs.file hs2.file).2
  rw [hg] at hn
  rw [← hn] at hs2 hpl
  have hp0 : (abstractly env schema (ops ++ [op]) w0).pending = [] := by
    rw [habs]
    exact List.length_eq_zero_iff.1 (by simpa using hpl)
  refine ⟨fun d m => by rw [waiting, hp0]; rfl, items, hi1, fun d m => ?_⟩
  rw [hi2]
  have hok := hnew (by simpa using hn.symm)
  rw [hres] at hok
  obtain ⟨e1, e2 | e2⟩ := exec_cases schema (abstractly env schema ops w0) op
  · rw [habs] at hp0 ⊢
    simp only [AState.step, if_true, AState.flush] at hp0 ⊢
    split at hp0
    · next h0 =>
      rw [if_pos h0, e1]
      rw [e2.2.1] at hp0
      rw [List.append_assoc, hp0, List.append_nil]
    · next h0 => rw [if_neg h0, e1, e2.2.1, List.append_assoc]
  · exact absurd hok e2.1

/-! ## C49 -/

/-- **C49** (the calls). A history of calls that hand over at least one point each, with values of the types of their
series, does not abort the program, as long as fewer than `L` points wait at any time, where 22 bytes for each of `L` points and
120 bytes for each series are at most 4 GB (the memory estimate is a 32 bit number); in particular the memory check never
divides by zero. -/
theorem C49_calls {env : Env} {unsnap : Bytes → Option Bytes} (hsn : SnappyOk env unsnap) {schema : Schema}
    (hwf : schema.WF) {ops : List Op} {w0 : Writer} (hnew : Writer.new env schema ⟨[], none⟩ = .ok w0)
    {L : Nat} (hL : 22 * L + 120 * schema.size ≤ 2 ^ 32) (hlen : burstsBelow L 0 (ops.zip ((w0.grown env ops).map (fun n => decide (0 < n)))))
    (htyp : ∀ op ∈ ops, op.recs ≠ [] ∧ Op.Typed schema op) :
    .panic ∉ (w0.run env ops).2 :=
  run_fine hsn hwf ops (sim_new unsnap hwf hnew) 0 (by simp [AState.init]) hL hlen htyp

theorem Demo.typed : ∀ op ∈ Demo.ops, op.recs ≠ [] ∧ Op.Typed Demo.schema op := by
  have : ∀ op ∈ Demo.ops, op.recs ≠ [] ∧ ∀ r ∈ op.recs, ((look r.device Demo.schema).all (fun ms =>
      (look r.measurement ms).all (fun s => fits s.dataType r.value && encodable s.dataType s.encoding))) = true := by
    decide +kernel
  intro op hop
  refine ⟨(this op hop).1, fun r hr ms s h1 h2 => ?_⟩
  have := (this op hop).2 r hr
  simpa [h1, h2] using this

example : .panic ∉ (Demo.w0.run Demo.env Demo.ops).2 :=
  C49_calls Demo.envOk.snappy Demo.indexable.wf Demo.reached.new (L := 190000000) (by decide +kernel) (by decide +kernel) Demo.typed

-- one more point for the demo
example : ((Demo.w0.run Demo.env Demo.ops).1.step Demo.env (.write (str "root.sg.d1") (str "s1") 13 (.INT 1))).1.memSize.toNat ≤ 128 * 1024 * 1024
    ∨ (((Demo.w0.run Demo.env Demo.ops).1.step Demo.env (.write (str "root.sg.d1") (str "s1") 13 (.INT 1))).1.recordCount.toNat
          < (Demo.w0.run Demo.env Demo.ops).1.recordCountForNextMemCheck.toNat
        ∧ ((Demo.w0.run Demo.env Demo.ops).1.step Demo.env (.write (str "root.sg.d1") (str "s1") 13 (.INT 1))).1.recordCountForNextMemCheck
          = (Demo.w0.run Demo.env Demo.ops).1.recordCountForNextMemCheck) :=
  C41_bounded Demo.envOk.snappy Demo.indexable.wf Demo.reached (by decide) (by decide +kernel) (by decide +kernel)

/-! ## C42 -/

/-- **C42** is violated: a closed writer accepts a point, and closing it a second time changes the file. -/
theorem C42_closed_writer_accepts :
    ((Demo.w0.write Demo.env (str "root.sg.d1") (str "s1") 1 (.INT 1)).1.close Demo.env).map (fun w1 =>
        ((w1.write Demo.env (str "root.sg.d1") (str "s1") 2 (.INT 2)).2,
         (w1.close Demo.env).map (fun w2 => decide (w2.io.out.bytes = w1.io.out.bytes))))
      = some (.ok (), some false) := by
  decide +kernel

/-! ## C43 -/

/-- **C43** is violated, and always: in every reached state, an in-order point of a known series whose value has another
type than the series aborts the program. -/
theorem C43_wrong_type_aborts {env : Env} {unsnap : Bytes → Option Bytes} (hsn : SnappyOk env unsnap) {schema : Schema}
    (hwf : schema.WF) {ops : List Op} {w0 w : Writer} (h : Reached env schema ops w0 w)
    (hlen : 22 * ((abstractly env schema ops w0).pending.length + 1) + 120 * schema.size < 2 ^ 32)
    {d m : Bytes} {t : W64} {v : IoTDBValue} {ms : List (Bytes × MeasurementSchema)} {s : MeasurementSchema}
    (hd : look d schema = some ms) (hm : look m ms = some s)
    (ht : InOrder (waiting env schema ops w0 d m) t) (hv : fits s.dataType v = false) :
    (w.write env d m t v).2 = .panic :=
  C03_answer_unique (C03_write_decision hsn hwf h hlen d m t v) (.abort hd ht hm (by simp [hv]))

-- after the calls of the demo: a FLOAT value for the INT32 series, newer than its last point
example : ((Demo.w0.run Demo.env Demo.ops).1.write Demo.env (str "root.sg.d1") (str "s1") 13 (.FLOAT 0)).2 = .panic :=
  C43_wrong_type_aborts Demo.envOk.snappy Demo.indexable.wf Demo.reached (by decide +kernel)
    (ms := [(str "s1", ⟨.INT32, .TS2DIFF, .UNCOMPRESSED⟩), (str "unused", ⟨.INT64, .PLAIN, .SNAPPY⟩)])
    (s := ⟨.INT32, .TS2DIFF, .UNCOMPRESSED⟩) (by decide +kernel) (by decide +kernel)
    ⟨by decide +kernel, by decide +kernel⟩ (by decide)

/-- **C43**, what holds: a value of the wrong type for a point that is refused anyway (out of order, unknown device or
measurement) is answered with an error. Missing: in-order points of known series; these abort the program, see
`C43_wrong_type_aborts`. -/
theorem C43_error_partial {env : Env} {unsnap : Bytes → Option Bytes} (hsn : SnappyOk env unsnap) {schema : Schema}
    (hwf : schema.WF) {ops : List Op} {w0 w : Writer} (h : Reached env schema ops w0 w)
    (hlen : 22 * ((abstractly env schema ops w0).pending.length + 1) + 120 * schema.size < 2 ^ 32)
    {d m : Bytes} {t : W64} {v : IoTDBValue}
    (hx : look d schema = none ∨ ¬ InOrder (waiting env schema ops w0 d m) t
      ∨ ∀ ms, look d schema = some ms → look m ms = none) :
    ∃ e, (w.write env d m t v).2 = .err e := by
  have := C03_write_decision hsn hwf h hlen d m t v
  generalize (w.write env d m t v).2 = r at this ⊢
  cases this with
  | noDevice _ => exact ⟨_, rfl⟩
  | outOfOrder _ _ => exact ⟨_, rfl⟩
  | noMeasurement _ _ _ => exact ⟨_, rfl⟩
  | abort h1 h2 h3 _ =>
    rcases hx with hx | hx | hx
    · simp [hx] at h1
    · exact absurd h2 hx
    · simp [hx _ h1] at h3
  | accept h1 h2 h3 _ _ =>
    rcases hx with hx | hx | hx
    · simp [hx] at h1
    · exact absurd h2 hx
    · simp [hx _ h1] at h3

-- the same value with the timestamp of the last point, for an unknown measurement and for an unknown device
example : (∃ e, ((Demo.w0.run Demo.env Demo.ops).1.write Demo.env (str "root.sg.d1") (str "s1") 12 (.FLOAT 0)).2 = .err e)
    ∧ (∃ e, ((Demo.w0.run Demo.env Demo.ops).1.write Demo.env (str "root.sg.d1") (str "s2") 13 (.FLOAT 0)).2 = .err e)
    ∧ ∃ e, ((Demo.w0.run Demo.env Demo.ops).1.write Demo.env (str "root.sg.d3") (str "s1") 13 (.FLOAT 0)).2 = .err e :=
  ⟨C43_error_partial Demo.envOk.snappy Demo.indexable.wf Demo.reached (by decide +kernel)
      (.inr (.inl (by unfold InOrder; decide +kernel))),
    C43_error_partial Demo.envOk.snappy Demo.indexable.wf Demo.reached (by decide +kernel)
      (.inr (.inr (fun ms h => by
        have e : look (str "root.sg.d1") Demo.schema
          = some [(str "s1", ⟨.INT32, .TS2DIFF, .UNCOMPRESSED⟩), (str "unused", ⟨.INT64, .PLAIN, .SNAPPY⟩)] := by decide +kernel
        rw [e] at h
        cases h
        decide +kernel))),
    C43_error_partial Demo.envOk.snappy Demo.indexable.wf Demo.reached (by decide +kernel) (.inl (by decide +kernel))⟩

/-! ## C06 is violated -/

theorem bursts_total {limit : Nat} (l : List (Op × Bool)) (n : Nat)
    (h : n + (l.map (fun e => e.1.recs.length)).sum < limit) : burstsBelow limit n l := by
  induction l generalizing n with
  | nil => trivial
  | cons e l ih =>
    obtain ⟨op, fl⟩ := e
    simp only [List.map_cons, List.sum_cons] at h
    refine ⟨by omega, ih _ ?_⟩
    split <;> omega

theorem wideOps_recs (d m : Bytes) (t n : Nat) :
    ((wideOps d m t n).map (fun op => op.recs.length)).sum = n := by
  induction n generalizing t with
  | zero => rfl
  | succ n ih => rw [wideOps_succ, List.map_cons, List.sum_cons, ih]; simp [Op.recs]; omega

/-- A history of in-order writes whose last call makes the output grow. -/
theorem flush_happens {env : Env} {unsnap : Bytes → Option Bytes} (hsn : SnappyOk env unsnap) (d m : Bytes) :
    ∃ w0 ops op w, Reached env (wideSchema d m) (ops ++ [op]) w0 w
      ∧ (w0.run env ops).1.io.out.bytes.length < w.io.out.bytes.length
      ∧ burstsBelow 23000000 0 ((ops ++ [op]).zip ((w0.grown env (ops ++ [op])).map (fun n => decide (0 < n)))) := by
  obtain ⟨w0, hnew⟩ : ∃ w0, Writer.new env (wideSchema d m) ⟨[], none⟩ = .ok w0 := ⟨_, rfl⟩
  have hnext : w0.recordCountForNextMemCheck.toNat ≤ 2 ^ 24 := by
    rw [Writer.new] at hnew
    split at hnew
    · simp at hnew
    · simp only [Except.ok.injEq] at hnew
      subst hnew
      show (100#32).toNat ≤ 2 ^ 24
      decide
  have hinit := sim_new unsnap (wide_wf d m) hnew
  obtain ⟨j1, hj1, hj1', ⟨n0, hg1, hn0⟩, p1, b1, ⟨_, _⟩, n1, e1, c1, l1, s1⟩ := wide_grows hsn d m (2 ^ 24) hinit 0 (by omega)
    (by simp [AState.init]) rfl rfl (by simp [AState.init]) hnext
  obtain ⟨j, rfl⟩ : ∃ k, j1 = k + 1 := ⟨j1 - 1, by omega⟩
  have hsp : wideOps d m 0 (j + 1) = wideOps d m 0 j ++ [.write d m (BitVec.ofNat 64 j) (.LONG 0)] := by
    simp [wideOps, List.range_succ]
  rw [hsp] at p1 b1 hg1
  have hr : Reached env (wideSchema d m) (wideOps d m 0 j ++ [.write d m (BitVec.ofNat 64 j) (.LONG 0)]) w0
      (w0.run env (wideOps d m 0 j ++ [.write d m (BitVec.ofNat 64 j) (.LONG 0)])).1 :=
    ⟨hnew, rfl, p1, burstsBelow_mono (by omega) _ _ b1⟩
  refine ⟨w0, wideOps d m 0 j, _, _, hr, ?_, b1⟩
  obtain ⟨_, hw, _⟩ := hr.snoc
  rw [(run_append env _ _ w0).2.2] at hg1
  simp only [Writer.grown, List.getLast?_append, List.getLast?_singleton, Option.some_or, Option.some.injEq, hw] at hg1
  omega

/-- **C41**, it does happen: with a series of INT64 values there is a history of in-order writes whose last call makes
the output grow. -/
theorem C41_flush_happens {env : Env} {unsnap : Bytes → Option Bytes} (hsn : SnappyOk env unsnap) (d m : Bytes) :
    ∃ w0 ops op w, Reached env (wideSchema d m) (ops ++ [op]) w0 w
      ∧ (w0.run env ops).1.io.out.bytes.length < w.io.out.bytes.length := by
  obtain ⟨w0, ops, op, w, h1, h2, _⟩ := flush_happens hsn d m
  exact ⟨w0, ops, op, w, h1, h2⟩

theorem abstract_append (schema : Schema) (l l' : List (Op × Bool)) (a : AState) :
    (a.run schema (l ++ l')).1 = ((a.run schema l).1.run schema l').1 := by
  induction l generalizing a with
  | nil => rfl
  | cons e l ih => exact ih _

/-- A history of in-order writes, twice. Everything is stored. -/
theorem wide_restart {env : Env} {unsnap : Bytes → Option Bytes} (hsn : SnappyOk env unsnap) {d m : Bytes}
    (hsch : (wideSchema d m).Named) :
    ∃ j1 j2 w0 w items, 0 < j1 ∧ j1 ≤ 2 ^ 24 + 1 ∧ 0 < j2 ∧ j2 ≤ 2 ^ 24 + 1
      ∧ Reached env (wideSchema d m) (wideOps d m 0 j1 ++ wideOps d m 0 j2) w0 w
      ∧ storedBy (wideSchema d m) (wideOps d m 0 j1 ++ wideOps d m 0 j2) (w0.grown env (wideOps d m 0 j1 ++ wideOps d m 0 j2))
        = (wideOps d m 0 j1).flatMap Op.recs ++ (wideOps d m 0 j2).flatMap Op.recs
      ∧ scan unsnap (w.io.out.bytes ++ [2]) = some (items, w.io.out.bytes.length)
      ∧ scanPoints d m none items = series ((wideOps d m 0 j1).flatMap Op.recs ++ (wideOps d m 0 j2).flatMap Op.recs) d m
      ∧ ∃ n0, (w0.grown env (wideOps d m 0 j1)).getLast? = some n0 ∧ 0 < n0 := by
  obtain ⟨w0, hnew⟩ : ∃ w0, Writer.new env (wideSchema d m) ⟨[], none⟩ = .ok w0 := ⟨_, rfl⟩
  have hnext : w0.recordCountForNextMemCheck.toNat ≤ 2 ^ 24 := by
    rw [Writer.new] at hnew
    split at hnew
    · simp at hnew
    · simp only [Except.ok.injEq] at hnew
      subst hnew
      show (100#32).toNat ≤ 2 ^ 24
      decide
  have hinit := sim_new unsnap hsch.wf hnew
  obtain ⟨j1, hj1, hj1', ⟨n0, hg1, hn0⟩, p1, b1, ⟨_, _⟩, n1, e1, c1, l1, s1⟩ := wide_grows hsn d m (2 ^ 24) hinit 0 (by omega)
    (by simp [AState.init]) rfl rfl (by simp [AState.init]) hnext
  obtain ⟨g1, sim1, k1⟩ := run_chunks hsn hsch.wf 23000000 (by omega) (wideOps d m 0 j1) hinit 0 (by simp [AState.init])
    b1 p1 (by simp)
  generalize hl1 : (wideOps d m 0 j1).zip ((w0.grown env (wideOps d m 0 j1)).map (fun n => decide (0 < n))) = L1 at *
  generalize ha1 : (AState.init.run (wideSchema d m) L1).1 = a1 at *
  obtain ⟨j2, hj2, hj2', _, p2, b2, ⟨_, _⟩, n2, e2, c2, l2, s2⟩ := wide_grows hsn d m (2 ^ 24) sim1 0 (by omega)
    (by rw [l1]; simp) (by rw [e1, c1]; rfl) (by rw [e1]; rfl) (by rw [e1]; simp) n1
  obtain ⟨g2, sim2, k2⟩ := run_chunks hsn hsch.wf 23000000 (by omega) (wideOps d m 0 j2) sim1 0 (by simp [e1])
    (by simpa [e1] using b2) p2 k1
  obtain ⟨r1, r2, r3⟩ := run_append env (wideOps d m 0 j1) (wideOps d m 0 j2) w0
  have hst : (a1.run (wideSchema d m) ((wideOps d m 0 j2).zip
      (((w0.run env (wideOps d m 0 j1)).1.grown env (wideOps d m 0 j2)).map (fun n => decide (0 < n))))).1.stored
      = (wideOps d m 0 j1).flatMap Op.recs ++ (wideOps d m 0 j2).flatMap Op.recs := by
    rw [s2, s1, e1]
    simp [AState.init]
  refine ⟨j1, j2, w0, _, g2.flatMap (groupItems env), hj1, hj1', hj2, hj2', ⟨hnew, rfl, ?_, ?_⟩, ?_, ?_, ?_, n0, hg1, hn0⟩
  · rw [r2]
    intro hc
    rcases List.mem_append.1 hc with hc | hc
    · exact p1 hc
    · exact p2 hc
  · apply bursts_total
    have hlen := (run_length env (wideOps d m 0 j1 ++ wideOps d m 0 j2) w0).2
    have : (((wideOps d m 0 j1 ++ wideOps d m 0 j2).zip
        ((w0.grown env (wideOps d m 0 j1 ++ wideOps d m 0 j2)).map (fun n => decide (0 < n)))).map
          (fun e => e.1.recs.length)) = (wideOps d m 0 j1 ++ wideOps d m 0 j2).map (fun op => op.recs.length) := by
      have hfun : (fun e : Op × Bool => e.1.recs.length) = (fun op : Op => op.recs.length) ∘ Prod.fst := rfl
      rw [hfun, ← List.map_map, List.map_fst_zip]
      simp [hlen]
    rw [this, List.map_append, List.sum_append, wideOps_recs, wideOps_recs]
    omega
  · rw [storedBy, r3, List.map_append, List.zip_append (by rw [List.length_map, (run_length env _ w0).2]), hl1, abstract_append, ha1,
      AState.flush, if_pos c2, hst]
  · rw [r1]
    refine sim2.file.scan hsch (fun g hg c hc => ?_)
    obtain ⟨ms, _, hok, _⟩ := sim2.file.ok g hg
    have e1 := k2 g hg c hc
    have e2 := pagesBytes_le env (hok c hc).2.pages (hok c hc).2.full
    rw [GChunk.points] at e1
    omega
  · rw [scanPoints_groups, sim2.stored, hst]

theorem wide_not_increasing (d m : Bytes) {j1 j2 : Nat} (h1 : 0 < j1) (h2 : 0 < j2) :
    ¬ Increasing (series ((wideOps d m 0 j1).flatMap Op.recs ++ (wideOps d m 0 j2).flatMap Op.recs) d m) := by
  rw [series_append]
  have hmem : ∀ j, 0 < j → ((0 : W64), IoTDBValue.LONG 0) ∈ series ((wideOps d m 0 j).flatMap Op.recs) d m := by
    intro j hj
    obtain ⟨k, rfl⟩ : ∃ k, j = k + 1 := ⟨j - 1, by omega⟩
    rw [wideOps_succ, List.flatMap_cons, series_append]
    apply List.mem_append_left
    simp [Op.recs, series]
  intro hinc
  have := (List.pairwise_append.1 hinc.2).2.2 _ (hmem j1 h1) _ (hmem j2 h2)
  omega

/-- **C06** is violated: after an automatic flush the timestamps may begin again at 0. There is a history after which a scan
of the output finds a series whose timestamps do not increase. -/
theorem C06_restart {env : Env} {unsnap : Bytes → Option Bytes} (hsn : SnappyOk env unsnap) {d m : Bytes}
    (hsch : (wideSchema d m).Named) :
    ∃ ops w0 w items, Reached env (wideSchema d m) ops w0 w
      ∧ scan unsnap (w.io.out.bytes ++ [2]) = some (items, w.io.out.bytes.length)
      ∧ ¬ Increasing (scanPoints d m none items) := by
  obtain ⟨j1, j2, w0, w, items, h1, _, h2, _, hr, _, hs, hp, _⟩ := wide_restart hsn hsch
  exact ⟨_, w0, w, items, hr, hs, by rw [hp]; exact wide_not_increasing d m h1 h2⟩

/-- A series that satisfies the hypotheses of `C06_restart`. -/
example : ∃ ops w0 w items, Reached Demo.env (wideSchema (str "root.sg.d1") (str "s1")) ops w0 w
    ∧ scan some (w.io.out.bytes ++ [2]) = some (items, w.io.out.bytes.length)
    ∧ ¬ Increasing (scanPoints (str "root.sg.d1") (str "s1") none items) :=
  C06_restart Demo.envOk.snappy
    ⟨⟨by decide +kernel, by decide +kernel⟩, by decide +kernel, by decide +kernel⟩

end TsFile
