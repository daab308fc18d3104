import Verif.Proofs.Memory
import Verif.Proofs.Main
/-! # The automatic flush does happen

For a series of INT64 values with PLAIN encoding and without compression the memory estimate is at least 8 bytes for
each waiting point. So at the latest after 2^24 + 1 points there is a flush. -/

namespace TsFile
open Spec

theorem pAllFuel_len {α : Type} {p : Parser α} {k : Nat}
    (hp : ∀ b a r, p b = some (a, r) → r.length + k ≤ b.length) (fuel : Nat) (b : Bytes) (l : List α)
    (h : pAllFuel p fuel b = some l) : k * l.length ≤ b.length := by
  induction fuel generalizing b l with
  | zero =>
    cases b with
    | nil => simp [pAllFuel] at h; subst h; simp
    | cons x b => simp [pAllFuel] at h
  | succ fuel ih =>
    cases b with
    | nil => simp [pAllFuel] at h; subst h; simp
    | cons x b =>
      rw [pAllFuel] at h
      split at h
      · simp at h
      · next a rest h1 =>
        split at h
        · simp at h
        · next l' h2 =>
          simp only [Option.some.injEq] at h
          subst h
          have h3 := ih _ _ h2
          have h4 := hp _ _ _ h1
          rw [List.length_cons, Nat.mul_succ]
          omega

theorem pTake_len {n : Nat} {b x r : Bytes} (h : pTake n b = some (x, r)) : r.length + n = b.length := by
  rw [pTake] at h
  split at h
  · simp only [Option.some.injEq, Prod.mk.injEq] at h
    obtain ⟨_, rfl⟩ := h
    simp; omega
  · simp at h

theorem pBE_len {n : Nat} {b : Bytes} {x : Nat} {r : Bytes} (h : pBE n b = some (x, r)) : r.length + n = b.length := by
  rw [pBE] at h
  split at h
  · simp at h
  · next h1 =>
    simp only [Option.some.injEq, Prod.mk.injEq] at h
    obtain ⟨_, rfl⟩ := h
    exact pTake_len h1

theorem pVarU_len {b : Bytes} {x : Nat} {r : Bytes} (h : pVarU b = some (x, r)) : r.length ≤ b.length := by
  induction b generalizing x r with
  | nil => simp [pVarU] at h
  | cons y b ih =>
    rw [pVarU] at h
    split at h
    · simp only [Option.some.injEq, Prod.mk.injEq] at h
      obtain ⟨_, rfl⟩ := h
      simp
    · split at h
      · simp at h
      · next h1 =>
        simp only [Option.some.injEq, Prod.mk.injEq] at h
        obtain ⟨_, rfl⟩ := h
        have := ih h1
        simp; omega

/-- A page of INT64 values with PLAIN encoding has at least 8 bytes for each point. -/
theorem decodePage_len {raw : Bytes} {pts : List Point} (h : decodePage .INT64 .PLAIN raw = some pts) :
    8 * pts.length ≤ raw.length := by
  simp only [decodePage, Option.bind_eq_bind, Option.bind_eq_some_iff] at h
  obtain ⟨⟨n, b⟩, h1, ⟨tb, vb⟩, h2, times, _, values, h4, h5⟩ := h
  split at h5
  · next hl =>
    simp only [Option.some.injEq] at h5
    subst h5
    have e1 := pVarU_len h1
    have e2 := pTake_len h2
    have e3 : 8 * values.length ≤ vb.length := by
      simp only [decodeValues, pAll] at h4
      refine pAllFuel_len (fun b a r h => ?_) _ _ _ h4
      simp only [pPlain, Option.map_eq_some_iff] at h
      obtain ⟨⟨x, r'⟩, h6, h7⟩ := h
      simp only [Prod.mk.injEq] at h7
      rw [← h7.2]
      exact Nat.le_of_eq (pBE_len h6)
    simp only at e1 e2
    rw [List.length_zip, hl, Nat.min_self]
    omega
  · simp at h5

/-- INT64, PLAIN, UNCOMPRESSED. -/
def wide : MeasurementSchema := ⟨.INT64, .PLAIN, .UNCOMPRESSED⟩

theorem pagesBytes_ge {unsnap : Bytes → Option Bytes} (env : Env) {pages : List GPage}
    (h : ∀ g ∈ pages, g.Ok unsnap wide) :
    8 * (pagesPoints pages).length ≤ (pagesBytes env .INT64 pages).length := by
  have h1 : ∀ g : GPage, g.Ok unsnap wide → ∀ b, 8 * g.pts.length ≤ (g.bytes env .INT64 b).length := by
    intro g hg b
    have e1 := decodePage_len hg.page
    have e2 : g.data = g.raw := by simpa [decompress, wide] using hg.dec
    simp only [GPage.bytes, List.length_append, e2]
    omega
  have hall : ∀ (l : List GPage), (∀ g ∈ l, g.Ok unsnap wide) →
      8 * (pagesPoints l).length ≤ (l.flatMap (GPage.bytes env .INT64 true)).length := by
    intro l
    induction l with
    | nil => simp [pagesPoints]
    | cons g l ih =>
      intro hl
      have h2 := h1 g (hl g (by simp)) true
      have h3 := ih (fun g hg => hl g (by simp [hg]))
      simp only [List.flatMap_cons, List.length_append, pagesPoints, List.map_cons, List.flatten_cons] at *
      omega
  match pages, h with
  | [g], h =>
    have := h1 g (h g (by simp)) false
    simpa [pagesBytes, pagesPoints] using this
  | [], _ => simp [pagesPoints]
  | a :: b :: l, h => exact hall _ h

theorem ChunkRep.mem_ge {env : Env} {unsnap : Bytes → Option Bytes} {id : Bytes} {c : ChunkWriter}
    {pages : List GPage} {cur : List Point} (h : ChunkRep env unsnap id wide c pages cur) :
    8 * (pagesPoints pages ++ cur).length ≤ c.memN := by
  have h1 := pagesBytes_ge env h.ok
  have hb := h.buffer
  have hp := h.page
  rw [ChunkWriter.memN]
  split
  · next p hc =>
    rw [hc] at hp
    have h2 : 8 * cur.length ≤ p.valueEncoder.memN := by
      have hv := hp.value
      generalize p.valueEncoder = e at hv
      generalize hvs : cur.map Prod.snd = vs at hv
      have hl : cur.length = vs.length := by rw [← hvs]; simp
      rw [hl]
      cases hv with
      | plain _ e _ hd hbuf ht =>
        simp only [ValueEncoder.memN, hbuf]
        have : ∀ l : List IoTDBValue, (∀ v ∈ l, fits .INT64 v = true) → 8 * l.length ≤ (l.flatMap plainBytes).length := by
          intro l
          induction l with
          | nil => simp
          | cons v l ih =>
            intro hl
            have := ih (fun v hv => hl v (by simp [hv]))
            have h8 := hl v (by simp)
            cases v with
            | LONG x => 
              simp only [List.flatMap_cons, List.length_append, plainBytes, length_be64, List.length_cons]; omega
            | _ => simp [fits] at h8
        have := this vs ht
        omega
    rw [List.length_append, PageWriter.memN, hb]
    have : wide.dataType = .INT64 := rfl
    rw [this]
    omega
  · next hc =>
    rw [hc] at hp
    obtain ⟨rfl, rfl⟩ := hp
    simp [pagesPoints]

theorem Sim.mem_ge {env : Env} {unsnap : Bytes → Option Bytes} {schema : Schema} {w : Writer} {a : AState}
    {groups : List GGroup} (h : Sim env unsnap schema w a groups) {d m : Bytes} {ms : List (Bytes × MeasurementSchema)}
    (hd : look d schema = some ms) (hm : look m ms = some wide) :
    8 * (series a.pending d m).length ≤ w.memN := by
  have hk := (h.keys d).2 (by rw [hd]; rfl)
  obtain ⟨e, he, rfl⟩ := List.mem_map.1 hk
  obtain ⟨ms', hms', hg⟩ := h.devices e he
  rw [hd] at hms'
  obtain rfl := Option.some.inj hms'
  have hk2 := (hg.keys m).2 (by rw [hm]; rfl)
  obtain ⟨c, hc, rfl⟩ := List.mem_map.1 hk2
  obtain ⟨sch, pages, cur, q1, q2, q3, q4, _⟩ := hg.chunks c hc
  rw [hm] at q1
  obtain rfl := Option.some.inj q1
  have h1 := q2.mem_ge
  rw [q4] at h1
  have h2 := le_sum_of_mem (fun c : Bytes × ChunkWriter => c.2.memN) hc
  have h3 := le_sum_of_mem (fun g : Bytes × GroupWriter => g.2.memN) he
  simp only [Writer.memN, GroupWriter.memN] at *
  omega

/-! ## one step, and many -/

/-- After a successful call: the next check is due at 2^24 points at the latest, and if the output did not grow, at
most 2^24 points wait. -/
theorem step_next {env : Env} {unsnap : Bytes → Option Bytes} (hsn : SnappyOk env unsnap) {schema : Schema}
    (hwf : schema.WF) {w : Writer} {a : AState} {groups : List GGroup} (h : Sim env unsnap schema w a groups)
    {d m : Bytes} {ms : List (Bytes × MeasurementSchema)} (hd : look d schema = some ms) (hm : look m ms = some wide)
    {op : Op} (hne : op.recs ≠ []) (hr : (a.exec schema op).2 = .ok ())
    (hcnt : (a.exec schema op).1.counted = (a.exec schema op).1.pending.length)
    (hall : series (a.exec schema op).1.pending d m = ((a.exec schema op).1.pending).map (fun r => (r.timestamp, r.value)))
    (hlen : 22 * (a.pending.length + op.recs.length) + 120 * schema.size < 2 ^ 32)
    (hnext : w.recordCountForNextMemCheck.toNat ≤ 2 ^ 24) :
    (w.step env op).1.recordCountForNextMemCheck.toNat ≤ 2 ^ 24
    ∧ ((a.exec schema op).1.pending.length ≤ 2 ^ 24 ∨ w.io.out.bytes.length < (w.step env op).1.io.out.bytes.length) := by
  obtain ⟨hle, ⟨_, w1, hs1, hst, hn1, _⟩ | ⟨e, w1, hr', _⟩ | ⟨hr', _⟩⟩ := sim_exec hsn h op
  · rw [hst, Writer.afterOk]
    have hp : (a.exec schema op).1.pending ≠ [] := by
      obtain ⟨_, h1 | h1⟩ := exec_cases schema a op
      · rw [h1.2.1]; simp [hne]
      · exact absurd hr h1.1
    have hpl := List.length_pos_iff.2 hp
    have hge := hs1.mem_ge hd hm
    rw [hall, List.length_map] at hge
    have hle2 := hs1.mem_le
    have hmem : w1.memSize.toNat = w1.memN := by rw [w1.memN_eq, u32_toNat _ (by omega)]
    have hrc : w1.recordCount.toNat = (a.exec schema op).1.pending.length := by
      rw [hs1.count, hcnt, u32_toNat _ (by omega)]
    have hT : chunkGroupSizeThreshold = 2 ^ 27 := rfl
    rw [Writer.checkMemorySize]
    by_cases hdue : w1.recordCount.toNat ≥ w1.recordCountForNextMemCheck.toNat
    · rw [if_pos hdue]
      simp only
      rw [if_neg (by omega)]
      have hnm : (Writer.nextMemCheck w1.recordCountForNextMemCheck w1.memSize).toNat ≤ 2 ^ 24 := by
        rw [Writer.nextMemCheck, hT, hmem]
        have h1 : w1.recordCountForNextMemCheck.toNat * 2 ^ 27 / w1.memN ≤ 2 ^ 24 := by
          apply Nat.div_le_of_le_mul
          have : w1.recordCountForNextMemCheck.toNat ≤ (a.exec schema op).1.pending.length := by omega
          omega
        rw [u32_toNat _ (by omega)]
        exact h1
      by_cases hbig : w1.memSize.toNat > chunkGroupSizeThreshold
      · rw [if_pos hbig]
        obtain ⟨w3, new, hf, hs3, h0⟩ := sim_flush hsn hwf (w := { w1 with
          recordCountForNextMemCheck := Writer.nextMemCheck w1.recordCountForNextMemCheck w1.memSize })
          ⟨hs1.schema_eq, hs1.file, hs1.stored, hs1.sorted, hs1.keys, hs1.devices, hs1.pend, hs1.count, hs1.counted_le, hs1.names,
            hs1.blocks, hs1.exact⟩
          (by omega)
        rw [hf]
        simp only [Option.map_some]
        have hnx : w3.recordCountForNextMemCheck = Writer.nextMemCheck w1.recordCountForNextMemCheck w1.memSize := by
          rw [Writer.flushAllChunkGroups, if_pos (by simp only; omega)] at hf
          split at hf
          · simp at hf
          · simp at hf
          · simp only [Option.some.injEq, Prod.mk.injEq, and_true] at hf
            rw [← hf]; rfl
        refine ⟨by rw [hnx]; exact hnm, .inr ?_⟩
        have hn : new ≠ [] := fun hc => by have := h0.1 hc; omega
        have := (grows_iff h.file hs3.file).2
        simp only [hn, ne_eq, not_false_eq_true, decide_true, decide_eq_true_eq] at this
        omega
      · rw [if_neg hbig]
        exact ⟨hnm, .inl (by rw [hT] at hbig; omega)⟩
    · rw [if_neg hdue]
      exact ⟨by simp only; rw [hn1]; exact hnext, .inl (by rw [hn1] at hdue; omega)⟩
  · rw [hr] at hr'; simp at hr'
  · rw [hr] at hr'; simp at hr'

/-- A device with one series. -/
def wideSchema (d m : Bytes) : Schema := [(d, [(m, wide)])]

theorem wide_wf (d m : Bytes) : (wideSchema d m).WF := by
  refine ⟨by simp [wideSchema], by simp [wideSchema]⟩

/-- Writes with the timestamps `t`, `t + 1`, ... -/
def wideOps (d m : Bytes) (t n : Nat) : List Op :=
  (List.range n).map (fun i => Op.write d m (BitVec.ofNat 64 (t + i)) (.LONG 0))

theorem wideOps_succ (d m : Bytes) (t n : Nat) :
    wideOps d m t (n + 1) = .write d m (BitVec.ofNat 64 t) (.LONG 0) :: wideOps d m (t + 1) n := by
  simp only [wideOps, List.range_succ_eq_map, List.map_cons, List.map_map, Nat.add_zero]
  congr 1
  apply List.map_congr_left
  intro i _
  simp only [Function.comp, Nat.succ_eq_add_one]
  congr 2
  omega

/-- There is a flush after finitely many writes. -/
theorem wide_grows {env : Env} {unsnap : Bytes → Option Bytes} (hsn : SnappyOk env unsnap) (d m : Bytes) (fuel : Nat)
    {w : Writer} {a : AState} {groups : List GGroup} (h : Sim env unsnap (wideSchema d m) w a groups) (t : Nat)
    (ht : t + fuel < 2 ^ 62) (hlast : (a.last d m).toInt < t) (hcnt : a.counted = a.pending.length)
    (hall : series a.pending d m = a.pending.map (fun r => (r.timestamp, r.value)))
    (hn : a.pending.length + fuel = 2 ^ 24) (hnext : w.recordCountForNextMemCheck.toNat ≤ 2 ^ 24) :
    ∃ j, 0 < j ∧ j ≤ fuel + 1 ∧
      let ops := wideOps d m t j
      let l := ops.zip ((w.grown env ops).map (fun n => decide (0 < n)))
      (∃ n, (w.grown env ops).getLast? = some n ∧ 0 < n)
      ∧ .panic ∉ (w.run env ops).2
      ∧ burstsBelow 23000000 a.pending.length l
      ∧ (∃ groups', Sim env unsnap (wideSchema d m) (w.run env ops).1 (a.run (wideSchema d m) l).1 groups')
      ∧ (w.run env ops).1.recordCountForNextMemCheck.toNat ≤ 2 ^ 24
      ∧ (a.run (wideSchema d m) l).1.pending = [] ∧ (a.run (wideSchema d m) l).1.counted = 0
      ∧ (a.run (wideSchema d m) l).1.last = (fun _ _ => -1)
      ∧ (a.run (wideSchema d m) l).1.stored = a.stored ++ a.pending ++ ops.flatMap Op.recs := by
  -- one step
  have hexec : a.exec (wideSchema d m) (.write d m (BitVec.ofNat 64 t) (.LONG 0))
      = ({ a with pending := a.pending ++ [⟨d, m, BitVec.ofNat 64 t, .LONG 0⟩],
                  last := fun d' m' => if d' = d ∧ m' = m then BitVec.ofNat 64 t else a.last d' m',
                  counted := a.counted + 1 }, .ok ()) := by
    have htt : (BitVec.ofNat 64 t).toInt = t := by
      rw [BitVec.toInt_eq_toNat_of_lt] <;> rw [BitVec.toNat_ofNat, Nat.mod_eq_of_lt] <;> omega
    simp only [AState.exec, wideSchema, look, if_true, AState.put]
    rw [if_neg (by rw [htt]; omega)]
    rfl
  have hsz : (wideSchema d m).size = 1 := rfl
  have hrl : (Op.write d m (BitVec.ofNat 64 t) (.LONG 0)).recs.length = 1 := rfl
  have hres := step_result hsn (wide_wf d m) h (.write d m (BitVec.ofNat 64 t) (.LONG 0)) (by simp [Op.recs])
    (by rw [hsz, hrl]; omega)
  rw [hexec] at hres
  simp only at hres
  obtain ⟨new, _, _, hs1, hpl⟩ := sim_step hsn (wide_wf d m) h (.write d m (BitVec.ofNat 64 t) (.LONG 0))
    (by rw [hrl]; omega) (by rw [hres]; simp)
  have hg := (grows_iff h.file hs1.file).2
  obtain ⟨hnx, hor⟩ := step_next hsn (wide_wf d m) h (d := d) (m := m) (ms := [(m, wide)])
    (by simp [wideSchema, look]) (by simp [look])
    (op := .write d m (BitVec.ofNat 64 t) (.LONG 0)) (by simp [Op.recs]) (by rw [hexec])
    (by rw [hexec]; simp [hcnt]) (by rw [hexec]; simp only; rw [series_append, hall]; simp [series])
    (by rw [hsz, hrl]; omega) hnext
  rw [hexec] at hor
  simp only [List.length_append, List.length_cons, List.length_nil] at hor
  generalize hop : Op.write d m (BitVec.ofNat 64 t) (.LONG 0) = op at *
  by_cases hnew : new = []
  · -- no flush
    subst hnew
    simp only [ne_eq, not_true_eq_false, decide_false, List.append_nil] at hs1 hg
    have hno : ¬ w.io.out.bytes.length < (w.step env op).1.io.out.bytes.length := by
      intro hc
      simp at hg
      omega
    have hle : a.pending.length + 1 ≤ 2 ^ 24 := by rcases hor with h1 | h1 <;> omega
    cases fuel with
    | zero => omega
    | succ fuel =>
      have hst : (a.step (wideSchema d m) op false).1 = { a with
          pending := a.pending ++ [⟨d, m, BitVec.ofNat 64 t, .LONG 0⟩],
          last := fun d' m' => if d' = d ∧ m' = m then BitVec.ofNat 64 t else a.last d' m',
          counted := a.counted + 1 } := by
        simp [AState.step, hexec]
      rw [hst] at hs1
      have htt : (BitVec.ofNat 64 t).toInt = t := by
        rw [BitVec.toInt_eq_toNat_of_lt] <;> rw [BitVec.toNat_ofNat, Nat.mod_eq_of_lt] <;> omega
      obtain ⟨j, hj0, hj, ⟨n, hn1, hn2⟩, h1, h2, h3, h4, h5, h6, h7, h8⟩ := wide_grows hsn d m fuel hs1 (t + 1) (by omega)
        (by simp only [and_self, if_true]; rw [htt]; omega) (by simp [hcnt])
        (by simp only; rw [series_append, hall]; simp [series]) (by simp; omega) hnx
      refine ⟨j + 1, by omega, by omega, ?_⟩
      rw [wideOps_succ, hop]
      simp only [Writer.grown, Writer.run, List.map_cons, List.zip_cons_cons, hg, AState.run, hst,
        List.flatMap_cons, List.mem_cons, not_or, burstsBelow, hrl]
      refine ⟨⟨n, by rw [List.getLast?_cons, hn1]; rfl, hn2⟩, ⟨by rw [hres]; simp, h1⟩, ⟨by omega, by simpa using h2⟩, h3, h4, h5, h6, h7, ?_⟩
      rw [h8, ← hop]
      simp [Op.recs]
  · -- flush
    rw [if_pos (by simpa using hnew)] at hpl
    refine ⟨1, by omega, by omega, ?_⟩
    rw [wideOps_succ, hop]
    simp only [hnew, ne_eq, not_false_eq_true, decide_true] at hs1 hg
    have hst : (a.step (wideSchema d m) op true).1 = { a with
        stored := a.stored ++ (a.pending ++ [⟨d, m, BitVec.ofNat 64 t, .LONG 0⟩]), pending := [],
        last := fun _ _ => -1, counted := 0, bursts := a.bursts ++ [a.pending ++ [⟨d, m, BitVec.ofNat 64 t, .LONG 0⟩]] } := by
      simp [AState.step, hexec, AState.flush]
    rw [hst] at hs1
    simp only [wideOps, List.range_zero, List.map_nil, Writer.grown, Writer.run, List.map_cons, List.zip_cons_cons, hg,
      AState.run, hst, List.flatMap_cons, List.flatMap_nil, List.zip_nil_left, List.mem_cons, List.not_mem_nil, or_false,
      burstsBelow, and_true, hrl]
    refine ⟨⟨_, rfl, by simpa using hg⟩, by rw [hres]; simp, by omega, ⟨_, hs1⟩, hnx, ?_⟩
    rw [← hop]
    simp [Op.recs]

end TsFile
