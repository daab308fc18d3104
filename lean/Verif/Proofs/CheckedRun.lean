import Verif.Proofs.CheckedFits
import Verif.Proofs.Machine
import Verif.Proofs.Memory
/-! # Builds with overflow checks: where the checks cannot fail, calls -/

namespace TsFile
open Spec

/-- All waiting points fit. -/
def AllFit (schema : Schema) (a : AState) : Prop :=
  ∀ d ms m s, look d schema = some ms → look m ms = some s → PtsFit s.encoding (series a.pending d m)

/-! ## one device -/

theorem GSim.writeC {env : Env} {unsnap : Bytes → Option Bytes} {ms : List (Bytes × MeasurementSchema)} {g : GroupWriter} {d : Bytes}
    {a : AState} (h : GSim env unsnap ms g d a) {m : Bytes} {t : W64} {v : IoTDBValue} (hnp : (a.put ms d m t v).2 ≠ .panic)
    (hf : ∀ s, look m ms = some s → PtsFit s.encoding (series (a.put ms d m t v).1.pending d m)) :
    g.writeC env m t v = g.write env m t v := by
  obtain ⟨g1, hck, hcw, hpath, hlast⟩ := checkIsHistory_rep g d m t a h.last
  rw [GroupWriter.writeC, GroupWriter.write, hck]
  rw [AState.put] at hnp hf
  by_cases ho : t.toInt ≤ (a.last d m).toInt
  · have : t.sle (a.last d m) = true := by simp [BitVec.sle, ho]
    rw [this]
    rfl
  · have : t.sle (a.last d m) = false := by simp [BitVec.sle]; omega
    rw [this]
    rw [if_neg ho] at hnp hf
    simp only [Bool.not_false]
    cases hg : BMap.get? m g1.chunkWriters with
    | none => rfl
    | some c =>
      have hmem := BMap.mem_of_get? hg
      rw [hcw] at hmem
      obtain ⟨sch, pages, cur, hsch, hrep, hle, hbuf, hfp⟩ := h.chunks (m, c) hmem
      dsimp only at hsch hrep hbuf ⊢
      rw [hsch] at hnp hf
      dsimp only at hnp hf
      by_cases hok : (fits sch.dataType v && encodable sch.dataType sch.encoding) = true
      · rw [if_pos hok] at hf
        rw [hrep.writeC hle (t := t) (by simp only [Bool.and_eq_true] at hok; exact hok.1) (by
          have h1 := hf sch rfl
          rw [series_append, series_single] at h1
          rw [hbuf]
          simpa using h1)]
        cases c.write env t v <;> rfl
      · rw [if_neg hok] at hnp
        exact absurd rfl hnp

theorem put_prefix (a : AState) (ms : List (Bytes × MeasurementSchema)) (d : Bytes) (t : W64) (vs : List (Bytes × IoTDBValue))
    (d' m' : Bytes) : series a.pending d' m' <+: series (AState.putMany ms d t vs a).1.pending d' m' := by
  obtain ⟨_, _, _, new, h, _⟩ := putMany_pending ms d t vs a
  rw [h, series_append]
  exact List.prefix_append _ _

theorem GSim.writeManyC {env : Env} {unsnap : Bytes → Option Bytes} (hsn : SnappyOk env unsnap) {ms : List (Bytes × MeasurementSchema)}
    {d : Bytes} {t : W64} (vs : List (Bytes × IoTDBValue)) {g : GroupWriter}
    {a : AState} (h : GSim env unsnap ms g d a) (n : Nat) (hn : n + vs.length < 2 ^ 32)
    (hnp : (AState.putMany ms d t vs a).2 ≠ .panic)
    (hf : ∀ m s, look m ms = some s → PtsFit s.encoding (series (AState.putMany ms d t vs a).1.pending d m)) :
    GroupWriter.writeManyC env t vs (u32 n) g = GroupWriter.writeMany env t vs (u32 n) g := by
  induction vs generalizing g a n with
  | nil => rfl
  | cons e vs ih =>
    obtain ⟨m, v⟩ := e
    rw [List.length_cons] at hn
    rw [AState.putMany] at hnp hf
    obtain ⟨h1, h2⟩ := group_write_sim hsn h m t v
    have hnp1 : (a.put ms d m t v).2 ≠ .panic := by
      intro hp
      apply hnp
      split
      · next he => rw [he] at hp; cases hp
      · exact hp
    have hw := h.writeC hnp1 (fun s hs => by
      have h3 := hf m s hs
      split at h3
      · next a1 he => rw [he]; exact h3.infix (put_prefix a1 ms d t vs d m).isInfix
      · exact h3)
    rw [GroupWriter.writeManyC, GroupWriter.writeMany, hw]
    rcases hp : a.put ms d m t v with ⟨a1, r1⟩
    rw [hp] at h1 h2 hnp hf
    rcases hg : g.write env m t v with ⟨g1, r2⟩
    rw [hg] at h1 h2
    cases r1 with
    | panic => rw [hp] at hnp1; exact absurd rfl hnp1
    | err e => cases h1; rfl
    | ok u =>
      cases r2 with
      | err e => cases h1
      | panic => cases h1
      | ok k =>
        cases h1
        next hk =>
        subst hk
        dsimp only at hnp hf h2 ⊢
        rw [uaddC_u32 (by omega), u32_add]
        exact ih (h2 (by simp)) (n + 1) (by omega) hnp hf

theorem GroupWriter.memLoopC_isSome (cs : BMap ChunkWriter) (n : Nat)
    (h : ∀ e ∈ cs, e.2.memN < 2 ^ 32 → e.2.estimateMaxSeriesMemSizeC = some (u32 e.2.memN))
    (hn : n + (cs.map (fun e => e.2.memN)).sum < 2 ^ 32) :
    GroupWriter.memLoopC cs (u32 n) = some (u32 (n + (cs.map (fun e => e.2.memN)).sum)) := by
  induction cs generalizing n with
  | nil => rfl
  | cons e cs ih =>
    obtain ⟨m, c⟩ := e
    rw [List.map_cons, List.sum_cons] at hn ⊢
    dsimp only at hn ⊢
    rw [GroupWriter.memLoopC, h (m, c) (by simp) (by dsimp only; omega)]
    dsimp only
    rw [uaddC_u32 (by omega)]
    dsimp only
    rw [ih _ (fun x hx => h x (by simp [hx])) (by omega), Nat.add_assoc]

theorem sealAllC_eq {env : Env} {unsnap : Bytes → Option Bytes}
    {ms : List (Bytes × MeasurementSchema)} {buf : Bytes → List Point} (cs : BMap ChunkWriter)
    (h : ChunksRep env unsnap ms cs buf) (hf : ∀ m s, look m ms = some s → PtsFit s.encoding (buf m)) :
    GroupWriter.sealAllC env cs = GroupWriter.sealAll env cs := by
  induction cs with
  | nil => rfl
  | cons e cs ih =>
    obtain ⟨m, c⟩ := e
    obtain ⟨sch, pages, cur, hs, hr, hl, hb, hfp⟩ := h (m, c) (by simp)
    dsimp only at hs hr hb
    rw [GroupWriter.sealAllC, GroupWriter.sealAll, hr.sealC (by omega) (by rw [hb]; exact hf m sch hs),
      ih (fun e he => h e (by simp [he]))]
    cases c.sealCurrentPage env <;> rfl

theorem writeAllC_eq {env : Env} {unsnap : Bytes → Option Bytes}
    {ms : List (Bytes × MeasurementSchema)} {buf : Bytes → List Point} (cs : BMap ChunkWriter)
    (h : SealedRep env unsnap ms cs buf) (io : IoWriter) :
    GroupWriter.writeAllChunksC env cs io = GroupWriter.writeAllChunks env cs io := by
  induction cs generalizing io with
  | nil => rfl
  | cons e cs ih =>
    obtain ⟨m, c⟩ := e
    obtain ⟨sch, pages, hs, hr, hb, hfp⟩ := h (m, c) (by simp)
    dsimp only at hs hr hb
    have h1 : c.sealCurrentPageC env = some c := by
      have hp := hr.page
      rw [ChunkWriter.sealCurrentPageC]
      cases hc : c.currentPageWriter with
      | none => rfl
      | some p =>
        rw [hc] at hp
        dsimp only at hp ⊢
        rw [if_neg (by rw [hp.count]; simp)]
    rw [GroupWriter.writeAllChunksC, GroupWriter.writeAllChunks, ChunkWriter.writeToFileWriterC, h1]
    dsimp only
    cases c.writeToFileWriter env io with
    | none => rfl
    | some r =>
      obtain ⟨c1, io1⟩ := r
      dsimp only
      rw [ih (fun e he => h e (by simp [he])) io1]
      cases GroupWriter.writeAllChunks env cs io1 <;> rfl

theorem GSim.flushC {env : Env} {unsnap : Bytes → Option Bytes} (hsn : SnappyOk env unsnap) {ms : List (Bytes × MeasurementSchema)}
    {g : GroupWriter} {d : Bytes} {a : AState} (h : GSim env unsnap ms g d a)
    (hf : ∀ m s, look m ms = some s → PtsFit s.encoding (series a.pending d m)) (io : IoWriter) :
    g.flushToFilewriterC env io = g.flushToFilewriter env io := by
  obtain ⟨cs, h1, h2, _⟩ := sealAll_rep hsn g.chunkWriters h.chunks
  rw [GroupWriter.flushToFilewriterC, GroupWriter.flushToFilewriter, sealAllC_eq _ h.chunks hf, h1]
  dsimp only
  rw [writeAllC_eq cs h2 io]
  cases GroupWriter.writeAllChunks env cs io <;> rfl

/-! ## the writer -/

theorem flushLoopC_eq {env : Env} (gs : BMap GroupWriter) (h : ∀ e ∈ gs, ∀ io, e.2.flushToFilewriterC env io = e.2.flushToFilewriter env io)
    (io : IoWriter) (lm : BMap (BMap W64)) : Writer.flushLoopC env gs io lm = Writer.flushLoop env gs io lm := by
  induction gs generalizing io lm with
  | nil => rfl
  | cons e gs ih =>
    obtain ⟨d, g⟩ := e
    rw [Writer.flushLoopC, Writer.flushLoop]
    rcases io.startChunkGroup d with ⟨io1, b⟩
    cases b with
    | false => rfl
    | true =>
      dsimp only
      rw [h (d, g) (by simp) io1]
      cases g.flushToFilewriter env io1 with
      | none => rfl
      | some r =>
        obtain ⟨g1, io2, n⟩ := r
        dsimp only
        rw [ih (fun e he => h e (by simp [he]))]
        split
        · rfl
        · cases Writer.flushLoop env gs io2.endChunkGroup (BMap.insert d g1.lastTimeMap lm) <;> rfl

theorem Sim.flushC {env : Env} {unsnap : Bytes → Option Bytes} (hsn : SnappyOk env unsnap) {schema : Schema} {w : Writer} {a : AState}
    {groups : List GGroup} (h : Sim env unsnap schema w a groups) (hf : AllFit schema a) :
    w.flushAllChunkGroupsC env = w.flushAllChunkGroups env := by
  rw [Writer.flushAllChunkGroupsC, Writer.flushAllChunkGroups]
  rw [flushLoopC_eq w.groupWriters (fun e he io => by
    obtain ⟨ms, hms, hg⟩ := h.devices e he
    exact hg.flushC hsn (fun m s hs => hf e.1 ms m s hms hs) io)]
  split
  · rcases Writer.flushLoop env w.groupWriters w.io w.nonAlignedLastTimeMap with _ | ⟨gs, io, lm, _ | e⟩ <;> rfl
  · rfl

theorem Writer.memLoopC_isSome (gs : BMap GroupWriter) (n : Nat)
    (h : ∀ e ∈ gs, ∀ c ∈ e.2.chunkWriters, c.2.memN < 2 ^ 32 → c.2.estimateMaxSeriesMemSizeC = some (u32 c.2.memN))
    (hn : n + (gs.map (fun e => e.2.memN)).sum < 2 ^ 32) :
    Writer.memLoopC gs (u32 n) = some (u32 (n + (gs.map (fun e => e.2.memN)).sum)) := by
  induction gs generalizing n with
  | nil => rfl
  | cons e gs ih =>
    obtain ⟨m, g⟩ := e
    rw [List.map_cons, List.sum_cons] at hn ⊢
    have h1 := GroupWriter.memLoopC_isSome g.chunkWriters 0 (h (m, g) (by simp)) (by
      have : (g.chunkWriters.map (fun e => e.2.memN)).sum = g.memN := rfl
      dsimp only at hn
      omega)
    rw [Nat.zero_add] at h1
    have h0 : u32 0 = 0 := rfl
    rw [h0] at h1
    rw [Writer.memLoopC, h1]
    dsimp only
    rw [uaddC_u32 (by exact Nat.lt_of_le_of_lt (Nat.add_le_add_left (Nat.le_add_right _ _) _) hn)]
    dsimp only
    rw [ih _ (fun x hx => h x (by simp [hx])) (by
      have : (g.chunkWriters.map (fun e => e.2.memN)).sum = g.memN := rfl
      dsimp only at hn
      omega), Nat.add_assoc]
    rfl

theorem Sim.checkMemoryC {env : Env} {unsnap : Bytes → Option Bytes} (hsn : SnappyOk env unsnap) {schema : Schema} {w : Writer} {a : AState}
    {groups : List GGroup} (h : Sim env unsnap schema w a groups) (hf : AllFit schema a)
    (hm : 22 * a.pending.length + 120 * schema.size < 2 ^ 32) : w.checkMemorySizeC env = w.checkMemorySize env := by
  have hset : ∀ n, Sim env unsnap schema { w with recordCountForNextMemCheck := n } a groups :=
    fun n => ⟨h.schema_eq, h.file, h.stored, h.sorted, h.keys, h.devices, h.pend, h.count, h.counted_le, h.names, h.blocks, h.exact⟩
  have hle := h.mem_le
  have h1 := Writer.memLoopC_isSome w.groupWriters 0 (fun e he c hc hlt => by
    obtain ⟨ms, hms, hg⟩ := h.devices e he
    obtain ⟨sch, pages, cur, _, hrep, _⟩ := hg.chunks c hc
    exact hrep.estimateC hlt) (by
      have : (w.groupWriters.map (fun e => e.2.memN)).sum = w.memN := rfl
      omega)
  have h0 : u32 0 = 0 := rfl
  rw [Nat.zero_add, h0] at h1
  have h2 : Writer.memLoopC w.groupWriters 0 = some w.memSize := by rw [h1, w.memN_eq]; rfl
  rw [Writer.checkMemorySizeC, Writer.checkMemorySize]
  split
  · rw [h2]
    dsimp only
    rw [(hset _).flushC hsn hf]
  · rfl

/-- One call. -/
theorem Sim.stepC {env : Env} {unsnap : Bytes → Option Bytes} (hsn : SnappyOk env unsnap) {schema : Schema} {w : Writer} {a : AState}
    {groups : List GGroup} (h : Sim env unsnap schema w a groups) {op : Op} (hnp : (a.exec schema op).2 ≠ .panic)
    (hf : AllFit schema (a.exec schema op).1) (hlen : a.pending.length + op.recs.length < 2 ^ 32)
    (hm : 22 * (a.exec schema op).1.pending.length + 120 * schema.size < 2 ^ 32) : w.stepC env op = w.step env op := by
  obtain ⟨hle, hcase⟩ := sim_exec hsn h op
  have hcl := h.counted_le
  have hrc : w.recordCount.toNat = a.counted := by rw [h.count, u32_toNat _ (by omega)]
  -- what follows a successful call
  have hafter : ∀ (w1 : Writer) (k : Nat), w.handed env op = some w1 → ∀ gs, w1 = { w with groupWriters := gs, recordCount := w.recordCount + u32 k } →
      k ≤ op.recs.length → (a.exec schema op).2 = .ok () → ({ w with groupWriters := gs } : Writer).countC env (u32 k) = w1.afterOk env := by
    intro w1 k hw1 gs hgs hk hok
    rcases hcase with ⟨_, w2, hs, _, _, hh, _⟩ | ⟨e, _, he, _⟩ | ⟨hp, _⟩
    · rw [hw1, Option.some.injEq] at hh
      subst hh
      have hck := hs.checkMemoryC hsn hf hm
      rw [Writer.countC, Writer.afterOk]
      have hu : uaddC w.recordCount (u32 k) = some (w.recordCount + u32 k) :=
        uaddC_isSome (by rw [hrc, u32_toNat _ (by omega)]; omega)
      dsimp only
      simp only [hu]
      rw [← hck, hgs]
      cases Writer.checkMemorySizeC env { w with groupWriters := gs, recordCount := w.recordCount + u32 k } <;> rfl
    · rw [he] at hok; cases hok
    · exact absurd hp hnp
  cases op with
  | write d m t v =>
    simp only [Writer.stepC, Writer.writeC, Writer.step, Writer.write]
    cases hg : BMap.get? d w.groupWriters with
    | none => rfl
    | some g =>
      obtain ⟨ms, hms, hgs⟩ := h.devices (d, g) (BMap.mem_of_get? hg)
      dsimp only at hms hgs ⊢
      obtain ⟨h1, h2⟩ := group_write_sim hsn hgs m t v
      simp only [AState.exec, hms] at hnp hf hafter
      have hw := hgs.writeC (m := m) (t := t) (v := v) (by
        intro hp
        apply hnp
        split
        · next he => rw [he] at hp; cases hp
        · exact hp) (fun s hs => by
        have h3 := hf d ms m s hms hs
        split at h3
        · next he => rw [he]; exact h3
        · exact h3)
      rw [hw]
      rcases hp : a.put ms d m t v with ⟨a1, r1⟩
      rw [hp] at h1 hafter hnp
      rcases hgw : g.write env m t v with ⟨g1, r2⟩
      rw [hgw] at h1
      cases r1 with
      | panic => exact absurd rfl hnp
      | err e => cases h1; rfl
      | ok u =>
        cases r2 with
        | err e => cases h1
        | panic => cases h1
        | ok k =>
          cases h1
          next hk =>
          subst hk
          dsimp only
          rw [hafter _ 1 (by simp only [Writer.handed, hg, hgw]) _ rfl (by simp [Op.recs]) rfl]
          rfl
  | writeMany d t vs =>
    simp only [Writer.stepC, Writer.writeManyC, Writer.step, Writer.writeMany]
    cases hg : BMap.get? d w.groupWriters with
    | none => rfl
    | some g =>
      obtain ⟨ms, hms, hgs⟩ := h.devices (d, g) (BMap.mem_of_get? hg)
      dsimp only at hms hgs ⊢
      obtain ⟨h1, h2⟩ := group_writeMany_sim hsn t vs g a hgs 0
      simp only [AState.exec, hms] at hnp hf hafter
      have hw := hgs.writeManyC hsn (t := t) vs 0 (by simpa [Op.recs] using Nat.lt_of_le_of_lt (Nat.le_add_left _ _) hlen) (by
        intro hp
        apply hnp
        split
        · next he => rw [he] at hp; cases hp
        · exact hp) (fun m s hs => by
        have h3 := hf d ms m s hms hs
        split at h3
        · next he => rw [he]; exact h3
        · exact h3)
      have hz : u32 0 = 0 := rfl
      rw [hz] at h1 h2 hw
      rw [hw]
      rcases hp : AState.putMany ms d t vs a with ⟨a1, r1⟩
      rw [hp] at h1 hafter hnp
      rcases hgw : GroupWriter.writeMany env t vs 0 g with ⟨g1, r2⟩
      rw [hgw] at h1
      cases r1 with
      | panic => exact absurd rfl hnp
      | err e => cases h1; rfl
      | ok u =>
        cases r2 with
        | err e => cases h1
        | panic => cases h1
        | ok k =>
          cases h1
          next hk =>
          rw [Nat.zero_add] at hk
          subst hk
          dsimp only
          rw [hafter _ vs.length (by simp only [Writer.handed, hg, hgw]) _ rfl (by simp [Op.recs]) rfl]
          rfl

/-! ## when the waiting points fit -/

/-- Timestamps that increase from 0 on fit. -/
theorem times_run_fit {b : List W64} (h0 : ∀ t ∈ b, 0 ≤ t.toInt) (hinc : b.Pairwise (fun a b => a.toInt < b.toInt)) :
    BlockFits 64 b := by
  have key : ∀ x ∈ diffs (b.map BitVec.toInt), 0 < x ∧ x < 2 ^ 63 := by
    intro x hx
    obtain ⟨i, a, c, ha, hc, rfl⟩ := mem_diffs hx
    simp only [List.getElem?_map, Option.map_eq_some_iff] at ha hc
    obtain ⟨u, hu, rfl⟩ := ha
    obtain ⟨v, hv, rfl⟩ := hc
    have h1 := h0 u (List.mem_of_getElem? hu)
    have h2 := BitVec.toInt_lt (x := v)
    obtain ⟨hu1, hu2⟩ := List.getElem?_eq_some_iff.1 hu
    obtain ⟨hv1, hv2⟩ := List.getElem?_eq_some_iff.1 hv
    have h3 := List.pairwise_iff_getElem.1 hinc i (i + 1) hu1 hv1 (by omega)
    rw [hu2, hv2] at h3
    simp only [Nat.add_one_sub_one, Nat.reduceSub] at h2
    omega
  refine ⟨fun x hx => ?_, fun x hx y hy => ?_⟩
  · have := key x hx
    simp only [InRange, Nat.reduceSub]
    omega
  · have := key x hx
    have := key y hy
    simp only [InRange, Nat.reduceSub]
    omega

theorem near_run_fit {w : Nat} (hw : 2 ≤ w) {xs : List (BitVec w)} (h : ∀ x ∈ xs, ∀ y ∈ xs, InRange (w - 1) (x.toInt - y.toInt)) :
    RunsFit w xs := by
  intro b hb _
  have hp : (2 : Int) ^ (w - 1) = 2 * 2 ^ (w - 1 - 1) := by
    conv => lhs; rw [show w - 1 = w - 1 - 1 + 1 by omega, Int.pow_succ]
    omega
  have key : ∀ x ∈ diffs (b.map BitVec.toInt), InRange (w - 1) x := by
    intro x hx
    obtain ⟨i, a, c, ha, hc, rfl⟩ := mem_diffs hx
    simp only [List.getElem?_map, Option.map_eq_some_iff] at ha hc
    obtain ⟨u, hu, rfl⟩ := ha
    obtain ⟨v, hv, rfl⟩ := hc
    exact h v (hb.subset (List.mem_of_getElem? hv)) u (hb.subset (List.mem_of_getElem? hu))
  refine ⟨fun x hx => ?_, fun x hx y hy => ?_⟩
  · have := key x hx
    rw [InRange] at this ⊢
    rw [hp]
    omega
  · have h1 := key x hx
    have h2 := key y hy
    rw [InRange] at h1 h2 ⊢
    rw [hp]
    omega

theorem rec_of_mem_series {l : List Rec} {d m : Bytes} {p : Point} (h : p ∈ series l d m) :
    (⟨d, m, p.1, p.2⟩ : Rec) ∈ l := by
  simp only [series, List.mem_map, List.mem_filter] at h
  obtain ⟨r, ⟨hr, he⟩, rfl⟩ := h
  obtain ⟨h1, h2⟩ : r.device = d ∧ r.measurement = m := by simpa using he
  subst h1 h2
  exact hr

theorem allFit_of {schema : Schema} {a : AState} (hinv : a.Inv) {H : List Rec} (hsub : ∀ r ∈ a.pending, r ∈ H)
    (hnear : Near schema H) (hlen : a.pending.length < 2 ^ 32) : AllFit schema a := by
  intro d ms m s hd hm
  have hin := hinv.inc d m
  refine ⟨fun b hb _ => ?_, fun he => ?_, ?_⟩
  · refine times_run_fit (fun t ht => ?_) ?_
    · obtain ⟨p, hp, rfl⟩ := List.mem_map.1 (hb.subset ht)
      exact hin.1 p hp
    · exact List.Pairwise.sublist hb.sublist ((List.pairwise_map (R := fun a b : W64 => a.toInt < b.toInt)).2 hin.2)
  · have key : ∀ v ∈ (series a.pending d m).map Prod.snd, ∀ v' ∈ (series a.pending d m).map Prod.snd, near v v' := by
      intro v hv v' hv'
      obtain ⟨p, hp, rfl⟩ := List.mem_map.1 hv
      obtain ⟨q, hq, rfl⟩ := List.mem_map.1 hv'
      exact hnear _ (hsub _ (rec_of_mem_series hp)) _ (hsub _ (rec_of_mem_series hq)) rfl rfl ⟨ms, s, hd, hm, he⟩
    refine ⟨fun xs hx => near_run_fit (by omega) fun x h1 y h2 => ?_, fun xs hx => near_run_fit (by omega) fun x h1 y h2 => ?_⟩
    · exact key _ (hx.subset (List.mem_map_of_mem h1)) _ (hx.subset (List.mem_map_of_mem h2))
    · exact key _ (hx.subset (List.mem_map_of_mem h1)) _ (hx.subset (List.mem_map_of_mem h2))
  · refine Nat.lt_of_le_of_lt ?_ hlen
    rw [series, List.length_map]
    exact List.length_filter_le _ _

theorem exec_pending_sub (schema : Schema) (a : AState) (op : Op) : ∀ r ∈ (a.exec schema op).1.pending, r ∈ a.pending ∨ r ∈ op.recs := by
  obtain ⟨_, ⟨_, h, _⟩ | ⟨_, _, h⟩⟩ := exec_cases schema a op
  · intro r hr
    rw [h] at hr
    exact List.mem_append.1 hr
  · intro r hr
    cases op with
    | write d m t v => rw [h] at hr; exact Or.inl hr
    | writeMany d t vs =>
      obtain ⟨k, _, h⟩ := h
      rw [h] at hr
      refine (List.mem_append.1 hr).imp id fun hr => ?_
      simp only [Op.recs, List.mem_map] at hr ⊢
      obtain ⟨p, hp, rfl⟩ := hr
      exact ⟨p, List.mem_of_mem_take hp, rfl⟩

theorem step_pending_sub (schema : Schema) (a : AState) (op : Op) (fl : Bool) :
    ∀ r ∈ (a.step schema op fl).1.pending, r ∈ a.pending ∨ r ∈ op.recs := by
  intro r hr
  apply exec_pending_sub schema a op r
  simp only [AState.step] at hr
  split at hr
  · rw [AState.flush] at hr
    split at hr
    · exact hr
    · simp at hr
  · exact hr

/-- A history of typed calls with near values behaves the same with and without the checks. -/
theorem runC_fine {env : Env} {unsnap : Bytes → Option Bytes} (hsn : SnappyOk env unsnap) {schema : Schema}
    (hwf : schema.WF) (ops : List Op) {w : Writer} {a : AState} {groups : List GGroup}
    (h : Sim env unsnap schema w a groups) (hinv : a.Inv) (n : Nat) (hn : a.pending.length ≤ n) {L : Nat}
    (hL : 22 * L + 120 * schema.size ≤ 2 ^ 32)
    (hlen : burstsBelow L n (ops.zip ((w.grown env ops).map (fun n => decide (0 < n)))))
    (htyp : ∀ op ∈ ops, op.recs ≠ [] ∧ Op.Typed schema op)
    {H : List Rec} (hnear : Near schema H) (hp : ∀ r ∈ a.pending, r ∈ H) (hH : ∀ op ∈ ops, ∀ r ∈ op.recs, r ∈ H) :
    w.runC env ops = w.run env ops := by
  induction ops generalizing w a groups n with
  | nil => rfl
  | cons op ops ih =>
    simp only [Writer.grown, List.map_cons, List.zip_cons_cons, burstsBelow] at hlen
    have hop := htyp op (by simp)
    have hres := step_result hsn hwf h op hop.1 (by omega)
    have hnpe := exec_ne_panic (a := a) hop.2
    have hnp : (w.step env op).2 ≠ .panic := by rw [hres]; exact hnpe
    have hple := (sim_exec hsn h op).1
    have hstep := h.stepC hsn hnpe (allFit_of (hinv.exec schema op) (fun r hr =>
      (exec_pending_sub schema a op r hr).elim (hp r) (hH op (by simp) r)) hnear (by omega)) (by omega) (by omega)
    obtain ⟨new1, _, _, hs1, hl1⟩ := sim_step hsn hwf h op (by omega) hnp
    have hg := grows_iff h.file hs1.file
    rw [hg.2] at hlen
    have := ih hs1 (hinv.step schema op _) (if decide (new1 ≠ []) then 0 else n + op.recs.length)
      (by split at hl1 <;> simp_all; omega) hlen.2 (fun o ho => htyp o (by simp [ho]))
      (fun r hr => (step_pending_sub schema a op _ r hr).elim (hp r) (hH op (by simp) r)) (fun o ho => hH o (by simp [ho]))
    simp only [Writer.runC, Writer.run, hstep, this]

end TsFile
