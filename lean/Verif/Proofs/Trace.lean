import Verif.Proofs.Ts2Diff
import Verif.Proofs.BMap
import Verif.Model.Session
/-! # Writers that behave the same

Two writers are equal for the outside if they differ only in `last_time_map` entries that are -1 (as if
missing) and in `non_aligned_timeseries_last_time_map`, which is never read. -/

namespace TsFile
open Spec

/-- Group writers that behave the same. -/
structure GEq (g g' : GroupWriter) : Prop where
  path : g.path = g'.path
  chunks : g.chunkWriters = g'.chunkWriters
  last : ∀ m, (BMap.get? m g.lastTimeMap).getD (-1) = (BMap.get? m g'.lastTimeMap).getD (-1)

/-- Maps of group writers that behave the same. -/
def GsEq (l l' : BMap GroupWriter) : Prop := List.Forall₂ (fun a b => a.1 = b.1 ∧ GEq a.2 b.2) l l'

/-- Writers that behave the same. -/
structure WEq (w w' : Writer) : Prop where
  io : w.io = w'.io
  groups : GsEq w.groupWriters w'.groupWriters
  count : w.recordCount = w'.recordCount
  next : w.recordCountForNextMemCheck = w'.recordCountForNextMemCheck
  schema : w.schema = w'.schema

theorem GEq.refl (g : GroupWriter) : GEq g g := ⟨rfl, rfl, fun _ => rfl⟩

theorem GsEq.refl (l : BMap GroupWriter) : GsEq l l := by
  induction l with
  | nil => exact .nil
  | cons a l ih => exact .cons ⟨rfl, .refl _⟩ ih

theorem WEq.refl (w : Writer) : WEq w w := ⟨rfl, .refl _, rfl, rfl, rfl⟩

/-- How results on related maps are related. -/
inductive OEq : Option GroupWriter → Option GroupWriter → Prop
  | none : OEq none none
  | some {g g' : GroupWriter} : GEq g g' → OEq (some g) (some g')

theorem GsEq.get {l l' : BMap GroupWriter} (h : GsEq l l') (k : Bytes) : OEq (BMap.get? k l) (BMap.get? k l') := by
  induction h with
  | nil => exact .none
  | @cons a b l l' hab _ ih =>
    obtain ⟨k1, g1⟩ := a
    obtain ⟨k2, g2⟩ := b
    obtain ⟨hk, hg⟩ := hab
    simp only at hk hg
    subst hk
    rw [BMap.get?, BMap.get?]
    split
    · exact .some hg
    · exact ih

theorem GsEq.insert {l l' : BMap GroupWriter} (h : GsEq l l') (k : Bytes) {g g' : GroupWriter} (hg : GEq g g') :
    GsEq (BMap.insert k g l) (BMap.insert k g' l') := by
  induction h with
  | nil => exact .cons ⟨rfl, hg⟩ .nil
  | @cons a b l l' hab hl ih =>
    obtain ⟨k1, g1⟩ := a
    obtain ⟨k2, g2⟩ := b
    obtain ⟨hk, hg'⟩ := hab
    simp only at hk hg'
    subst hk
    rw [BMap.insert, BMap.insert]
    split
    · exact .cons ⟨rfl, hg⟩ hl
    · split
      · exact .cons ⟨rfl, hg⟩ (.cons ⟨rfl, hg'⟩ hl)
      · exact .cons ⟨rfl, hg'⟩ ih

/-- Replacing a group writer by one that behaves the same. -/
theorem GsEq.replace {l : BMap GroupWriter} (hs : BMap.Sorted l) {k : Bytes} {g g' : GroupWriter}
    (hget : BMap.get? k l = some g) (hg : GEq g g') : GsEq l (BMap.insert k g' l) := by
  induction l with
  | nil => simp [BMap.get?] at hget
  | cons a l ih =>
    obtain ⟨k1, g1⟩ := a
    rw [BMap.get?] at hget
    rw [BMap.insert]
    by_cases hk : k1 = k
    · rw [if_pos hk] at hget ⊢
      cases hget
      exact .cons ⟨hk, hg⟩ (GsEq.refl l)
    · rw [if_neg hk] at hget ⊢
      have hlt : bytesLt k1 k = true := (List.pairwise_cons.1 hs).1 (k, g) (BMap.mem_of_get? hget)
      rw [if_neg (by rw [bytesLt_asymm hlt]; simp)]
      exact .cons ⟨rfl, .refl _⟩ (ih (List.pairwise_cons.1 hs).2 hget)

/-- The order check. -/
theorem GEq.check {g g' : GroupWriter} (h : GEq g g') (m : Bytes) (t : W64) :
    (g.checkIsHistoryData m t).2 = (g'.checkIsHistoryData m t).2
      ∧ GEq (g.checkIsHistoryData m t).1 (g'.checkIsHistoryData m t).1 ∧ GEq g (g.checkIsHistoryData m t).1 := by
  have key : ∀ g : GroupWriter, (g.checkIsHistoryData m t).2 = !(t.sle ((BMap.get? m g.lastTimeMap).getD (-1)))
      ∧ GEq g (g.checkIsHistoryData m t).1 := by
    intro g
    rw [GroupWriter.checkIsHistoryData]
    cases hg : BMap.get? m g.lastTimeMap with
    | some l => exact ⟨rfl, .refl _⟩
    | none =>
      refine ⟨rfl, ⟨rfl, rfl, ?_⟩⟩
      intro m'
      simp only [BMap.get?_insert]
      by_cases hm : m = m'
      · subst hm; rw [if_pos rfl, hg]; rfl
      · rw [if_neg hm]
  obtain ⟨h1, h2⟩ := key g
  obtain ⟨h3, h4⟩ := key g'
  refine ⟨by rw [h1, h3, h.last], ⟨?_, ?_, ?_⟩, h2⟩
  · rw [← h2.path, ← h4.path, h.path]
  · rw [← h2.chunks, ← h4.chunks, h.chunks]
  · intro m'; rw [← h2.last, ← h4.last, h.last]

/-- Writing a point to writers that behave the same. -/
theorem GEq.write {env : Env} {g g' : GroupWriter} (h : GEq g g') (m : Bytes) (t : W64) (v : IoTDBValue) :
    (g.write env m t v).2 = (g'.write env m t v).2 ∧ GEq (g.write env m t v).1 (g'.write env m t v).1 := by
  obtain ⟨h1, h2, _⟩ := h.check m t
  rw [GroupWriter.write, GroupWriter.write]
  cases hc : g.checkIsHistoryData m t with
  | mk a b =>
    cases hc' : g'.checkIsHistoryData m t with
    | mk a' b' =>
      rw [hc, hc'] at h1 h2
      simp only at h1 h2
      subst h1
      cases b with
      | false => exact ⟨rfl, h2⟩
      | true =>
        simp only [h2.chunks]
        cases BMap.get? m a'.chunkWriters with
        | none => exact ⟨rfl, h2⟩
        | some c =>
          simp only
          cases c.write env t v with
          | panic => exact ⟨rfl, h2⟩
          | err e => exact ⟨rfl, h2⟩
          | ok r =>
            refine ⟨rfl, ⟨h2.path, rfl, ?_⟩⟩
            intro m'
            simp only [BMap.get?_insert]
            split
            · rfl
            · exact h2.last m'

/-- A rejected point changes nothing. -/
theorem GEq.rejected {env : Env} {g : GroupWriter} {m : Bytes} {t : W64} {v : IoTDBValue} {e : TsFileError}
    (h : (g.write env m t v).2 = .err e) : GEq g (g.write env m t v).1 := by
  obtain ⟨_, _, h3⟩ := (GEq.refl g).check m t
  rw [GroupWriter.write] at h ⊢
  cases hc : g.checkIsHistoryData m t with
  | mk a b =>
    rw [hc] at h h3
    simp only at h3
    cases b with
    | false => exact h3
    | true =>
      simp only at h ⊢
      cases hget : BMap.get? m a.chunkWriters with
      | none => exact h3
      | some c =>
        rw [hget] at h
        simp only at h ⊢
        cases hw : c.write env t v with
        | panic => exact h3
        | err e => exact h3
        | ok r => rw [hw] at h; simp at h

theorem GEq.writeMany {env : Env} (t : W64) (vs : List (Bytes × IoTDBValue)) (n : W32) {g g' : GroupWriter}
    (h : GEq g g') : (GroupWriter.writeMany env t vs n g).2 = (GroupWriter.writeMany env t vs n g').2
      ∧ GEq (GroupWriter.writeMany env t vs n g).1 (GroupWriter.writeMany env t vs n g').1 := by
  induction vs generalizing n g g' with
  | nil => exact ⟨rfl, h⟩
  | cons p vs ih =>
    obtain ⟨m, v⟩ := p
    obtain ⟨h1, h2⟩ := h.write (env := env) m t v
    rw [GroupWriter.writeMany, GroupWriter.writeMany]
    cases hw : g.write env m t v with
    | mk a r =>
      cases hw' : g'.write env m t v with
      | mk a' r' =>
        rw [hw, hw'] at h1 h2
        simp only at h1 h2
        subst h1
        cases r with
        | ok k => exact ih _ h2
        | err e => exact ⟨rfl, h2⟩
        | panic => exact ⟨rfl, h2⟩

theorem GsEq.memSize {l l' : BMap GroupWriter} (h : GsEq l l') (n : W32) :
    l.foldl (fun s g => s + g.2.updateMaxGroupMemSize) n = l'.foldl (fun s g => s + g.2.updateMaxGroupMemSize) n := by
  induction h generalizing n with
  | nil => rfl
  | cons hab _ ih =>
    simp only [List.foldl_cons, GroupWriter.updateMaxGroupMemSize, hab.2.chunks]
    exact ih _

/-- Results of the flush loop on related maps. -/
inductive FEq : Option (BMap GroupWriter × IoWriter × BMap (BMap W64) × Option TsFileError) →
    Option (BMap GroupWriter × IoWriter × BMap (BMap W64) × Option TsFileError) → Prop
  | none : FEq none none
  | some {gs gs' : BMap GroupWriter} {io : IoWriter} {lm lm' : BMap (BMap W64)} {e : Option TsFileError} :
      GsEq gs gs' → FEq (some (gs, io, lm, e)) (some (gs', io, lm', e))

theorem GsEq.flushLoop {env : Env} {l l' : BMap GroupWriter} (h : GsEq l l') (io : IoWriter)
    (lm lm' : BMap (BMap W64)) : FEq (Writer.flushLoop env l io lm) (Writer.flushLoop env l' io lm') := by
  induction h generalizing io lm lm' with
  | nil => exact .some .nil
  | @cons a b l l' hab hl ih =>
    obtain ⟨d, g⟩ := a
    obtain ⟨d', g'⟩ := b
    obtain ⟨hd, hg⟩ := hab
    simp only at hd hg
    subst hd
    rw [Writer.flushLoop, Writer.flushLoop]
    cases hst : io.startChunkGroup d with
    | mk io1 ok =>
      cases ok with
      | false => exact .some (.cons ⟨rfl, hg⟩ hl)
      | true =>
        simp only [GroupWriter.flushToFilewriter, hg.chunks]
        cases GroupWriter.sealAll env g'.chunkWriters with
        | none => exact .none
        | some cs =>
          simp only
          cases GroupWriter.writeAllChunks env cs io1 with
          | none => exact .none
          | some r =>
            obtain ⟨cs1, io2⟩ := r
            simp only
            have hg2 : GEq { g with chunkWriters := cs1 } { g' with chunkWriters := cs1 } := ⟨hg.path, rfl, hg.last⟩
            split
            · exact .some (.cons ⟨rfl, hg2⟩ hl)
            · have := ih io2.endChunkGroup (BMap.insert d g.lastTimeMap lm) (BMap.insert d g'.lastTimeMap lm')
              generalize Writer.flushLoop env l io2.endChunkGroup (BMap.insert d g.lastTimeMap lm) = r1 at this ⊢
              generalize Writer.flushLoop env l' io2.endChunkGroup (BMap.insert d g'.lastTimeMap lm') = r2 at this ⊢
              cases this with
              | none => exact .none
              | some hgs => exact .some (.cons ⟨rfl, hg2⟩ hgs)

/-- Optional writers that behave the same. -/
inductive MEq : Option Writer → Option Writer → Prop
  | none : MEq none none
  | some {w w' : Writer} : WEq w w' → MEq (some w) (some w')

/-- Flush results that behave the same. -/
inductive FlEq : Option (Writer × Option TsFileError) → Option (Writer × Option TsFileError) → Prop
  | none : FlEq none none
  | some {w w' : Writer} {e : Option TsFileError} : WEq w w' → FlEq (some (w, e)) (some (w', e))

theorem FlEq.fst {a b : Option (Writer × Option TsFileError)} (h : FlEq a b) :
    MEq (a.map Prod.fst) (b.map Prod.fst) := by
  cases h with
  | none => exact .none
  | some h => exact .some h

theorem WEq.flush {env : Env} {w w' : Writer} (h : WEq w w') :
    FlEq (w.flushAllChunkGroups env) (w'.flushAllChunkGroups env) := by
  rw [Writer.flushAllChunkGroups, Writer.flushAllChunkGroups, h.count]
  split
  · have := h.groups.flushLoop (env := env) w.io w.nonAlignedLastTimeMap w'.nonAlignedLastTimeMap
    rw [← h.io]
    generalize Writer.flushLoop env w.groupWriters w.io w.nonAlignedLastTimeMap = r1 at this ⊢
    generalize Writer.flushLoop env w'.groupWriters w.io w'.nonAlignedLastTimeMap = r2 at this ⊢
    cases this with
    | none => exact .none
    | @some gs gs' io lm lm' e hgs =>
      cases e with
      | none => exact .some ⟨rfl, by simp only [Writer.reset, h.schema]; exact .refl _, rfl, h.next, h.schema⟩
      | some e => exact .some ⟨rfl, hgs, rfl, h.next, h.schema⟩
  · exact .some h

theorem WEq.checkMemory {env : Env} {w w' : Writer} (h : WEq w w') :
    MEq (w.checkMemorySize env) (w'.checkMemorySize env) := by
  have hm : w.memSize = w'.memSize := h.groups.memSize 0
  rw [Writer.checkMemorySize, Writer.checkMemorySize, h.count, h.next, hm]
  split
  · simp only
    split
    · exact .none
    · split
      · exact FlEq.fst (WEq.flush (env := env) ⟨h.io, h.groups, rfl, rfl, h.schema⟩)
      · exact .some ⟨h.io, h.groups, rfl, rfl, h.schema⟩
  · exact .some h

/-- What follows a successful call. -/
def Writer.afterOk (env : Env) (w : Writer) : Writer × Res Unit :=
  match w.checkMemorySize env with
  | none => (w, .panic)
  | some w' => (w', .ok ())

theorem WEq.afterOk {env : Env} {w w' : Writer} (h : WEq w w') :
    (w.afterOk env).2 = (w'.afterOk env).2 ∧ WEq (w.afterOk env).1 (w'.afterOk env).1 := by
  have := h.checkMemory (env := env)
  rw [Writer.afterOk, Writer.afterOk]
  generalize w.checkMemorySize env = r1 at this ⊢
  generalize w'.checkMemorySize env = r2 at this ⊢
  cases this with
  | none => exact ⟨rfl, h⟩
  | some hw => exact ⟨rfl, hw⟩

/-- One call on writers that behave the same. -/
theorem WEq.step {env : Env} {w w' : Writer} (h : WEq w w') (op : Op) :
    (w.step env op).2 = (w'.step env op).2 ∧ WEq (w.step env op).1 (w'.step env op).1 := by
  have ins : ∀ (d : Bytes) (g1 g2 : GroupWriter) (n : W32), GEq g1 g2 →
      WEq { w with groupWriters := w.groupWriters.insert d g1 } { w' with groupWriters := w'.groupWriters.insert d g2 }
      ∧ WEq { w with groupWriters := w.groupWriters.insert d g1, recordCount := w.recordCount + n }
          { w' with groupWriters := w'.groupWriters.insert d g2, recordCount := w'.recordCount + n } := by
    intro d g1 g2 n hg
    have hins := h.groups.insert d hg
    exact ⟨⟨h.io, hins, h.count, h.next, h.schema⟩, ⟨h.io, hins, by simp only [h.count], h.next, h.schema⟩⟩
  cases op with
  | write d m t v =>
    simp only [Writer.step, Writer.write]
    have hget := h.groups.get d
    generalize BMap.get? d w.groupWriters = o1 at hget ⊢
    generalize BMap.get? d w'.groupWriters = o2 at hget ⊢
    cases hget with
    | none => exact ⟨rfl, h⟩
    | some hg =>
      obtain ⟨h1, h2⟩ := hg.write (env := env) m t v
      simp only
      next g g' =>
      cases hw1 : g.write env m t v with
      | mk g1 r1 =>
        cases hw2 : g'.write env m t v with
        | mk g2 r2 =>
          rw [hw1, hw2] at h1 h2
          simp only at h1 h2
          subst h1
          cases r1 with
          | panic => exact ⟨rfl, (ins d g1 g2 0 h2).1⟩
          | err e => exact ⟨rfl, (ins d g1 g2 0 h2).1⟩
          | ok n => exact (ins d g1 g2 n h2).2.afterOk
  | writeMany d t vs =>
    simp only [Writer.step, Writer.writeMany]
    have hget := h.groups.get d
    generalize BMap.get? d w.groupWriters = o1 at hget ⊢
    generalize BMap.get? d w'.groupWriters = o2 at hget ⊢
    cases hget with
    | none => exact ⟨rfl, h⟩
    | some hg =>
      obtain ⟨h1, h2⟩ := hg.writeMany (env := env) t vs 0
      simp only
      next g g' =>
      cases hw1 : GroupWriter.writeMany env t vs 0 g with
      | mk g1 r1 =>
        cases hw2 : GroupWriter.writeMany env t vs 0 g' with
        | mk g2 r2 =>
          rw [hw1, hw2] at h1 h2
          simp only at h1 h2
          subst h1
          cases r1 with
          | panic => exact ⟨rfl, (ins d g1 g2 0 h2).1⟩
          | err e => exact ⟨rfl, (ins d g1 g2 0 h2).1⟩
          | ok n => exact (ins d g1 g2 n h2).2.afterOk

/-- A history on writers that behave the same. -/
theorem WEq.run {env : Env} (ops : List Op) {w w' : Writer} (h : WEq w w') :
    (w.run env ops).2 = (w'.run env ops).2 ∧ WEq (w.run env ops).1 (w'.run env ops).1
      ∧ w.grown env ops = w'.grown env ops := by
  induction ops generalizing w w' with
  | nil => exact ⟨rfl, h, rfl⟩
  | cons op ops ih =>
    obtain ⟨h1, h2⟩ := h.step (env := env) op
    obtain ⟨h3, h4, h5⟩ := ih h2
    simp only [Writer.run, Writer.grown]
    exact ⟨by rw [h1, h3], h4, by rw [h5, h2.io, h.io]⟩

/-- Closing writers that behave the same. -/
theorem WEq.close {env : Env} {w w' : Writer} (h : WEq w w') : MEq (w.close env) (w'.close env) := by
  rw [Writer.close, Writer.close]
  have := h.flush (env := env)
  generalize w.flushAllChunkGroups env = r1 at this ⊢
  generalize w'.flushAllChunkGroups env = r2 at this ⊢
  cases this with
  | none => exact .none
  | some hw =>
    simp only [hw.io]
    split
    · exact .none
    · exact .some ⟨rfl, hw.groups, hw.count, hw.next, hw.schema⟩

/-! ## the maps stay sorted -/

theorem sorted_of_keys {α β : Type} {l : BMap α} {l' : BMap β} (h : l.map Prod.fst = l'.map Prod.fst)
    (hs : BMap.Sorted l) : BMap.Sorted l' := by
  rw [BMap.Sorted] at hs ⊢
  have h1 : (l.map Prod.fst).Pairwise (fun a b => bytesLt a b = true) := List.pairwise_map.2 hs
  rw [h] at h1
  exact List.pairwise_map.1 h1

theorem flushLoop_keys {env : Env} (l : BMap GroupWriter) (io : IoWriter) (lm : BMap (BMap W64))
    {gs : BMap GroupWriter} {io' : IoWriter} {lm' : BMap (BMap W64)} {e : Option TsFileError}
    (h : Writer.flushLoop env l io lm = some (gs, io', lm', e)) : gs.map Prod.fst = l.map Prod.fst := by
  induction l generalizing io lm gs io' lm' e with
  | nil => simp only [Writer.flushLoop, Option.some.injEq, Prod.mk.injEq] at h; rw [← h.1]
  | cons a l ih =>
    obtain ⟨d, g⟩ := a
    rw [Writer.flushLoop] at h
    split at h
    · simp only [Option.some.injEq, Prod.mk.injEq] at h; rw [← h.1]
    · simp only at h
      split at h
      · simp at h
      · split at h
        · simp only [Option.some.injEq, Prod.mk.injEq] at h; rw [← h.1]; rfl
        · split at h
          · simp at h
          · next hfl =>
            simp only [Option.some.injEq, Prod.mk.injEq] at h
            rw [← h.1, List.map_cons, ih _ _ hfl]
            rfl

theorem flush_sorted {env : Env} {w w' : Writer} {e : Option TsFileError} (hs : BMap.Sorted w.groupWriters)
    (h : w.flushAllChunkGroups env = some (w', e)) : BMap.Sorted w'.groupWriters := by
  rw [Writer.flushAllChunkGroups] at h
  split at h
  · split at h
    · simp at h
    · next hfl =>
      simp only [Option.some.injEq, Prod.mk.injEq] at h
      rw [← h.1]
      exact sorted_of_keys (flushLoop_keys _ _ _ hfl).symm hs
    · simp only [Option.some.injEq, Prod.mk.injEq] at h
      rw [← h.1]
      exact BMap.sorted_ofList _
  · simp only [Option.some.injEq, Prod.mk.injEq] at h; rw [← h.1]; exact hs

theorem checkMemory_sorted {env : Env} {w w' : Writer} (hs : BMap.Sorted w.groupWriters)
    (h : w.checkMemorySize env = some w') : BMap.Sorted w'.groupWriters := by
  rw [Writer.checkMemorySize] at h
  split at h
  · simp only at h
    split at h
    · simp at h
    · split at h
      · obtain ⟨⟨w2, e⟩, hf, rfl⟩ := Option.map_eq_some_iff.1 h
        exact flush_sorted (by exact hs) hf
      · simp only [Option.some.injEq] at h; rw [← h]; exact hs
  · simp only [Option.some.injEq] at h; rw [← h]; exact hs

theorem step_sorted {env : Env} {w : Writer} (hs : BMap.Sorted w.groupWriters) (op : Op) :
    BMap.Sorted (w.step env op).1.groupWriters := by
  cases op with
  | write d m t v =>
    simp only [Writer.step, Writer.write]
    split
    · exact hs
    · split
      · exact BMap.sorted_insert hs
      · exact BMap.sorted_insert hs
      · split
        · exact BMap.sorted_insert hs
        · next h => exact checkMemory_sorted (BMap.sorted_insert hs) h
  | writeMany d t vs =>
    simp only [Writer.step, Writer.writeMany]
    split
    · exact hs
    · split
      · exact BMap.sorted_insert hs
      · exact BMap.sorted_insert hs
      · split
        · exact BMap.sorted_insert hs
        · next h => exact checkMemory_sorted (BMap.sorted_insert hs) h

theorem run_sorted {env : Env} (ops : List Op) {w : Writer} (hs : BMap.Sorted w.groupWriters) :
    BMap.Sorted (w.run env ops).1.groupWriters := by
  induction ops generalizing w with
  | nil => exact hs
  | cons op ops ih => exact ih (step_sorted hs op)

/-- A rejected `write` leaves a writer that behaves the same. -/
theorem WEq.rejected {env : Env} {w : Writer} (hs : BMap.Sorted w.groupWriters) {d m : Bytes} {t : W64}
    {v : IoTDBValue} {e : TsFileError} (h : (w.write env d m t v).2 = .err e) : WEq w (w.write env d m t v).1 := by
  rw [Writer.write] at h ⊢
  cases hg : BMap.get? d w.groupWriters with
  | none => exact .refl w
  | some g =>
    rw [hg] at h
    simp only at h ⊢
    cases hw : g.write env m t v with
    | mk g1 r =>
      rw [hw] at h
      cases r with
      | panic => simp at h
      | err e' =>
        have := GEq.rejected (env := env) (g := g) (m := m) (t := t) (v := v) (e := e') (by rw [hw])
        rw [hw] at this
        exact ⟨rfl, GsEq.replace hs hg this, rfl, rfl, rfl⟩
      | ok n =>
        simp only at h
        split at h <;> simp at h

end TsFile
