import Verif.Proofs.Fault

/-!
# Calls for which there is room

As long as what the calls write on an unlimited output fits into the room of a limited one, the calls on the limited output
do and return the same.
-/

namespace TsFile

open Spec

theorem IoRel.fits {n : Nat} {u c : IoWriter} (h : IoRel n u c) (le : u.out.bytes.length ≤ n) :
    u.out.cap = none ∧ c = u.limit n := by
  cases h with
  | sync cap _ eq => exact ⟨cap, eq⟩
  | lag h => exact absurd h.over (by omega)

theorem Sink.Grows.fits {n : Nat} {a b : Sink} (h : a.Grows b) (le : b.bytes.length ≤ n) : a.bytes.length ≤ n :=
  Nat.le_trans h.pre.length_le le

theorem flushLoop_room {env : Env} {n : Nat} (l : BMap GroupWriter) {u : IoWriter} (cap : u.out.cap = none)
    (lm : BMap (BMap W64)) {r : BMap GroupWriter × IoWriter × BMap (BMap W64) × Option TsFileError}
    (h : Writer.flushLoop env l u lm = some r) (le : r.2.1.out.bytes.length ≤ n) :
    Writer.flushLoop env l (u.limit n) lm = some (r.1, r.2.1.limit n, r.2.2) := by
  have le0 := (Grows.flushLoop env _ _ _ h).fits le
  induction l generalizing u lm r with
  | nil =>
    rw [Writer.flushLoop] at h ⊢
    cases h
    rfl
  | cons p l ih =>
    obtain ⟨d, g⟩ := p
    obtain ⟨hb, hs⟩ := IoRel.startChunkGroup cap le0 d
    rw [Writer.flushLoop] at h ⊢
    rcases hsu : u.startChunkGroup d with ⟨u1, b⟩
    rw [hsu] at h hb hs
    simp only at hb hs
    subst hb
    simp only at h
    rcases Grows.flushToFilewriter env g with hn | ⟨g', size, hg⟩
    · rw [hn] at h; simp at h
    · obtain ⟨u2, e2, gr2⟩ := hg u1
      rw [e2] at h
      simp only at h
      have hru : u2.out.Grows r.2.1.out := by
        split at h
        · cases h; exact Sink.Grows.refl _
        · cases hr : Writer.flushLoop env l u2.endChunkGroup (lm.insert d g'.lastTimeMap) with
          | none => rw [hr] at h; simp at h
          | some r' =>
            rw [hr] at h
            simp only [Option.some.injEq] at h
            subst h
            have := Grows.flushLoop env _ _ _ hr
            rw [Grows.endChunkGroup] at this
            exact this
      have le2 := hru.fits le
      have le1 := gr2.fits le2
      rcases hs with ⟨hs1, hs2, hs3⟩ | ⟨_, hs2⟩
      · rw [hs1]
        simp only
        obtain ⟨v2, f2, r2⟩ := IoRel.flushToFilewriter g hs2 hs3 e2
        rw [f2]
        simp only
        obtain ⟨cap2, eq2⟩ := r2.fits le2
        subst eq2
        have hp1 : (u1.limit n).out.pos = u1.out.pos := rfl
        have hp2 : (u2.limit n).out.pos = u2.out.pos := rfl
        rw [hp1, hp2]
        by_cases hsz : u2.out.pos - u1.out.pos ≠ size
        · rw [if_pos hsz] at h ⊢
          cases h
          rfl
        · rw [if_neg hsz] at h ⊢
          rw [IoRel.endChunkGroup]
          cases hr : Writer.flushLoop env l u2.endChunkGroup (lm.insert d g'.lastTimeMap) with
          | none => rw [hr] at h; simp at h
          | some r' =>
            rw [hr] at h
            simp only [Option.some.injEq] at h
            subst h
            rw [ih (by rw [Grows.endChunkGroup]; exact cap2) _ hr le (by rw [Grows.endChunkGroup]; exact le2)]
      · exact absurd hs2.over (by omega)

/-- The writer with a limited output. -/
def Writer.limit (n : Nat) (w : Writer) : Writer := { w with io := w.io.limit n }

theorem flushAll_room {env : Env} {n : Nat} {u u' : Writer} {e : Option TsFileError} (cap : u.io.out.cap = none)
    (hu : u.flushAllChunkGroups env = some (u', e)) (le : u'.io.out.bytes.length ≤ n) :
    (u.limit n).flushAllChunkGroups env = some (u'.limit n, e) := by
  unfold Writer.limit
  rw [Writer.flushAllChunkGroups] at hu ⊢
  simp only
  by_cases hr : u.recordCount.toNat > 0
  · rw [if_pos hr] at hu ⊢
    cases h1 : Writer.flushLoop env u.groupWriters u.io u.nonAlignedLastTimeMap with
    | none => rw [h1] at hu; simp at hu
    | some r =>
      rw [h1] at hu
      have hio : u'.io = r.2.1 := by
        obtain ⟨g1, i1, l1, e1⟩ := r
        cases e1 <;> simp only [Option.some.injEq, Prod.mk.injEq] at hu <;> exact hu.1 ▸ rfl
      rw [flushLoop_room _ cap _ h1 (by rw [← hio]; exact le)]
      obtain ⟨g1, i1, l1, e1⟩ := r
      cases e1 <;> simp only [Option.some.injEq, Prod.mk.injEq] at hu ⊢ <;>
        exact ⟨hu.1 ▸ rfl, hu.2⟩
  · rw [if_neg hr] at hu ⊢
    cases hu
    rfl

theorem checkMem_room {env : Env} {n : Nat} {u u' : Writer} (cap : u.io.out.cap = none)
    (hu : u.checkMemorySize env = some u') (le : u'.io.out.bytes.length ≤ n) :
    (u.limit n).checkMemorySize env = some (u'.limit n) := by
  rw [Writer.checkMemorySize] at hu ⊢
  simp only at hu
  have hm : Writer.memSize (u.limit n) = u.memSize := rfl
  have hc : (u.limit n).recordCount = u.recordCount := rfl
  have hd : (u.limit n).recordCountForNextMemCheck = u.recordCountForNextMemCheck := rfl
  simp only [hm, hc, hd]
  by_cases h1 : u.recordCount.toNat ≥ u.recordCountForNextMemCheck.toNat
  · rw [if_pos h1] at hu ⊢
    by_cases h2 : u.memSize.toNat = 0
    · rw [if_pos h2] at hu; simp at hu
    · rw [if_neg h2] at hu ⊢
      by_cases h3 : u.memSize.toNat > chunkGroupSizeThreshold
      · rw [if_pos h3] at hu ⊢
        obtain ⟨⟨x, e⟩, hx, rfl⟩ := Option.map_eq_some_iff.1 hu
        have := flushAll_room (n := n)
          (u := { u with recordCountForNextMemCheck := Writer.nextMemCheck u.recordCountForNextMemCheck u.memSize }) cap hx le
        exact Option.map_eq_some_iff.2 ⟨_, this, rfl⟩
      · rw [if_neg h3] at hu ⊢
        cases hu
        rfl
  · rw [if_neg h1] at hu ⊢
    cases hu
    rfl

/-- A call for whose output there is room. -/
theorem step_room {env : Env} {n : Nat} {u : Writer} (cap : u.io.out.cap = none) (op : Op)
    (hu : (u.step env op).2 ≠ .panic) (le : (u.step env op).1.io.out.bytes.length ≤ n) :
    (u.limit n).step env op = ((u.step env op).1.limit n, (u.step env op).2) := by
  cases op with
  | write d m t v =>
    simp only [Writer.step, Writer.write] at hu le ⊢
    have hl : (u.limit n).groupWriters = u.groupWriters := rfl
    rw [hl]
    cases hg : u.groupWriters.get? d with
    | none => rfl
    | some g =>
      simp only [hg] at hu le ⊢
      rcases hw : g.write env m t v with ⟨g', r⟩
      rw [hw] at hu le
      cases r with
      | panic => exact absurd rfl hu
      | err e => rfl
      | ok k =>
        simp only at hu le ⊢
        cases h1 : Writer.checkMemorySize env
            { u with groupWriters := u.groupWriters.insert d g', recordCount := u.recordCount + k } with
        | none => rw [h1] at hu; exact absurd rfl hu
        | some u' =>
          rw [h1] at le
          have := checkMem_room (n := n)
            (u := { u with groupWriters := u.groupWriters.insert d g', recordCount := u.recordCount + k }) cap h1 le
          simp only [Writer.limit] at this ⊢
          rw [this]
  | writeMany d t vs =>
    simp only [Writer.step, Writer.writeMany] at hu le ⊢
    have hl : (u.limit n).groupWriters = u.groupWriters := rfl
    rw [hl]
    cases hg : u.groupWriters.get? d with
    | none => rfl
    | some g =>
      simp only [hg] at hu le ⊢
      rcases hw : g.writeMany env t vs 0 with ⟨g', r⟩
      rw [hw] at hu le
      cases r with
      | panic => exact absurd rfl hu
      | err e => rfl
      | ok k =>
        simp only at hu le ⊢
        cases h1 : Writer.checkMemorySize env
            { u with groupWriters := u.groupWriters.insert d g', recordCount := u.recordCount + k } with
        | none => rw [h1] at hu; exact absurd rfl hu
        | some u' =>
          rw [h1] at le
          have := checkMem_room (n := n)
            (u := { u with groupWriters := u.groupWriters.insert d g', recordCount := u.recordCount + k }) cap h1 le
          simp only [Writer.limit] at this ⊢
          rw [this]

/-- Calls for whose output there is room. -/
theorem run_room {env : Env} {n : Nat} (ops : List Op) {u : Writer} (cap : u.io.out.cap = none)
    (hu : .panic ∉ (u.run env ops).2) (le : (u.run env ops).1.io.out.bytes.length ≤ n) :
    (u.limit n).run env ops = ((u.run env ops).1.limit n, (u.run env ops).2) := by
  induction ops generalizing u with
  | nil => rfl
  | cons op ops ih =>
    simp only [Writer.run, List.mem_cons, not_or] at hu le ⊢
    have h1 := step_room cap op (Ne.symm hu.1) ((Grows.run env ops _).fits le)
    rw [h1]
    have h2 := ih ((Grows.step env u op).cap.trans cap) hu.2 le
    rw [h2]

end TsFile
