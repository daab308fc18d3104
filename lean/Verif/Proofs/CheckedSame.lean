import Verif.Model.CheckedWriter
import Verif.Proofs.Checked
import Verif.Proofs.Trace
/-! # Where the overflow checks do not panic they change nothing -/

namespace TsFile
open Spec

theorem uaddC_some {w : Nat} {a b x : BitVec w} (h : uaddC a b = some x) : x = a + b := by
  rw [uaddC] at h
  split at h
  · simp at h
  · simpa using h.symm

theorem addC_some {w : Nat} {a b x : BitVec w} (h : addC a b = some x) : x = a + b := by
  rw [addC] at h
  split at h
  · simp at h
  · simpa using h.symm

/-! ## statistics -/

theorem StatisticsStruct.mergeC_some {T S : Type} {k : StatType T S} {add : S → S → Option S}
    (hadd : ∀ a b x, add a b = some x → x = k.add a b) {s o r : StatisticsStruct T S} (h : s.mergeC k add o = some r) :
    r = s.merge k o := by
  rw [mergeC] at h
  split at h
  · simp at h
  · next c hc =>
    split at h
    · simp at h
    · next x hx =>
      rw [Option.some.injEq] at h
      rw [← h, uaddC_some hc, hadd _ _ _ hx, merge]

theorem StatisticsStruct.updateC_some {T S : Type} {k : StatType T S} {add : S → S → Option S}
    (hadd : ∀ a b x, add a b = some x → x = k.add a b) {s r : StatisticsStruct T S} {t : W64} {v : T}
    (h : s.updateC k add t v = some r) : r = s.update k t v := by
  rw [updateC] at h
  split at h
  · simp at h
  · next c hc =>
    split at h
    · simp at h
    · next x hx =>
      rw [Option.some.injEq] at h
      rw [← h, uaddC_some hc, hadd _ _ _ hx, update]

theorem Statistics.updateC_some {env : Env} {s r : Statistics} {t : W64} {v : IoTDBValue}
    (h : s.updateC env t v = some r) : s.update env t v = some r := by
  cases s <;> cases v <;> simp only [updateC, reduceCtorEq, Option.map_eq_some_iff] at h <;>
    obtain ⟨r', hr, rfl⟩ := h
  · rw [StatisticsStruct.updateC_some (fun a b x hx => addC_some hx) hr]; rfl
  · rw [StatisticsStruct.updateC_some (fun a b x hx => (Option.some.inj hx).symm) hr]; rfl
  · rw [StatisticsStruct.updateC_some (fun a b x hx => (Option.some.inj hx).symm) hr]; rfl

theorem Statistics.mergeC_some {env : Env} {s o r : Statistics} (h : s.mergeC env o = some r) : s.merge env o = some r := by
  cases s <;> cases o <;> simp only [mergeC, reduceCtorEq, Option.map_eq_some_iff] at h <;>
    obtain ⟨r', hr, rfl⟩ := h
  · rw [StatisticsStruct.mergeC_some (fun a b x hx => addC_some hx) hr]; rfl
  · rw [StatisticsStruct.mergeC_some (fun a b x hx => (Option.some.inj hx).symm) hr]; rfl
  · rw [StatisticsStruct.mergeC_some (fun a b x hx => (Option.some.inj hx).symm) hr]; rfl

/-! ## encoders -/

theorem Ts2Diff.flushC_some {w : Nat} {tb : BitVec w → Bytes → Nat → Nat → Option Bytes} {e e' : Ts2Diff w}
    (h : flushC tb e = some e') : flush tb e = some e' := by
  rw [flushC] at h
  rw [flush]
  cases hf : e.firstValue with
  | none => rw [hf] at h; exact h
  | some f =>
    rw [hf] at h
    dsimp only at h ⊢
    split at h
    · simp at h
    · next l hl => rw [(deltasC_iff e.minDelta e.values).2 l hl] at h; exact h

theorem Ts2Diff.writeC_some {w : Nat} {tb : BitVec w → Bytes → Nat → Nat → Option Bytes} {e e' : Ts2Diff w} {v : BitVec w}
    (h : writeC tb e v = some e') : write tb e v = some e' := by
  rw [writeC] at h
  split at h
  · simp at h
  · next e1 he1 =>
    have hw : write tb e v = if e1.values.length = 128 then flush tb e1 else some e1 := by
      rw [takeC] at he1
      rw [write]
      cases hf : e.firstValue with
      | none =>
        rw [hf] at he1
        dsimp only at he1 ⊢
        rw [Option.some.injEq] at he1
        rw [← he1]
      | some f =>
        rw [hf] at he1
        dsimp only at he1 ⊢
        split at he1
        · simp at he1
        · next delta hd =>
          rw [Option.some.injEq] at he1
          rw [← he1, (subC_some hd).1]
    rw [hw]
    split at h
    · next h128 => rw [if_pos h128]; exact flushC_some h
    · next h128 => rw [if_neg h128]; exact h

theorem Ts2Diff.serializeC_some {w : Nat} {tb : BitVec w → Bytes → Nat → Nat → Option Bytes} {e : Ts2Diff w}
    {r : Ts2Diff w × Bytes} (h : serializeC tb e = some r) : serialize tb e = some r := by
  rw [serializeC] at h
  split at h
  · simp at h
  · next e1 he1 => rw [serialize, flushC_some he1]; exact h

theorem ValueEncoder.writeC_some {e e' : ValueEncoder} {v : IoTDBValue} (h : e.writeC v = some e') : e.write v = some e' := by
  cases e <;> cases v <;> simp only [writeC, write] at h ⊢ <;> try exact h
  · obtain ⟨x, hx, rfl⟩ := Option.map_eq_some_iff.1 h; rw [Ts2Diff.writeC_some hx]; rfl
  · obtain ⟨x, hx, rfl⟩ := Option.map_eq_some_iff.1 h; rw [Ts2Diff.writeC_some hx]; rfl

theorem ValueEncoder.serializeC_some {e : ValueEncoder} {r : ValueEncoder × Bytes} (h : e.serializeC = some r) :
    e.serialize = some r := by
  cases e <;> simp only [serializeC, serialize] at h ⊢ <;> try exact h
  · obtain ⟨x, hx, rfl⟩ := Option.map_eq_some_iff.1 h; rw [Ts2Diff.serializeC_some hx]; rfl
  · obtain ⟨x, hx, rfl⟩ := Option.map_eq_some_iff.1 h; rw [Ts2Diff.serializeC_some hx]; rfl

/-! ## pages and chunks -/

theorem PageWriter.estimateC_some {p : PageWriter} {n : W32} (h : p.estimateMaxMemSizeC = some n) :
    p.estimateMaxMemSize = n := by
  rw [estimateMaxMemSizeC] at h
  split at h
  · simp at h
  · next a ha =>
    split at h
    · simp at h
    · next b hb => rw [uaddC_some h, uaddC_some hb, uaddC_some ha, estimateMaxMemSize]

theorem PageWriter.writeC_some {env : Env} {p p' : PageWriter} {t : W64} {v : IoTDBValue} (h : p.writeC env t v = some p') :
    p.write env t v = some p' := by
  rw [writeC] at h
  split at h
  · simp at h
  · next te hte =>
    split at h
    · simp at h
    · next ve hve =>
      split at h
      · simp at h
      · next st hst =>
        split at h
        · rw [write, Ts2Diff.writeC_some hte, ValueEncoder.writeC_some hve, Statistics.updateC_some hst]; exact h
        · simp at h

theorem PageWriter.prepareBufferC_some {p p' : PageWriter} (h : p.prepareBufferC = some p') : p.prepareBuffer = some p' := by
  rw [prepareBufferC] at h
  split at h
  · simp at h
  · next te tb hte =>
    split at h
    · simp at h
    · next ve vb hve => rw [prepareBuffer, Ts2Diff.serializeC_some hte, ValueEncoder.serializeC_some hve]; exact h

theorem ChunkWriter.writePageC_some {env : Env} {c c' : ChunkWriter} (h : c.writePageToBufferC env = some c') :
    c.writePageToBuffer env = some c' := by
  rw [writePageToBufferC] at h
  split at h
  · next hc => rw [writePageToBuffer, hc]; exact h
  · split at h
    · simp at h
    · split at h
      · exact h
      · split at h
        · split at h
          · simp at h
          · exact h
        · simp at h

theorem ChunkWriter.sealC_some {env : Env} {c c' : ChunkWriter} (h : c.sealCurrentPageC env = some c') :
    c.sealCurrentPage env = some c' := by
  rw [sealCurrentPageC] at h
  rw [sealCurrentPage]
  split at h
  · next hp => rw [hp]; exact h
  · next hp =>
    rw [hp]
    dsimp only
    split at h
    · next h0 => rw [if_pos h0]; exact writePageC_some h
    · next h0 => rw [if_neg h0]; exact h

theorem ChunkWriter.estimateC_some {c : ChunkWriter} {n : W32} (h : c.estimateMaxSeriesMemSizeC = some n) :
    c.estimateMaxSeriesMemSize = n := by
  rw [estimateMaxSeriesMemSizeC] at h
  rw [estimateMaxSeriesMemSize]
  split at h
  · next hp =>
    rw [hp]
    split at h
    · simp at h
    · next m hm =>
      split at h
      · simp at h
      · next st hst =>
        split at h
        · simp at h
        · next a ha =>
          dsimp only
          rw [PageWriter.estimateC_some hm, uaddC_some h, uaddC_some ha, uaddC_some hst]
  · next hp => rw [hp]; simpa using h

theorem ChunkWriter.checkPageSizeC_some {env : Env} {c c' : ChunkWriter} (h : c.checkPageSizeC env = some c') :
    c.checkPageSize env = some c' := by
  rw [checkPageSizeC] at h
  rw [checkPageSize]
  cases hp : c.currentPageWriter with
  | none => simp only [hp] at h ⊢; exact h
  | some p =>
    simp only [hp] at h ⊢
    by_cases h0 : p.pointNumber > maxPointsInPage
    · rw [if_pos h0] at h ⊢; exact writePageC_some h
    · rw [if_neg h0] at h ⊢
      by_cases h1 : p.pointNumber ≥ c.nextCheck
      · rw [if_pos h1] at h ⊢
        cases hn : p.estimateMaxMemSizeC with
        | none => simp [hn] at h
        | some n =>
          rw [hn] at h
          dsimp only at h
          rw [PageWriter.estimateC_some hn]
          by_cases h2 : n.toNat > pageSizeThreshold
          · rw [if_pos h2] at h ⊢
            cases hc : c.writePageToBufferC env with
            | none => simp [hc] at h
            | some c1 => rw [hc] at h; rw [writePageC_some hc]; exact h
          · rw [if_neg h2] at h ⊢; rw [← h]
      · rw [if_neg h1] at h ⊢; exact h

theorem ChunkWriter.writeC_same {env : Env} {c : ChunkWriter} {t : W64} {v : IoTDBValue}
    (h : c.writeC env t v ≠ .panic) : c.writeC env t v = c.write env t v := by
  rw [writeC] at h ⊢
  rw [write]
  cases ho : c.openPage env with
  | error e => rfl
  | ok p =>
    rw [ho] at h
    dsimp only at h ⊢
    cases hp : p.writeC env t v with
    | none => rw [hp] at h; exact absurd rfl h
    | some p1 =>
      rw [hp] at h
      rw [PageWriter.writeC_some hp]
      dsimp only at h ⊢
      cases hc : checkPageSizeC env { c with currentPageWriter := some p1 } with
      | none => rw [hc] at h; exact absurd rfl h
      | some c1 => rw [checkPageSizeC_some hc]

theorem ChunkWriter.toFileC_some {env : Env} {c : ChunkWriter} {io : IoWriter} {r : ChunkWriter × IoWriter}
    (h : c.writeToFileWriterC env io = some r) : c.writeToFileWriter env io = some r := by
  rw [writeToFileWriterC] at h
  split at h
  · simp at h
  · exact h

/-! ## groups -/

theorem GroupWriter.writeC_same {env : Env} {g : GroupWriter} {m : Bytes} {t : W64} {v : IoTDBValue}
    (h : (g.writeC env m t v).2 ≠ .panic) : g.writeC env m t v = g.write env m t v := by
  rw [writeC] at h ⊢
  rw [write]
  rcases hh : g.checkIsHistoryData m t with ⟨g1, b⟩
  cases b with
  | false => rfl
  | true =>
    rw [hh] at h
    dsimp only at h ⊢
    cases hc : BMap.get? m g1.chunkWriters with
    | none => rfl
    | some c =>
      rw [hc] at h
      dsimp only at h ⊢
      have hne : c.writeC env t v ≠ .panic := by
        intro hp
        rw [hp] at h
        exact h rfl
      rw [ChunkWriter.writeC_same hne]
      cases c.write env t v <;> rfl

theorem GroupWriter.writeManyC_same {env : Env} {t : W64} (vs : List (Bytes × IoTDBValue)) {n : W32} {g : GroupWriter}
    (h : (writeManyC env t vs n g).2 ≠ .panic) : writeManyC env t vs n g = writeMany env t vs n g := by
  induction vs generalizing n g with
  | nil => rfl
  | cons e vs ih =>
    obtain ⟨m, v⟩ := e
    rw [writeManyC] at h ⊢
    rw [writeMany]
    rcases he : g.writeC env m t v with ⟨g1, r⟩
    have hs : r ≠ .panic → g.write env m t v = (g1, r) := fun hr => by
      rw [← writeC_same (by rw [he]; exact hr), he]
    rw [he] at h
    cases r with
    | panic => exact absurd rfl h
    | err e => rw [hs (by simp)]
    | ok k =>
      rw [hs (by simp)]
      dsimp only at h ⊢
      cases hn : uaddC n k with
      | none => rw [hn] at h; exact absurd rfl h
      | some n1 =>
        rw [hn] at h
        dsimp only at h ⊢
        rw [ih h, uaddC_some hn]

theorem GroupWriter.memLoopC_some (cs : BMap ChunkWriter) {s n : W32} (h : memLoopC cs s = some n) :
    cs.foldl (fun s c => s + c.2.estimateMaxSeriesMemSize) s = n := by
  induction cs generalizing s with
  | nil => simpa [memLoopC] using h
  | cons c cs ih =>
    obtain ⟨m, c⟩ := c
    rw [memLoopC] at h
    split at h
    · simp at h
    · next k hk =>
      split at h
      · simp at h
      · next s1 hs1 =>
        rw [List.foldl_cons, ChunkWriter.estimateC_some hk, ← uaddC_some hs1]
        exact ih h

theorem GroupWriter.sealAllC_some {env : Env} (cs : BMap ChunkWriter) {r : BMap ChunkWriter} (h : sealAllC env cs = some r) :
    sealAll env cs = some r := by
  induction cs generalizing r with
  | nil => exact h
  | cons c cs ih =>
    obtain ⟨m, c⟩ := c
    rw [sealAllC] at h
    split at h
    · simp at h
    · next c1 hc1 =>
      obtain ⟨r1, hr1, rfl⟩ := Option.map_eq_some_iff.1 h
      rw [sealAll, ChunkWriter.sealC_some hc1, ih hr1]
      rfl

theorem GroupWriter.writeAllC_some {env : Env} (cs : BMap ChunkWriter) {io : IoWriter} {r : BMap ChunkWriter × IoWriter}
    (h : writeAllChunksC env cs io = some r) : writeAllChunks env cs io = some r := by
  induction cs generalizing io r with
  | nil => exact h
  | cons c cs ih =>
    obtain ⟨m, c⟩ := c
    rw [writeAllChunksC] at h
    split at h
    · simp at h
    · next c1 io1 hc1 =>
      split at h
      · simp at h
      · next cs1 io2 hcs => rw [writeAllChunks, ChunkWriter.toFileC_some hc1]; dsimp only; rw [ih hcs]; exact h

theorem GroupWriter.flushC_some {env : Env} {g : GroupWriter} {io : IoWriter} {r : GroupWriter × IoWriter × Nat}
    (h : g.flushToFilewriterC env io = some r) : g.flushToFilewriter env io = some r := by
  rw [flushToFilewriterC] at h
  split at h
  · simp at h
  · next cs hcs =>
    split at h
    · simp at h
    · next cs1 io1 h1 => rw [flushToFilewriter, sealAllC_some _ hcs]; dsimp only; rw [writeAllC_some _ h1]; exact h

/-! ## the writer -/

theorem IoWriter.endFileC_some {env : Env} {io io' : IoWriter} (h : io.endFileC env = some io') : io.endFile env = some io' := by
  rw [endFileC] at h
  split at h
  · split at h
    · simp at h
    · exact h
  · simp at h

namespace Writer

theorem memLoopC_some (gs : BMap GroupWriter) {s n : W32} (h : memLoopC gs s = some n) :
    gs.foldl (fun s g => s + g.2.updateMaxGroupMemSize) s = n := by
  induction gs generalizing s with
  | nil => simpa [memLoopC] using h
  | cons g gs ih =>
    obtain ⟨m, g⟩ := g
    rw [memLoopC] at h
    split at h
    · simp at h
    · next k hk =>
      split at h
      · simp at h
      · next s1 hs1 =>
        rw [List.foldl_cons, GroupWriter.updateMaxGroupMemSize, GroupWriter.memLoopC_some _ hk, ← uaddC_some hs1]
        exact ih h

theorem flushLoopC_some {env : Env} (gs : BMap GroupWriter) {io : IoWriter} {lm : BMap (BMap W64)}
    {r : BMap GroupWriter × IoWriter × BMap (BMap W64) × Option TsFileError} (h : flushLoopC env gs io lm = some r) :
    flushLoop env gs io lm = some r := by
  induction gs generalizing io lm r with
  | nil => exact h
  | cons g gs ih =>
    obtain ⟨d, g⟩ := g
    rw [flushLoopC] at h
    rw [flushLoop]
    split at h
    · next hio1 => rw [hio1]; exact h
    · next io1 hio1 =>
      rw [hio1]
      dsimp only
      split at h
      · simp at h
      · next g1 io2 n hg1 =>
        rw [GroupWriter.flushC_some hg1]
        dsimp only
        split at h
        · next hn => rw [if_pos hn]; exact h
        · next hn =>
          rw [if_neg hn]
          split at h
          · simp at h
          · next gs1 io3 lm1 e h1 => rw [ih h1]; exact h

theorem flushAllC_some {env : Env} {w : Writer} {r : Writer × Option TsFileError} (h : w.flushAllChunkGroupsC env = some r) :
    w.flushAllChunkGroups env = some r := by
  rw [flushAllChunkGroupsC] at h
  rw [flushAllChunkGroups]
  split at h
  · next h0 =>
    rw [if_pos h0]
    split at h
    · simp at h
    · next h1 => rw [flushLoopC_some _ h1]; exact h
    · next h1 => rw [flushLoopC_some _ h1]; exact h
  · next h0 => rw [if_neg h0]; exact h

theorem checkMemoryC_some {env : Env} {w w' : Writer} (h : w.checkMemorySizeC env = some w') :
    w.checkMemorySize env = some w' := by
  rw [checkMemorySizeC] at h
  rw [checkMemorySize]
  split at h
  · next h0 =>
    rw [if_pos h0]
    split at h
    · simp at h
    · next n hn =>
      have hm : w.memSize = n := memLoopC_some _ hn
      dsimp only at h ⊢
      rw [hm]
      split at h
      · simp at h
      · next h1 =>
        rw [if_neg h1]
        split at h
        · next h2 =>
          rw [if_pos h2]
          obtain ⟨r, hr, rfl⟩ := Option.map_eq_some_iff.1 h
          rw [flushAllC_some hr]
          rfl
        · next h2 => rw [if_neg h2]; exact h
  · next h0 => rw [if_neg h0]; exact h

theorem countC_same {env : Env} {w : Writer} {n : W32} (h : (w.countC env n).2 ≠ .panic) :
    w.countC env n = ({ w with recordCount := w.recordCount + n } : Writer).afterOk env := by
  rw [countC] at h ⊢
  rw [afterOk]
  cases hk : uaddC w.recordCount n with
  | none => rw [hk] at h; exact absurd rfl h
  | some k =>
    rw [hk] at h
    dsimp only at h ⊢
    rw [← uaddC_some hk]
    cases hw : checkMemorySizeC env { w with recordCount := k } with
    | none => rw [hw] at h; exact absurd rfl h
    | some w1 => rw [checkMemoryC_some hw]

/-- Where a call does not panic in a build with overflow checks, it does what it does in a release build. -/
theorem stepC_same {env : Env} {w : Writer} {op : Op} (h : (w.stepC env op).2 ≠ .panic) : w.stepC env op = w.step env op := by
  cases op with
  | write d m t v =>
    simp only [stepC, writeC, step, write] at h ⊢
    cases hg : BMap.get? d w.groupWriters with
    | none => rfl
    | some g =>
      rw [hg] at h
      dsimp only at h ⊢
      rcases he : g.writeC env m t v with ⟨g1, r⟩
      have hs : r ≠ .panic → g.write env m t v = (g1, r) := fun hr => by
        rw [← GroupWriter.writeC_same (by rw [he]; exact hr), he]
      rw [he] at h
      cases r with
      | panic => exact absurd rfl h
      | err e => rw [hs (by simp)]
      | ok n =>
        rw [hs (by simp)]
        dsimp only at h ⊢
        rw [countC_same h]
        rfl
  | writeMany d t vs =>
    simp only [stepC, writeManyC, step, writeMany] at h ⊢
    cases hg : BMap.get? d w.groupWriters with
    | none => rfl
    | some g =>
      rw [hg] at h
      dsimp only at h ⊢
      rcases he : g.writeManyC env t vs 0 with ⟨g1, r⟩
      have hs : r ≠ .panic → g.writeMany env t vs 0 = (g1, r) := fun hr => by
        rw [← GroupWriter.writeManyC_same vs (by rw [he]; exact hr), he]
      rw [he] at h
      cases r with
      | panic => exact absurd rfl h
      | err e => rw [hs (by simp)]
      | ok n =>
        rw [hs (by simp)]
        dsimp only at h ⊢
        rw [countC_same h]
        rfl

theorem runC_same {env : Env} (ops : List Op) {w : Writer} (h : .panic ∉ (w.runC env ops).2) :
    w.runC env ops = w.run env ops := by
  induction ops generalizing w with
  | nil => rfl
  | cons op ops ih =>
    simp only [runC, List.mem_cons, not_or] at h
    have h1 := stepC_same (fun hc => h.1 hc.symm)
    have h2 := ih h.2
    simp only [runC, run]
    rw [← h1, h2]

theorem closeC_some {env : Env} {w w' : Writer} (h : w.closeC env = some w') : w.close env = some w' := by
  rw [closeC] at h
  split at h
  · simp at h
  · next w1 e h1 =>
    rw [close, flushAllC_some h1]
    dsimp only
    split at h
    · simp at h
    · next io hio => rw [IoWriter.endFileC_some hio]; exact h

end Writer

end TsFile
