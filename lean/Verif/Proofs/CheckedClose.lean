import Verif.Proofs.CheckedRun
import Verif.Proofs.CheckedSame
import Verif.Proofs.CloseAny
import Verif.Proofs.Murmur
/-! # Builds with overflow checks: where the checks cannot fail, `close` -/

namespace TsFile
open Spec

/-! ## the hash -/

theorem mulC_some {w : Nat} {a b x : BitVec w} (h : mulC a b = some x) : x = a * b := by
  rw [mulC] at h
  split at h
  · simp at h
  · simpa using h.symm

theorem bodyC_some {key : Bytes} {n i : Nat} {h1 h2 : W64} {r : W64 × W64} (h : Murmur128.bodyC key n i h1 h2 = some r) :
    Murmur128.body key n i h1 h2 = some r := by
  induction n generalizing i h1 h2 with
  | zero => simpa [Murmur128.bodyC, Murmur128.body] using h
  | succ n ih =>
    rw [Murmur128.bodyC] at h
    simp only [Option.bind_eq_bind, Option.bind_eq_some_iff] at h
    obtain ⟨k1, e1, k2, e2, a1, f1, a2, f2, a3, f3, a4, f4, a5, f5, a6, f6, a7, f7, a8, f8, a9, f9, a10, f10, h⟩ := h
    have := ih h
    rw [mulC_some f1] at f2
    rw [mulC_some f2] at f3
    rw [addC_some f3] at f4
    rw [mulC_some f4] at f5
    rw [mulC_some f6] at f7
    rw [mulC_some f7, addC_some f5] at f8
    rw [addC_some f8] at f9
    rw [mulC_some f9] at f10
    rw [addC_some f10, addC_some f5] at this
    rw [Murmur128.body]
    simp only [e1, e2, Option.bind_eq_bind, Option.bind_some]
    exact this

theorem hashC_some {path : Bytes} {seed h : W32} (hh : Murmur128.hashC path seed = some h) :
    Murmur128.hash path seed = some h := by
  rw [Murmur128.hashC] at hh
  obtain ⟨x, hx, rfl⟩ := Option.map_eq_some_iff.1 hh
  rw [Murmur128.hash]
  suffices Murmur128.innerHash path (seed.signExtend 64) = some x by rw [this]; rfl
  rw [Murmur128.innerHashC] at hx
  simp only [Option.bind_eq_bind, Option.bind_eq_some_iff, Option.pure_def, Option.some.injEq, Prod.exists] at hx
  obtain ⟨a, b, h1, s, h2, c, h3, d, h4, h5⟩ := hx
  rw [addC_some h3] at h4
  rw [addC_some h4, addC_some h3] at h5
  rw [Murmur128.innerHash]
  simp only [bodyC_some h1, h2, Option.bind_eq_bind, Option.bind_some, Option.pure_def, Option.some.injEq]
  exact h5

/-- The hashes of the path do not overflow, for any of the seeds. -/
def Hashable (path : Bytes) : Prop := ∀ seed ∈ bloomSeeds, ∃ h, Murmur128.hashC path seed = some h ∧ h ≠ BitVec.intMin 32

theorem addLoopC_eq {size : Nat} {path : Bytes} (seeds : List W32)
    (h : ∀ seed ∈ seeds, ∃ h, Murmur128.hashC path seed = some h ∧ h ≠ BitVec.intMin 32) (bits : List Bool) :
    BloomFilter.addLoopC size path seeds bits = BloomFilter.addLoop size path seeds bits := by
  induction seeds generalizing bits with
  | nil => rfl
  | cons seed seeds ih =>
    obtain ⟨x, h1, h2⟩ := h seed (by simp)
    rw [BloomFilter.addLoopC, BloomFilter.addLoop]
    have e1 : hashFunctionC (u32 size) seed path = hashFunction (u32 size) seed path := by
      rw [hashFunctionC, hashFunction, h1, hashC_some h1]
      simp [absC, h2]
    rw [e1]
    simp only [ih (fun s hs => h s (by simp [hs]))]

theorem addAllC_eq (paths : List Bytes) (h : ∀ p ∈ paths, Hashable p) (f : BloomFilter) (hf : ∀ s ∈ f.func, s ∈ bloomSeeds) :
    BloomFilter.addAllC paths f = BloomFilter.addAll paths f := by
  induction paths generalizing f with
  | nil => rfl
  | cons p ps ih =>
    rw [BloomFilter.addAllC, BloomFilter.addAll, BloomFilter.add, addLoopC_eq _ (fun s hs => h p (by simp) s (hf s hs))]
    cases BloomFilter.addLoop f.size p f.func f.bitSet with
    | none => rfl
    | some b => exact ih (fun q hq => h q (by simp [hq])) _ hf

theorem buildC_eq (env : Env) (paths : List Bytes) (h : ∀ p ∈ paths, Hashable p) :
    BloomFilter.buildC env paths = BloomFilter.build env paths :=
  addAllC_eq paths h _ (fun _ hs => List.mem_of_mem_take hs)

/-! ## the statistics -/

theorem mergeChunksC_isSome (env : Env) (dt : TSDataType) (l : List (ChunkMetadata × Nat))
    (h : ∀ c ∈ l, c.1.statistics.type = c.1.dataType ∧ (c.2 < 2 ^ 32 → SumOk c.1.statistics c.2)) {st : Statistics} (hst : st.type = dt)
    {n : Nat} (hs : SumOk st n) (hn : n + (l.map Prod.snd).sum < 2 ^ 32) : (IoWriter.mergeChunksC env dt (l.map Prod.fst) st).isSome := by
  induction l generalizing st n with
  | nil => rfl
  | cons c l ih =>
    obtain ⟨c, k⟩ := c
    rw [List.map_cons, List.sum_cons] at hn
    dsimp only at hn
    rw [List.map_cons, IoWriter.mergeChunksC]
    by_cases hc : c.dataType ≠ dt
    · rw [if_pos hc]
      exact ih (fun c hc => h c (by simp [hc])) hst hs (by omega)
    · rw [if_neg hc]
      have hc := not_not.1 hc
      obtain ⟨h1, h2⟩ := h (c, k) (by simp)
      dsimp only at h1 h2
      have h2 := h2 (by omega)
      obtain ⟨s', e1, e2⟩ := hs.mergeC (env := env) h2 (by omega) (by rw [hst, h1, hc])
      rw [e1]
      have ht : s'.type = dt := by
        have e3 := Statistics.mergeC_some e1
        rw [merge_some env st _ (by rw [hst, h1, hc]), Option.some.injEq] at e3
        rw [← e3, mrg_type, hst]
      exact ih (fun c hc => h c (by simp [hc])) ht e2 (by omega)

theorem mergesC_true (env : Env) (m : BMap (List ChunkMetadata))
    (h : ∀ e ∈ m, ∃ l : List (ChunkMetadata × Nat), e.2 = l.map Prod.fst
      ∧ (∀ c ∈ l, c.1.statistics.type = c.1.dataType ∧ (c.2 < 2 ^ 32 → SumOk c.1.statistics c.2))
      ∧ (l.map Prod.snd).sum < 2 ^ 32) : IoWriter.mergesC env m = true := by
  induction m with
  | nil => rfl
  | cons e m ih =>
    obtain ⟨p, l⟩ := e
    have ih := ih (fun e he => h e (by simp [he]))
    cases l with
    | nil => exact ih
    | cons c l =>
      rw [IoWriter.mergesC, ih, Bool.and_true]
      obtain ⟨L, h1, h2, h3⟩ := h (p, c :: l) (by simp)
      dsimp only at h1
      rw [h1]
      exact mergeChunksC_isSome env c.dataType L h2 (new_type _ _) (sumOk_new env _) (by rw [Nat.zero_add]; exact h3)

/-- The number of points in the chunks of a path is the number of points stored for the path. -/
theorem locs_count {env : Env} {groups : List GGroup} {stored : List Rec} (hst : ∀ d m, filePts groups d m = series stored d m) (k : Bytes) :
    (((fileLocs env 7 groups).filter (fun l => decide (IoWriter.seriesPath l.1 l.2.2.name = k))).map (fun l => l.2.2.points.length)).sum
      = (stored.filter (fun r => decide (r.device ++ [0x2e] ++ r.measurement = k))).length := by
  -- the series of the points in the chunks
  let A : List (Bytes × Bytes) := (fileLocs env 7 groups).flatMap (fun l => List.replicate l.2.2.points.length (l.1, l.2.2.name))
  let B : List (Bytes × Bytes) := stored.map (fun r => (r.device, r.measurement))
  have hperm : A.Perm B := by
    rw [List.perm_iff_count]
    rintro ⟨d, m⟩
    have h1 : A.count (d, m) = (filePts groups d m).length := by
      rw [filePts_eq_locs env, locsOf]
      simp only [A]
      generalize fileLocs env 7 groups = L
      induction L with
      | nil => rfl
      | cons l L ih =>
        rw [List.flatMap_cons, List.count_append, ih, List.count_replicate, List.filter_cons]
        by_cases he : l.1 = d ∧ l.2.2.name = m
        · simp [he]
        · have : ((l.1, l.2.2.name) == (d, m)) = false := by
            rw [beq_eq_false_iff_ne]
            intro e
            simp only [Prod.mk.injEq] at e
            exact he e
          simp [he, this]
    have h2 : B.count (d, m) = (series stored d m).length := by
      simp only [B, series, List.length_map]
      rw [List.count, List.countP_map, List.countP_eq_length_filter]
      congr 1
      apply List.filter_congr
      intro r _
      simp only [Function.comp, Bool.beq_eq_decide_eq, Prod.mk.injEq]
    rw [h1, h2, hst]
  have h3 := (hperm.filter (fun x => decide (x.1 ++ [0x2e] ++ x.2 = k))).length_eq
  have h4 : (B.filter (fun x => decide (x.1 ++ [0x2e] ++ x.2 = k))).length
      = (stored.filter (fun r => decide (r.device ++ [0x2e] ++ r.measurement = k))).length := by
    simp only [B, List.filter_map, List.length_map, Function.comp_def]
  rw [← h4, ← h3]
  simp only [A]
  generalize fileLocs env 7 groups = L
  induction L with
  | nil => rfl
  | cons l L ih =>
    rw [List.flatMap_cons, List.filter_append, List.length_append, ← ih, List.filter_cons, List.filter_replicate]
    by_cases he : l.1 ++ [0x2e] ++ l.2.2.name = k
    · rw [if_pos (by simpa [IoWriter.seriesPath] using he), if_pos (by simpa using he)]
      simp
    · rw [if_neg (by simpa [IoWriter.seriesPath] using he), if_neg (by simpa using he)]
      simp

theorem endFileC_eq {env : Env} {unsnap : Bytes → Option Bytes} {schema : Schema} {io : IoWriter}
    {groups : List GGroup} (h : FileRep env unsnap schema io groups) {stored : List Rec}
    (hst : ∀ d m, filePts groups d m = series stored d m)
    (hcnt : ∀ p, (stored.filter (fun r => decide (r.device ++ [0x2e] ++ r.measurement = p))).length < 2 ^ 32)
    (hhash : ∀ p ∈ pathsOf stored, Hashable p) : io.endFileC env = io.endFile env := by
  obtain ⟨hsorted, hget⟩ := chunkMetadataMap_rep h
  have hmem := chunkPaths_mem h.ok hget hst
  have hlist : ∀ e ∈ io.chunkMetadataMap, e.2 = ((fileLocs env 7 groups).filter (fun l => decide (IoWriter.seriesPath l.1 l.2.2.name = e.1))).map
      (fun l => chunkMeta env l.2.1 l.2.2) := by
    intro e he
    have h1 := hget e.1
    rw [BMap.get?_of_mem hsorted he, optAppend_none] at h1
    split at h1
    · simp at h1
    · simpa using h1
  have hmerge : IoWriter.mergesC env io.chunkMetadataMap = true := by
    refine mergesC_true env _ fun e he => ?_
    refine ⟨((fileLocs env 7 groups).filter (fun l => decide (IoWriter.seriesPath l.1 l.2.2.name = e.1))).map
      (fun l => (chunkMeta env l.2.1 l.2.2, l.2.2.points.length)), ?_, fun c hc => ?_, ?_⟩
    · rw [hlist e he, List.map_map]
      rfl
    · obtain ⟨l, hl, rfl⟩ := List.mem_map.1 hc
      obtain ⟨g, hg, hg1, hg2⟩ := fileLocs_mem (List.mem_filter.1 hl).1
      obtain ⟨ms, _, hck, _⟩ := h.ok g hg
      exact ⟨chunkStats_type env _ _, fun hlt => sumOk_chunkStats _ hlt fun p hp => ((hck _ hg2).2.pages p hp).typed⟩
    · rw [List.map_map]
      have h1 := locs_count (env := env) hst e.1
      have h2 := hcnt e.1
      rw [← h1] at h2
      exact h2
  rw [IoWriter.endFileC, if_pos hmerge, buildC_eq env _ (fun p hp => hhash p ((hmem p).1 hp))]
  cases hb : BloomFilter.build env (io.chunkMetadataMap.map Prod.fst) with
  | some b => rfl
  | none =>
    obtain ⟨tsm, _, _, hiff⟩ := endFile_isSome h
    rw [hb] at hiff
    dsimp only
    rw [eq_comm, ← Option.not_isSome_iff_eq_none, hiff]
    simp

/-- Where the checks do not fail `close` is the same. -/
theorem Sim.closeC {env : Env} {unsnap : Bytes → Option Bytes} (hsn : SnappyOk env unsnap) {schema : Schema} (hwf : schema.WF)
    {w : Writer} {a : AState} {groups : List GGroup} (h : Sim env unsnap schema w a groups) (hlen : a.pending.length < 2 ^ 32)
    (hf : AllFit schema a)
    (hcnt : ∀ p, (a.flush.stored.filter (fun r => decide (r.device ++ [0x2e] ++ r.measurement = p))).length < 2 ^ 32)
    (hhash : ∀ p ∈ pathsOf a.flush.stored, Hashable p) : w.closeC env = w.close env := by
  obtain ⟨w2, new2, hfl, hs2, _⟩ := sim_flush hsn hwf h hlen
  rw [Writer.closeC, Writer.close, h.flushC hsn hf, hfl]
  dsimp only
  rw [endFileC_eq hs2.file hs2.stored hcnt hhash]
  cases w2.io.endFile env <;> rfl

theorem run_pending_sub (schema : Schema) (l : List (Op × Bool)) (a : AState) :
    ∀ r ∈ (a.run schema l).1.pending, r ∈ a.pending ∨ ∃ e ∈ l, r ∈ e.1.recs := by
  induction l generalizing a with
  | nil => exact fun r hr => Or.inl hr
  | cons e l ih =>
    intro r hr
    rcases ih (a.step schema e.1 e.2).1 r hr with h | ⟨x, hx, h⟩
    · exact (step_pending_sub schema a e.1 e.2 r h).imp id fun h => ⟨e, by simp, h⟩
    · exact Or.inr ⟨x, by simp [hx], h⟩

end TsFile
