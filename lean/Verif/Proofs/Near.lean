import Verif.Proofs.Smooth
import Verif.Spec.Steady
import Mathlib.Tactic.Ring
/-! # Sizes of TS_2DIFF when the differences of neighbours are close to each other -/

namespace TsFile
open Spec

/-- The differences of neighbours, computed in the word size, lie in a range of `2 ^ k` numbers. -/
def Near {w : Nat} (k : Nat) (vs : List (BitVec w)) : Prop :=
  ∃ a : Int, ∀ x ∈ Ref.differences vs, a ≤ x.toInt ∧ x.toInt < a + 2 ^ k

theorem Near.mid {w k : Nat} {l m r : List (BitVec w)} (h : Near k (l ++ m ++ r)) : Near k m :=
  let ⟨a, h⟩ := h
  ⟨a, fun x hx => h x (differences_right _ _ _ (differences_left _ _ _ hx))⟩

theorem Near.part {w k : Nat} {vs : List (BitVec w)} (h : Near k vs) (i n : Nat) : Near k ((vs.drop i).take n) := by
  refine Near.mid (l := vs.take i) (r := (vs.drop i).drop n) ?_
  rw [List.append_assoc, List.take_append_drop, List.take_append_drop]
  exact h

theorem least_low {w : Nat} (l : List (BitVec w)) : (∀ x ∈ l, (Ref.least l).toInt ≤ x.toInt) ∧ (Ref.least l = BitVec.intMax w ∨ Ref.least l ∈ l) := by
  induction l using List.reverseRecOn with
  | nil => exact ⟨by simp, .inl rfl⟩
  | append_singleton l x ih =>
    have : Ref.least (l ++ [x]) = if x.toInt < (Ref.least l).toInt then x else Ref.least l := by
      rw [Ref.least, List.foldl_append]; rfl
    rw [this]
    split
    · refine ⟨fun y hy => ?_, .inr (by simp)⟩
      rcases List.mem_append.1 hy with hy | hy
      · have := ih.1 y hy; omega
      · rw [List.mem_singleton.1 hy]
    · refine ⟨fun y hy => ?_, ih.2.imp id (List.mem_append_left _)⟩
      rcases List.mem_append.1 hy with hy | hy
      · exact ih.1 y hy
      · rw [List.mem_singleton.1 hy]; omega

theorem digits_le {k x : Nat} (h : x < 2 ^ k) : Ref.digits x ≤ k := by
  rw [Ref.digits]
  split
  · omega
  · next hx =>
    have := (Nat.log2_lt hx).2 h
    omega

theorem sub_toNat {w : Nat} {x y : BitVec w} (h1 : y.toInt ≤ x.toInt) : ((x - y).toNat : Int) = x.toInt - y.toInt := by
  have hx := x.isLt
  have hy := y.isLt
  rw [BitVec.toInt_eq_toNat_cond x, BitVec.toInt_eq_toNat_cond y] at *
  rw [BitVec.toNat_sub]
  generalize x.toNat = a at *
  generalize y.toNat = b at *
  generalize 2 ^ w = P at *
  by_cases hab : b ≤ a
  · rw [show P - b + a = a - b + P by omega, Nat.add_mod_right, Nat.mod_eq_of_lt (by omega)]
    by_cases h2 : 2 * a < P <;> by_cases h3 : 2 * b < P <;> simp only [h2, h3, if_true, if_false] at h1 ⊢ <;> omega
  · rw [Nat.mod_eq_of_lt (by omega)]
    by_cases h2 : 2 * a < P <;> by_cases h3 : 2 * b < P <;> simp only [h2, h3, if_true, if_false] at h1 ⊢ <;> omega

theorem foldl_max_bound {k : Nat} (l : List Nat) (h : ∀ x ∈ l, x ≤ k) (n : Nat) (hn : n ≤ k) : l.foldl max n ≤ k := by
  induction l generalizing n with
  | nil => exact hn
  | cons x l ih =>
    rw [List.foldl_cons]
    exact ih (fun y hy => h y (by simp [hy])) _ (Nat.max_le.2 ⟨hn, h x (by simp)⟩)

theorem block_near {w k : Nat} {vs : List (BitVec w)} (h : Near k vs) (hlen : vs.length ≤ 129) : (Ref.block vs).length ≤ 8 + 2 * (w / 8) + 16 * k := by
  obtain ⟨a, h⟩ := h
  cases vs with
  | nil => simp [Ref.block]
  | cons f rest =>
    have hn := length_differences (f :: rest)
    rw [Ref.block]
    generalize Ref.differences (f :: rest) = ds at *
    obtain ⟨hl1, hl2⟩ := least_low ds
    have hw0 : ((ds.map (fun d => (d - Ref.least ds).toNat)).map Ref.digits).foldl max 0 ≤ k := by
      refine foldl_max_bound _ ?_ _ (Nat.zero_le _)
      intro x hx
      obtain ⟨y, hy, rfl⟩ := List.mem_map.1 hx
      obtain ⟨d, hd, rfl⟩ := List.mem_map.1 hy
      refine digits_le ?_
      have h1 := hl1 d hd
      have h2 := sub_toNat h1
      have h3 := h d hd
      rcases hl2 with hl2 | hl2
      · have h4 := BitVec.toInt_le (x := d)
        have h5 : (BitVec.intMax w).toInt = 2 ^ (w - 1) - 1 := by rw [BitVec.toInt_intMax]
        rw [hl2] at h1 h2 ⊢
        have h6 : ((d - BitVec.intMax w).toNat : Int) ≤ 0 := by omega
        have : 0 < 2 ^ k := Nat.two_pow_pos k
        omega
      · have h4 := h _ hl2
        have : ((d - Ref.least ds).toNat : Int) < 2 ^ k := by omega
        exact_mod_cast this
    generalize ((ds.map (fun d => (d - Ref.least ds).toNat)).map Ref.digits).foldl max 0 = W at hw0
    simp only [Ref.packed, List.length_append, length_big, List.length_map]
    have h8 : ds.length * W ≤ 128 * k := Nat.mul_le_mul (by rw [hn]; omega) hw0
    omega

theorem blocks_near {w k : Nat} {vs : List (BitVec w)} (h : Near k vs) (n : Nat) :
    (Ref.blocks n vs).length ≤ (8 + 2 * (w / 8) + 16 * k) * n := by
  induction n with
  | zero => simp [Ref.blocks]
  | succ n ih =>
    rw [blocks_succ, List.length_append, Nat.mul_succ]
    have := block_near (h.part (129 * n) 129) (by rw [List.length_take]; omega)
    omega

/-! ## files -/

/-- Times and values of a series change steadily. -/
structure Steady (k j : Nat) (pts : List Point) : Prop where
  times : Near k (pts.map Prod.fst)
  ints : Near j (Ref.ints (pts.map Prod.snd))
  longs : Near j (Ref.longs (pts.map Prod.snd))

theorem Steady.mid {k j : Nat} {l m r : List Point} (h : Steady k j (l ++ m ++ r)) : Steady k j m := by
  obtain ⟨h1, h2, h3⟩ := h
  simp only [List.map_append, Ref.ints, Ref.longs, List.filterMap_append] at h1 h2 h3
  exact ⟨h1.mid, h2.mid, h3.mid⟩

/-- An integer series in TS_2DIFF without compression. -/
def Delta (ms : MeasurementSchema) : Prop :=
  (ms.dataType = .INT32 ∨ ms.dataType = .INT64) ∧ ms.encoding = .TS2DIFF ∧ ms.compression = .UNCOMPRESSED

theorem Steady.content {k j : Nat} {pts : List Point} (h : Steady k j pts) {ms : MeasurementSchema} (hm : Delta ms) :
    (Ref.pageContent ms pts).length ≤ 5 + (48 + 16 * (k + j)) * ((pts.length + 128) / 129) := by
  have h1 := blocks_near h.times ((pts.length + 128) / 129)
  have h3 := length_varint_le (Ref.ts2diff (pts.map Prod.fst)).length
  obtain ⟨hd, he, _⟩ := hm
  have hl : ∀ {α : Type} (f : IoTDBValue → Option α), ((pts.map Prod.snd).filterMap f).length ≤ pts.length := by
    intro α f
    exact Nat.le_trans (List.length_filterMap_le ..) (by simp)
  have hv : (Ref.values ms.dataType ms.encoding (pts.map Prod.snd)).length ≤ (24 + 16 * j) * ((pts.length + 128) / 129) := by
    rw [he]
    rcases hd with hd | hd <;> rw [hd] <;> simp only [Ref.values, Ref.ts2diff]
    · have h2 := blocks_near h.ints (((Ref.ints (pts.map Prod.snd)).length + 128) / 129)
      have h4 : (Ref.ints (pts.map Prod.snd)).length ≤ pts.length := hl _
      refine Nat.le_trans h2 (Nat.mul_le_mul ?_ ?_) <;> omega
    · have h2 := blocks_near h.longs (((Ref.longs (pts.map Prod.snd)).length + 128) / 129)
      have h4 : (Ref.longs (pts.map Prod.snd)).length ≤ pts.length := hl _
      refine Nat.le_trans h2 (Nat.mul_le_mul ?_ ?_) <;> omega
  have hs : (48 + 16 * (k + j)) * ((pts.length + 128) / 129)
      = (24 + 16 * k) * ((pts.length + 128) / 129) + (24 + 16 * j) * ((pts.length + 128) / 129) := by
    rw [← Nat.add_mul]; congr 1; omega
  have ht : (Ref.ts2diff (pts.map Prod.fst)).length ≤ (24 + 16 * k) * ((pts.length + 128) / 129) := by
    rw [Ref.ts2diff, List.length_map]
    exact h1
  rw [hs]
  simp only [Ref.pageContent, List.length_append]
  omega

theorem Steady.page_le {unsnap : Bytes → Option Bytes} {env : Env} {ms : MeasurementSchema} {k j : Nat} {g : GPage}
    (hg : g.Ok unsnap ms) (hm : Delta ms) (h : Steady k j g.pts) (b : Bool) :
    (g.bytes env ms.dataType b).length ≤ 127 + (48 + 16 * (k + j)) * ((g.pts.length + 128) / 129) := by
  have h1 := h.content hm
  have e2 : g.data = g.raw := by simpa [decompress, hm.2.2] using hg.dec
  rw [← hg.content, ← e2] at h1
  have h4 := length_writeVarU32_le (u32 g.raw.length)
  have h5 := length_writeVarU32_le (u32 g.data.length)
  have h6 := (statsOf env ms.dataType g.pts).sizeN_le
  have h7 := (statsOf env ms.dataType g.pts).serialize_length env
  simp only [GPage.bytes, GPage.hdr, List.length_append]
  generalize (48 + 16 * (k + j)) * ((g.pts.length + 128) / 129) = A at *
  cases b <;> simp <;> omega

theorem steady_full {n K : Nat} (h : 3000 ≤ n) : 7 * (127 + (48 + 16 * K) * ((n + 128) / 129)) ≤ (4 + K) * n := by
  have h1 : 7 * 127 + 336 * ((n + 128) / 129) ≤ 4 * n := by omega
  have h2 : 112 * ((n + 128) / 129) ≤ n := by omega
  have h3 := Nat.mul_le_mul_left K h2
  have h4 : 7 * (127 + (48 + 16 * K) * ((n + 128) / 129)) = 7 * 127 + 336 * ((n + 128) / 129) + K * (112 * ((n + 128) / 129)) := by
    generalize (n + 128) / 129 = B
    ring
  rw [h4, Nat.add_mul]
  omega

theorem steady_last (n K : Nat) : 7 * (127 + (48 + 16 * K) * ((n + 128) / 129)) ≤ (4 + K) * n + 7 * (175 + 16 * K) := by
  have h1 : 336 * ((n + 128) / 129) ≤ 4 * n + 336 := by omega
  have h2 : 112 * ((n + 128) / 129) ≤ n + 112 := by omega
  have h3 := Nat.mul_le_mul_left K h2
  have h4 : 7 * (127 + (48 + 16 * K) * ((n + 128) / 129)) = 7 * 127 + 336 * ((n + 128) / 129) + K * (112 * ((n + 128) / 129)) := by
    generalize (n + 128) / 129 = B
    ring
  rw [h4, Nat.add_mul]
  rw [Nat.mul_add] at h3
  omega

theorem Steady.pages_le {unsnap : Bytes → Option Bytes} {ms : MeasurementSchema} (env : Env) {k j : Nat} {pages : List GPage}
    (hok : ∀ g ∈ pages, g.Ok unsnap ms) (hm : Delta ms) (hf : FullPages pages.dropLast) (h : ∀ g ∈ pages, Steady k j g.pts) :
    7 * (pagesBytes env ms.dataType pages).length ≤ (4 + (k + j)) * (pagesPoints pages).length + 7 * (175 + 16 * (k + j)) := by
  have hpg : ∀ g ∈ pages, ∀ b, (g.bytes env ms.dataType b).length ≤ 127 + (48 + 16 * (k + j)) * ((g.pts.length + 128) / 129) :=
    fun g hg b => (h g hg).page_le (hok g hg) hm b
  generalize k + j = K at *
  have hall : ∀ (l : List GPage),
      (∀ g ∈ l, ∀ b, (g.bytes env ms.dataType b).length ≤ 127 + (48 + 16 * K) * ((g.pts.length + 128) / 129)) → FullPages l.dropLast →
      7 * (l.flatMap (GPage.bytes env ms.dataType true)).length ≤ (4 + K) * (pagesPoints l).length + 7 * (175 + 16 * K) := by
    intro l
    induction l with
    | nil => simp
    | cons g l ih =>
      intro hl hf
      have h1 := hl g (by simp) true
      cases l with
      | nil =>
        have h2 := steady_last g.pts.length K
        simp only [List.flatMap_cons, List.flatMap_nil, List.append_nil, pagesPoints, List.map_cons, List.map_nil, List.flatten_cons,
          List.flatten_nil]
        omega
      | cons g' l =>
        rw [List.dropLast_cons_cons] at hf
        have h2 := ih (fun g hg => hl g (by simp [hg])) (fun g hg => hf g (by simp [hg]))
        have h3 := steady_full (K := K) (hf g (by simp))
        rw [List.flatMap_cons, List.length_append, pagesPoints, List.map_cons, List.flatten_cons, List.length_append, Nat.mul_add (4 + K)]
        rw [pagesPoints] at h2
        omega
  match pages, hpg, hf with
  | [g], hpg, _ =>
    have h1 := hpg g (by simp) false
    have h2 := steady_last g.pts.length K
    simp only [pagesBytes, pagesPoints, List.map_cons, List.map_nil, List.flatten_cons, List.flatten_nil, List.append_nil]
    omega
  | [], _, _ => simp [pagesBytes]
  | a :: b :: l, hpg, hf => exact hall _ hpg hf

theorem Steady.chunk_le {env : Env} {unsnap : Bytes → Option Bytes} {c : GChunk} (hc : c.Ok env unsnap) (hm : Delta c.ms) {k j N : Nat}
    (h : Steady k j c.points) (hN : c.name.length ≤ N) :
    7 * (c.bytes env).length ≤ (4 + (k + j)) * c.points.length + 7 * (191 + 16 * (k + j) + N) := by
  have h1 := Steady.pages_le (k := k) (j := j) env hc.pages hm hc.full (by
    intro g hg
    obtain ⟨x, y, hxy⟩ := List.append_of_mem hg
    refine Steady.mid (l := pagesPoints x) (r := pagesPoints y) ?_
    have : c.points = pagesPoints x ++ g.pts ++ pagesPoints y := by simp [GChunk.points, hxy, pagesPoints]
    rw [← this]
    exact h)
  have h3 := length_writeStr_le c.name
  have h4 := length_writeVarU32_le (u32 (pagesBytes env c.ms.dataType c.pages).length)
  simp only [GChunk.bytes, GChunk.header, ChunkHeader.serialize, List.length_append, List.length_cons,
    List.length_nil, GChunk.points] at h1 ⊢
  generalize (4 + (k + j)) * (pagesPoints c.pages).length = A at *
  omega

/-- The points of a chunk follow each other in the series. -/
theorem chunk_part {groups : List GGroup} {c : Bytes × GChunk} (h : c ∈ allChunks groups) :
    ∃ l r, filePts groups c.1 c.2.name = l ++ c.2.points ++ r := by
  obtain ⟨g, hg, h1, h2⟩ := allChunks_mem h
  obtain ⟨x, y, rfl⟩ := List.append_of_mem hg
  obtain ⟨u, v, huv⟩ := List.append_of_mem h2
  refine ⟨filePts x c.1 c.2.name ++ chunkPts u c.2.name, chunkPts v c.2.name ++ filePts y c.1 c.2.name, ?_⟩
  have e1 : filePts (g :: y) c.1 c.2.name = chunkPts g.2 c.2.name ++ filePts y c.1 c.2.name := by simp [filePts, h1]
  have e2 : chunkPts (c.2 :: v) c.2.name = c.2.points ++ chunkPts v c.2.name := by simp [chunkPts]
  rw [filePts_append, e1, huv, chunkPts_append, e2]
  simp only [List.append_assoc]

theorem groupsBytes_gen {env : Env} {q A B D : Nat} (gs : List GGroup) (hd : ∀ g ∈ gs, g.1.length ≤ D)
    (hc : ∀ c ∈ allChunks gs, q * (c.2.bytes env).length ≤ A * c.2.points.length + q * B) :
    q * (gs.flatMap (groupBytes env)).length ≤ q * (gs.length * (7 + D)) + A * totalPts gs + q * (B * (allChunks gs).length) := by
  induction gs with
  | nil => simp
  | cons g gs ih =>
    have h3 := ih (fun g hg => hd g (by simp [hg])) (fun c h => hc c (by
      rw [allChunks, List.flatMap_cons]
      exact List.mem_append_right _ h))
    have h4 := length_writeStr_le g.1
    have h5 := hd g (by simp)
    have h6 : ∀ cs : List GChunk, (∀ c ∈ cs, c ∈ g.2) →
        q * (cs.flatMap (GChunk.bytes env)).length ≤ A * (cs.map (fun c => c.points.length)).sum + q * (B * cs.length) := by
      intro cs
      induction cs with
      | nil => simp
      | cons c cs ih =>
        intro hcs
        have e1 := ih (fun c hc => hcs c (by simp [hc]))
        have e2 := hc (g.1, c) (by
          rw [allChunks, List.flatMap_cons]
          exact List.mem_append_left _ (List.mem_map.2 ⟨c, hcs c (by simp), rfl⟩))
        simp only [List.flatMap_cons, List.length_append, List.map_cons, List.sum_cons, List.length_cons, Nat.mul_succ, Nat.mul_add] at *
        omega
    have h7 := h6 g.2 (fun _ h => h)
    have h8 : totalPts (g :: gs) = (g.2.map (fun c => c.points.length)).sum + totalPts gs := by
      simp [totalPts, allChunks, Function.comp_def]
    have h9 : (allChunks (g :: gs)).length = g.2.length + (allChunks gs).length := by
      simp [allChunks]
    have h10 : q * (groupBytes env g).length ≤ q * (7 + D) + q * (g.2.flatMap (GChunk.bytes env)).length := by
      rw [← Nat.mul_add]
      refine Nat.mul_le_mul_left _ ?_
      simp only [groupBytes, chunkGroupHeader, List.length_append, List.length_cons, List.length_nil]
      omega
    rw [h8, h9, List.flatMap_cons, List.length_append, List.length_cons, Nat.mul_add A, Nat.mul_add B, Nat.mul_add q, Nat.mul_add q (B * _), Nat.succ_mul,
      Nat.mul_add q (gs.length * _)]
    omega

/-- The parts of the file of a session, and their number. -/
theorem session_parts {env : Env} {unsnap : Bytes → Option Bytes} (he : EnvOk env unsnap) {schema : Schema}
    (hwf : schema.WF) {ops : List Op} {s : Session} (hs : session env schema ops = some s)
    (hb : burstsBelow (2 ^ 32) 0 (ops.zip (s.grown.map (fun n => decide (0 < n))))) {N : Nat} (hN : schema.NamesBelow N) :
    ∃ groups, GroupsOk env unsnap schema groups
      ∧ (∀ d m, filePts groups d m = series (storedBy schema ops s.grown) d m)
      ∧ s.file.length ≤ (fileBytes env groups).length + 53 + (189 + 3 * N) * (allChunks groups).length
        + bloomBits env (pathsOf (storedBy schema ops s.grown)).length / 8
      ∧ groups.length ≤ (1 + (s.grown.filter (fun n => decide (0 < n))).length) * schema.length
      ∧ (allChunks groups).length ≤ (1 + (s.grown.filter (fun n => decide (0 < n))).length) * schema.size := by
  rw [session] at hs
  cases hnew : Writer.new env schema ⟨[], none⟩ with
  | error e => rw [hnew] at hs; simp at hs
  | ok w =>
    rw [hnew] at hs
    simp only at hs
    split at hs
    · simp at hs
    · next hnp =>
      split at hs
      · simp at hs
      · next w' hcl =>
        simp only [Option.some.injEq] at hs
        subst hs
        have hsim := sim_new unsnap hwf hnew
        obtain ⟨new, hres, hs1, hlen, hgr⟩ := sim_run he.snappy hwf ops hsim 0 (by simp [AState.init]) hb hnp
        have hlen' : (AState.init.run schema (ops.zip ((w.grown env ops).map (fun n => decide (0 < n))))).1.pending.length
            < 2 ^ 32 := by
          by_cases ho : ops = []
          · subst ho; simp [AState.run, AState.init]
          · exact hlen ho
        obtain ⟨w2, new2, hf, hs2, _⟩ := sim_flush he.snappy hwf hs1 hlen'
        rw [Writer.close, hf] at hcl
        simp only at hcl
        split at hcl
        · simp at hcl
        · next io hend =>
          simp only [Option.some.injEq] at hcl
          subst hcl
          obtain ⟨L⟩ := endFile_coarse he.order hs2.file hend
          have h1 := L.length_le hs2.file.ok hN
          obtain ⟨hsorted, hget⟩ := chunkMetadataMap_rep hs2.file
          have hmem := chunkPaths_mem hs2.file.ok hget hs2.stored
          rw [length_eq_of_mem_iff hsorted.nodup (List.nodup_dedup _) hmem] at h1
          have hfl := run_flush_flushes env schema ops w
          have h3 : (([] ++ new) ++ new2).length
              ≤ (1 + ((w.grown env ops).filter (fun n => decide (0 < n))).length) * schema.length := by
            rw [blocks_length hs2]
            exact Nat.mul_le_mul hfl (Nat.le_trans (keys_ofList_length _) (by simp))
          have h6 : (allChunks (([] ++ new) ++ new2)).length
              ≤ (1 + ((w.grown env ops).filter (fun n => decide (0 < n))).length) * schema.size :=
            Nat.le_trans (chunks_total_le hs2) (Nat.mul_le_mul_right _ hfl)
          exact ⟨_, hs2.file.ok, hs2.stored, h1, h3, h6⟩

theorem session_steady {env : Env} {unsnap : Bytes → Option Bytes} (he : EnvOk env unsnap) {schema : Schema}
    (hwf : schema.WF) {ops : List Op} {s : Session} (hs : session env schema ops = some s)
    (hb : burstsBelow (2 ^ 32) 0 (ops.zip (s.grown.map (fun n => decide (0 < n))))) {N : Nat} (hN : schema.NamesBelow N)
    (hd : ∀ e ∈ schema, ∀ m ∈ e.2, Delta m.2) {k j : Nat} (hst : ∀ d m, Steady k j (series (storedBy schema ops s.grown) d m)) :
    7 * s.file.length ≤ 7 * (60 + (1 + (s.grown.filter (fun n => decide (0 < n))).length) * schema.length * (7 + N)
        + (380 + 16 * (k + j) + 4 * N) * ((1 + (s.grown.filter (fun n => decide (0 < n))).length) * schema.size)
        + bloomBits env (pathsOf (storedBy schema ops s.grown)).length / 8)
      + (4 + (k + j)) * (storedBy schema ops s.grown).length := by
  obtain ⟨groups, hok, hpts, h1, h2, h3⟩ := session_parts he hwf hs hb hN
  have h4 := groupsBytes_gen (env := env) (q := 7) (A := 4 + (k + j)) (B := 191 + 16 * (k + j) + N) (D := N) groups
    (fun g hg => by
      obtain ⟨ms, e1, _⟩ := hok g hg
      exact hN.devices _ (look_mem e1))
    (fun c hc => by
      obtain ⟨g, hg, e1, e2⟩ := allChunks_mem hc
      obtain ⟨ms, e3, e4, _⟩ := hok g hg
      obtain ⟨e5, e6⟩ := e4 _ e2
      refine Steady.chunk_le e6 (hd _ (look_mem e3) _ (look_mem e5)) ?_ ?_
      · obtain ⟨l, r, hlr⟩ := chunk_part hc
        refine Steady.mid (l := l) (r := r) ?_
        rw [← hlr, hpts]
        exact hst _ _
      · have := hN.paths _ (look_mem e3) _ (look_mem e5)
        dsimp only at this
        omega)
  have hmag : (magic ++ [3]).length = 7 := rfl
  rw [fileBytes, List.length_append, hmag] at h1
  have h5 := Nat.mul_le_mul_left (4 + (k + j)) (totalPts_le hpts)
  have h6 := Nat.mul_le_mul_right (7 + N) h2
  have h7 := Nat.mul_le_mul_left (380 + 16 * (k + j) + 4 * N) h3
  have h8 : (380 + 16 * (k + j) + 4 * N) * (allChunks groups).length
      = (191 + 16 * (k + j) + N) * (allChunks groups).length + (189 + 3 * N) * (allChunks groups).length := by
    rw [← Nat.add_mul]; congr 1; omega
  omega

/-! ## steady numbers -/

theorem differences_index {w : Nat} (vs : List (BitVec w)) (x : BitVec w) (h : x ∈ Ref.differences vs) :
    ∃ i, ∃ h : i + 1 < vs.length, x = vs[i + 1] - vs[i] := by
  induction vs with
  | nil => simp [Ref.differences] at h
  | cons a vs ih =>
    cases vs with
    | nil => simp [Ref.differences] at h
    | cons b vs =>
      simp only [Ref.differences, List.mem_cons] at h
      rcases h with rfl | h
      · exact ⟨0, by simp, rfl⟩
      · obtain ⟨i, hi, rfl⟩ := ih h
        exact ⟨i + 1, by simpa using hi, rfl⟩

theorem steady_near {w k : Nat} {vs : List (BitVec w)} (h : Spec.steady w k (vs.map BitVec.toInt)) : Near k vs := by
  obtain ⟨a, h⟩ := h
  refine ⟨a, fun x hx => ?_⟩
  obtain ⟨i, hi, rfl⟩ := differences_index vs x hx
  have := h i (by simpa using hi)
  simp only [List.getElem_map] at this
  have e : (vs[i + 1] - vs[i]).toInt = vs[i + 1].toInt - vs[i].toInt := by
    rw [BitVec.toInt_sub]
    by_cases hw : w = 0
    · subst hw
      have e0 : ∀ v : BitVec 0, v.toInt = 0 := fun v => by rw [BitVec.eq_nil v]; rfl
      rw [e0, e0]
      rfl
    · have h2 : (2 : Int) ^ w = 2 * 2 ^ (w - 1) := by
        rw [← Int.pow_succ']; congr 1; omega
      have h3 : ((2 ^ w : Nat) : Int) = 2 * 2 ^ (w - 1) := by rw [← h2]; norm_cast
      refine Int.bmod_eq_of_le ?_ ?_ <;> rw [h3] <;> omega
  rw [e]
  exact ⟨this.1, this.2.1⟩

end TsFile
