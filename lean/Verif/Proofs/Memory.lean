import Verif.Spec.Size
import Verif.Proofs.Writer
import Verif.Proofs.Machine
/-! # The memory estimate of the writer

The estimates are computed in `u32`. Here: the exact number they stand for, and bounds on it. -/

namespace TsFile
open Spec

/-- Exact value of the size of the serialized statistics. -/
def Statistics.sizeN : Statistics → Nat
  | .INT32 s => sizeVarU32 s.count + 40
  | .INT64 s => sizeVarU32 s.count + 56
  | .FLOAT s => sizeVarU32 s.count + 40

theorem Statistics.sizeN_eq (s : Statistics) : s.getSerializedSize = u32 s.sizeN := by
  have h : ∀ n : Nat, u32 n + 16 + 24 = u32 (n + 40) ∧ u32 n + 16 + 40 = u32 (n + 56) := by
    intro n
    have h16 : (16 : W32) = u32 16 := rfl
    have h24 : (24 : W32) = u32 24 := rfl
    have h40 : (40 : W32) = u32 40 := rfl
    rw [h16, h24, h40, u32_add, u32_add, u32_add]
    exact ⟨rfl, rfl⟩
  cases s <;> simp only [getSerializedSize, sizeN]
  · exact (h _).1
  · exact (h _).2
  · exact (h _).1

theorem Statistics.sizeN_le (s : Statistics) : s.sizeN ≤ 62 := by
  cases s with
  | INT32 s | INT64 s | FLOAT s =>
    simp only [sizeN, sizeVarU32_eq]
    have := length_writeVarU32_le s.count
    omega

theorem Statistics.serialize_length (env : Env) (s : Statistics) : (s.serialize env).length = s.sizeN := by
  cases s <;> simp [serialize, sizeN, StatisticsStruct.serialize, statI32, statI64, statF32, sizeVarU32_eq, be64, be32]
    <;> omega

/-- Exact value of `estimate_max_series_mem_size`. -/
def ChunkWriter.memN (c : ChunkWriter) : Nat :=
  match c.currentPageWriter with
  | some p => c.pageBuffer.length + p.memN + (10 + p.statistics.sizeN)
  | none => 0

theorem ChunkWriter.memN_eq (c : ChunkWriter) : c.estimateMaxSeriesMemSize = u32 c.memN := by
  rw [estimateMaxSeriesMemSize, memN]
  cases c.currentPageWriter with
  | some p =>
    simp only
    rw [PageWriter.memN_eq, Statistics.sizeN_eq]
    have h10 : (2 * (4 + 1) : W32) = u32 10 := rfl
    rw [h10, u32_add, u32_add, u32_add]
  | none => rfl

/-- Exact value of the memory estimate of a device. -/
def GroupWriter.memN (g : GroupWriter) : Nat := (g.chunkWriters.map (fun c => c.2.memN)).sum

/-- Exact value of the memory estimate of the writer. -/
def Writer.memN (w : Writer) : Nat := (w.groupWriters.map (fun g => g.2.memN)).sum

theorem foldl_u32 {α : Type} (f : α → W32) (g : α → Nat) (h : ∀ a, f a = u32 (g a)) (l : List α) :
    l.foldl (fun s c => s + f c) 0 = u32 (l.map g).sum := by
  have : ∀ (l : List α) (n : Nat), l.foldl (fun s c => s + f c) (u32 n) = u32 (n + (l.map g).sum) := by
    intro l
    induction l with
    | nil => simp
    | cons a l ih =>
      intro n
      rw [List.foldl_cons, h, u32_add, ih, List.map_cons, List.sum_cons, Nat.add_assoc]
  simpa [u32] using this l 0

theorem GroupWriter.memN_eq (g : GroupWriter) : g.updateMaxGroupMemSize = u32 g.memN :=
  foldl_u32 (α := Bytes × ChunkWriter) (fun c => c.2.estimateMaxSeriesMemSize) (fun c => c.2.memN)
    (fun c => c.2.memN_eq) g.chunkWriters

theorem Writer.memN_eq (w : Writer) : w.memSize = u32 w.memN :=
  foldl_u32 (α := Bytes × GroupWriter) (fun g => g.2.updateMaxGroupMemSize) (fun g => g.2.memN)
    (fun g => g.2.memN_eq) w.groupWriters

/-! ## upper bounds -/

theorem GPage.Ok.bytes_le {unsnap : Bytes → Option Bytes} {ms : MeasurementSchema} {g : GPage} (h : g.Ok unsnap ms)
    (env : Env) (b : Bool) : (g.bytes env ms.dataType b).length ≤ 21 * g.pts.length + 151 := by
  have h1 := h.rawLe
  have h2 := h.dataLe
  have h4 := length_writeVarU32_le (u32 g.raw.length)
  have h5 := length_writeVarU32_le (u32 g.data.length)
  have h6 := (statsOf env ms.dataType g.pts).sizeN_le
  have h7 := (statsOf env ms.dataType g.pts).serialize_length env
  simp only [GPage.bytes, GPage.hdr, List.length_append]
  cases b <;> simp <;> omega

/-- The bytes of pages all but the last of which are full. -/
theorem pagesBytes_le {unsnap : Bytes → Option Bytes} {ms : MeasurementSchema} (env : Env) {pages : List GPage}
    (h : ∀ g ∈ pages, g.Ok unsnap ms) (hf : FullPages pages.dropLast) :
    (pagesBytes env ms.dataType pages).length ≤ 22 * (pagesPoints pages).length + 151 := by
  have hall : ∀ (l : List GPage), (∀ g ∈ l, g.Ok unsnap ms) → FullPages l.dropLast →
      (l.flatMap (GPage.bytes env ms.dataType true)).length ≤ 22 * (pagesPoints l).length + 151 := by
    intro l
    induction l with
    | nil => simp
    | cons g l ih =>
      intro hl hf
      have h1 := (hl g (by simp)).bytes_le env true
      cases l with
      | nil => simp [pagesPoints]; omega
      | cons g' l =>
        rw [List.dropLast_cons₂] at hf
        have h2 := ih (fun g hg => hl g (by simp [hg])) (fun g hg => hf g (by simp [hg]))
        have h3 := hf g (by simp)
        simp only [List.flatMap_cons, List.length_append, pagesPoints, List.map_cons, List.flatten_cons] at *
        omega
  match pages, h with
  | [g], h =>
    have := (h g (by simp)).bytes_le env false
    simp only [pagesBytes, pagesPoints, List.map_cons, List.map_nil, List.flatten_cons, List.flatten_nil, List.append_nil]
    omega
  | [], _ => simp [pagesBytes]
  | a :: b :: l, h => exact hall _ h hf

/-- The bytes of full pages. -/
theorem fullPagesBytes_le {unsnap : Bytes → Option Bytes} {ms : MeasurementSchema} (env : Env) {pages : List GPage}
    (h : ∀ g ∈ pages, g.Ok unsnap ms) (hf : FullPages pages) :
    (pagesBytes env ms.dataType pages).length ≤ 22 * (pagesPoints pages).length := by
  have hall : ∀ (l : List GPage), (∀ g ∈ l, g.Ok unsnap ms) → FullPages l →
      (l.flatMap (GPage.bytes env ms.dataType true)).length ≤ 22 * (pagesPoints l).length := by
    intro l
    induction l with
    | nil => simp
    | cons g l ih =>
      intro hl hf
      have h1 := (hl g (by simp)).bytes_le env true
      have h2 := ih (fun g hg => hl g (by simp [hg])) (fun g hg => hf g (by simp [hg]))
      have h3 := hf g (by simp)
      simp only [List.flatMap_cons, List.length_append, pagesPoints, List.map_cons, List.flatten_cons] at *
      omega
  match pages, h with
  | [g], h =>
    have := (h g (by simp)).bytes_le env false
    have := hf g (by simp)
    simp only [pagesBytes, pagesPoints, List.map_cons, List.map_nil, List.flatten_cons, List.flatten_nil, List.append_nil]
    omega
  | [], _ => simp [pagesBytes]
  | a :: b :: l, h => exact hall _ h hf

theorem ChunkRep.mem_le {env : Env} {unsnap : Bytes → Option Bytes} {id : Bytes} {ms : MeasurementSchema}
    {c : ChunkWriter} {pages : List GPage} {cur : List Point} (h : ChunkRep env unsnap id ms c pages cur)
    (hf : FullPages pages) : c.memN ≤ 22 * (pagesPoints pages ++ cur).length + 120 := by
  have h1 := fullPagesBytes_le env h.ok hf
  rw [← h.buffer] at h1
  have hp := h.page
  rw [ChunkWriter.memN]
  split
  · next p hc =>
    rw [hc] at hp
    have h2 := hp.mem_le
    have h3 := p.statistics.sizeN_le
    rw [List.length_append]
    omega
  · omega

/-! ## sums over the series -/

/-- The elements of a list, weighted, are counted under at most one key each. -/
theorem sum_by_key {κ α : Type} [DecidableEq κ] (K : List κ) (hK : K.Nodup) (f : α → κ) (wt : α → Nat) (l : List α) :
    (K.map (fun k => ((l.filter (fun x => decide (f x = k))).map wt).sum)).sum ≤ (l.map wt).sum := by
  induction K generalizing l with
  | nil => simp
  | cons k K ih =>
    rw [List.nodup_cons] at hK
    have h1 := ih hK.2 (l.filter (fun x => !decide (f x = k)))
    have hsplit : ∀ l : List α, (l.map wt).sum = ((l.filter (fun x => decide (f x = k))).map wt).sum
        + ((l.filter (fun x => !decide (f x = k))).map wt).sum := by
      intro l
      induction l with
      | nil => rfl
      | cons x l ih =>
        by_cases hx : f x = k <;> simp [List.filter_cons, hx, ih] <;> omega
    rw [hsplit l, List.map_cons, List.sum_cons]
    refine Nat.add_le_add_left (Nat.le_trans (Nat.le_of_eq ?_) h1) _
    congr 1
    apply List.map_congr_left
    intro k' hk'
    rw [List.filter_filter]
    congr 2
    apply List.filter_congr
    intro x _
    by_cases hx : f x = k'
    · have : k' ≠ k := fun e => hK.1 (e ▸ hk')
      simp [hx, this]
    · simp [hx]

theorem sum_ones (n : Nat) : (List.replicate n 1).sum = n := by
  induction n with
  | zero => rfl
  | succ n ih => rw [List.replicate_succ, List.sum_cons, ih]; omega

theorem sum_map_le {α : Type} (l : List α) (f g : α → Nat) (h : ∀ a ∈ l, f a ≤ g a) :
    (l.map f).sum ≤ (l.map g).sum := by
  induction l with
  | nil => simp
  | cons a l ih =>
    simp only [List.map_cons, List.sum_cons]
    exact Nat.add_le_add (h a (by simp)) (ih (fun b hb => h b (by simp [hb])))

theorem sorted_nodup {α : Type} {m : BMap α} (h : BMap.Sorted m) : (m.map Prod.fst).Nodup := by
  rw [BMap.Sorted] at h
  rw [List.Nodup, List.pairwise_map]
  exact h.imp (fun hlt => bytesLt_ne hlt)

theorem look_le {α : Type} (k : Bytes) (l : List (Bytes × α)) (wt : α → Nat) {v : α} (h : look k l = some v) :
    wt v ≤ ((l.filter (fun x => decide (x.1 = k))).map (fun x => wt x.2)).sum := by
  induction l with
  | nil => simp [look] at h
  | cons x l ih =>
    obtain ⟨k', v'⟩ := x
    rw [look] at h
    by_cases hk : k' = k
    · rw [if_pos hk] at h
      cases h
      simp [List.filter_cons, hk]
    · rw [if_neg hk] at h
      simpa [List.filter_cons, hk] using ih h

theorem GSim.mem_le {env : Env} {unsnap : Bytes → Option Bytes} {ms : List (Bytes × MeasurementSchema)}
    {g : GroupWriter} {d : Bytes} {a : AState} (h : GSim env unsnap ms g d a) :
    g.memN ≤ 22 * (a.pending.filter (fun r => decide (r.device = d))).length + 120 * ms.length := by
  have hnd := sorted_nodup h.sorted
  have h1 : g.memN ≤ (g.chunkWriters.map (fun c => 22 * (series a.pending d c.1).length + 120)).sum := by
    apply sum_map_le
    intro c hc
    obtain ⟨sch, pages, cur, _, hrep, _, hbuf, hfp⟩ := h.chunks c hc
    rw [← hbuf]
    exact hrep.mem_le hfp.full
  have h2 : (g.chunkWriters.map (fun c => (series a.pending d c.1).length)).sum
      ≤ (a.pending.filter (fun r => decide (r.device = d))).length := by
    have := sum_by_key (g.chunkWriters.map Prod.fst) hnd (fun r : Rec => r.measurement) (fun _ => 1)
      (a.pending.filter (fun r => decide (r.device = d)))
    simp only [List.map_map, List.map_const', sum_ones, Function.comp_def, 
      List.filter_filter] at this
    refine Nat.le_trans (Nat.le_of_eq ?_) this
    congr 1
    apply List.map_congr_left
    intro c _
    rw [series, List.length_map]
    congr 1
    apply List.filter_congr
    intro r _
    simp [Bool.and_comm]
  have h3 : g.chunkWriters.length ≤ ms.length := by
    have := sum_by_key (g.chunkWriters.map Prod.fst) hnd (fun x : Bytes × MeasurementSchema => x.1) (fun _ => 1) ms
    simp only [List.map_const', sum_ones] at this
    refine Nat.le_trans ?_ this
    have hle := sum_map_le (g.chunkWriters.map Prod.fst) (fun _ => 1)
      (fun k => (ms.filter (fun x => decide (x.1 = k))).length) (by
        intro k hk
        obtain ⟨v, hv⟩ := Option.isSome_iff_exists.1 ((h.keys k).1 hk)
        have := look_le k ms (fun _ => 1) hv
        simpa using this)
    rw [List.map_const', sum_ones, List.length_map] at hle
    exact hle
  have h4 : ∀ l : List (Bytes × ChunkWriter), (l.map (fun c => 22 * (series a.pending d c.1).length + 120)).sum
      = 22 * (l.map (fun c => (series a.pending d c.1).length)).sum + 120 * l.length := by
    intro l
    induction l with
    | nil => rfl
    | cons c l ih => simp only [List.map_cons, List.sum_cons, ih, List.length_cons]; omega
  rw [h4] at h1
  omega

theorem Sim.mem_le {env : Env} {unsnap : Bytes → Option Bytes} {schema : Schema} {w : Writer} {a : AState}
    {groups : List GGroup} (h : Sim env unsnap schema w a groups) :
    w.memN ≤ 22 * a.pending.length + 120 * schema.size := by
  have hnd := sorted_nodup h.sorted
  have h1 : w.memN ≤ (w.groupWriters.map (fun e =>
      22 * (a.pending.filter (fun r => decide (r.device = e.1))).length
        + 120 * ((schema.filter (fun x => decide (x.1 = e.1))).map (fun x => x.2.length)).sum)).sum := by
    apply sum_map_le
    intro e he
    obtain ⟨ms, hms, hg⟩ := h.devices e he
    have := hg.mem_le
    have := look_le e.1 schema List.length hms
    omega
  have h2 := sum_by_key (w.groupWriters.map Prod.fst) hnd (fun r : Rec => r.device) (fun _ => 1) a.pending
  have h3 := sum_by_key (w.groupWriters.map Prod.fst) hnd (fun x : Bytes × List (Bytes × MeasurementSchema) => x.1)
    (fun x => x.2.length) schema
  simp only [List.map_const', sum_ones, List.map_map, Function.comp_def] at h2 h3
  have h4 : ∀ l : List (Bytes × GroupWriter), (l.map (fun e =>
      22 * (a.pending.filter (fun r => decide (r.device = e.1))).length
        + 120 * ((schema.filter (fun x => decide (x.1 = e.1))).map (fun x => x.2.length)).sum)).sum
      = 22 * (l.map (fun e => (a.pending.filter (fun r => decide (r.device = e.1))).length)).sum
        + 120 * (l.map (fun e => ((schema.filter (fun x => decide (x.1 = e.1))).map (fun x => x.2.length)).sum)).sum := by
    intro l
    induction l with
    | nil => rfl
    | cons c l ih => simp only [List.map_cons, List.sum_cons, ih]; omega
  rw [h4] at h1
  rw [Schema.size]
  omega

theorem ChunkRep.mem_pos {env : Env} {unsnap : Bytes → Option Bytes} {id : Bytes} {ms : MeasurementSchema}
    {c : ChunkWriter} {pages : List GPage} {cur : List Point} (h : ChunkRep env unsnap id ms c pages cur)
    (hne : pagesPoints pages ++ cur ≠ []) : 0 < c.memN := by
  have hp := h.page
  rw [ChunkWriter.memN]
  split
  · omega
  · next hc =>
    rw [hc] at hp
    obtain ⟨rfl, rfl⟩ := hp
    exact absurd rfl hne

theorem le_sum_of_mem {α : Type} {l : List α} {a : α} (f : α → Nat) (h : a ∈ l) : f a ≤ (l.map f).sum := by
  obtain ⟨s, t, rfl⟩ := List.append_of_mem h
  simp only [List.map_append, List.map_cons, List.sum_append, List.sum_cons]
  omega

theorem Sim.mem_pos {env : Env} {unsnap : Bytes → Option Bytes} {schema : Schema} {w : Writer} {a : AState}
    {groups : List GGroup} (h : Sim env unsnap schema w a groups) (hne : a.pending ≠ []) : 0 < w.memN := by
  obtain ⟨r, hr⟩ := List.exists_mem_of_ne_nil _ hne
  obtain ⟨ms, hms, hm⟩ := h.pend r hr
  have hd := (h.keys r.device).2 (by rw [hms]; rfl)
  obtain ⟨e, he, hee⟩ := List.mem_map.1 hd
  obtain ⟨ms', hms', hg⟩ := h.devices e he
  rw [hee, hms] at hms'
  cases hms'
  obtain ⟨c, hc, hcc⟩ := List.mem_map.1 ((hg.keys r.measurement).2 hm)
  obtain ⟨sch, pages, cur, _, hrep, _, hbuf, _⟩ := hg.chunks c hc
  have h1 : 0 < c.2.memN := by
    apply hrep.mem_pos
    rw [hbuf, hee, hcc, series]
    intro hnil
    rw [List.map_eq_nil_iff, List.filter_eq_nil_iff] at hnil
    exact hnil r hr (by simp)
  have h2 : c.2.memN ≤ e.2.memN := le_sum_of_mem (fun c => c.2.memN) hc
  have h3 : e.2.memN ≤ w.memN := le_sum_of_mem (fun g => g.2.memN) he
  omega

/-- The memory check does not panic while the waiting points and the series are few enough for the estimate to fit. -/
theorem checkMemory_some {env : Env} {unsnap : Bytes → Option Bytes} (hsn : SnappyOk env unsnap) {schema : Schema}
    (hwf : schema.WF) {w : Writer} {a : AState} {groups : List GGroup} (h : Sim env unsnap schema w a groups)
    (hne : a.pending ≠ []) (hlen : 22 * a.pending.length + 120 * schema.size < 2 ^ 32) :
    ∃ w', w.checkMemorySize env = some w' := by
  have h1 := h.mem_le
  have h2 := h.mem_pos hne
  have h3 : w.memSize.toNat = w.memN := by rw [w.memN_eq, u32_toNat _ (by omega)]
  rw [Writer.checkMemorySize]
  split
  · simp only
    rw [if_neg (by omega)]
    split
    · have hset : Sim env unsnap schema
          { w with recordCountForNextMemCheck := Writer.nextMemCheck w.recordCountForNextMemCheck w.memSize } a groups :=
        ⟨h.schema_eq, h.file, h.stored, h.sorted, h.keys, h.devices, h.pend, h.count, h.counted_le, h.names, h.blocks, h.exact⟩
      obtain ⟨w2, new, hf, _, _⟩ := sim_flush hsn hwf hset (by omega)
      exact ⟨w2, by rw [hf]; rfl⟩
    · exact ⟨_, rfl⟩
  · exact ⟨w, rfl⟩

/-- A call that hands over at least one point has the result the abstract machine says. -/
theorem step_result {env : Env} {unsnap : Bytes → Option Bytes} (hsn : SnappyOk env unsnap) {schema : Schema}
    (hwf : schema.WF) {w : Writer} {a : AState} {groups : List GGroup} (h : Sim env unsnap schema w a groups)
    (op : Op) (hne : op.recs ≠ [])
    (hlen : 22 * (a.pending.length + op.recs.length) + 120 * schema.size < 2 ^ 32) :
    (w.step env op).2 = (a.exec schema op).2 := by
  obtain ⟨hle, ⟨hr, w1, hs, hst, _⟩ | ⟨e, w1, hr, hs, hst⟩ | ⟨hr, hst⟩⟩ := sim_exec hsn h op
  · have hp : (a.exec schema op).1.pending ≠ [] := by
      obtain ⟨_, h1 | h1⟩ := exec_cases schema a op
      · rw [h1.2.1]; simp [hne]
      · exact absurd hr h1.1
    obtain ⟨w2, hck⟩ := checkMemory_some hsn hwf hs hp (by omega)
    rw [hst, Writer.afterOk, hck, hr]
  · rw [hst, hr]
  · rw [hst, hr]

/-! ## histories without panic -/

/-- Every point of the call that goes to a known series has the type of the series, and the encoding of the
series exists for its type. -/
def Op.Typed (schema : Schema) (op : Op) : Prop :=
  ∀ r ∈ op.recs, ∀ ms s, look r.device schema = some ms → look r.measurement ms = some s →
    fits s.dataType r.value = true ∧ encodable s.dataType s.encoding = true

theorem put_ne_panic {a : AState} {ms : List (Bytes × MeasurementSchema)} {d m : Bytes} {t : W64} {v : IoTDBValue}
    (h : ∀ s, look m ms = some s → fits s.dataType v = true ∧ encodable s.dataType s.encoding = true) :
    (a.put ms d m t v).2 ≠ .panic := by
  rw [AState.put]
  split
  · simp
  · split
    · simp
    · next s hs => rw [if_pos (by simp [h s hs])]; simp

theorem putMany_ne_panic {ms : List (Bytes × MeasurementSchema)} {d : Bytes} {t : W64}
    (vs : List (Bytes × IoTDBValue)) {a : AState}
    (h : ∀ p ∈ vs, ∀ s, look p.1 ms = some s →
      fits s.dataType p.2 = true ∧ encodable s.dataType s.encoding = true) :
    (AState.putMany ms d t vs a).2 ≠ .panic := by
  induction vs generalizing a with
  | nil => simp [AState.putMany]
  | cons e vs ih =>
    obtain ⟨m, v⟩ := e
    have h1 := put_ne_panic (a := a) (d := d) (t := t) (h (m, v) (by simp))
    rw [AState.putMany]
    cases hp : a.put ms d m t v with
    | mk a' r =>
      rw [hp] at h1
      cases r with
      | ok u => exact ih (fun p hp => h p (by simp [hp]))
      | err e => simp
      | panic => exact absurd rfl h1

theorem exec_ne_panic {schema : Schema} {a : AState} {op : Op} (h : Op.Typed schema op) :
    (a.exec schema op).2 ≠ .panic := by
  cases op with
  | write d m t v =>
    rw [AState.exec]
    cases hl : look d schema with
    | none => simp
    | some ms =>
      have h1 := put_ne_panic (a := a) (d := d) (t := t) (v := v) (m := m)
        (fun s hs => h ⟨d, m, t, v⟩ (by simp [Op.recs]) ms s hl hs)
      simp only
      cases hp : a.put ms d m t v with
      | mk a' r =>
        rw [hp] at h1
        cases r with
        | ok u => simp
        | err e => simp
        | panic => exact absurd rfl h1
  | writeMany d t vs =>
    rw [AState.exec]
    cases hl : look d schema with
    | none => simp
    | some ms =>
      have h1 := putMany_ne_panic (a := a) (d := d) (t := t) vs
        (fun p hp s hs => h ⟨d, p.1, t, p.2⟩ (by simp only [Op.recs]; exact List.mem_map.2 ⟨p, hp, rfl⟩) ms s hl hs)
      simp only
      cases hp : AState.putMany ms d t vs a with
      | mk a' r =>
        rw [hp] at h1
        cases r with
        | ok u => simp
        | err e => simp
        | panic => exact absurd rfl h1

/-- A history of typed calls does not panic while fewer than `L` points wait, if the estimate for that many fits. -/
theorem run_fine {env : Env} {unsnap : Bytes → Option Bytes} (hsn : SnappyOk env unsnap) {schema : Schema}
    (hwf : schema.WF) (ops : List Op) {w : Writer} {a : AState} {groups : List GGroup}
    (h : Sim env unsnap schema w a groups) (n : Nat) (hn : a.pending.length ≤ n) {L : Nat}
    (hL : 22 * L + 120 * schema.size ≤ 2 ^ 32)
    (hlen : burstsBelow L n (ops.zip ((w.grown env ops).map (fun n => decide (0 < n)))))
    (htyp : ∀ op ∈ ops, op.recs ≠ [] ∧ Op.Typed schema op) :
    .panic ∉ (w.run env ops).2 := by
  induction ops generalizing w a groups n with
  | nil => simp [Writer.run]
  | cons op ops ih =>
    simp only [Writer.grown, List.map_cons, List.zip_cons_cons, burstsBelow] at hlen
    have hop := htyp op (by simp)
    have hres := step_result hsn hwf h op hop.1 (by omega)
    have hnp : (w.step env op).2 ≠ .panic := by rw [hres]; exact exec_ne_panic hop.2
    obtain ⟨new1, _, _, hs1, hl1⟩ := sim_step hsn hwf h op (by omega) hnp
    have hg := grows_iff h.file hs1.file
    rw [hg.2] at hlen
    have := ih hs1 (if decide (new1 ≠ []) then 0 else n + op.recs.length)
      (by split at hl1 <;> simp_all; omega) hlen.2 (fun o ho => htyp o (by simp [ho]))
    simp only [Writer.run, List.mem_cons, not_or]
    exact ⟨fun hc => hnp hc.symm, this⟩

theorem burstsBelow_mono {l1 l2 : Nat} (h : l1 ≤ l2) (l : List (Op × Bool)) (n : Nat) (hb : burstsBelow l1 n l) :
    burstsBelow l2 n l := by
  induction l generalizing n with
  | nil => trivial
  | cons e l ih =>
    obtain ⟨op, fl⟩ := e
    exact ⟨Nat.lt_of_lt_of_le hb.1 h, ih _ hb.2⟩

end TsFile
