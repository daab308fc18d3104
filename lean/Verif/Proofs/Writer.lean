import Verif.Proofs.File
import Verif.Proofs.Trace
import Verif.Model.Session
/-! # The writer refines the abstract machine -/

namespace TsFile
open Spec

theorem series_append (l l' : List Rec) (d m : Bytes) : series (l ++ l') d m = series l d m ++ series l' d m := by
  simp [series]

theorem series_single (r : Rec) (d m : Bytes) :
    series [r] d m = if r.device = d ∧ r.measurement = m then [(r.timestamp, r.value)] else [] := by
  simp only [series, List.filter_cons, List.filter_nil]
  split <;> simp_all

theorem length_series_le (l : List Rec) (d m : Bytes) : (series l d m).length ≤ l.length := by
  simp only [series, List.length_map]
  exact List.length_filter_le _ _

/-- One device: the group writer against the abstract state. -/
structure GSim (env : Env) (unsnap : Bytes → Option Bytes) (ms : List (Bytes × MeasurementSchema))
    (g : GroupWriter) (d : Bytes) (a : AState) : Prop where
  chunks : ChunksRep env unsnap ms g.chunkWriters (series a.pending d)
  sorted : BMap.Sorted g.chunkWriters
  keys : ∀ m, m ∈ g.chunkWriters.map Prod.fst ↔ (look m ms).isSome
  last : ∀ m, (BMap.get? m g.lastTimeMap).getD (-1) = a.last d m

theorem checkIsHistory_rep (g : GroupWriter) (d m : Bytes) (t : W64) (a : AState)
    (hl : ∀ m, (BMap.get? m g.lastTimeMap).getD (-1) = a.last d m) :
    ∃ g', g.checkIsHistoryData m t = (g', !(t.sle (a.last d m))) ∧ g'.chunkWriters = g.chunkWriters
      ∧ g'.path = g.path
      ∧ (∀ m, (BMap.get? m g'.lastTimeMap).getD (-1) = a.last d m) := by
  rw [GroupWriter.checkIsHistoryData]
  have hm := hl m
  cases hg : BMap.get? m g.lastTimeMap with
  | none =>
    rw [hg] at hm
    simp only [Option.getD_none] at hm
    refine ⟨{ g with lastTimeMap := g.lastTimeMap.insert m (-1) }, by simp only [hm], rfl, rfl, ?_⟩
    intro m'
    simp only [BMap.get?_insert]
    by_cases h : m = m'
    · subst h; rw [if_pos rfl]; exact hm
    · simp only [if_neg h]; exact hl m'
  | some last =>
    rw [hg] at hm
    simp only [Option.getD_some] at hm
    exact ⟨g, by simp [hm], rfl, rfl, hl⟩

theorem mem_insert_sorted {α : Type} {k : Bytes} {v : α} {m : BMap α} (hs : BMap.Sorted m)
    {e : Bytes × α} (h : e ∈ BMap.insert k v m) : e = (k, v) ∨ (e ∈ m ∧ k ≠ e.1) := by
  by_cases hk : k = e.1
  · left
    have h1 := BMap.get?_of_mem (BMap.sorted_insert hs) (k := e.1) (v := e.2) h
    rw [BMap.get?_insert, if_pos hk] at h1
    simp only [Option.some.injEq] at h1
    rw [hk, h1]
  · rcases BMap.mem_insert h with h | h
    · exact Or.inl h
    · exact Or.inr ⟨h, hk⟩

theorem keyList_insert {α : Type} {k : Bytes} {v : α} {m : BMap α} (hs : BMap.Sorted m) (hk : k ∈ m.map Prod.fst) :
    (BMap.insert k v m).map Prod.fst = m.map Prod.fst := by
  induction m with
  | nil => simp at hk
  | cons e m ih =>
    obtain ⟨k', v'⟩ := e
    have hs' := List.pairwise_cons.1 hs
    rw [BMap.insert]
    by_cases h : k' = k
    · rw [if_pos h, h]; rfl
    · rw [if_neg h]
      have hk' : k ∈ m.map Prod.fst := by
        rcases List.mem_cons.1 hk with hk | hk
        · exact absurd hk.symm h
        · exact hk
      obtain ⟨e, he, hek⟩ := List.mem_map.1 hk'
      have hlt : bytesLt k' k = true := by rw [← hek]; exact hs'.1 e he
      rw [if_neg (fun hc => by
        have := bytesLt_trans hlt hc
        rw [bytesLt_irrefl] at this
        cases this), List.map_cons, ih hs'.2 hk', List.map_cons]

theorem keys_insert {α : Type} {k : Bytes} {v : α} {m : BMap α} (hk : k ∈ m.map Prod.fst) (k' : Bytes) :
    k' ∈ (BMap.insert k v m).map Prod.fst ↔ k' ∈ m.map Prod.fst := by
  rw [← BMap.get?_isSome_iff, ← BMap.get?_isSome_iff, BMap.get?_insert]
  by_cases h : k = k'
  · subst h; simp [(BMap.get?_isSome_iff m k).2 hk]
  · simp [h]

/-- How the result of the concrete call (`n` = records written) relates to the abstract one. -/
inductive ResEq (n : Nat) : Res W32 → Res Unit → Prop
  | ok (k : W32) (u : Unit) : k = u32 n → ResEq n (.ok k) (.ok u)
  | err (e : TsFileError) : ResEq n (.err e) (.err e)
  | panic : ResEq n .panic .panic

/-- One point. -/
theorem group_write_sim {env : Env} {unsnap : Bytes → Option Bytes} (hsn : SnappyOk env unsnap)
    {ms : List (Bytes × MeasurementSchema)} {g : GroupWriter} {d : Bytes} {a : AState}
    (h : GSim env unsnap ms g d a) (m : Bytes) (t : W64) (v : IoTDBValue) :
    ResEq 1 (g.write env m t v).2 (a.put ms d m t v).2
      ∧ ((a.put ms d m t v).2 ≠ .panic → GSim env unsnap ms (g.write env m t v).1 d (a.put ms d m t v).1) := by
  obtain ⟨g1, hck, hcw, hpath, hlast⟩ := checkIsHistory_rep g d m t a h.last
  have h1 : GSim env unsnap ms g1 d a := ⟨by rw [hcw]; exact h.chunks, by rw [hcw]; exact h.sorted,
    by rw [hcw]; exact h.keys, hlast⟩
  rw [GroupWriter.write, hck, AState.put]
  by_cases ho : t.toInt ≤ (a.last d m).toInt
  · have : t.sle (a.last d m) = true := by simp [BitVec.sle, ho]
    rw [this, if_pos ho]
    exact ⟨.err _, fun _ => h1⟩
  · have : t.sle (a.last d m) = false := by simp [BitVec.sle]; omega
    rw [this, if_neg ho]
    simp only [Bool.not_false]
    cases hg : BMap.get? m g1.chunkWriters with
    | none =>
      have : look m ms = none := by
        by_contra hne
        have h2 := (h1.keys m).2 (by rw [Option.isSome_iff_ne_none]; exact hne)
        rw [← BMap.get?_isSome_iff, hg] at h2
        simp at h2
      rw [this]
      exact ⟨.err _, fun _ => h1⟩
    | some c =>
      have hmem := BMap.mem_of_get? hg
      obtain ⟨sch, pages, cur, hsch, hrep, hle, hbuf, hfp⟩ := h1.chunks (m, c) hmem
      simp only at hsch hrep hbuf
      rw [hsch]
      simp only
      obtain ⟨hw1, hw2⟩ := chunkRep_write hsn hrep hle t v
      by_cases hok : fits sch.dataType v = true ∧ encodable sch.dataType sch.encoding = true
      · obtain ⟨c', pages', cur', hw, hr', hpts, hl', _, _, hfull⟩ := hw1 hok.1 hok.2
        rw [hw, if_pos (by simp [hok])]
        refine ⟨.ok _ _ rfl, fun _ => ⟨?_, BMap.sorted_insert h1.sorted, ?_, ?_⟩⟩
        · intro e he
          rcases mem_insert_sorted h1.sorted he with rfl | ⟨he, hne⟩
          · refine ⟨sch, pages', cur', hsch, hr', hl', ?_, hfull hfp⟩
            rw [hpts, hbuf, series_append, series_single]
            simp
          · obtain ⟨s', p', cu', q1, q2, q3, q4, q5⟩ := h1.chunks e he
            refine ⟨s', p', cu', q1, q2, q3, ?_, q5⟩
            rw [q4, series_append, series_single]
            simp [hne]
        · intro m'
          rw [keys_insert (List.mem_map.2 ⟨_, hmem, rfl⟩)]
          exact h1.keys m'
        · intro m'
          simp only [BMap.get?_insert]
          by_cases hm : m = m'
          · subst hm; simp
          · have hm' : ¬ m' = m := fun e => hm e.symm
            simp only [if_neg hm, hm', and_false, if_false]
            exact h1.last m'
      · rw [if_neg (by simpa [Bool.and_eq_true] using hok)]
        cases hw : c.write env t v with
        | ok r => exact absurd (hw2 r hw) hok
        | err e => exact ⟨.panic, fun hc => absurd rfl hc⟩
        | panic => exact ⟨.panic, fun hc => absurd rfl hc⟩

/-- Several points. -/
theorem group_writeMany_sim {env : Env} {unsnap : Bytes → Option Bytes} (hsn : SnappyOk env unsnap)
    {ms : List (Bytes × MeasurementSchema)} {d : Bytes} (t : W64) (vs : List (Bytes × IoTDBValue))
    (g : GroupWriter) (a : AState) (h : GSim env unsnap ms g d a) (n : Nat) :
    ResEq (n + vs.length) (GroupWriter.writeMany env t vs (u32 n) g).2 (AState.putMany ms d t vs a).2
      ∧ ((AState.putMany ms d t vs a).2 ≠ .panic →
        GSim env unsnap ms (GroupWriter.writeMany env t vs (u32 n) g).1 d (AState.putMany ms d t vs a).1) := by
  induction vs generalizing g a n with
  | nil => exact ⟨.ok _ _ rfl, fun _ => h⟩
  | cons e vs ih =>
    obtain ⟨m, v⟩ := e
    obtain ⟨h1, h2⟩ := group_write_sim hsn h m t v
    rw [GroupWriter.writeMany, AState.putMany]
    cases hp : a.put ms d m t v with
    | mk a' r' =>
      rw [hp] at h1 h2
      cases hg : g.write env m t v with
      | mk g' r =>
        rw [hg] at h1 h2
        cases r' with
        | ok u =>
          cases r with
          | ok k =>
            cases h1
            next h1 =>
            subst h1
            have := ih g' a' (h2 (by simp)) (n + 1)
            rw [show n + 1 + vs.length = n + ((m, v) :: vs).length by simp; omega] at this
            rw [show u32 (n + 1) = u32 n + u32 1 by simp [u32, BitVec.ofNat_add]] at this
            exact this
          | err e => cases h1
          | panic => cases h1
        | err e =>
          cases r with
          | ok k => cases h1
          | err e' => cases h1; exact ⟨.err _, fun _ => h2 (by simp)⟩
          | panic => cases h1
        | panic =>
          cases r with
          | ok k => cases h1
          | err e' => cases h1
          | panic => exact ⟨.panic, fun hc => absurd rfl hc⟩

theorem put_bursts (a : AState) (ms : List (Bytes × MeasurementSchema)) (d m : Bytes) (t : W64) (v : IoTDBValue) :
    (a.put ms d m t v).1.bursts = a.bursts := by
  rw [AState.put]
  split
  · rfl
  · split
    · rfl
    · split <;> rfl

theorem putMany_bursts (ms : List (Bytes × MeasurementSchema)) (d : Bytes) (t : W64) (vs : List (Bytes × IoTDBValue))
    (a : AState) : (AState.putMany ms d t vs a).1.bursts = a.bursts := by
  induction vs generalizing a with
  | nil => rfl
  | cons e vs ih =>
    obtain ⟨m, v⟩ := e
    have h := put_bursts a ms d m t v
    rw [AState.putMany]
    rcases hp : a.put ms d m t v with ⟨a', r⟩
    rw [hp] at h
    cases r with
    | ok u => dsimp only; rw [ih]; exact h
    | err e => exact h
    | panic => exact h

/-- What `put` changes. -/
theorem put_pending (a : AState) (ms : List (Bytes × MeasurementSchema)) (d m : Bytes) (t : W64) (v : IoTDBValue) :
    (a.put ms d m t v).1.stored = a.stored ∧ (a.put ms d m t v).1.counted = a.counted
    ∧ (∀ d' m', d' ≠ d → (a.put ms d m t v).1.last d' m' = a.last d' m')
    ∧ ∃ new, (a.put ms d m t v).1.pending = a.pending ++ new
      ∧ new.length = (if (a.put ms d m t v).2 = .ok () then 1 else 0)
      ∧ ∀ r ∈ new, r.device = d ∧ (look r.measurement ms).isSome := by
  rw [AState.put]
  split
  · exact ⟨rfl, rfl, fun _ _ _ => rfl, [], by simp, by simp, by simp⟩
  · split
    · exact ⟨rfl, rfl, fun _ _ _ => rfl, [], by simp, by simp, by simp⟩
    · next s hs =>
      split
      · refine ⟨rfl, rfl, ?_, [⟨d, m, t, v⟩], rfl, by simp, by simp [hs]⟩
        intro d' m' hd
        simp [hd]
      · exact ⟨rfl, rfl, fun _ _ _ => rfl, [], by simp, by simp, by simp⟩

theorem putMany_pending (ms : List (Bytes × MeasurementSchema)) (d : Bytes) (t : W64)
    (vs : List (Bytes × IoTDBValue)) (a : AState) :
    (AState.putMany ms d t vs a).1.stored = a.stored ∧ (AState.putMany ms d t vs a).1.counted = a.counted
    ∧ (∀ d' m', d' ≠ d → (AState.putMany ms d t vs a).1.last d' m' = a.last d' m')
    ∧ ∃ new, (AState.putMany ms d t vs a).1.pending = a.pending ++ new
      ∧ new.length ≤ vs.length
      ∧ ((AState.putMany ms d t vs a).2 = .ok () → new.length = vs.length)
      ∧ ∀ r ∈ new, r.device = d ∧ (look r.measurement ms).isSome := by
  induction vs generalizing a with
  | nil => exact ⟨rfl, rfl, fun _ _ _ => rfl, [], by simp [AState.putMany], by simp, by simp, by simp⟩
  | cons e vs ih =>
    obtain ⟨m, v⟩ := e
    obtain ⟨h1, h2, h3, new, h4, h5, h6⟩ := put_pending a ms d m t v
    rw [AState.putMany]
    cases hp : a.put ms d m t v with
    | mk a' r' =>
      rw [hp] at h1 h2 h3 h4 h5
      simp only at h1 h2 h3 h4 h5
      cases r' with
      | ok u =>
        obtain ⟨i1, i2, i3, new', i4, i5, i6, i7⟩ := ih a'
        refine ⟨by rw [← h1]; exact i1, by rw [← h2]; exact i2, ?_, new ++ new', ?_, ?_, ?_, ?_⟩
        · intro d' m' hd
          rw [← h3 d' m' hd]
          exact i3 d' m' hd
        · rw [← List.append_assoc, ← h4]; exact i4
        · simp at h5; simp [h5]; omega
        · intro hok
          simp at h5
          simp [h5, i6 hok]; omega
        · intro r hr
          rcases List.mem_append.1 hr with hr | hr
          · exact h6 r hr
          · exact i7 r hr
      | err e =>
        refine ⟨h1, h2, h3, new, h4, ?_, by simp, h6⟩
        simp at h5; simp [h5]
      | panic =>
        refine ⟨h1, h2, h3, new, h4, ?_, by simp, h6⟩
        simp at h5; simp [h5]

/-- The concrete writer against the abstract state; `groups` is the content of the file. -/
structure Sim (env : Env) (unsnap : Bytes → Option Bytes) (schema : Schema) (w : Writer) (a : AState)
    (groups : List GGroup) : Prop where
  schema_eq : w.schema = schema
  file : FileRep env unsnap schema w.io groups
  stored : ∀ d m, filePts groups d m = series a.stored d m
  sorted : BMap.Sorted w.groupWriters
  keys : ∀ d, d ∈ w.groupWriters.map Prod.fst ↔ (look d schema).isSome
  devices : ∀ e ∈ w.groupWriters, ∃ ms, look e.1 schema = some ms ∧ GSim env unsnap ms e.2 e.1 a
  pend : ∀ r ∈ a.pending, ∃ ms, look r.device schema = some ms ∧ (look r.measurement ms).isSome
  count : w.recordCount = u32 a.counted
  counted_le : a.counted ≤ a.pending.length
  names : w.groupWriters.map Prod.fst = (Writer.newGroupWriters env schema).map Prod.fst
  blocks : ∃ parts : List (List GGroup), groups = parts.flatten
    ∧ List.Forall₂ (fun part b => part.map Prod.fst = (Writer.newGroupWriters env schema).map Prod.fst
        ∧ ∀ d m, filePts part d m = series b d m) parts a.bursts
  exact : ∀ g ∈ groups, ∀ c ∈ g.2, c.Exact env

/-- Fresh group writers. -/
theorem newGroupWriters_rep (env : Env) (unsnap : Bytes → Option Bytes) (schema : Schema) (hwf : schema.WF)
    (a : AState) (hp : a.pending = []) (hl : a.last = fun _ _ => -1) :
    BMap.Sorted (Writer.newGroupWriters env schema)
    ∧ (∀ d, d ∈ (Writer.newGroupWriters env schema).map Prod.fst ↔ (look d schema).isSome)
    ∧ ∀ e ∈ Writer.newGroupWriters env schema, ∃ ms, look e.1 schema = some ms ∧ GSim env unsnap ms e.2 e.1 a := by
  have hget : ∀ d, BMap.get? d (Writer.newGroupWriters env schema)
      = (look d schema).map (fun ms => GroupWriter.new env d ms) := by
    intro d
    rw [Writer.newGroupWriters, BMap.get?_ofList _ _ (by simpa [Function.comp_def] using hwf.1), look_eq]
    exact BMap.get?_map schema (fun d ms => GroupWriter.new env d ms) d
  refine ⟨BMap.sorted_ofList _, ?_, ?_⟩
  · intro d
    rw [← BMap.get?_isSome_iff, hget]
    simp
  · intro e he
    have h1 := BMap.get?_of_mem (BMap.sorted_ofList _) (k := e.1) (v := e.2) he
    change BMap.get? e.1 (Writer.newGroupWriters env schema) = _ at h1
    rw [hget] at h1
    cases hs : look e.1 schema with
    | none => rw [hs] at h1; simp at h1
    | some ms =>
      rw [hs] at h1
      simp only [Option.map_some, Option.some.injEq] at h1
      refine ⟨ms, rfl, ?_⟩
      rw [← h1]
      have hnd : (ms.map Prod.fst).Nodup := by
        rw [look_eq] at hs
        exact hwf.2 _ (BMap.mem_of_get? hs)
      have hgetc : ∀ m, BMap.get? m (GroupWriter.new env e.1 ms).chunkWriters
          = (look m ms).map (fun s => ChunkWriter.new env m s.dataType s.compression s.encoding) := by
        intro m
        simp only [GroupWriter.new]
        rw [BMap.get?_ofList _ _ (by simpa [Function.comp_def] using hnd), look_eq]
        exact BMap.get?_map ms (fun m s => ChunkWriter.new env m s.dataType s.compression s.encoding) m
      refine ⟨?_, BMap.sorted_ofList _, ?_, ?_⟩
      · intro c hc
        have h2 := BMap.get?_of_mem (BMap.sorted_ofList _) (k := c.1) (v := c.2) hc
        change BMap.get? c.1 (GroupWriter.new env e.1 ms).chunkWriters = _ at h2
        rw [hgetc] at h2
        cases hsm : look c.1 ms with
        | none => rw [hsm] at h2; simp at h2
        | some s =>
          rw [hsm] at h2
          simp only [Option.map_some, Option.some.injEq] at h2
          refine ⟨s, [], [], rfl, ?_, by simp, ?_, by rw [← h2]; exact exact_new env s⟩
          · rw [← h2]; exact chunkRep_new env unsnap c.1 s
          · rw [hp]; rfl
      · intro m
        rw [← BMap.get?_isSome_iff, hgetc]
        simp
      · intro m
        rw [hl]
        rfl

/-- The fresh writer. -/
theorem sim_new {env : Env} (unsnap : Bytes → Option Bytes) {schema : Schema} (hwf : schema.WF) {w : Writer}
    (h : Writer.new env schema ⟨[], none⟩ = .ok w) : Sim env unsnap schema w AState.init [] := by
  simp only [Writer.new, IoWriter.new, Sink.ok, Sink.write, if_true, Except.ok.injEq] at h
  subst h
  obtain ⟨h1, h2, h3⟩ := newGroupWriters_rep env unsnap schema hwf AState.init rfl rfl
  exact ⟨rfl, ⟨rfl, rfl, rfl, by simp, rfl⟩, fun _ _ => rfl, h1, h2, h3, by simp [AState.init], rfl, by simp [AState.init],
    rfl, ⟨[], rfl, .nil⟩, by simp⟩

/-- Flushing. -/
theorem sim_flush {env : Env} {unsnap : Bytes → Option Bytes} (hsn : SnappyOk env unsnap) {schema : Schema}
    (hwf : schema.WF) {w : Writer} {a : AState} {groups : List GGroup} (h : Sim env unsnap schema w a groups)
    (hlen : a.pending.length < 2 ^ 32) :
    ∃ w' new, w.flushAllChunkGroups env = some (w', none) ∧ Sim env unsnap schema w' a.flush (groups ++ new)
      ∧ (new = [] ↔ a.counted = 0) := by
  have hcl := h.counted_le
  have hrc : w.recordCount.toNat = a.counted := by rw [h.count, u32_toNat _ (by omega)]
  rw [Writer.flushAllChunkGroups, hrc, AState.flush]
  by_cases h0 : a.counted = 0
  · rw [if_neg (by omega), if_pos h0]
    exact ⟨w, [], rfl, by simpa using h, by simp [h0]⟩
  · rw [if_pos (by omega), if_neg h0]
    have hgr : GroupsRep env unsnap schema w.groupWriters (series a.pending) := by
      intro e he
      obtain ⟨ms, hms, hg⟩ := h.devices e he
      exact ⟨ms, hms, hg.chunks, hg.sorted, hg.keys⟩
    have hser : ∀ (d m : Bytes), (∀ ms, look d schema = some ms → look m ms = none) → series a.pending d m = [] := by
      intro d m hno
      simp only [series, List.map_eq_nil_iff, List.filter_eq_nil_iff, decide_eq_true_eq]
      rintro r hr ⟨rfl, rfl⟩
      obtain ⟨ms, h1, h2⟩ := h.pend r hr
      rw [hno ms h1] at h2
      simp at h2
    obtain ⟨gs', io', lm', new, hloop, hfile, hkn, hpts, hex⟩ := flushLoop_rep hsn w.groupWriters hgr h.sorted
      (fun d m => Nat.lt_of_le_of_lt (length_series_le _ d m) hlen)
      (fun d ms hms m hm => hser d m (fun ms' hms' => by rw [hms] at hms'; cases hms'; exact hm))
      w.io w.nonAlignedLastTimeMap groups h.file
    rw [hloop]
    obtain ⟨n1, n2, n3⟩ := newGroupWriters_rep env unsnap schema hwf
      { stored := a.stored ++ a.pending, pending := [], last := fun _ _ => -1, counted := 0, bursts := a.bursts ++ [a.pending] } rfl rfl
    have hnn : new ≠ [] := by
      intro hc
      rw [hc] at hkn
      obtain ⟨r, hr⟩ : ∃ r, r ∈ a.pending := List.exists_mem_of_length_pos (by omega)
      obtain ⟨ms, h1, _⟩ := h.pend r hr
      have := (h.keys r.device).2 (by rw [h1]; rfl)
      rw [← hkn] at this
      simp at this
    refine ⟨_, new, rfl, ?_, by simp [hnn, h0]⟩
    simp only [Writer.reset, h.schema_eq]
    have hnp : ∀ d m, filePts new d m = series a.pending d m := by
      intro d m
      rw [hpts]
      split
      · rfl
      · next hd =>
        symm
        apply hser
        intro ms hms
        exact absurd ((h.keys d).2 (by rw [hms]; rfl)) hd
    refine ⟨rfl, hfile, ?_, n1, n2, n3, by simp, rfl, by simp, rfl, ?_, ?_⟩
    · intro d m
      rw [filePts_append, h.stored, series_append, hnp]
    · obtain ⟨parts, hp, hf⟩ := h.blocks
      refine ⟨parts ++ [new], by rw [hp]; simp, ?_⟩
      exact List.rel_append hf (List.Forall₂.cons ⟨by rw [hkn, h.names], hnp⟩ .nil)
    · intro g hg
      rcases List.mem_append.1 hg with hg | hg
      · exact h.exact g hg
      · exact hex g hg

/-- Replacing the group writer of one device. -/
theorem sim_insert {env : Env} {unsnap : Bytes → Option Bytes} {schema : Schema} {w : Writer} {a a' : AState}
    {groups : List GGroup} (h : Sim env unsnap schema w a groups) {d : Bytes} {ms : List (Bytes × MeasurementSchema)}
    (hms : look d schema = some ms) {g' : GroupWriter} (hg' : GSim env unsnap ms g' d a')
    (hstored : a'.stored = a.stored) (hlast : ∀ d' m', d' ≠ d → a'.last d' m' = a.last d' m')
    (new : List Rec) (hpend : a'.pending = a.pending ++ new)
    (hnew : ∀ r ∈ new, r.device = d ∧ (look r.measurement ms).isSome) (rc : W32)
    (hrc : rc = u32 a'.counted) (hcl : a'.counted ≤ a'.pending.length) (hfl : a'.bursts = a.bursts) :
    Sim env unsnap schema { w with groupWriters := w.groupWriters.insert d g', recordCount := rc } a' groups := by
  have hd : d ∈ w.groupWriters.map Prod.fst := (h.keys d).2 (by rw [hms]; rfl)
  refine ⟨h.schema_eq, h.file, by rw [hstored]; exact h.stored, BMap.sorted_insert h.sorted, ?_, ?_, ?_, hrc, hcl,
    by
      show (BMap.insert d g' w.groupWriters).map Prod.fst = _
      rw [keyList_insert h.sorted hd]; exact h.names, by rw [hfl]; exact h.blocks, h.exact⟩
  · intro d'
    rw [keys_insert hd]
    exact h.keys d'
  · intro e he
    rcases mem_insert_sorted h.sorted he with rfl | ⟨he, hne⟩
    · exact ⟨ms, hms, hg'⟩
    · obtain ⟨ms', hms', hg⟩ := h.devices e he
      refine ⟨ms', hms', ⟨?_, hg.sorted, hg.keys, ?_⟩⟩
      · intro c hc
        obtain ⟨s, p, cu, q1, q2, q3, q4, q5⟩ := hg.chunks c hc
        refine ⟨s, p, cu, q1, q2, q3, ?_, q5⟩
        rw [q4, hpend, series_append]
        have : series new e.1 c.1 = [] := by
          simp only [series, List.map_eq_nil_iff, List.filter_eq_nil_iff, decide_eq_true_eq]
          rintro r hr ⟨h1, _⟩
          exact hne (by rw [← h1, (hnew r hr).1])
        rw [this, List.append_nil]
      · intro m
        rw [hlast e.1 m (Ne.symm hne)]
        exact hg.last m
  · intro r hr
    rw [hpend] at hr
    rcases List.mem_append.1 hr with hr | hr
    · exact h.pend r hr
    · obtain ⟨h1, h2⟩ := hnew r hr
      exact ⟨ms, by rw [h1]; exact hms, h2⟩

/-- The memory check: nothing changes, or everything is flushed. -/
theorem sim_checkMemory {env : Env} {unsnap : Bytes → Option Bytes} (hsn : SnappyOk env unsnap) {schema : Schema}
    (hwf : schema.WF) {w : Writer} {a : AState} {groups : List GGroup} (h : Sim env unsnap schema w a groups)
    (hlen : a.pending.length < 2 ^ 32) {w' : Writer} (hck : w.checkMemorySize env = some w') :
    ∃ new, Sim env unsnap schema w' (if new = [] then a else a.flush) (groups ++ new)
      ∧ (new ≠ [] → a.counted ≠ 0) := by
  have hset : ∀ n, Sim env unsnap schema { w with recordCountForNextMemCheck := n } a groups :=
    fun n => ⟨h.schema_eq, h.file, h.stored, h.sorted, h.keys, h.devices, h.pend, h.count, h.counted_le, h.names, h.blocks, h.exact⟩
  rw [Writer.checkMemorySize] at hck
  split at hck
  · simp only at hck
    split at hck
    · simp at hck
    · split at hck
      · obtain ⟨w2, new, hf, hs, h0⟩ :=
          sim_flush hsn hwf (hset (Writer.nextMemCheck w.recordCountForNextMemCheck w.memSize)) hlen
        rw [hf] at hck
        simp only [Option.map_some, Option.some.injEq] at hck
        subst hck
        refine ⟨new, ?_, fun hn => (not_congr h0).1 hn⟩
        by_cases hn : new = []
        · rw [if_pos hn]
          rwa [AState.flush, if_pos (h0.1 hn)] at hs
        · rw [if_neg hn]; exact hs
      · simp only [Option.some.injEq] at hck
        subst hck
        exact ⟨[], by simpa using hset _, by simp⟩
  · simp only [Option.some.injEq] at hck
    subst hck
    exact ⟨[], by simpa using h, by simp⟩

/-- The output grows exactly if chunk groups are written. -/
theorem grows_iff {env : Env} {unsnap : Bytes → Option Bytes} {schema : Schema} {io io' : IoWriter}
    {groups new : List GGroup} (h : FileRep env unsnap schema io groups)
    (h' : FileRep env unsnap schema io' (groups ++ new)) :
    io'.out.bytes.length - io.out.bytes.length = (new.flatMap (groupBytes env)).length
    ∧ decide (0 < io'.out.bytes.length - io.out.bytes.length) = decide (new ≠ []) := by
  rw [h.bytes, h'.bytes, fileBytes_append, List.length_append, Nat.add_sub_cancel_left]
  refine ⟨rfl, ?_⟩
  cases new with
  | nil => simp
  | cons g gs => simp [groupBytes, chunkGroupHeader]

/-- The state after the points of a successful call were handed to the group writer, before the memory check. -/
def Writer.handed (env : Env) (w : Writer) : Op → Option Writer
  | .write d m t v =>
    match w.groupWriters.get? d with
    | none => none
    | some g =>
      match g.write env m t v with
      | (g, .ok n) => some { w with groupWriters := w.groupWriters.insert d g, recordCount := w.recordCount + n }
      | _ => none
  | .writeMany d t vs =>
    match w.groupWriters.get? d with
    | none => none
    | some g =>
      match g.writeMany env t vs 0 with
      | (g, .ok n) => some { w with groupWriters := w.groupWriters.insert d g, recordCount := w.recordCount + n }
      | _ => none

/-- One call, up to the memory check that follows it if it is successful. -/
theorem sim_exec {env : Env} {unsnap : Bytes → Option Bytes} (hsn : SnappyOk env unsnap) {schema : Schema}
    {w : Writer} {a : AState} {groups : List GGroup} (h : Sim env unsnap schema w a groups) (op : Op) :
    (a.exec schema op).1.pending.length ≤ a.pending.length + op.recs.length ∧
    (((a.exec schema op).2 = .ok () ∧ ∃ w1, Sim env unsnap schema w1 (a.exec schema op).1 groups
        ∧ w.step env op = w1.afterOk env ∧ w1.recordCountForNextMemCheck = w.recordCountForNextMemCheck
        ∧ w.handed env op = some w1 ∧ ∀ io, ({ w with io } : Writer).step env op = ({ w1 with io } : Writer).afterOk env)
    ∨ (∃ e w1, (a.exec schema op).2 = .err e ∧ Sim env unsnap schema w1 (a.exec schema op).1 groups
        ∧ w.step env op = (w1, .err e))
    ∨ ((a.exec schema op).2 = .panic ∧ (w.step env op).2 = .panic)) := by
  -- the device
  have hdev : ∀ d, BMap.get? d w.groupWriters = none → look d schema = none := by
    intro d hd
    by_contra hne
    have := (h.keys d).2 (by rw [Option.isSome_iff_ne_none]; exact hne)
    rw [← BMap.get?_isSome_iff, hd] at this
    simp at this
  have hcl := h.counted_le
  cases op with
  | write d m t v =>
    simp only [Writer.step, Writer.write]
    cases hg : BMap.get? d w.groupWriters with
    | none =>
      have he : a.exec schema (.write d m t v) = (a, .err (.illegalState (some "No Group Writer found"))) := by
        simp [AState.exec, hdev d hg]
      rw [he]
      exact ⟨by simp, .inr (.inl ⟨_, w, rfl, h, rfl⟩)⟩
    | some g =>
      obtain ⟨ms, hms, hgs⟩ := h.devices (d, g) (BMap.mem_of_get? hg)
      simp only at hms hgs
      obtain ⟨h1, h2⟩ := group_write_sim hsn hgs m t v
      obtain ⟨p1, p2, p3, new, p4, p5, p6⟩ := put_pending a ms d m t v
      have p7 := put_bursts a ms d m t v
      simp only
      cases hp : a.put ms d m t v with
      | mk a1 r1 =>
        rw [hp] at h1 h2 p1 p2 p3 p4 p5 p7
        cases hgw : g.write env m t v with
        | mk g1 r2 =>
          rw [hgw] at h1 h2
          simp only at p1 p2 p3 p4 p5 h1 h2 ⊢
          have hexec : a.exec schema (.write d m t v) = match r1 with
              | .ok () => ({ a1 with counted := a1.counted + 1 }, .ok ())
              | r => (a1, r) := by
            simp only [AState.exec, hms, hp]
            cases r1 <;> rfl
          have hle : a1.pending.length ≤ a.pending.length + (Op.write d m t v).recs.length := by
            rw [p4, List.length_append, p5]; simp [Op.recs]; split <;> omega
          cases r2 with
          | panic =>
            cases h1
            rw [hexec]
            exact ⟨hle, .inr (.inr ⟨rfl, rfl⟩)⟩
          | err e =>
            cases h1
            have hnil : new = [] := List.length_eq_zero_iff.1 (by simpa using p5)
            rw [hexec]
            refine ⟨hle, .inr (.inl ⟨e, _, rfl, ?_, rfl⟩)⟩
            have := sim_insert h hms (h2 (by simp)) p1 p3 new p4 p6 w.recordCount (by rw [p2]; exact h.count)
              (by rw [p2, p4]; simp; omega) p7
            simpa using this
          | ok k =>
            cases r1 with
            | err e' => cases h1
            | panic => cases h1
            | ok u =>
              cases h1
              next h1 =>
              subst h1
              have hlen1 : new.length = 1 := by simpa using p5
              have hsim : Sim env unsnap schema
                  { w with groupWriters := w.groupWriters.insert d g1, recordCount := w.recordCount + u32 1 }
                  { a1 with counted := a1.counted + 1 } groups := by
                have hg1 := h2 (by simp)
                apply sim_insert h hms (a' := { a1 with counted := a1.counted + 1 })
                  ⟨hg1.chunks, hg1.sorted, hg1.keys, hg1.last⟩ p1 p3 new p4 p6
                · rw [h.count, p2]
                  simp [u32, BitVec.ofNat_add]
                · simp only [p2, p4, List.length_append, hlen1]; omega
                · exact p7
              rw [hexec]
              exact ⟨hle, .inl ⟨rfl, _, hsim, rfl, rfl, by simp only [Writer.handed, hg, hgw], fun io => by simp only [hg, hgw]; rfl⟩⟩
  | writeMany d t vs =>
    simp only [Writer.step, Writer.writeMany]
    cases hg : BMap.get? d w.groupWriters with
    | none =>
      have he : a.exec schema (.writeMany d t vs) = (a, .err (.illegalState none)) := by
        simp [AState.exec, hdev d hg]
      rw [he]
      exact ⟨by simp, .inr (.inl ⟨_, w, rfl, h, rfl⟩)⟩
    | some g =>
      obtain ⟨ms, hms, hgs⟩ := h.devices (d, g) (BMap.mem_of_get? hg)
      simp only at hms hgs
      obtain ⟨h1, h2⟩ := group_writeMany_sim hsn t vs g a hgs 0
      obtain ⟨p1, p2, p3, new, p4, p5, p5', p6⟩ := putMany_pending ms d t vs a
      have p7 := putMany_bursts ms d t vs a
      simp only
      have hz : u32 0 = 0 := rfl
      rw [hz] at h1 h2
      cases hp : AState.putMany ms d t vs a with
      | mk a1 r1 =>
        rw [hp] at h1 h2 p1 p2 p3 p4 p5' p7
        cases hgw : GroupWriter.writeMany env t vs 0 g with
        | mk g1 r2 =>
          rw [hgw] at h1 h2
          simp only at p1 p2 p3 p4 p5' h1 h2 ⊢
          have hexec : a.exec schema (.writeMany d t vs) = match r1 with
              | .ok () => ({ a1 with counted := a1.counted + vs.length }, .ok ())
              | r => (a1, r) := by
            simp only [AState.exec, hms, hp]
            cases r1 <;> rfl
          have hle : a1.pending.length ≤ a.pending.length + (Op.writeMany d t vs).recs.length := by
            rw [p4, List.length_append]; simpa [Op.recs] using p5
          cases r2 with
          | panic =>
            cases h1
            rw [hexec]
            exact ⟨hle, .inr (.inr ⟨rfl, rfl⟩)⟩
          | err e =>
            cases h1
            rw [hexec]
            refine ⟨hle, .inr (.inl ⟨e, _, rfl, ?_, rfl⟩)⟩
            have := sim_insert h hms (h2 (by simp)) p1 p3 new p4 p6 w.recordCount (by rw [p2]; exact h.count)
              (by rw [p2, p4]; simp; omega) p7
            simpa using this
          | ok k =>
            cases r1 with
            | err e' => cases h1
            | panic => cases h1
            | ok u =>
              cases h1
              next h1 =>
              rw [Nat.zero_add] at h1
              subst h1
              have hlen1 : new.length = vs.length := p5' rfl
              have hsim : Sim env unsnap schema
                  { w with groupWriters := w.groupWriters.insert d g1, recordCount := w.recordCount + u32 vs.length }
                  { a1 with counted := a1.counted + vs.length } groups := by
                have hg1 := h2 (by simp)
                apply sim_insert h hms (a' := { a1 with counted := a1.counted + vs.length })
                  ⟨hg1.chunks, hg1.sorted, hg1.keys, hg1.last⟩ p1 p3 new p4 p6
                · rw [h.count, p2]
                  simp [u32, BitVec.ofNat_add]
                · simp only [p2, p4, List.length_append, hlen1]; omega
                · exact p7
              rw [hexec]
              exact ⟨hle, .inl ⟨rfl, _, hsim, rfl, rfl, by simp only [Writer.handed, hg, hgw], fun io => by simp only [hg, hgw]; rfl⟩⟩

/-- One call that does not panic is a step of the abstract machine. -/
theorem sim_step {env : Env} {unsnap : Bytes → Option Bytes} (hsn : SnappyOk env unsnap) {schema : Schema}
    (hwf : schema.WF) {w : Writer} {a : AState} {groups : List GGroup} (h : Sim env unsnap schema w a groups)
    (op : Op) (hlen : a.pending.length + op.recs.length < 2 ^ 32) (hnp : (w.step env op).2 ≠ .panic) :
    ∃ new : List GGroup, (w.step env op).2 = (a.exec schema op).2
      ∧ (new ≠ [] → (w.step env op).2 = .ok ())
      ∧ Sim env unsnap schema (w.step env op).1 (a.step schema op (decide (new ≠ []))).1 (groups ++ new)
      ∧ (a.step schema op (decide (new ≠ []))).1.pending.length
        ≤ (if decide (new ≠ []) then 0 else a.pending.length + op.recs.length) := by
  obtain ⟨hle, ⟨hr, w1, hs, hst, _⟩ | ⟨e, w1, hr, hs, hst⟩ | ⟨hr, hst⟩⟩ := sim_exec hsn h op
  · rw [hst, Writer.afterOk] at hnp ⊢
    cases hck : w1.checkMemorySize env with
    | none => rw [hck] at hnp; simp at hnp
    | some w2 =>
      obtain ⟨new, hs', hcnt⟩ := sim_checkMemory hsn hwf hs (by omega) hck
      refine ⟨new, by rw [hr], fun _ => rfl, ?_⟩
      have hstep : (a.step schema op (decide (new ≠ []))).1
          = if new = [] then (a.exec schema op).1 else (a.exec schema op).1.flush := by
        simp only [AState.step]
        by_cases hn : new = [] <;> simp [hn]
      rw [hstep]
      refine ⟨hs', ?_⟩
      by_cases hn : new = []
      · simpa [hn] using hle
      · simp [hn, AState.flush, hcnt hn]
  · rw [hst]
    refine ⟨[], by rw [hr], by simp, ?_⟩
    have hstep : (a.step schema op (decide (([] : List GGroup) ≠ []))).1 = (a.exec schema op).1 := by
      simp [AState.step]
    rw [hstep]
    exact ⟨by simpa using hs, by simpa using hle⟩
  · exact absurd hst hnp

/-- A history of calls. -/
theorem sim_run {env : Env} {unsnap : Bytes → Option Bytes} (hsn : SnappyOk env unsnap) {schema : Schema}
    (hwf : schema.WF) (ops : List Op) {w : Writer} {a : AState} {groups : List GGroup}
    (h : Sim env unsnap schema w a groups) (n : Nat) (hn : a.pending.length ≤ n)
    (hlen : burstsBelow (2 ^ 32) n (ops.zip ((w.grown env ops).map (fun n => decide (0 < n)))))
    (hnp : .panic ∉ (w.run env ops).2) :
    ∃ new, (a.run schema (ops.zip ((w.grown env ops).map (fun n => decide (0 < n))))).2 = (w.run env ops).2
      ∧ Sim env unsnap schema (w.run env ops).1
          (a.run schema (ops.zip ((w.grown env ops).map (fun n => decide (0 < n))))).1 (groups ++ new)
      ∧ (ops ≠ [] → (a.run schema (ops.zip ((w.grown env ops).map (fun n => decide (0 < n))))).1.pending.length
          < 2 ^ 32)
      ∧ ((∀ k ∈ w.grown env ops, k < 2 ^ 32) → ∀ g ∈ new, (groupBytes env g).length < 2 ^ 32) := by
  induction ops generalizing w a groups n with
  | nil => exact ⟨[], rfl, by simpa [Writer.run, AState.run] using h, by simp, by simp⟩
  | cons op ops ih =>
    simp only [Writer.grown, List.map_cons, List.zip_cons_cons, burstsBelow] at hlen
    simp only [Writer.run, List.mem_cons, not_or] at hnp ⊢
    obtain ⟨new1, hres, _, hs1, hl1⟩ := sim_step hsn hwf h op (by omega) (fun hc => hnp.1 hc.symm)
    have hg := grows_iff h.file hs1.file
    rw [hg.2] at hlen
    obtain ⟨new2, hrun, hs2, hl2, hg2⟩ := ih hs1 (if decide (new1 ≠ []) then 0 else n + op.recs.length)
      (by split at hl1 <;> simp_all; omega) hlen.2 hnp.2
    simp only [Writer.grown, List.map_cons, List.zip_cons_cons, AState.run]
    rw [hg.2]
    refine ⟨new1 ++ new2, ?_, by simpa using hs2, ?_, ?_⟩
    · rw [hrun]
      congr 1
      exact hres.symm
    · intro _
      by_cases ho : ops = []
      · subst ho
        simp only [List.zip_nil_left, AState.run]
        split at hl1 <;> omega
      · exact hl2 ho
    · intro hk g hgm
      rcases List.mem_append.1 hgm with hgm | hgm
      · have := hk _ (List.mem_cons_self ..)
        rw [hg.1] at this
        obtain ⟨s, t, rfl⟩ := List.append_of_mem hgm
        simp only [List.flatMap_append, List.flatMap_cons, List.length_append] at this
        omega
      · exact hg2 (fun k hk' => hk k (List.mem_cons_of_mem _ hk')) g hgm

end TsFile
