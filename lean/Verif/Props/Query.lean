import Verif.Proofs.Aggregate
import Verif.Props.Stats
import Verif.Props.Bloom
/-! # Queries that skip what the statistics rule out: C87. Aggregates from the statistics: C88 -/

namespace TsFile
open Spec

section
variable {env : Env} {unsnap : Bytes → Option Bytes} {schema : Schema} {ops : List Op} {s : Session} {d m : Bytes}

theorem number_of_intVal {x : IoTDBValue} {v : Int} (h : intVal x = some v) : number x = some v := by
  cases x <;> simp_all [intVal, number]

theorem number_of_floatVal {x : IoTDBValue} {v : Int} (h : floatVal x = some v) : number x = some v := by
  cases x <;> simp_all [floatVal, number]

/-- Minimum and maximum in statistics bound all values that are numbers. -/
theorem stats_bound (he : EnvOk env unsnap) (hsch : schema.Named) (hs : session env schema ops = some s)
    (hw : s.Within ops) {st : Stats} {pts : List Point} (h : StatsIn unsnap schema s.file d m st pts) :
    ∃ lo hi, number st.min = some lo ∧ number st.max = some hi
      ∧ ∀ p ∈ pts, ∀ v, number p.2 = some v → lo ≤ v ∧ v ≤ hi := by
  obtain ⟨ms, sc, stm, h1, h2, e, htype, hds, _⟩ := statsAbout_session he hsch hs hw h
  by_cases ht : sc.dataType = .FLOAT
  · obtain ⟨lo, hi, h3, h4, h5, _⟩ := C21_float_min_max_partial he hsch hs hw h h1 h2 ht
    refine ⟨lo, hi, number_of_floatVal h3, number_of_floatVal h4, fun p hp v hv => h5 p hp v ?_⟩
    rw [ht] at htype
    clear h h5
    cases hds with
    | int h _ => simp [Statistics.type] at htype
    | long h => simp [Statistics.type] at htype
    | @float s l h _ =>
      obtain ⟨q, hq, rfl⟩ := List.mem_map.1 hp
      simpa [number, floatVal] using hv
  · obtain ⟨_, _, lo, hi, h3, h4, h5⟩ := C18_int_min_max he hsch hs hw h h1 h2 ht
    refine ⟨lo, hi, number_of_intVal h3, number_of_intVal h4, fun p hp v hv => ?_⟩
    obtain ⟨v', hv', h6⟩ := h5 p hp
    rw [number_of_intVal hv'] at hv
    cases hv
    exact h6

/-- Statistics in the file rule nothing out that is there. -/
theorem stats_sound (he : EnvOk env unsnap) (hsch : schema.Named) (hs : session env schema ops = some s)
    (hw : s.Within ops) {st : Stats} {pts : List Point} (h : StatsIn unsnap schema s.file d m st pts) (q : Query)
    (hq : q.mayMatch st = false) : pts.filter q.wants = [] := by
  obtain ⟨_, _, ht⟩ := C17_time_range he hsch hs hw h
  obtain ⟨lo, hi, h1, h2, hv⟩ := stats_bound he hsch hs hw h
  rw [List.filter_eq_nil_iff]
  intro p hp hc
  obtain ⟨ht1, ht2⟩ := ht p hp
  simp only [Query.wants, Bool.and_eq_true, decide_eq_true_eq] at hc
  obtain ⟨⟨hc1, hc2⟩, hc3⟩ := hc
  have : q.mayMatch st = true := by
    simp only [Query.mayMatch, Bool.and_eq_true, decide_eq_true_eq]
    refine ⟨⟨by omega, by omega⟩, ?_⟩
    cases hq : q.values with
    | none => rfl
    | some r =>
      obtain ⟨low, high⟩ := r
      rw [hq] at hc3
      dsimp only at hc3 ⊢
      cases hn : number p.2 with
      | none => rw [hn] at hc3; simp at hc3
      | some v =>
        rw [hn] at hc3
        simp only [decide_eq_true_eq] at hc3
        have := hv p hp v hn
        simp only [h1, h2, decide_eq_true_eq]
        omega
  rw [this] at hq
  simp at hq

/-- **C87.** A query that looks at the Bloom filter first and skips the series, the chunks and the pages that their statistics rule
out finds exactly the stored points of the series that are asked for, in their order: those in the range of times and, if a range
of values is given, with a value in this range. -/
theorem C87_query (he : EnvOk env unsnap) (hsch : schema.IndexableAt d) (hs : session env schema ops = some s)
    (hw : s.Within ops) (hsize : ∀ n, n ≤ schema.size → env.bloomSize n < 2 ^ 31) (hm : NoDot m) (q : Query) :
    querySeries unsnap q s.file d m = some ((series (storedBy schema ops s.grown) d m).filter q.wants) := by
  have hr := C01_device_partial he hsch hs hw m
  rw [if_pos hm] at hr
  obtain ⟨footer, hf, hb⟩ := C26_bloom he hsch.toNamed hs hw hsize
  have hdot : str "." = [0x2e] := by decide
  rw [hdot] at hb
  rw [querySeries, hf]
  dsimp only
  split
  · have hr' := hr
    rw [readSeries] at hr'
    cases h1 : readSeriesMeta s.file d m with
    | none => rw [h1] at hr'; simp at hr'
    | some r =>
      rw [h1] at hr'
      cases r with
      | none =>
        simp only [Option.some.injEq] at hr'
        rw [← hr']
        rfl
      | some sm =>
        simp only [Option.map_eq_some_iff] at hr'
        obtain ⟨chunks, h2, h3⟩ := hr'
        dsimp only
        split
        · rw [queryChunks_eq h2, h3]
          intro c hc chunk rest hp
          refine ⟨fun st hst hq => ?_, fun pg hpg st hst hq => ?_⟩
          · exact stats_sound he hsch.toNamed hs hw (.inl ⟨hsch, .chunk h1 hc hst hp⟩) q hq
          · refine stats_sound he hsch.toNamed hs hw (.inl ⟨hsch, .page h1 hc hp ?_⟩) q hq
            rw [← hst]
            exact hpg
        · rename_i hq
          rw [stats_sound he hsch.toNamed hs hw (.inl ⟨hsch, .series h1 hr⟩) q (by simpa using hq)]
  · rename_i hc
    by_cases hne : series (storedBy schema ops s.grown) d m = []
    · rw [hne]; rfl
    · exact absurd (hb d m hne) (by simpa using hc)

/-- **C87**, for a history in which no `write_many` fails: the points of the calls that returned `Ok` and that are asked for. -/
theorem C87_accepted (he : EnvOk env unsnap) (hsch : schema.IndexableAt d) (hs : session env schema ops = some s)
    (hw : s.Within ops) (hsize : ∀ n, n ≤ schema.size → env.bloomSize n < 2 ^ 31)
    (hmany : ∀ d t vs r, (Op.writeMany d t vs, r) ∈ ops.zip s.results → r = .ok ()) (hm : NoDot m) (q : Query) :
    querySeries unsnap q s.file d m = some ((series (accepted ops s.results) d m).filter q.wants) := by
  have h1 := C01_device_partial he hsch hs hw m
  have h2 := C01_device_accepted_partial he hsch hs hw hmany m
  rw [h1, if_pos hm, if_pos hm, Option.some.injEq] at h2
  rw [C87_query he hsch hs hw hsize hm, h2]

/-! ## C88 -/

/-- Statistics that are about all points that are asked for give the value of these points. -/
theorem known_right {α : Type} {agg : Aggregate α} {R : List Point → α → Prop} (hg : agg.Good R) (he : EnvOk env unsnap)
    (hsch : schema.Named) (hs : session env schema ops = some s) (hw : s.Within ops) {st : Stats} {pts : List Point}
    (h : StatsIn unsnap schema s.file d m st pts) (hst : R pts (agg.ofStats st)) {q : Query} {a : α}
    (hk : q.known agg st = some a) : R (pts.filter q.wants) a := by
  simp only [Query.known] at hk
  split at hk
  · split at hk
    · rename_i hc
      simp only [Option.some.injEq] at hk
      subst hk
      have : pts.filter q.wants = pts := by
        rw [List.filter_eq_self]
        intro p hp
        obtain ⟨_, _, ht⟩ := C17_time_range he hsch hs hw h
        have := ht p hp
        simp only [Query.covers, Bool.and_eq_true, decide_eq_true_eq, Option.isNone_iff_eq_none] at hc
        simp only [Query.wants, hc.1, Bool.and_true, decide_eq_true_eq]
        omega
      rw [this]
      exact hst
    · simp at hk
  · rename_i hq
    simp only [Option.some.injEq] at hk
    subst hk
    rw [stats_sound he hsch hs hw h q (by simpa using hq)]
    exact hg.points []

/-- An aggregate is computed correctly if the statistics in the file give correct results for the points they are about. -/
theorem aggSeries_rel {α : Type} {agg : Aggregate α} {R : List Point → α → Prop} (hg : agg.Good R) (he : EnvOk env unsnap)
    (hsch : schema.IndexableAt d) (hs : session env schema ops = some s) (hw : s.Within ops)
    (hsize : ∀ n, n ≤ schema.size → env.bloomSize n < 2 ^ 31) (hm : NoDot m)
    (hst : ∀ st pts, StatsIn unsnap schema s.file d m st pts →
      pts.Sublist (series (storedBy schema ops s.grown) d m) → R pts (agg.ofStats st)) (q : Query) :
    ∃ a, aggSeries unsnap q agg s.file d m = some a
      ∧ R ((series (storedBy schema ops s.grown) d m).filter q.wants) a := by
  have hr := C01_device_partial he hsch hs hw m
  rw [if_pos hm] at hr
  obtain ⟨footer, hf, hb⟩ := C26_bloom he hsch.toNamed hs hw hsize
  have hdot : str "." = [0x2e] := by decide
  rw [hdot] at hb
  rw [aggSeries, hf]
  dsimp only
  split
  · have hr' := hr
    rw [readSeries] at hr'
    cases h1 : readSeriesMeta s.file d m with
    | none => rw [h1] at hr'; simp at hr'
    | some r =>
      rw [h1] at hr'
      cases r with
      | none =>
        simp only [Option.some.injEq] at hr'
        rw [← hr']
        exact ⟨_, rfl, hg.points []⟩
      | some sm =>
        simp only [Option.map_eq_some_iff] at hr'
        obtain ⟨chunks, h2, h3⟩ := hr'
        dsimp only
        cases ha : q.known agg sm.stats with
        | some a =>
          have h4 : StatsIn unsnap schema s.file d m sm.stats (series (storedBy schema ops s.grown) d m) :=
            .inl ⟨hsch, .series h1 hr⟩
          exact ⟨a, rfl, known_right hg he hsch.toNamed hs hw h4 (hst _ _ h4 (List.Sublist.refl _)) ha⟩
        | none =>
          dsimp only
          rw [← h3]
          refine aggChunks_rel hg h2 ?_
          intro c hc chunk hch rest hp
          have hlen : chunk.points.Sublist (series (storedBy schema ops s.grown) d m) := by
            rw [← h3]
            obtain ⟨i, j, hij⟩ := List.append_of_mem hch
            rw [hij, List.flatMap_append, List.flatMap_cons]
            exact (List.sublist_append_left _ _).trans (List.sublist_append_right _ _)
          refine ⟨fun st a hst' hk => ?_, fun pg hpg st a hst' hk => ?_⟩
          · have h4 : StatsIn unsnap schema s.file d m st chunk.points := .inl ⟨hsch, .chunk h1 hc hst' hp⟩
            exact known_right hg he hsch.toNamed hs hw h4 (hst _ _ h4 hlen) hk
          · have h4 : StatsIn unsnap schema s.file d m st pg.2 := by
              refine .inl ⟨hsch, .page h1 hc hp ?_⟩
              rw [← hst']
              exact hpg
            refine known_right hg he hsch.toNamed hs hw h4 (hst _ _ h4 (List.Sublist.trans ?_ hlen)) hk
            obtain ⟨i, j, hij⟩ := List.append_of_mem hpg
            rw [Chunk.points, hij, List.map_append, List.map_cons, List.flatten_append, List.flatten_cons]
            exact (List.sublist_append_left _ _).trans (List.sublist_append_right _ _)
  · rename_i hc
    by_cases hne : series (storedBy schema ops s.grown) d m = []
    · rw [hne]; exact ⟨_, rfl, hg.points []⟩
    · exact absurd (hb d m hne) (by simpa using hc)

/-- The same for aggregates whose value for the whole is put together from those for the parts. -/
theorem aggSeries_eq {α : Type} {agg : Aggregate α} (hj : agg.Joins) (he : EnvOk env unsnap) (hsch : schema.IndexableAt d)
    (hs : session env schema ops = some s) (hw : s.Within ops) (hsize : ∀ n, n ≤ schema.size → env.bloomSize n < 2 ^ 31)
    (hm : NoDot m) (hst : ∀ st pts, StatsIn unsnap schema s.file d m st pts →
      pts.length ≤ (series (storedBy schema ops s.grown) d m).length → agg.ofStats st = agg.ofPoints pts) (q : Query) :
    aggSeries unsnap q agg s.file d m
      = some (agg.ofPoints ((series (storedBy schema ops s.grown) d m).filter q.wants)) := by
  obtain ⟨a, h, rfl⟩ := aggSeries_rel hj.good he hsch hs hw hsize hm (fun st pts h hl => hst st pts h hl.length_le) q
  exact h

/-- **C88.** The number of points in a range of times, taken from the statistics where they tell it, is the number of stored points
in this range. -/
theorem C88_count (he : EnvOk env unsnap) (hsch : schema.IndexableAt d) (hs : session env schema ops = some s)
    (hw : s.Within ops) (hsize : ∀ n, n ≤ schema.size → env.bloomSize n < 2 ^ 31) (hm : NoDot m)
    (hlen : (series (storedBy schema ops s.grown) d m).length < 2 ^ 32) (q : Query) :
    aggSeries unsnap q .count s.file d m = some ((series (storedBy schema ops s.grown) d m).filter q.wants).length :=
  aggSeries_eq count_joins he hsch hs hw hsize hm
    (fun _ _ h hl => (C16_count he hsch.toNamed hs hw h).2 (Nat.lt_of_le_of_lt hl hlen)) q

/-- **C88.** The first and the last time. -/
theorem C88_times (he : EnvOk env unsnap) (hsch : schema.IndexableAt d) (hs : session env schema ops = some s)
    (hw : s.Within ops) (hsize : ∀ n, n ≤ schema.size → env.bloomSize n < 2 ^ 31) (hm : NoDot m) (q : Query) :
    aggSeries unsnap q .firstTime s.file d m
      = some (((series (storedBy schema ops s.grown) d m).filter q.wants).map (fun p => p.1.toInt)).min?
    ∧ aggSeries unsnap q .lastTime s.file d m
      = some (((series (storedBy schema ops s.grown) d m).filter q.wants).map (fun p => p.1.toInt)).max? := by
  refine ⟨aggSeries_eq firstTime_joins he hsch hs hw hsize hm (fun st pts h _ => ?_) q,
    aggSeries_eq lastTime_joins he hsch hs hw hsize hm (fun st pts h _ => ?_) q⟩
  · obtain ⟨⟨p, hp, e⟩, _, h3⟩ := C17_time_range he hsch.toNamed hs hw h
    symm
    rw [Aggregate.firstTime]
    dsimp only
    rw [List.min?_eq_some_iff]
    refine ⟨List.mem_map.2 ⟨p, hp, by rw [e]⟩, fun x hx => ?_⟩
    obtain ⟨p', hp', rfl⟩ := List.mem_map.1 hx
    exact (h3 p' hp').1
  · obtain ⟨_, ⟨p, hp, e⟩, h3⟩ := C17_time_range he hsch.toNamed hs hw h
    symm
    rw [Aggregate.lastTime]
    dsimp only
    rw [List.max?_eq_some_iff]
    refine ⟨List.mem_map.2 ⟨p, hp, by rw [e]⟩, fun x hx => ?_⟩
    obtain ⟨p', hp', rfl⟩ := List.mem_map.1 hx
    exact (h3 p' hp').2

/-- Bounds that are among the numbers are the smallest and the largest of them. -/
theorem bounds_min_max {pts : List Point} {st : Stats} {lo hi : Int} (h1 : number st.min = some lo) (h2 : number st.max = some hi)
    (h3 : ∀ p ∈ pts, ∀ v, number p.2 = some v → lo ≤ v ∧ v ≤ hi) (h4 : ∃ p ∈ pts, p.2 = st.min) (h5 : ∃ p ∈ pts, p.2 = st.max) :
    Aggregate.smallest.ofStats st = Aggregate.smallest.ofPoints pts
      ∧ Aggregate.largest.ofStats st = Aggregate.largest.ofPoints pts := by
  obtain ⟨p, hp, e⟩ := h4
  obtain ⟨r, hr, e'⟩ := h5
  constructor
  · rw [Aggregate.smallest]
    dsimp only
    rw [h1]
    symm
    rw [List.min?_eq_some_iff]
    refine ⟨List.mem_filterMap.2 ⟨p, hp, by rw [e, h1]⟩, fun x hx => ?_⟩
    obtain ⟨p', hp', hx⟩ := List.mem_filterMap.1 hx
    exact (h3 p' hp' x hx).1
  · rw [Aggregate.largest]
    dsimp only
    rw [h2]
    symm
    rw [List.max?_eq_some_iff]
    refine ⟨List.mem_filterMap.2 ⟨r, hr, by rw [e', h2]⟩, fun x hx => ?_⟩
    obtain ⟨p', hp', hx⟩ := List.mem_filterMap.1 hx
    exact (h3 p' hp' x hx).2

/-- **C88.** The smallest and the largest value of a series of type INT32 or INT64. -/
theorem C88_values (he : EnvOk env unsnap) (hsch : schema.IndexableAt d) (hs : session env schema ops = some s)
    (hw : s.Within ops) (hsize : ∀ n, n ≤ schema.size → env.bloomSize n < 2 ^ 31) (hm : NoDot m)
    {ms : List (Bytes × MeasurementSchema)} {sc : MeasurementSchema} (hd : look d schema = some ms)
    (hsc : look m ms = some sc) (ht : sc.dataType ≠ .FLOAT) (q : Query) :
    aggSeries unsnap q .smallest s.file d m
      = some (((series (storedBy schema ops s.grown) d m).filter q.wants).filterMap (fun p => number p.2)).min?
    ∧ aggSeries unsnap q .largest s.file d m
      = some (((series (storedBy schema ops s.grown) d m).filter q.wants).filterMap (fun p => number p.2)).max? := by
  have key : ∀ st pts, StatsIn unsnap schema s.file d m st pts →
      Aggregate.smallest.ofStats st = Aggregate.smallest.ofPoints pts
        ∧ Aggregate.largest.ofStats st = Aggregate.largest.ofPoints pts := by
    intro st pts h
    obtain ⟨h4, h5, lo, hi, h1, h2, h3⟩ := C18_int_min_max he hsch.toNamed hs hw h hd hsc ht
    refine bounds_min_max (number_of_intVal h1) (number_of_intVal h2) (fun p hp v hv => ?_) h4 h5
    obtain ⟨v', hv', h6⟩ := h3 p hp
    rw [number_of_intVal hv'] at hv
    cases hv
    exact h6
  exact ⟨aggSeries_eq smallest_joins he hsch hs hw hsize hm (fun st pts h _ => (key st pts h).1) q,
    aggSeries_eq largest_joins he hsch hs hw hsize hm (fun st pts h _ => (key st pts h).2) q⟩

theorem f32Val_max : f32Val 0x7F7FFFFF = some ((2 ^ 24 - 1) * 2 ^ 253) := by decide +kernel

theorem f32Val_min : f32Val 0xFF7FFFFF = some (-((2 ^ 24 - 1) * 2 ^ 253)) := by decide +kernel

/-- The statistics of a series of type FLOAT bound the numbers, and the bounds are among them or the extreme finite numbers. -/
theorem float_bounds (he : EnvOk env unsnap) (hsch : schema.IndexableAt d) (hs : session env schema ops = some s)
    (hw : s.Within ops) {ms : List (Bytes × MeasurementSchema)} {sc : MeasurementSchema} (hd : look d schema = some ms)
    (hsc : look m ms = some sc) (ht : sc.dataType = .FLOAT) {st : Stats} {pts : List Point}
    (h : StatsIn unsnap schema s.file d m st pts) :
    LeastUpTo ((2 ^ 24 - 1) * 2 ^ 253) (pts.filterMap (fun p => number p.2)) (number st.min)
      ∧ GreatestUpTo (-((2 ^ 24 - 1) * 2 ^ 253)) (pts.filterMap (fun p => number p.2)) (number st.max) := by
  obtain ⟨lo, hi, h1, h2, h3⟩ := stats_bound he hsch.toNamed hs hw h
  obtain ⟨_, _, h4, h5⟩ := C21_attained_partial he hsch.toNamed hs hw h hd hsc ht
  rw [h1, h2]
  refine ⟨⟨fun v hv => ?_, fun x hx => ?_⟩, fun v hv => ?_, fun x hx => ?_⟩
  · obtain ⟨p, hp, hv⟩ := List.mem_filterMap.1 hv
    exact ⟨lo, rfl, (h3 p hp v hv).1⟩
  · cases hx
    rcases h4 with ⟨p, hp, e⟩ | e
    · exact .inl (List.mem_filterMap.2 ⟨p, hp, by rw [e, h1]⟩)
    · rw [e, number, f32Val_max] at h1
      exact .inr (Option.some.inj h1).symm
  · obtain ⟨p, hp, hv⟩ := List.mem_filterMap.1 hv
    exact ⟨hi, rfl, (h3 p hp v hv).2⟩
  · cases hx
    rcases h5 with ⟨p, hp, e⟩ | e
    · exact .inl (List.mem_filterMap.2 ⟨p, hp, by rw [e, h2]⟩)
    · rw [e, number, f32Val_min] at h2
      exact .inr (Option.some.inj h2).symm

/-- **C91**, partial: the smallest value of a series of type FLOAT, if some value that is asked for is a number below infinity, and
the largest one, if some value that is asked for is a number above minus infinity. Without these conditions they are wrong:
`C91_extremes_wrong`. -/
theorem C91_floats_partial (he : EnvOk env unsnap) (hsch : schema.IndexableAt d) (hs : session env schema ops = some s)
    (hw : s.Within ops) (hsize : ∀ n, n ≤ schema.size → env.bloomSize n < 2 ^ 31) (hm : NoDot m)
    {ms : List (Bytes × MeasurementSchema)} {sc : MeasurementSchema} (hd : look d schema = some ms)
    (hsc : look m ms = some sc) (ht : sc.dataType = .FLOAT) (q : Query) :
    ((∃ p ∈ (series (storedBy schema ops s.grown) d m).filter q.wants, ∃ v, floatVal p.2 = some v ∧ v < f32Inf) →
      aggSeries unsnap q .smallest s.file d m
        = some (((series (storedBy schema ops s.grown) d m).filter q.wants).filterMap (fun p => number p.2)).min?)
    ∧ ((∃ p ∈ (series (storedBy schema ops s.grown) d m).filter q.wants, ∃ v, floatVal p.2 = some v ∧ -f32Inf < v) →
      aggSeries unsnap q .largest s.file d m
        = some (((series (storedBy schema ops s.grown) d m).filter q.wants).filterMap (fun p => number p.2)).max?) := by
  obtain ⟨a, ha, hr⟩ := aggSeries_rel (smallest_good ((2 ^ 24 - 1) * 2 ^ 253)) he hsch hs hw hsize hm
    (fun st pts h _ => (float_bounds he hsch hs hw hd hsc ht h).1) q
  obtain ⟨b, hb, hr'⟩ := aggSeries_rel (largest_good (-((2 ^ 24 - 1) * 2 ^ 253))) he hsch hs hw hsize hm
    (fun st pts h _ => (float_bounds he hsch hs hw hd hsc ht h).2) q
  rw [ha, hb]
  constructor
  · rintro ⟨p, hp, v, hv, hlt⟩
    have hmem : v ∈ ((series (storedBy schema ops s.grown) d m).filter q.wants).filterMap (fun p => number p.2) :=
      List.mem_filterMap.2 ⟨p, hp, number_of_floatVal hv⟩
    obtain ⟨x, rfl, hx⟩ := hr.1 v hmem
    congr 1
    symm
    rw [List.min?_eq_some_iff]
    refine ⟨?_, fun w hw => ?_⟩
    · rcases hr.2 x rfl with h | h
      · exact h
      · have h1 : v ≤ (2 ^ 24 - 1) * 2 ^ 253 := by
          cases hp2 : p.2 <;> rw [hp2] at hv <;> simp only [floatVal] at hv
          case FLOAT y => exact (f32Val_lt_inf hv hlt).1
          all_goals cases hv
        have h2 : x = v := by omega
        rw [h2]; exact hmem
    · obtain ⟨y, hy, h⟩ := hr.1 w hw
      cases hy
      exact h
  · rintro ⟨p, hp, v, hv, hlt⟩
    have hmem : v ∈ ((series (storedBy schema ops s.grown) d m).filter q.wants).filterMap (fun p => number p.2) :=
      List.mem_filterMap.2 ⟨p, hp, number_of_floatVal hv⟩
    obtain ⟨x, rfl, hx⟩ := hr'.1 v hmem
    congr 1
    symm
    rw [List.max?_eq_some_iff]
    refine ⟨?_, fun w hw => ?_⟩
    · rcases hr'.2 x rfl with h | h
      · exact h
      · have h1 : -((2 ^ 24 - 1) * 2 ^ 253) ≤ v := by
          cases hp2 : p.2 <;> rw [hp2] at hv <;> simp only [floatVal] at hv
          case FLOAT y => exact (f32Val_gt_neg_inf hv hlt).1
          all_goals cases hv
        have h2 : x = v := by omega
        rw [h2]; exact hmem
    · obtain ⟨y, hy, h⟩ := hr'.1 w hw
      cases hy
      exact h

/-- A query without a condition on values, whose range of times has all points, is answered by the statistics of the series. -/
theorem aggSeries_whole {α : Type} {agg : Aggregate α} (he : EnvOk env unsnap) (hsch : schema.IndexableAt d)
    (hs : session env schema ops = some s) (hw : s.Within ops) (hsize : ∀ n, n ≤ schema.size → env.bloomSize n < 2 ^ 31)
    (hm : NoDot m) (hne : series (storedBy schema ops s.grown) d m ≠ []) (q : Query) (hv : q.values = none)
    (hq : ∀ p ∈ series (storedBy schema ops s.grown) d m, q.since ≤ p.1.toInt ∧ p.1.toInt ≤ q.till) :
    ∃ st, StatsIn unsnap schema s.file d m st (series (storedBy schema ops s.grown) d m)
      ∧ aggSeries unsnap q agg s.file d m = some (agg.ofStats st) := by
  have hr := C01_device_partial he hsch hs hw m
  rw [if_pos hm] at hr
  obtain ⟨footer, hf, hb⟩ := C26_bloom he hsch.toNamed hs hw hsize
  have hdot : str "." = [0x2e] := by decide
  rw [hdot] at hb
  rw [aggSeries, hf]
  dsimp only
  rw [if_pos (hb d m hne)]
  have hr' := hr
  rw [readSeries] at hr'
  cases h3 : readSeriesMeta s.file d m with
  | none => rw [h3] at hr'; simp at hr'
  | some r =>
    rw [h3] at hr'
    cases r with
    | none => simp only [Option.some.injEq] at hr'; exact absurd hr'.symm hne
    | some sm =>
      have h4 : StatsIn unsnap schema s.file d m sm.stats (series (storedBy schema ops s.grown) d m) :=
        .inl ⟨hsch, .series h3 hr⟩
      obtain ⟨⟨p, hp, e⟩, ⟨r, hr2, e'⟩, h7⟩ := C17_time_range he hsch.toNamed hs hw h4
      have h5 := hq p hp
      have h6 := hq r hr2
      have h8 := h7 p hp
      rw [e] at h5 h8
      rw [e'] at h6
      have hk : q.known agg sm.stats = some (agg.ofStats sm.stats) := by
        rw [Query.known, if_pos, if_pos]
        · simp only [Query.covers, hv, Option.isNone_none, Bool.true_and, decide_eq_true_eq]
          exact ⟨h5.1, h6.2⟩
        · simp only [Query.mayMatch, hv, Bool.and_true, decide_eq_true_eq]
          exact ⟨h5.2, h6.1⟩
      dsimp only
      rw [hk]
      exact ⟨_, h4, rfl⟩

/-- **C91 is false** for every series of type FLOAT that has no number below infinity: a query for its smallest value, over all
points, gives a number that no stored value has. In the same way for the largest value and minus infinity. -/
theorem C91_extremes_wrong (he : EnvOk env unsnap) (hsch : schema.IndexableAt d) (hs : session env schema ops = some s)
    (hw : s.Within ops) (hsize : ∀ n, n ≤ schema.size → env.bloomSize n < 2 ^ 31) (hm : NoDot m)
    {ms : List (Bytes × MeasurementSchema)} {sc : MeasurementSchema} (hd : look d schema = some ms)
    (hsc : look m ms = some sc) (ht : sc.dataType = .FLOAT) (hne : series (storedBy schema ops s.grown) d m ≠ [])
    (q : Query) (hv : q.values = none)
    (hq : ∀ p ∈ series (storedBy schema ops s.grown) d m, q.since ≤ p.1.toInt ∧ p.1.toInt ≤ q.till) :
    ((∀ p ∈ series (storedBy schema ops s.grown) d m, ∀ v, floatVal p.2 = some v → f32Inf ≤ v) →
      ∃ x, aggSeries unsnap q .smallest s.file d m = some (some x)
        ∧ ∀ p ∈ series (storedBy schema ops s.grown) d m, floatVal p.2 ≠ some x)
    ∧ ((∀ p ∈ series (storedBy schema ops s.grown) d m, ∀ v, floatVal p.2 = some v → v ≤ -f32Inf) →
      ∃ x, aggSeries unsnap q .largest s.file d m = some (some x)
        ∧ ∀ p ∈ series (storedBy schema ops s.grown) d m, floatVal p.2 ≠ some x) := by
  have hbig : ((2 ^ 24 - 1) * 2 ^ 253 : Int) < f32Inf := by decide +kernel
  constructor
  · intro hall
    obtain ⟨st, h, e⟩ := aggSeries_whole (agg := .smallest) he hsch hs hw hsize hm hne q hv hq
    obtain ⟨h1, _, h3, _⟩ := C21_attained_partial he hsch.toNamed hs hw h hd hsc ht
    rcases h3 with h3 | h3
    · obtain ⟨p, hp, v, h4, h5⟩ := h1.1 h3
      have := hall p hp v h4
      omega
    · refine ⟨(2 ^ 24 - 1) * 2 ^ 253, ?_, fun p hp h4 => ?_⟩
      · rw [e, Aggregate.smallest]
        dsimp only
        rw [h3, number, f32Val_max]
      · have := hall p hp _ h4
        omega
  · intro hall
    obtain ⟨st, h, e⟩ := aggSeries_whole (agg := .largest) he hsch hs hw hsize hm hne q hv hq
    obtain ⟨_, h1, _, h3⟩ := C21_attained_partial he hsch.toNamed hs hw h hd hsc ht
    rcases h3 with h3 | h3
    · obtain ⟨p, hp, v, h4, h5⟩ := h1.1 h3
      have := hall p hp v h4
      omega
    · refine ⟨-((2 ^ 24 - 1) * 2 ^ 253), ?_, fun p hp h4 => ?_⟩
      · rw [e, Aggregate.largest]
        dsimp only
        rw [h3, number, f32Val_min]
      · have := hall p hp _ h4
        omega

/-- **C91.** The last point of a range of times, with its value. -/
theorem C91_last (he : EnvOk env unsnap) (hsch : schema.IndexableAt d) (hs : session env schema ops = some s)
    (hw : s.Within ops) (hsize : ∀ n, n ≤ schema.size → env.bloomSize n < 2 ^ 31) (hm : NoDot m) (q : Query) :
    ∃ p, aggSeries unsnap q .last s.file d m = some p ∧ Latest ((series (storedBy schema ops s.grown) d m).filter q.wants) p :=
  aggSeries_rel last_good he hsch hs hw hsize hm (fun st pts h _ => by
    obtain ⟨h1, h2, _⟩ := C19_first_last_partial he hsch.toNamed hs hw h
    exact ⟨h1, h2⟩) q

/-- **C91**, partial: the first point of a range of times, with its value. The time is always right. The point is right if some
point that is asked for is before the time 2^63 - 1. Without this condition the value may be wrong: `C91_zero_wrong`. -/
theorem C91_first_partial (he : EnvOk env unsnap) (hsch : schema.IndexableAt d) (hs : session env schema ops = some s)
    (hw : s.Within ops) (hsize : ∀ n, n ≤ schema.size → env.bloomSize n < 2 ^ 31) (hm : NoDot m) (q : Query) :
    ∃ p, aggSeries unsnap q .first s.file d m = some p
      ∧ p.map (fun p => p.1.toInt) = (((series (storedBy schema ops s.grown) d m).filter q.wants).map (fun p => p.1.toInt)).min?
      ∧ ((∃ x ∈ (series (storedBy schema ops s.grown) d m).filter q.wants, x.1.toInt < 2 ^ 63 - 1) →
        Earliest ((series (storedBy schema ops s.grown) d m).filter q.wants) p) := by
  obtain ⟨a, ha, hr⟩ := aggSeries_rel first_good_time he hsch hs hw hsize hm (fun st pts h _ => by
    obtain ⟨h1, _, _⟩ := C17_time_range he hsch.toNamed hs hw h
    obtain ⟨_, _, h3, h4⟩ := C19_first_last_partial he hsch.toNamed hs hw h
    refine ⟨h1, h4, fun hlt => h3 ?_⟩
    obtain ⟨p, hp, e⟩ := h1
    exact ⟨p, hp, by rw [e]; exact hlt⟩) q
  refine ⟨a, ha, ?_, ?_⟩
  · cases a with
    | none => simp only [EarliestTime] at hr; rw [hr]; rfl
    | some p =>
      obtain ⟨⟨x, hx, e⟩, h2, _⟩ := hr
      symm
      rw [Option.map_some, List.min?_eq_some_iff]
      refine ⟨List.mem_map.2 ⟨x, hx, by rw [e]⟩, fun b hb => ?_⟩
      obtain ⟨y, hy, rfl⟩ := List.mem_map.1 hb
      exact h2 y hy
  · rintro ⟨x, hx, hlt⟩
    cases a with
    | none => simp only [EarliestTime] at hr; rw [hr] at hx; cases hx
    | some p =>
      obtain ⟨_, h2, h3⟩ := hr
      have := h2 x hx
      exact ⟨h3 (by omega), h2⟩

/-- **C91 is false** for every series whose points are all at the time 2^63 - 1 and have values other than zero: a query for its
first point, without a condition on the values, gives a point that was never stored. -/
theorem C91_zero_wrong (he : EnvOk env unsnap) (hsch : schema.IndexableAt d) (hs : session env schema ops = some s)
    (hw : s.Within ops) (hsize : ∀ n, n ≤ schema.size → env.bloomSize n < 2 ^ 31) (hm : NoDot m)
    (hne : series (storedBy schema ops s.grown) d m ≠ [])
    (hall : ∀ p ∈ series (storedBy schema ops s.grown) d m,
      p.1.toInt = 2 ^ 63 - 1 ∧ p.2 ≠ .INT 0 ∧ p.2 ≠ .LONG 0 ∧ p.2 ≠ .FLOAT 0)
    (q : Query) (hv : q.values = none) (h1 : q.since ≤ 2 ^ 63 - 1) (h2 : 2 ^ 63 - 1 ≤ q.till) :
    ∃ p, aggSeries unsnap q .first s.file d m = some (some p) ∧ p ∉ series (storedBy schema ops s.grown) d m := by
  obtain ⟨st, h4, e⟩ := aggSeries_whole (agg := .first) he hsch hs hw hsize hm hne q hv
    (fun p hp => by rw [(hall p hp).1]; exact ⟨h1, h2⟩)
  refine ⟨_, e, fun hmem => ?_⟩
  exact (C19_zero_wrong he hsch.toNamed hs hw h4 (fun p hp => (hall p hp).1)).2 (fun p hp => (hall p hp).2) _ hmem rfl

/-- **C88.** The sum of a series of type INT32. -/
theorem C88_sum (he : EnvOk env unsnap) (hsch : schema.IndexableAt d) (hs : session env schema ops = some s)
    (hw : s.Within ops) (hsize : ∀ n, n ≤ schema.size → env.bloomSize n < 2 ^ 31) (hm : NoDot m)
    {ms : List (Bytes × MeasurementSchema)} {sc : MeasurementSchema} (hd : look d schema = some ms)
    (hsc : look m ms = some sc) (ht : sc.dataType = .INT32)
    (hlen : (series (storedBy schema ops s.grown) d m).length < 2 ^ 32) (q : Query) :
    aggSeries unsnap q .sum s.file d m
      = some (((series (storedBy schema ops s.grown) d m).filter q.wants).filterMap (fun p => intVal p.2)).sum := by
  refine aggSeries_eq sum_joins he hsch hs hw hsize hm (fun st pts h hl => ?_) q
  obtain ⟨vs, h1, h2⟩ := C20_int_sum he hsch.toNamed hs hw h hd hsc ht (Nat.lt_of_le_of_lt hl hlen)
  rw [Aggregate.sum]
  dsimp only
  rw [h2]
  congr 1
  have : pts.filterMap (fun p => intVal p.2) = (pts.map (fun p => intVal p.2)).filterMap id := by
    rw [List.filterMap_map]; rfl
  rw [this, h1]
  simp

end

/-! ## The hypotheses can be met -/

section
open Demo

theorem Demo.series_s1 : series (storedBy schema ops result.grown) (str "root.sg.d1") (str "s1") = [(10, .INT 7), (12, .INT (-1))] := by
  decide +kernel

example := fun q => C87_accepted (d := str "root.sg.d1") (m := str "s1") envOk (indexable.at _) session_eq within Demo.bloomSize
  manyOk (by decide) q

-- one of two points, found by its time; the other one, found by its value; nothing, ruled out by the statistics of the series
example : querySeries some ⟨0, 11, none⟩ result.file (str "root.sg.d1") (str "s1") = some [(10, .INT 7)] := by
  rw [C87_query envOk (indexable.at _) session_eq within Demo.bloomSize (by decide), series_s1]; decide
example : querySeries some ⟨0, 100, some (-5, 0)⟩ result.file (str "root.sg.d1") (str "s1") = some [(12, .INT (-1))] := by
  rw [C87_query envOk (indexable.at _) session_eq within Demo.bloomSize (by decide), series_s1]; decide
example : querySeries some ⟨0, 100, some (8, 20)⟩ result.file (str "root.sg.d1") (str "s1") = some [] := by
  rw [C87_query envOk (indexable.at _) session_eq within Demo.bloomSize (by decide), series_s1]; decide

example : aggSeries some ⟨0, 11, none⟩ .count result.file (str "root.sg.d1") (str "s1") = some 1 := by
  rw [C88_count envOk (indexable.at _) session_eq within Demo.bloomSize (by decide) (by rw [series_s1]; decide), series_s1]; decide
example : aggSeries some ⟨0, 12, none⟩ .sum result.file (str "root.sg.d1") (str "s1") = some 6 := by
  rw [C88_sum envOk (indexable.at _) session_eq within Demo.bloomSize (by decide) (by rfl) (by rfl) rfl (by rw [series_s1]; decide),
    series_s1]; decide
example : aggSeries some ⟨11, 20, none⟩ .firstTime result.file (str "root.sg.d1") (str "s1") = some (some 12) := by
  rw [(C88_times envOk (indexable.at _) session_eq within Demo.bloomSize (by decide) _).1, series_s1]; decide
example : aggSeries some ⟨0, 20, none⟩ .largest result.file (str "root.sg.d1") (str "s1") = some (some 7) := by
  rw [(C88_values envOk (indexable.at _) session_eq within Demo.bloomSize (by decide) (by rfl) (by rfl) (by decide) _).2, series_s1]
  decide

-- the statistics are used: the series statistics alone answer this query, so the result is there although no page can be decompressed
example : aggSeries (fun _ => none) ⟨0, 12, none⟩ .count result2.file (str "root.sg.d1") (str "s1")
    = aggSeries some ⟨0, 12, none⟩ .count result2.file (str "root.sg.d1") (str "s1")
    ∧ readSeries (fun _ => none) result2.file (str "root.sg.d1") (str "s1") = none := by
  decide +kernel

-- the last and the first point
example : aggSeries some ⟨0, 20, none⟩ .last result.file (str "root.sg.d1") (str "s1") = some (some (12, .INT (-1)))
    ∧ aggSeries some ⟨0, 11, none⟩ .last result.file (str "root.sg.d1") (str "s1") = some (some (10, .INT 7))
    ∧ aggSeries some ⟨0, 20, none⟩ .first result.file (str "root.sg.d1") (str "s1") = some (some (10, .INT 7))
    ∧ aggSeries some ⟨13, 20, none⟩ .first result.file (str "root.sg.d1") (str "s1") = some none := by
  decide +kernel
example := fun q => C91_last (d := str "root.sg.d1") (m := str "s1") envOk (indexable.at _) session_eq within Demo.bloomSize (by decide) q
example := fun q => C91_first_partial (d := str "root.sg.d1") (m := str "s1") envOk (indexable.at _) session_eq within Demo.bloomSize
  (by decide) q

-- a FLOAT series
theorem Demo.series_s2 : series (storedBy schema ops result.grown) (str "root.sg.d2") (str "s2") = [(6, .FLOAT 0x40490fdb)] := by
  decide +kernel
example : aggSeries some ⟨0, 20, none⟩ .smallest result.file (str "root.sg.d2") (str "s2") = some (f32Val 0x40490fdb) := by
  rw [(C91_floats_partial envOk (indexable.at _) session_eq within Demo.bloomSize (by decide) (by rfl) (by rfl) rfl _).1 (by
    rw [series_s2]
    exact ⟨(6, .FLOAT 0x40490fdb), by decide, _, rfl, by decide +kernel⟩), series_s2]
  decide +kernel

end

/-! ## The exceptions are real -/

/-- **C91 is false** for first values: the only point is 7 at the last possible time. A query for the first point that uses the
statistics gives 0. One that must decode the page gives 7. -/
theorem C91_first_wrong :
    (oneValue .INT32 (BitVec.intMax 64) (.INT 7)).map Session.results = some [.ok ()]
    ∧ (oneValue .INT32 (BitVec.intMax 64) (.INT 7)).bind (fun s =>
        aggSeries some ⟨0, 2 ^ 63 - 1, none⟩ .first s.file (str "d") (str "m")) = some (some (BitVec.intMax 64, .INT 0))
    ∧ (oneValue .INT32 (BitVec.intMax 64) (.INT 7)).bind (fun s =>
        aggSeries some ⟨0, 2 ^ 63 - 1, some (7, 7)⟩ .first s.file (str "d") (str "m")) = some (some (BitVec.intMax 64, .INT 7)) := by
  refine ⟨?_, ?_, ?_⟩ <;> decide +kernel

/-- There is a series as in `C91_zero_wrong`. -/
example : ∃ s p, session Demo.env (Demo.edgeSchema .INT32) [.write (str "d") (str "m") (BitVec.intMax 64) (.INT 7)] = some s
    ∧ aggSeries some ⟨0, 2 ^ 63 - 1, none⟩ .first s.file (str "d") (str "m") = some (some p)
    ∧ p ∉ ([(BitVec.intMax 64, .INT 7)] : List Point) := by
  have h0 : (session Demo.env (Demo.edgeSchema .INT32) [.write (str "d") (str "m") (BitVec.intMax 64) (.INT 7)]).map
      (fun s => (s.grown, s.closing, s.file.length)) = some ([0], 185, 192) := by decide +kernel
  cases h : session Demo.env (Demo.edgeSchema .INT32) [.write (str "d") (str "m") (BitVec.intMax 64) (.INT 7)] with
  | none => rw [h] at h0; cases h0
  | some s =>
    rw [h] at h0
    simp only [Option.map_some, Option.some.injEq, Prod.mk.injEq] at h0
    obtain ⟨g, c, l⟩ := h0
    have hw : s.Within [.write (str "d") (str "m") (BitVec.intMax 64) (.INT 7)] :=
      ⟨by rw [g]; decide +kernel, by rw [g]; decide +kernel, by rw [c]; decide, by rw [l]; decide⟩
    have hser : series (storedBy (Demo.edgeSchema .INT32) [.write (str "d") (str "m") (BitVec.intMax 64) (.INT 7)] s.grown)
        (str "d") (str "m") = [(BitVec.intMax 64, .INT 7)] := by
      rw [g]; decide +kernel
    obtain ⟨p, h1, h2⟩ := C91_zero_wrong (d := str "d") (m := str "m") Demo.envOk ((Demo.edgeIndexable .INT32).at _) h hw
      (by decide +kernel) (by decide) (by rw [hser]; simp) (by rw [hser]; simp) ⟨0, 2 ^ 63 - 1, none⟩ rfl (by decide) (by decide)
    rw [hser] at h2
    exact ⟨s, p, rfl, h1, h2⟩

/-- **C91 is false** for the smallest value of a FLOAT series: the only value is +∞, but the statistics give the largest finite
number. In the same way for −∞ and the largest value. -/
theorem C91_float_wrong :
    (oneValue .FLOAT 1 (.FLOAT 0x7F800000)).map (fun s => (s.results, aggSeries some ⟨0, 9, none⟩ .smallest s.file (str "d") (str "m")))
      = some ([.ok ()], some (f32Val 0x7F7FFFFF))
    ∧ (oneValue .FLOAT 1 (.FLOAT 0xFF800000)).map (fun s => (s.results, aggSeries some ⟨0, 9, none⟩ .largest s.file (str "d") (str "m")))
      = some ([.ok ()], some (f32Val 0xFF7FFFFF))
    ∧ f32Val 0x7F7FFFFF ≠ f32Val 0x7F800000 ∧ f32Val 0xFF7FFFFF ≠ f32Val 0xFF800000 := by
  decide +kernel

/-- There is a series as in `C91_extremes_wrong`. -/
example : ∃ s x, session Demo.env (Demo.edgeSchema .FLOAT) [.write (str "d") (str "m") 1 (.FLOAT 0x7F800000)] = some s
    ∧ aggSeries some ⟨0, 9, none⟩ .smallest s.file (str "d") (str "m") = some (some x) ∧ x ≠ f32Inf := by
  have h0 : (session Demo.env (Demo.edgeSchema .FLOAT) [.write (str "d") (str "m") 1 (.FLOAT 0x7F800000)]).map
      (fun s => (s.grown, s.closing, s.file.length)) = some ([0], 188, 195) := by decide +kernel
  cases h : session Demo.env (Demo.edgeSchema .FLOAT) [.write (str "d") (str "m") 1 (.FLOAT 0x7F800000)] with
  | none => rw [h] at h0; cases h0
  | some s =>
    rw [h] at h0
    simp only [Option.map_some, Option.some.injEq, Prod.mk.injEq] at h0
    obtain ⟨g, c, l⟩ := h0
    have hw : s.Within [.write (str "d") (str "m") 1 (.FLOAT 0x7F800000)] :=
      ⟨by rw [g]; decide +kernel, by rw [g]; decide +kernel, by rw [c]; decide, by rw [l]; decide⟩
    have hser : series (storedBy (Demo.edgeSchema .FLOAT) [.write (str "d") (str "m") 1 (.FLOAT 0x7F800000)] s.grown)
        (str "d") (str "m") = [(1, .FLOAT 0x7F800000)] := by
      rw [g]; decide +kernel
    have hinf : floatVal (.FLOAT 0x7F800000) = some f32Inf := by decide +kernel
    obtain ⟨x, h1, h2⟩ := (C91_extremes_wrong (d := str "d") (m := str "m") Demo.envOk ((Demo.edgeIndexable .FLOAT).at _) h hw
      (by decide +kernel) (by decide) (by rfl) (by rfl) rfl (by rw [hser]; simp) ⟨0, 9, none⟩ rfl
      (by rw [hser]; intro p hp; rw [List.mem_singleton.1 hp]; decide)).1 (by
        rw [hser]
        intro p hp v hv
        rw [List.mem_singleton.1 hp, hinf] at hv
        cases hv
        exact Int.le_refl _)
    rw [hser] at h2
    refine ⟨s, x, rfl, h1, fun e => ?_⟩
    subst e
    exact h2 _ (List.mem_singleton.2 rfl) hinf

end TsFile
