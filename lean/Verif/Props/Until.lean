import Verif.Proofs.Until
import Verif.Props.Query
import Verif.Props.Restart
/-! # Queries that stop at the end of the range: C100 -/

namespace TsFile
open Spec

section
variable {env : Env} {unsnap : Bytes → Option Bytes} {schema : Schema} {ops : List Op} {s : Session} {d m : Bytes}

/-- **C100**, what such a reader finds in every file: the points that are asked for among those before the first point of the
series that is later than the end of the range. -/
theorem C100_finds (he : EnvOk env unsnap) (hsch : schema.IndexableAt d) (hs : session env schema ops = some s)
    (hw : s.Within ops) (hm : NoDot m) (q : Query) :
    untilSeries unsnap q s.file d m
      = some (((series (storedBy schema ops s.grown) d m).takeWhile (fun p => decide (p.1.toInt ≤ q.till))).filter q.wants) := by
  have hr := C01_device_partial he hsch hs hw m
  rw [if_pos hm] at hr
  have ok : ∀ {st : Stats} {pts : List Point}, StatsIn unsnap schema s.file d m st pts → StartOk (some st) pts := by
    intro st pts h x hx
    cases hx
    obtain ⟨⟨p, hp, _⟩, _, ht⟩ := C17_time_range he hsch.toNamed hs hw h
    exact ⟨List.ne_nil_of_mem hp, fun p hp => (ht p hp).1⟩
  rw [readSeries] at hr
  rw [untilSeries]
  cases h1 : readSeriesMeta s.file d m with
  | none => rw [h1] at hr; simp at hr
  | some r =>
    rw [h1] at hr
    cases r with
    | none =>
      simp only [Option.some.injEq] at hr
      rw [← hr]
      rfl
    | some sm =>
      simp only [Option.map_eq_some_iff] at hr
      obtain ⟨chunks, h2, h3⟩ := hr
      dsimp only
      rw [untilChunks_eq h2, h3]
      intro c hc chunk rest hp
      refine ⟨?_, fun pg hpg => ?_⟩
      · cases hst : c.stats with
        | none => intro x hx; simp at hx
        | some st => exact ok (.inl ⟨hsch, .chunk h1 hc hst hp⟩)
      · obtain ⟨o, pts⟩ := pg
        cases o with
        | none => intro x hx; simp at hx
        | some st => exact ok (.inl ⟨hsch, .page h1 hc hp hpg⟩)

/-- **C100**, exactly when it holds: such a reader finds, for every query, exactly the points that are asked for if and only if the
times of the stored points of the series never decrease. -/
theorem C100_exactly (he : EnvOk env unsnap) (hsch : schema.IndexableAt d) (hs : session env schema ops = some s)
    (hw : s.Within ops) (hm : NoDot m) :
    (∀ q, untilSeries unsnap q s.file d m = some ((series (storedBy schema ops s.grown) d m).filter q.wants))
      ↔ (series (storedBy schema ops s.grown) d m).Pairwise (fun p q => p.1.toInt ≤ q.1.toInt) := by
  constructor
  · intro h
    refine sorted_of_takeWhile fun q => ?_
    have := h q
    rw [C100_finds he hsch hs hw hm, Option.some.injEq] at this
    exact this
  · intro h q
    rw [C100_finds he hsch hs hw hm, takeWhile_filter_of_sorted h]

/-- **C100**, partial: if no call made the output grow (no automatic flush), such a reader finds exactly the points that are asked
for. Missing: series with times that begin again after a flush (`C100_lost_wrong`). -/
theorem C100_short_partial (he : EnvOk env unsnap) (hsch : schema.Indexable) (hs : session env schema ops = some s)
    (hw : s.Within ops) (hno : ∀ n ∈ s.grown, n = 0) (hm : NoDot m) (q : Query) :
    untilSeries unsnap q s.file d m = some ((series (storedBy schema ops s.grown) d m).filter q.wants) := by
  refine (C100_exactly he (hsch.at d) hs hw hm).2 ?_ q
  obtain ⟨pts, h1, h2⟩ := C06_increasing_partial he hsch hs hw hno d m
  have hr := C01_device_partial he (hsch.at d) hs hw m
  rw [if_pos hm, h1, Option.some.injEq] at hr
  rw [← hr]
  exact h2.2.imp fun h => Int.le_of_lt h

/-- **C100**, partial: the file of an orderly program. Such a reader finds exactly the points that were handed over and are asked
for, with any number of flushes. -/
theorem C100_orderly_partial (he : EnvOk env unsnap) (hsch : schema.Indexable) (ho : Orderly schema ops) (hP : handed ops ≤ 100000000)
    (hd : schema.length ≤ 1000) (hm : schema.size ≤ 100000) (hN : schema.NamesBelow 100)
    (hB : ∀ n ≤ schema.size, env.bloomSize n ≤ 8 * n + 1) (hc : Closable env (ops.flatMap Op.recs)) :
    ∃ s, session env schema ops = some s ∧ ∀ d m q, NoDot m →
      untilSeries unsnap q s.file d m = some ((series (ops.flatMap Op.recs) d m).filter q.wants) := by
  obtain ⟨h1, h2⟩ := C81_completes he hsch.wf ho (by omega) (fun n hn => by have := hB n hn; omega)
  obtain ⟨s, hs⟩ := Option.isSome_iff_exists.1 (h1.2 hc)
  obtain ⟨_, h4⟩ := h2 s hs
  have hw := C67_hundred_million he hsch.wf hs hP hd hm hN hB
  refine ⟨s, hs, fun d m q hdot => ?_⟩
  have := (C100_exactly he (hsch.at d) hs hw hdot).2 (by rw [h4]; exact (ho.increasing d m).2.imp fun h => Int.le_of_lt h) q
  rw [this, h4]

end

theorem wide_mem (d m : Bytes) {i j : Nat} (h : i < j) :
    (BitVec.ofNat 64 i, IoTDBValue.LONG 0) ∈ series ((wideOps d m 0 j).flatMap Op.recs) d m := by
  rw [series, List.mem_map]
  refine ⟨⟨d, m, BitVec.ofNat 64 i, .LONG 0⟩, List.mem_filter.2 ⟨?_, by simp⟩, rfl⟩
  rw [List.mem_flatMap]
  refine ⟨.write d m (BitVec.ofNat 64 i) (.LONG 0), ?_, by simp [Op.recs]⟩
  rw [wideOps, List.mem_map]
  exact ⟨i, List.mem_range.2 h, by simp⟩

/-- **C100** is false: there is a program whose calls all return and whose file is complete, and a query for which such a reader
does not find all the points. -/
theorem C100_lost_wrong {env : Env} {unsnap : Bytes → Option Bytes} (he : EnvOk env unsnap) {d m : Bytes}
    (hsch : (wideSchema d m).Indexable) (hN : (wideSchema d m).NamesBelow 100) (hB : ∀ n ≤ 1, env.bloomSize n ≤ 8 * n + 1)
    (hm : NoDot m) :
    ∃ ops s points q, session env (wideSchema d m) ops = some s ∧ readSeries unsnap s.file d m = some points
      ∧ untilSeries unsnap q s.file d m ≠ some (points.filter q.wants) := by
  obtain ⟨j1, j2, w0, w, _, h1, h1', h2, h2', hr, hst, _, _, n0, hg, hn0⟩ := wide_restart he.snappy hsch.toNamed
  have hP : handed (wideOps d m 0 j1 ++ wideOps d m 0 j2) ≤ 2 ^ 25 + 2 := by
    rw [handed, List.map_append, List.sum_append, wideOps_recs, wideOps_recs]
    omega
  have hsize : (wideSchema d m).size = 1 := rfl
  obtain ⟨s, hs⟩ := Option.isSome_iff_exists.1 (C49_small_partial he hsch.wf (wideOps_typed d m j1 j2) (by omega) (by omega)
    (fun n hn => by have := hB n (by omega); omega))
  have hw := C67_hundred_million he hsch.wf hs (by omega) (show (wideSchema d m).length ≤ 1000 by simp [wideSchema]) (by omega) hN
    (fun n hn => hB n hn)
  have hread := (C01_index_read_back_partial he hsch hs hw).2 d m
  have hj : 1 < j1 := by
    by_contra hj
    have hj : j1 = 1 := by omega
    subst hj
    have hp : .panic ∉ (w0.run env (wideOps d m 0 1)).2 := by
      intro hp
      refine hr.fine ?_
      rw [(run_append env _ _ w0).2.1]
      exact List.mem_append_left _ hp
    have hb := C66_short he.snappy hsch.wf hr.new hp (by rw [handed, wideOps_recs]; omega)
    have h3 := (sim_new unsnap hsch.wf hr.new).file.bytes
    have h4 := grown_sum env (wideOps d m 0 1) w0
    have h5 := le_sum_of_mem_nat (List.mem_of_getLast? hg)
    rw [hb, h3] at h4
    have h6 : (fileBytes env []).length = 7 := rfl
    rw [h6] at h4
    simp only [List.length_cons, List.length_nil] at h4
    omega
  have hex := (C100_exactly he (hsch.at d) hs hw hm).not
  rw [not_forall] at hex
  obtain ⟨q, hq⟩ := hex.2 (by
    rw [(session_unfold hs hr.new).2, hst, series_append]
    intro hp
    have := (List.pairwise_append.1 hp).2.2 (1, .LONG 0) ?_ (0, .LONG 0) ?_
    · simp at this
    · exact wide_mem d m hj
    · exact wide_mem d m h2)
  exact ⟨_, s, _, q, hs, hread, hq⟩

/-- A series that satisfies the hypotheses. -/
example : ∃ ops s points q, session Demo.env (wideSchema (str "root.sg.d1") (str "s1")) ops = some s
    ∧ readSeries some s.file (str "root.sg.d1") (str "s1") = some points
    ∧ untilSeries some q s.file (str "root.sg.d1") (str "s1") ≠ some (points.filter q.wants) :=
  C100_lost_wrong Demo.envOk ⟨⟨⟨by decide +kernel, by decide +kernel⟩, by decide +kernel, by decide +kernel⟩, by decide +kernel, by decide +kernel⟩
    ⟨by decide +kernel, by decide +kernel⟩ (by decide +kernel) (by decide +kernel)

/-- A query of the demo session: the hypotheses are met, and the reader stops before the last point. -/
example : untilSeries some ⟨0, 5, none⟩ Demo.result.file (str "root.sg.d2") (str "s1")
    = some ((series (storedBy Demo.schema Demo.ops Demo.result.grown) (str "root.sg.d2") (str "s1")).filter (Query.wants ⟨0, 5, none⟩)) :=
  C100_short_partial Demo.envOk Demo.indexable Demo.session_eq Demo.within (by decide +kernel) (by decide +kernel) _

example : untilSeries some ⟨0, 5, none⟩ Demo.result.file (str "root.sg.d2") (str "s1") = some [(5, .LONG (-3))] := by decide +kernel

example : ∃ s, session Demo.env Demo.schema Demo.tidy = some s
    ∧ untilSeries some ⟨0, 5, none⟩ s.file (str "root.sg.d2") (str "s1") = some [(5, .LONG (-3))] := by
  obtain ⟨s, h1, h2⟩ := C100_orderly_partial Demo.envOk Demo.indexable Demo.tidy_orderly (by decide +kernel)
    (by decide +kernel) (by decide +kernel) Demo.names Demo.bloomSmall Demo.tidy_closable
  exact ⟨s, h1, by rw [h2 _ _ _ (by decide +kernel)]; decide +kernel⟩

end TsFile
