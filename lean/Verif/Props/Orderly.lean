import Verif.Proofs.Orderly
import Verif.Props.Limits
import Verif.Props.Close
import Verif.Props.Size
import Verif.Props.Flush
/-! # Properties C81 and C82: orderly histories from the first call to the finished file

The conditions of these theorems are conditions on the inputs; whether calls succeed and whether closing completes is part of the
conclusions. -/

namespace TsFile
open Spec

/-! ## Lemmas -/

theorem new_total (env : Env) (schema : Schema) : ∃ w, Writer.new env schema ⟨[], none⟩ = .ok w := ⟨_, rfl⟩

theorem orderly_paths {schema : Schema} {ops : List Op} (ho : Orderly schema ops) :
    (pathsOf (ops.flatMap Op.recs)).length ≤ schema.size := by
  have hsub : pathsOf (ops.flatMap Op.recs) ⊆ schema.flatMap (fun d => d.2.map (fun m => d.1 ++ [0x2e] ++ m.1)) := by
    intro p hp
    rw [pathsOf, List.mem_dedup, List.mem_map] at hp
    obtain ⟨r, hr, rfl⟩ := hp
    obtain ⟨ms, s, h1, h2, _⟩ := ho.known r hr
    exact List.mem_flatMap.2 ⟨_, look_mem h1, List.mem_map.2 ⟨_, look_mem h2, rfl⟩⟩
  refine Nat.le_trans (List.subperm_of_subset (List.nodup_dedup _) hsub).length_le ?_
  rw [List.length_flatMap, Schema.size]
  simp

theorem indexDevices_le (l : List Rec) : (indexDevicesOf l).length ≤ (pathsOf l).length := by
  rw [indexDevicesOf]
  exact Nat.le_trans (List.dedup_sublist _).length_le (by simp)

/-- With a filter of the minimal size, closing cannot fail for the reasons of C25 and C27. -/
theorem closable_small {env : Env} {schema : Schema} {ops : List Op} (ho : Orderly schema ops) (hm : schema.size ≤ 256)
    (hB : ∀ n ≤ schema.size, env.bloomSize n ≤ 256) : Closable env (ops.flatMap Op.recs) := by
  have hp := orderly_paths ho
  have hb : bloomBits env (pathsOf (ops.flatMap Op.recs)).length = 256 := by
    rw [bloomBits]
    have := hB _ hp
    omega
  have := indexDevices_le (ops.flatMap Op.recs)
  exact ⟨by omega, by rw [hb]; exact .inl rfl, by rw [hb]; intro _ _ _ _ _; rfl⟩

theorem handed_bursts {ops : List Op} (fl : List Bool) {L : Nat} (h : handed ops < L) : burstsBelow L 0 (ops.zip fl) := by
  have : ∀ (ops : List Op) (fl : List Bool) (n : Nat), n + handed ops < L → burstsBelow L n (ops.zip fl) := by
    intro ops
    induction ops with
    | nil => intro fl n _; trivial
    | cons op ops ih =>
      intro fl n hn
      cases fl with
      | nil => trivial
      | cons f fl =>
        have hh : handed (op :: ops) = op.recs.length + handed ops := by simp [handed]
        rw [hh] at hn
        refine ⟨by omega, ih fl _ ?_⟩
        split <;> omega
  exact this ops fl 0 (by omega)

/-- What is common to the theorems below. -/
theorem orderly_session {env : Env} {unsnap : Bytes → Option Bytes} (he : EnvOk env unsnap) {schema : Schema}
    (hwf : schema.WF) {ops : List Op} (ho : Orderly schema ops) {w : Writer} (hn : Writer.new env schema ⟨[], none⟩ = .ok w)
    {L : Nat} (hL : 22 * L + 120 * schema.size ≤ 2 ^ 32)
    (hb : burstsBelow L 0 (ops.zip ((w.grown env ops).map (fun n => decide (0 < n)))))
    (hB : ∀ n ≤ schema.size, env.bloomSize n < 2 ^ 31) :
    (w.run env ops).2 = List.replicate ops.length (.ok ())
    ∧ storedBy schema ops (w.grown env ops) = ops.flatMap Op.recs
    ∧ ((session env schema ops).isSome ↔ Closable env (ops.flatMap Op.recs)) := by
  have hl := (run_length env ops w).2
  obtain ⟨h1, h2⟩ := ho.run (w.grown env ops) hl
  have hb' := burstsBelow_mono (l2 := 2 ^ 32) (by omega) _ _ hb
  have hnp := C49_calls he.snappy hwf hn hL hb ho.typed
  obtain ⟨_, hr, _⟩ := sim_run he.snappy hwf ops (sim_new unsnap hwf hn) 0 (by simp [AState.init]) hb' hnp
  refine ⟨hr.symm.trans h1, h2, ?_⟩
  rw [← h2]
  exact C49_session_partial he hwf hn hL hb ho.typed (by rw [h2]; exact hB _ (orderly_paths ho))

theorem session_unfold {env : Env} {schema : Schema} {ops : List Op} {s : Session} (hs : session env schema ops = some s)
    {w : Writer} (hn : Writer.new env schema ⟨[], none⟩ = .ok w) :
    s.results = (w.run env ops).2 ∧ s.grown = w.grown env ops := by
  rw [session, hn] at hs
  simp only at hs
  split at hs
  · simp at hs
  · split at hs
    · simp at hs
    · simp only [Option.some.injEq] at hs
      subst hs
      exact ⟨rfl, rfl⟩

/-- Timestamps that increase point by point. -/
theorem increasing_of {l : List Rec} (h0 : ∀ r ∈ l, 0 ≤ r.timestamp.toInt)
    (hp : l.Pairwise (fun a b => a.device = b.device → a.measurement = b.measurement → a.timestamp.toInt < b.timestamp.toInt))
    (d m : Bytes) : Increasing (series l d m) := by
  rw [series]
  refine ⟨?_, ?_⟩
  · intro p h
    obtain ⟨r, hr, rfl⟩ := List.mem_map.1 h
    exact h0 r (List.mem_filter.1 hr).1
  · rw [List.pairwise_map]
    refine (hp.sublist List.filter_sublist).imp_of_mem ?_
    intro a b ha hb hab
    have h1 := of_decide_eq_true (List.mem_filter.1 ha).2
    have h2 := of_decide_eq_true (List.mem_filter.1 hb).2
    exact hab (h1.1.trans h2.1.symm) (h1.2.trans h2.2.symm)

namespace Demo

/-- An orderly history. -/
def tidy : List Op :=
  [.write (str "root.sg.d1") (str "s1") 10 (.INT 7), .write (str "root.sg.d2") (str "s1") 5 (.LONG (-3)),
   .writeMany (str "root.sg.d2") 6 [(str "s1", .LONG 9000000000), (str "s2", .FLOAT 0x40490fdb)],
   .write (str "root.sg.d1") (str "s1") 12 (.INT (-1))]

/-- A check for orderly histories. -/
theorem orderly_of {schema : Schema} {ops : List Op} (h1 : ∀ op ∈ ops, op.recs ≠ [])
    (h2 : (ops.flatMap Op.recs).all (fun r => (look r.device schema).any (fun ms => (look r.measurement ms).any (fun s =>
      fits s.dataType r.value && encodable s.dataType s.encoding))) = true)
    (h3 : ∀ r ∈ ops.flatMap Op.recs, 0 ≤ r.timestamp.toInt)
    (h4 : (ops.flatMap Op.recs).Pairwise (fun a b => a.device = b.device → a.measurement = b.measurement →
      a.timestamp.toInt < b.timestamp.toInt)) : Orderly schema ops := by
  refine ⟨h1, fun r hr => ?_, increasing_of h3 h4⟩
  have h := List.all_eq_true.1 h2 r hr
  obtain ⟨ms, e1, h⟩ := (Option.any_eq_true _ _).1 h
  obtain ⟨s, e2, h⟩ := (Option.any_eq_true _ _).1 h
  rw [Bool.and_eq_true] at h
  exact ⟨ms, s, e1, e2, h⟩

theorem tidy_orderly : Orderly schema tidy := orderly_of (by decide +kernel) (by decide +kernel) (by decide +kernel) (by decide +kernel)

theorem tidy_closable : Closable env (tidy.flatMap Op.recs) :=
  closable_small tidy_orderly (by decide +kernel) (by decide +kernel)

end Demo

/-! ## C81 -/

/-- **C81.** An orderly history: the program completes exactly if the stored points meet the three conditions of closing (at most
256 index devices, a filter size without remainder 1, 2 or 3, no hash -2^31), and then every call has returned `Ok`. -/
theorem C81_completes {env : Env} {unsnap : Bytes → Option Bytes} (he : EnvOk env unsnap) {schema : Schema}
    (hwf : schema.WF) {ops : List Op} (ho : Orderly schema ops) (hP : 22 * handed ops + 120 * schema.size + 22 ≤ 2 ^ 32)
    (hB : ∀ n ≤ schema.size, env.bloomSize n < 2 ^ 31) :
    ((session env schema ops).isSome ↔ Closable env (ops.flatMap Op.recs))
    ∧ ∀ s, session env schema ops = some s → s.results = List.replicate ops.length (.ok ())
      ∧ storedBy schema ops s.grown = ops.flatMap Op.recs := by
  obtain ⟨w, hn⟩ := new_total env schema
  obtain ⟨h1, h2, h3⟩ := orderly_session he hwf ho hn (L := handed ops + 1) (by omega) (handed_bursts _ (by omega)) hB
  refine ⟨h3, fun s hs => ?_⟩
  obtain ⟨h4, h5⟩ := session_unfold hs hn
  exact ⟨h4.trans h1, by rw [h5, h2]⟩

example : (session Demo.env Demo.schema Demo.tidy).isSome ↔ Closable Demo.env (Demo.tidy.flatMap Op.recs) :=
  (C81_completes Demo.envOk Demo.indexable.wf Demo.tidy_orderly (by decide +kernel) (by decide +kernel)).1

/-- **C81**, up to a hundred million points: the program completes, every call returns `Ok`, a scan finds exactly the points that
were handed over, whatever the names in the schema are. -/
theorem C81_scan {env : Env} {unsnap : Bytes → Option Bytes} (he : EnvOk env unsnap) {schema : Schema}
    (hsch : schema.Named) {ops : List Op} (ho : Orderly schema ops) (hP : handed ops ≤ 100000000)
    (hd : schema.length ≤ 1000) (hm : schema.size ≤ 100000) (hN : schema.NamesBelow 100)
    (hB : ∀ n ≤ schema.size, env.bloomSize n ≤ 8 * n + 1) (hc : Closable env (ops.flatMap Op.recs)) :
    ∃ s items stop, session env schema ops = some s ∧ s.results = List.replicate ops.length (.ok ())
      ∧ scan unsnap s.file = some (items, stop)
      ∧ ∀ d m, scanPoints d m none items = series (ops.flatMap Op.recs) d m := by
  obtain ⟨h1, h2⟩ := C81_completes he hsch.wf ho (by omega) (fun n hn => by have := hB n hn; omega)
  obtain ⟨s, hs⟩ := Option.isSome_iff_exists.1 (h1.2 hc)
  obtain ⟨h3, h4⟩ := h2 s hs
  obtain ⟨items, footer, _, h5, _, h6⟩ := C02_scan he hsch hs (C67_hundred_million he hsch.wf hs hP hd hm hN hB)
  exact ⟨s, items, _, hs, h3, h5, fun d m => by rw [h6, h4]⟩

example : ∃ s items stop, session Demo.env Demo.schema Demo.tidy = some s ∧ scan some s.file = some (items, stop)
    ∧ scanPoints (str "root.sg.d1") (str "s1") none items = [(10, .INT 7), (12, .INT (-1))] := by
  obtain ⟨s, items, stop, h1, _, h2, h3⟩ := C81_scan Demo.envOk Demo.indexable.toNamed Demo.tidy_orderly (by decide +kernel)
    (by decide +kernel) (by decide +kernel) Demo.names Demo.bloomSmall Demo.tidy_closable
  exact ⟨s, items, stop, h1, h2, by rw [h3]; decide +kernel⟩

/-- **C81**, up to a hundred million points and for the index: reading a series gives exactly the points that were handed
over. -/
theorem C81_read {env : Env} {unsnap : Bytes → Option Bytes} (he : EnvOk env unsnap) {schema : Schema}
    (hsch : schema.Indexable) {ops : List Op} (ho : Orderly schema ops) (hP : handed ops ≤ 100000000)
    (hd : schema.length ≤ 1000) (hm : schema.size ≤ 100000) (hN : schema.NamesBelow 100)
    (hB : ∀ n ≤ schema.size, env.bloomSize n ≤ 8 * n + 1) (hc : Closable env (ops.flatMap Op.recs)) :
    ∃ s, session env schema ops = some s ∧ s.results = List.replicate ops.length (.ok ())
      ∧ ∀ d m, readSeries unsnap s.file d m = some (series (ops.flatMap Op.recs) d m) := by
  obtain ⟨h1, h2⟩ := C81_completes he hsch.wf ho (by omega) (fun n hn => by have := hB n hn; omega)
  obtain ⟨s, hs⟩ := Option.isSome_iff_exists.1 (h1.2 hc)
  obtain ⟨h3, h4⟩ := h2 s hs
  have hw := C67_hundred_million he hsch.wf hs hP hd hm hN hB
  exact ⟨s, hs, h3, fun d m => by rw [(C01_index_read_back_partial he hsch hs hw).2, h4]⟩

example : ∃ s, session Demo.env Demo.schema Demo.tidy = some s
    ∧ readSeries some s.file (str "root.sg.d2") (str "s1") = some [(5, .LONG (-3)), (6, .LONG 9000000000)] := by
  obtain ⟨s, h1, _, h2⟩ := C81_read Demo.envOk Demo.indexable Demo.tidy_orderly (by decide +kernel)
    (by decide +kernel) (by decide +kernel) Demo.names Demo.bloomSmall Demo.tidy_closable
  exact ⟨s, h1, by rw [h2]; decide +kernel⟩

/-- **C81**, without a condition on closing: a schema for which the filter has the minimal size of 256 bits (up to 40 series). -/
theorem C81_small {env : Env} {unsnap : Bytes → Option Bytes} (he : EnvOk env unsnap) {schema : Schema}
    (hsch : schema.Indexable) {ops : List Op} (ho : Orderly schema ops) (hP : handed ops ≤ 100000000)
    (hd : schema.length ≤ 1000) (hm : schema.size ≤ 256) (hN : schema.NamesBelow 100)
    (hB : ∀ n ≤ schema.size, env.bloomSize n ≤ 256) :
    ∃ s, session env schema ops = some s ∧ s.results = List.replicate ops.length (.ok ())
      ∧ ∀ d m, readSeries unsnap s.file d m = some (series (ops.flatMap Op.recs) d m) := by
  obtain ⟨h1, h2⟩ := C81_completes he hsch.wf ho (by omega) (fun n hn => by have := hB n hn; omega)
  obtain ⟨s, hs⟩ := Option.isSome_iff_exists.1 (h1.2 (closable_small ho hm hB))
  obtain ⟨h3, h4⟩ := h2 s hs
  have hw : s.Within ops := by
    refine C67_within he hsch.wf hs (F := 19) (B := 256) hN (by omega) hB ?_
    rw [show max 256 256 / 8 = 32 by decide]
    omega
  exact ⟨s, hs, h3, fun d m => by rw [(C01_index_read_back_partial he hsch hs hw).2, h4]⟩

example : ∃ s, session Demo.env Demo.schema Demo.tidy = some s ∧ s.results = List.replicate 4 (.ok ()) := by
  obtain ⟨s, h1, h2, _⟩ := C81_small Demo.envOk Demo.indexable Demo.tidy_orderly (by decide +kernel)
    (by decide +kernel) (by decide +kernel) Demo.names (by decide +kernel)
  exact ⟨s, h1, h2⟩

/-- In a schema without compression, the calls of an orderly history of any length succeed. -/
theorem plain_fine {env : Env} {unsnap : Bytes → Option Bytes} (he : EnvOk env unsnap) {schema : Schema} (hwf : schema.WF)
    (hpl : schema.Plain) {K : Nat} (hK : 22 * (2 ^ 27 + K + 1) + 120 * schema.size ≤ 2 ^ 32) {w : Writer}
    (hn : Writer.new env schema ⟨[], none⟩ = .ok w) (ops : List Op) (ho : Orderly schema ops)
    (hops : ∀ op ∈ ops, op.recs.length ≤ K) : ∀ r ∈ (w.run env ops).2, r = .ok () := by
  induction ops using List.reverseRecOn with
  | nil => simp [Writer.run]
  | append_singleton ops op ih =>
    have hok := ih ho.left (fun o h => hops o (by simp [h]))
    obtain ⟨hb, hp⟩ := plain_bursts he.snappy hwf hpl (K := K) (by omega) ops (sim_new unsnap hwf hn)
      (fun o h => hops o (by simp [h])) hok rfl (by simp [AState.init]) (by rw [new_next hn]; decide)
    have hnp : .panic ∉ (w.run env ops).2 := fun h => by have := hok _ h; simp at this
    obtain ⟨new, hr, hsim, _⟩ := sim_run he.snappy hwf ops (sim_new unsnap hwf hn) 0 (by simp [AState.init])
      (burstsBelow_mono (by omega) _ _ hb) hnp
    have hlen := hops op (by simp)
    have hnp1 : .panic ∉ ((w.run env ops).1.run env [op]).2 :=
      run_fine he.snappy hwf [op] hsim (2 ^ 27) hp hK ⟨by omega, trivial⟩
        (fun o h => by
          rw [List.mem_singleton] at h
          subst h
          exact ho.typed o (by simp))
    have hstep : ((w.run env ops).1.step env op).2 ≠ .panic := by
      simpa [Writer.run, eq_comm] using hnp1
    obtain ⟨_, hres, _⟩ := sim_step he.snappy hwf hsim op (by omega) hstep
    have hl := (run_length env ops w).2
    have hst := run_accepted schema (ops.zip ((w.grown env ops).map (fun n => decide (0 < n)))) AState.init rfl
      (fun d t vs r h => hok r (by rw [← hr]; exact (List.of_mem_zip h).2))
    have hmap : (ops.zip ((w.grown env ops).map (fun n => decide (0 < n)))).map Prod.fst = ops := by
      rw [List.map_fst_zip]
      simp [hl]
    rw [hmap, hr, accepted_all ops _ (run_length env ops w).1 hok] at hst
    have hex := exec_fits (schema := schema) (AState.inv_init.run (schema := schema)
        (ops.zip ((w.grown env ops).map (fun n => decide (0 < n))))) (ho.calls op (by simp))
      (fun r h => ho.known r (by rw [List.flatMap_append]; simp [h])) hst.1 (fun d m => by
        have := ho.increasing d m
        rw [List.flatMap_append] at this
        simpa [AState.init] using this)
    intro r h
    rw [(run_append env ops [op] w).2.1, List.mem_append] at h
    rcases h with h | h
    · exact hok r h
    · simp only [Writer.run, List.mem_singleton] at h
      rw [h, hres, hex]

/-- **C81**, up to ten billion points, for series without compression. -/
theorem C81_ten_billion {env : Env} {unsnap : Bytes → Option Bytes} (he : EnvOk env unsnap) {schema : Schema}
    (hsch : schema.Indexable) (hpl : schema.Plain) {ops : List Op} (ho : Orderly schema ops)
    (hops : ∀ op ∈ ops, op.recs.length ≤ 1000000) (hP : handed ops ≤ 10000000000) (hd : schema.length ≤ 1000)
    (hm : schema.size ≤ 1000) (hN : schema.NamesBelow 100) (hB : ∀ n ≤ schema.size, env.bloomSize n ≤ 8 * n + 1)
    (hc : Closable env (ops.flatMap Op.recs)) :
    ∃ s, session env schema ops = some s ∧ s.results = List.replicate ops.length (.ok ())
      ∧ ∀ d m, readSeries unsnap s.file d m = some (series (ops.flatMap Op.recs) d m) := by
  obtain ⟨w, hn⟩ := new_total env schema
  have hok := plain_fine he hsch.wf hpl (K := 1000000) (by omega) hn ops ho hops
  obtain ⟨hb, _⟩ := plain_bursts he.snappy hsch.wf hpl (K := 1000000) (by omega) ops (sim_new unsnap hsch.wf hn) hops hok rfl
    (by simp [AState.init]) (by rw [new_next hn]; decide)
  obtain ⟨h1, h2, h3⟩ := orderly_session he hsch.wf ho hn (by omega) hb (fun n hn => by have := hB n hn; omega)
  obtain ⟨s, hs⟩ := Option.isSome_iff_exists.1 (h3.2 hc)
  obtain ⟨h4, h5⟩ := session_unfold hs hn
  refine ⟨s, hs, h4.trans h1, fun d m => ?_⟩
  rw [C01_ten_billion_partial he hsch hpl hs (by rw [h4]; exact hok) hops hP hd hm hN hB]

/-- Two calls for a schema without compression. -/
def Demo.twoOps : List Op := [.write (str "root.sg.d1") (str "s1") 10 (.INT 7), .writeMany (str "root.sg.d2") 6 [(str "s1", .LONG 9000000000), (str "s2", .FLOAT 0x40490fdb)]]

theorem Demo.twoOps_orderly : Orderly Demo.plainSchema Demo.twoOps :=
  orderly_of (by decide +kernel) (by decide +kernel) (by decide +kernel) (by decide +kernel)

example : ∃ s, session Demo.env Demo.plainSchema Demo.twoOps = some s
    ∧ readSeries some s.file (str "root.sg.d2") (str "s1") = some [(6, .LONG 9000000000)] := by
  obtain ⟨s, h1, _, h2⟩ := C81_ten_billion Demo.envOk Demo.plainIndexable Demo.plainPlain Demo.twoOps_orderly (by decide +kernel)
    (by decide +kernel) (by decide +kernel) (by decide +kernel) Demo.plainNames (by decide +kernel)
    (closable_small Demo.twoOps_orderly (by decide +kernel) (by decide +kernel))
  exact ⟨s, h1, by rw [h2]; decide +kernel⟩

end TsFile
