import Verif.Model.Programs
import Verif.Props.Orderly
/-! # Property C82: the programs that come with the crate -/

namespace TsFile
open Spec Programs

/-! ## Lemmas -/

theorem series_flatMap {α : Type} (l : List α) (g : α → List Rec) (d m : Bytes) :
    series (l.flatMap g) d m = l.flatMap (fun i => series (g i) d m) := by
  induction l with
  | nil => rfl
  | cons x l ih => rw [List.flatMap_cons, List.flatMap_cons, series_append, ih]

/-- Points at the times 0, 1, 2, … -/
theorem increasing_count {n : Nat} (hn : n ≤ 2 ^ 63) (v : Nat → IoTDBValue) :
    Increasing ((List.range n).map (fun i => (BitVec.ofNat 64 i, v i))) := by
  have hi : ∀ i < n, (BitVec.ofNat 64 i).toInt = i := by
    intro i h
    rw [BitVec.toInt_eq_toNat_cond, BitVec.toNat_ofNat, Nat.mod_eq_of_lt (by omega), if_pos (by omega)]
  refine ⟨?_, ?_⟩
  · intro p hp
    obtain ⟨i, h, rfl⟩ := List.mem_map.1 hp
    rw [hi i (List.mem_range.1 h)]
    omega
  · rw [List.pairwise_map]
    refine List.pairwise_lt_range.imp_of_mem ?_
    intro i j h1 h2 hlt
    rw [hi i (List.mem_range.1 h1), hi j (List.mem_range.1 h2)]
    omega

theorem increasing_nil : Increasing [] := ⟨by simp, by simp⟩

/-! ## The first benchmark -/

/-- What the file of the first benchmark has to contain. -/
def benchmarkPoints (n : Nat) (d m : Bytes) : List (W64 × IoTDBValue) :=
  if d = d1 ∧ m = s then (List.range n).map (fun i => (BitVec.ofNat 64 i, .LONG (BitVec.ofNat 64 i))) else []

theorem benchmark_series (n : Nat) (d m : Bytes) : series ((benchmark n).flatMap Op.recs) d m = benchmarkPoints n d m := by
  rw [benchmark, List.flatMap_map, series_flatMap, benchmarkPoints]
  simp only [Op.recs, series_single]
  by_cases h : d1 = d ∧ s = m
  · obtain ⟨rfl, rfl⟩ := h
    simp only [true_and, if_true, and_self]
    exact (List.map_eq_flatMap ..).symm
  · rw [if_neg (by rintro ⟨rfl, rfl⟩; exact h ⟨rfl, rfl⟩)]
    simp [h]

theorem benchmark_orderly {n : Nat} (hn : n ≤ 2 ^ 63) : Orderly benchmarkSchema (benchmark n) := by
  refine ⟨?_, ?_, ?_⟩
  · intro op h
    obtain ⟨i, _, rfl⟩ := List.mem_map.1 h
    simp [Op.recs]
  · intro r h
    obtain ⟨op, h1, h2⟩ := List.mem_flatMap.1 h
    obtain ⟨i, _, rfl⟩ := List.mem_map.1 h1
    simp only [Op.recs, List.mem_singleton] at h2
    subst h2
    exact ⟨_, _, rfl, rfl, rfl, rfl⟩
  · intro d m
    rw [benchmark_series, benchmarkPoints]
    split
    · exact increasing_count hn _
    · exact increasing_nil

theorem benchmark_handed (n : Nat) : handed (benchmark n) = n := by
  simp [handed, benchmark, Op.recs, Function.comp_def]

theorem benchmark_indexable : benchmarkSchema.Indexable :=
  ⟨⟨⟨by decide, by decide⟩, by decide, by decide⟩, by decide, by decide⟩

/-- **C82**, the first benchmark: with any number of rounds up to ten billion (the program has 100000001) it completes, no call
fails, and the file contains exactly its points. -/
theorem C82_benchmark {env : Env} {unsnap : Bytes → Option Bytes} (he : EnvOk env unsnap)
    (hB : ∀ n ≤ 4, env.bloomSize n ≤ 8 * n + 1) (n : Nat) (hn : n ≤ 10000000000) :
    ∃ s, session env benchmarkSchema (benchmark n) = some s ∧ s.results = List.replicate n (.ok ())
      ∧ ∀ d m, readSeries unsnap s.file d m = some (benchmarkPoints n d m) := by
  have ho : Orderly benchmarkSchema (benchmark n) := benchmark_orderly (by omega)
  obtain ⟨s, h1, h2, h3⟩ := C81_ten_billion he benchmark_indexable (by unfold Schema.Plain; decide) ho
    (fun op h => by obtain ⟨i, _, rfl⟩ := List.mem_map.1 h; simp [Op.recs])
    (by rw [benchmark_handed]; exact hn) (by decide) (by decide) ⟨by decide, by decide⟩
    (fun k hk => hB k (Nat.le_trans hk (by decide)))
    (closable_small ho (by decide) (fun k hk => by
      have h1 : benchmarkSchema.size = 1 := rfl
      have := hB k (by omega)
      omega))
  exact ⟨s, h1, by rw [h2]; simp [benchmark], fun d m => by rw [h3, benchmark_series]⟩

-- the program as it is
example : ∃ s, session Demo.env benchmarkSchema (benchmark 100000001) = some s
    ∧ readSeries some s.file d1 Programs.s
      = some ((List.range 100000001).map (fun i => (BitVec.ofNat 64 i, .LONG (BitVec.ofNat 64 i)))) := by
  obtain ⟨s, h1, _, h2⟩ := C82_benchmark Demo.envOk (by decide +kernel) 100000001 (by omega)
  exact ⟨s, h1, by rw [h2, benchmarkPoints, if_pos ⟨rfl, rfl⟩]⟩

/-! ## The second benchmark -/

/-- What the file of the second benchmark has to contain. -/
def benchmark2Points (f : Nat → W32) (n : Nat) (d m : Bytes) : List (W64 × IoTDBValue) :=
  if d = d1 ∨ d = d2 then
    if m = s1 then (List.range n).map (fun i => (BitVec.ofNat 64 i, .LONG (BitVec.ofNat 64 i)))
    else if m = s2 then (List.range n).map (fun i => (BitVec.ofNat 64 i, .FLOAT (f i)))
    else []
  else []

theorem benchmark2_series (f : Nat → W32) (n : Nat) (d m : Bytes) :
    series ((benchmark2 f n).flatMap Op.recs) d m = benchmark2Points f n d m := by
  rw [benchmark2, List.flatMap_assoc, series_flatMap, benchmark2Points]
  have h12 : d1 ≠ d2 := by decide
  have hs12 : s1 ≠ s2 := by decide
  have hround : ∀ i, series ((benchmark2Round f i).flatMap Op.recs) d m
      = if d = d1 ∨ d = d2 then
          if m = s1 then [(BitVec.ofNat 64 i, .LONG (BitVec.ofNat 64 i))]
          else if m = s2 then [(BitVec.ofNat 64 i, .FLOAT (f i))] else []
        else [] := by
    intro i
    simp only [benchmark2Round, List.flatMap_cons, List.flatMap_nil, Op.recs, List.map_cons, List.map_nil, List.append_nil,
      List.cons_append, List.nil_append, series, List.filter_cons, List.filter_nil]
    by_cases e1 : d = d1
    · subst e1
      by_cases e3 : m = s1
      · subst e3; simp [h12.symm, hs12.symm]
      · by_cases e4 : m = s2
        · subst e4; simp [h12.symm, hs12, hs12.symm]
        · simp [h12.symm, Ne.symm e3, Ne.symm e4, e3, e4]
    · by_cases e2 : d = d2
      · subst e2
        by_cases e3 : m = s1
        · subst e3; simp [h12, hs12.symm]
        · by_cases e4 : m = s2
          · subst e4; simp [h12, hs12, hs12.symm]
          · simp [h12, Ne.symm e3, Ne.symm e4, e3, e4]
      · simp [Ne.symm e1, Ne.symm e2, e1, e2]
  simp only [hround]
  split
  · split
    · exact (List.map_eq_flatMap ..).symm
    · split
      · exact (List.map_eq_flatMap ..).symm
      · simp
  · simp

/-- The four forms that a map with two keys can take: it is iterated in one of two orders. -/
theorem order_pair {α : Type} {o : IterOrder α} (ho : ∀ l, (o l).Perm l) (a b : Bytes × α) :
    o [a, b] = [a, b] ∨ o [a, b] = [b, a] := by
  have h := ho [a, b]
  rcases hx : o [a, b] with _ | ⟨x, _ | ⟨y, _ | ⟨z, l⟩⟩⟩
  · rw [hx] at h; simpa using h.length_eq
  · rw [hx] at h; simpa using h.length_eq
  · rw [hx] at h
    have hm := h.mem_iff (a := x)
    simp only [List.mem_cons, List.not_mem_nil, or_false, true_or, true_iff] at hm
    rcases hm with rfl | rfl
    · have := (List.perm_cons x).1 h
      have := List.perm_singleton.1 this
      simp only [List.cons.injEq, and_true] at this
      subst this
      exact .inl rfl
    · have h2 : [x, y].Perm [x, a] := h.trans (List.Perm.swap ..)
      have := List.perm_singleton.1 ((List.perm_cons x).1 h2)
      simp only [List.cons.injEq, and_true] at this
      subst this
      exact .inr rfl
  · rw [hx] at h; have := h.length_eq; simp at this

/-- The forms of the group of a device. -/
def deviceForms (c : CompressionType) : List (List (Bytes × MeasurementSchema)) :=
  [[(s1, ⟨.INT64, .PLAIN, c⟩), (s2, ⟨.FLOAT, .PLAIN, c⟩)], [(s2, ⟨.FLOAT, .PLAIN, c⟩), (s1, ⟨.INT64, .PLAIN, c⟩)]]

/-- The forms of the schema. -/
def schemaForms (c : CompressionType) : List Schema :=
  (deviceForms c).flatMap (fun a => (deviceForms c).flatMap (fun b => [[(d1, a), (d2, b)], [(d2, b), (d1, a)]]))

theorem device_form {o : IterOrder MeasurementSchema} (ho : ∀ l, (o l).Perm l) (c : CompressionType) :
    ∃ b, ∃ g ∈ deviceForms c, ((DeviceBuilder.new.add s1 .INT64 .PLAIN c).add s2 .FLOAT .PLAIN c).build o = some (b, g) := by
  have hm : ((DeviceBuilder.new.add s1 .INT64 .PLAIN c).add s2 .FLOAT .PLAIN c).measurementGroupsMap
      = [(s1, ⟨.INT64, .PLAIN, c⟩), (s2, ⟨.FLOAT, .PLAIN, c⟩)] := rfl
  refine ⟨_, _, ?_, rfl⟩
  rw [hm, hashCopy]
  rcases order_pair ho (s1, ⟨.INT64, .PLAIN, c⟩) (s2, ⟨.FLOAT, .PLAIN, c⟩) with h | h <;> rw [h] <;> simp [deviceForms, hashInsert, s1, s2]

theorem schema_form {o1 o2 : IterOrder MeasurementSchema} {o : IterOrder (List (Bytes × MeasurementSchema))}
    (h1 : ∀ l, (o1 l).Perm l) (h2 : ∀ l, (o2 l).Perm l) (h : ∀ l, (o l).Perm l) (c : CompressionType) :
    ∃ schema ∈ schemaForms c, twoDevices o1 o2 o c = some schema := by
  obtain ⟨b1, g1, hg1, e1⟩ := device_form h1 c
  obtain ⟨b2, g2, hg2, e2⟩ := device_form h2 c
  rw [twoDevices, e1, e2]
  refine ⟨_, ?_, rfl⟩
  have hm : ((SchemaBuilder.new.add d1 g1).add d2 g2).measurementGroupsMap = [(d1, g1), (d2, g2)] := rfl
  simp only [SchemaBuilder.build, hm, hashCopy]
  refine List.mem_flatMap.2 ⟨g1, hg1, List.mem_flatMap.2 ⟨g2, hg2, ?_⟩⟩
  rcases order_pair h (d1, g1) (d2, g2) with h | h <;> rw [h] <;> simp [hashInsert, d1, d2]

theorem forms_ok {c : CompressionType} {schema : Schema} (h : schema ∈ schemaForms c) :
    schema.Indexable ∧ schema.length = 2 ∧ schema.size = 4 ∧ schema.NamesBelow 100
    ∧ ∀ d, d = d1 ∨ d = d2 → ∃ ms, look d schema = some ms ∧ look s1 ms = some ⟨.INT64, .PLAIN, c⟩
      ∧ look s2 ms = some ⟨.FLOAT, .PLAIN, c⟩ := by
  simp only [schemaForms, deviceForms, List.flatMap_cons, List.flatMap_nil, List.append_nil, List.cons_append, List.nil_append,
    List.mem_cons, List.not_mem_nil, or_false] at h
  rcases h with rfl | rfl | rfl | rfl | rfl | rfl | rfl | rfl <;> cases c <;>
    exact ⟨⟨⟨⟨by decide, by decide⟩, by decide, by decide⟩, by decide, by decide⟩, rfl, rfl, ⟨by decide, by decide⟩, by
      rintro d (rfl | rfl) <;> exact ⟨_, rfl, rfl, rfl⟩⟩

theorem benchmark2_orderly {c : CompressionType} {schema : Schema} (h : schema ∈ schemaForms c) (f : Nat → W32) {n : Nat}
    (hn : n ≤ 2 ^ 63) : Orderly schema (benchmark2 f n) := by
  obtain ⟨_, _, _, _, hl⟩ := forms_ok h
  refine ⟨?_, ?_, ?_⟩
  · intro op h
    obtain ⟨i, _, h⟩ := List.mem_flatMap.1 h
    simp only [benchmark2Round, List.mem_cons, List.not_mem_nil, or_false] at h
    rcases h with rfl | rfl <;> simp [Op.recs]
  · intro r h
    obtain ⟨op, h1, h2⟩ := List.mem_flatMap.1 h
    obtain ⟨i, _, h1⟩ := List.mem_flatMap.1 h1
    obtain ⟨a1, a2, a3, a4⟩ := hl d1 (.inl rfl)
    obtain ⟨b1, b2, b3, b4⟩ := hl d2 (.inr rfl)
    simp only [benchmark2Round, List.mem_cons, List.not_mem_nil, or_false] at h1
    rcases h1 with rfl | rfl <;>
      simp only [Op.recs, List.map_cons, List.map_nil, List.mem_cons, List.not_mem_nil, or_false] at h2
    · rcases h2 with rfl | rfl
      · exact ⟨_, _, a2, a3, rfl, rfl⟩
      · exact ⟨_, _, a2, a4, rfl, rfl⟩
    · rcases h2 with rfl | rfl
      · exact ⟨_, _, b2, b3, rfl, rfl⟩
      · exact ⟨_, _, b2, b4, rfl, rfl⟩
  · intro d m
    rw [benchmark2_series, benchmark2Points]
    split
    · split
      · exact increasing_count hn _
      · split
        · exact increasing_count hn _
        · exact increasing_nil
    · exact increasing_nil

theorem benchmark2_handed (f : Nat → W32) (n : Nat) : handed (benchmark2 f n) = 4 * n ∧ (benchmark2 f n).length = 2 * n := by
  induction n with
  | zero => exact ⟨rfl, rfl⟩
  | succ n ih =>
    have : benchmark2 f (n + 1) = benchmark2 f n ++ benchmark2Round f n := by
      rw [benchmark2, List.range_succ, List.flatMap_append, benchmark2]
      simp
    have h4 : handed (benchmark2Round f n) = 4 := rfl
    have h2 : (benchmark2Round f n).length = 2 := rfl
    have ha : handed (benchmark2 f n ++ benchmark2Round f n) = handed (benchmark2 f n) + handed (benchmark2Round f n) := by
      simp [handed]
    rw [this, ha, List.length_append]
    omega

/-- **C82**, the second benchmark: in whatever order hash maps are iterated, the schema is built, and with any number of rounds
up to 25 million (the program has 10000001) the program completes, no call fails, and the file contains exactly its points. -/
theorem C82_benchmark2 {env : Env} {unsnap : Bytes → Option Bytes} (he : EnvOk env unsnap)
    (hB : ∀ n ≤ 4, env.bloomSize n ≤ 8 * n + 1) {o1 o2 : IterOrder MeasurementSchema}
    {o : IterOrder (List (Bytes × MeasurementSchema))} (h1 : ∀ l, (o1 l).Perm l) (h2 : ∀ l, (o2 l).Perm l)
    (h : ∀ l, (o l).Perm l) :
    ∃ schema, twoDevices o1 o2 o .SNAPPY = some schema ∧ ∀ (f : Nat → W32) (n : Nat), n ≤ 25000000 →
      ∃ s, session env schema (benchmark2 f n) = some s ∧ s.results = List.replicate (2 * n) (.ok ())
        ∧ ∀ d m, readSeries unsnap s.file d m = some (benchmark2Points f n d m) := by
  obtain ⟨schema, hf, e⟩ := schema_form h1 h2 h .SNAPPY
  refine ⟨schema, e, fun f n hn => ?_⟩
  obtain ⟨hi, hlen, hsz, hnm, _⟩ := forms_ok hf
  obtain ⟨ha, hl⟩ := benchmark2_handed f n
  obtain ⟨s, g1, g2, g3⟩ := C81_small he hi (benchmark2_orderly hf f (n := n) (by omega)) (by omega) (by omega) (by omega) hnm
    (fun k hk => by have := hB k (by omega); omega)
  exact ⟨s, g1, by rw [g2, hl], fun d m => by rw [g3, benchmark2_series]⟩

-- the program as it is
example : ∃ schema s, twoDevices id List.reverse List.reverse .SNAPPY = some schema
    ∧ session Demo.env schema (benchmark2 (BitVec.ofNat 32) 10000001) = some s
    ∧ s.results = List.replicate 20000002 (.ok ()) := by
  obtain ⟨schema, h1, h2⟩ := C82_benchmark2 Demo.envOk (by decide +kernel) (o1 := id) (o2 := List.reverse) (o := List.reverse)
    (fun l => .refl l) List.reverse_perm List.reverse_perm
  obtain ⟨s, h3, h4, _⟩ := h2 (BitVec.ofNat 32) 10000001 (by omega)
  exact ⟨schema, s, h1, h3, h4⟩

/-! ## The quickstart -/

/-- What the file of the quickstart should contain. -/
def quickstartPoints (d m : Bytes) : List (W64 × IoTDBValue) :=
  if d = d1 ∧ m = s1 then [(1, .LONG 13)]
  else if d = d1 ∧ m = s2 then [(1, .FLOAT 0x41500000)]
  else if d = d2 ∧ m = s1 then [(1, .LONG 14)]
  else if d = d2 ∧ m = s2 then [(1, .FLOAT 0x41600000)]
  else []

theorem quickstart_series (d m : Bytes) : series (quickstart.flatMap Op.recs) d m = quickstartPoints d m := by
  have h12 : d1 ≠ d2 := by decide
  have hs12 : s1 ≠ s2 := by decide
  simp only [quickstart, quickstartPoints, List.flatMap_cons, List.flatMap_nil, Op.recs, List.map_cons, List.map_nil,
    List.append_nil, List.cons_append, List.nil_append, series, List.filter_cons, List.filter_nil]
  by_cases e1 : d = d1
  · subst e1
    by_cases e3 : m = s1
    · subst e3; simp [h12, h12.symm, hs12.symm]
    · by_cases e4 : m = s2
      · subst e4; simp [h12, h12.symm, hs12, hs12.symm]
      · simp [h12, h12.symm, Ne.symm e3, Ne.symm e4, e3, e4]
  · by_cases e2 : d = d2
    · subst e2
      by_cases e3 : m = s1
      · subst e3; simp [h12, h12.symm, hs12.symm]
      · by_cases e4 : m = s2
        · subst e4; simp [h12, h12.symm, hs12, hs12.symm]
        · simp [h12, Ne.symm e3, Ne.symm e4, e3, e4]
    · simp [Ne.symm e1, Ne.symm e2, e1, e2]

theorem quickstart_orderly {c : CompressionType} {schema : Schema} (h : schema ∈ schemaForms c) : Orderly schema quickstart := by
  obtain ⟨_, _, _, _, hl⟩ := forms_ok h
  obtain ⟨a1, a2, a3, a4⟩ := hl d1 (.inl rfl)
  obtain ⟨b1, b2, b3, b4⟩ := hl d2 (.inr rfl)
  refine ⟨by decide, ?_, ?_⟩
  · intro r h
    simp only [quickstart, List.flatMap_cons, List.flatMap_nil, Op.recs, List.map_cons, List.map_nil,
      List.append_nil, List.cons_append, List.nil_append, List.mem_cons, List.not_mem_nil, or_false] at h
    rcases h with rfl | rfl | rfl | rfl
    · exact ⟨_, _, a2, a3, rfl, rfl⟩
    · exact ⟨_, _, a2, a4, rfl, rfl⟩
    · exact ⟨_, _, b2, b3, rfl, rfl⟩
    · exact ⟨_, _, b2, b4, rfl, rfl⟩
  · intro d m
    rw [quickstart_series, quickstartPoints]
    have h1 : ∀ v : IoTDBValue, Increasing [((1 : W64), v)] := by
      intro v
      exact ⟨by simp, by simp⟩
    split
    · exact h1 _
    · split
      · exact h1 _
      · split
        · exact h1 _
        · split
          · exact h1 _
          · exact increasing_nil

/-- **C82** is false of the quickstart: its calls succeed, but it ends without `close`, and its file consists of the seven bytes
of the head; no point can be read from it. -/
theorem C82_quickstart_wrong {env : Env} {unsnap : Bytes → Option Bytes} (he : EnvOk env unsnap)
    {o1 o2 : IterOrder MeasurementSchema} {o : IterOrder (List (Bytes × MeasurementSchema))} (h1 : ∀ l, (o1 l).Perm l)
    (h2 : ∀ l, (o2 l).Perm l) (h : ∀ l, (o l).Perm l) :
    ∃ schema w, twoDevices o1 o2 o .UNCOMPRESSED = some schema ∧ Writer.new env schema ⟨[], none⟩ = .ok w
      ∧ (w.run env quickstart).2 = List.replicate 3 (.ok ())
      ∧ (w.run env quickstart).1.io.out.bytes = [0x54, 0x73, 0x46, 0x69, 0x6c, 0x65, 0x03]
      ∧ ∀ d m, readSeries unsnap (w.run env quickstart).1.io.out.bytes d m = none := by
  obtain ⟨schema, hf, e⟩ := schema_form h1 h2 h .UNCOMPRESSED
  obtain ⟨w, hn⟩ := new_total env schema
  obtain ⟨hi, hlen, hsz, _, _⟩ := forms_ok hf
  have ho := quickstart_orderly hf
  have hh : handed quickstart = 4 := rfl
  have hb : burstsBelow 5 0 (quickstart.zip ((w.grown env quickstart).map (fun n => decide (0 < n)))) :=
    handed_bursts _ (by omega)
  have hnp := C49_calls he.snappy hi.wf hn (L := 5) (by omega) hb ho.typed
  obtain ⟨_, hr, _⟩ := sim_run he.snappy hi.wf quickstart (sim_new unsnap hi.wf hn) 0 (by simp [AState.init])
    (burstsBelow_mono (by omega) _ _ hb) hnp
  have hbytes := C66_short he.snappy hi.wf hn hnp (by omega)
  refine ⟨schema, w, e, hn, hr.symm.trans (ho.run _ (run_length env quickstart w).2).1, hbytes, fun d m => ?_⟩
  rw [hbytes]
  have hf : readFooter [0x54, 0x73, 0x46, 0x69, 0x6c, 0x65, 0x03] = none := by decide +kernel
  rw [readSeries, readSeriesMeta, hf]
  rfl

/-- **C82**, partial: with a call of `close` at its end the quickstart is right. Missing: the program as it is
(`C82_quickstart_wrong`). -/
theorem C82_quickstart_partial {env : Env} {unsnap : Bytes → Option Bytes} (he : EnvOk env unsnap)
    (hB : ∀ n ≤ 4, env.bloomSize n ≤ 8 * n + 1) {o1 o2 : IterOrder MeasurementSchema}
    {o : IterOrder (List (Bytes × MeasurementSchema))} (h1 : ∀ l, (o1 l).Perm l) (h2 : ∀ l, (o2 l).Perm l)
    (h : ∀ l, (o l).Perm l) :
    ∃ schema s, twoDevices o1 o2 o .UNCOMPRESSED = some schema ∧ session env schema quickstart = some s
      ∧ s.results = List.replicate 3 (.ok ()) ∧ ∀ d m, readSeries unsnap s.file d m = some (quickstartPoints d m) := by
  obtain ⟨schema, hf, e⟩ := schema_form h1 h2 h .UNCOMPRESSED
  obtain ⟨hi, hlen, hsz, hnm, _⟩ := forms_ok hf
  have hh : handed quickstart = 4 := rfl
  obtain ⟨s, g1, g2, g3⟩ := C81_small he hi (quickstart_orderly hf) (by omega) (by omega) (by omega) hnm
    (fun k hk => by have := hB k (by omega); omega)
  exact ⟨schema, s, e, g1, g2, fun d m => by rw [g3, quickstart_series]⟩

example : ∃ schema s, twoDevices id id id .UNCOMPRESSED = some schema ∧ session Demo.env schema quickstart = some s
    ∧ readSeries some s.file d1 s1 = some [(1, .LONG 13)] := by
  obtain ⟨schema, s, h1, h2, _, h3⟩ := C82_quickstart_partial Demo.envOk (by decide +kernel) (o1 := id) (o2 := id) (o := id)
    (fun l => .refl l) (fun l => .refl l) (fun l => .refl l)
  exact ⟨schema, s, h1, h2, by rw [h3]; rfl⟩

end TsFile
