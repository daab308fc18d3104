import Verif.Props.Orderly
/-! # Properties C06 and C49: closed files with timestamps that begin again, and histories that never abort -/

namespace TsFile
open Spec

/-! ## Stored points are points of the schema -/

/-- A series of the schema. -/
def Known (schema : Schema) (r : Rec) : Prop := ∃ ms s, look r.device schema = some ms ∧ look r.measurement ms = some s

theorem put_known {schema : Schema} {d : Bytes} {ms : List (Bytes × MeasurementSchema)} (hd : look d schema = some ms) {a : AState}
    (h : ∀ r ∈ a.stored ++ a.pending, Known schema r) (m : Bytes) (t : W64) (v : IoTDBValue) :
    ∀ r ∈ (a.put ms d m t v).1.stored ++ (a.put ms d m t v).1.pending, Known schema r := by
  rw [AState.put]
  split
  · exact h
  · cases hm : look m ms with
    | none => exact h
    | some s =>
      dsimp only
      split
      · intro r hr
        dsimp only at hr
        rw [← List.append_assoc, List.mem_append, List.mem_singleton] at hr
        rcases hr with hr | rfl
        · exact h r hr
        · exact ⟨ms, s, hd, hm⟩
      · exact h

theorem putMany_known {schema : Schema} {d : Bytes} {ms : List (Bytes × MeasurementSchema)} (hd : look d schema = some ms) (t : W64)
    (vs : List (Bytes × IoTDBValue)) : ∀ {a : AState}, (∀ r ∈ a.stored ++ a.pending, Known schema r) →
    ∀ r ∈ (AState.putMany ms d t vs a).1.stored ++ (AState.putMany ms d t vs a).1.pending, Known schema r := by
  induction vs with
  | nil => intro a h; exact h
  | cons p vs ih =>
    intro a h
    obtain ⟨m, v⟩ := p
    have hp := put_known hd h m t v
    rw [AState.putMany]
    rcases hr : a.put ms d m t v with ⟨a', r⟩
    rw [hr] at hp
    cases r with
    | ok _ => exact ih hp
    | err _ => exact hp
    | panic => exact hp

theorem exec_known {schema : Schema} {a : AState} (h : ∀ r ∈ a.stored ++ a.pending, Known schema r) (op : Op) :
    ∀ r ∈ (a.exec schema op).1.stored ++ (a.exec schema op).1.pending, Known schema r := by
  cases op with
  | write d m t v =>
    rw [AState.exec]
    cases hd : look d schema with
    | none => exact h
    | some ms =>
      have hp := put_known hd h m t v
      dsimp only
      rcases hr : a.put ms d m t v with ⟨a', r⟩
      rw [hr] at hp
      cases r <;> exact hp
  | writeMany d t vs =>
    rw [AState.exec]
    cases hd : look d schema with
    | none => exact h
    | some ms =>
      have hp := putMany_known hd t vs h
      dsimp only
      rcases hr : AState.putMany ms d t vs a with ⟨a', r⟩
      rw [hr] at hp
      cases r <;> exact hp

theorem flush_known {schema : Schema} {a : AState} (h : ∀ r ∈ a.stored ++ a.pending, Known schema r) :
    ∀ r ∈ a.flush.stored ++ a.flush.pending, Known schema r := by
  rw [AState.flush]
  split
  · exact h
  · simpa using h

theorem run_known {schema : Schema} (l : List (Op × Bool)) : ∀ {a : AState}, (∀ r ∈ a.stored ++ a.pending, Known schema r) →
    ∀ r ∈ (a.run schema l).1.stored ++ (a.run schema l).1.pending, Known schema r := by
  induction l with
  | nil => intro a h; exact h
  | cons e l ih =>
    intro a h
    obtain ⟨op, fl⟩ := e
    rw [AState.run]
    apply ih
    rw [AState.step]
    dsimp only
    split
    · exact flush_known (exec_known h op)
    · exact exec_known h op

theorem storedBy_known (schema : Schema) (ops : List Op) (grown : List Nat) : ∀ r ∈ storedBy schema ops grown, Known schema r := by
  intro r hr
  exact flush_known (run_known _ (by simp [AState.init])) r (List.mem_append_left _ hr)

theorem known_paths {schema : Schema} {l : List Rec} (h : ∀ r ∈ l, Known schema r) : (pathsOf l).length ≤ schema.size := by
  have hsub : pathsOf l ⊆ schema.flatMap (fun d => d.2.map (fun m => d.1 ++ [0x2e] ++ m.1)) := by
    intro p hp
    rw [pathsOf, List.mem_dedup, List.mem_map] at hp
    obtain ⟨r, hr, rfl⟩ := hp
    obtain ⟨ms, s, h1, h2⟩ := h r hr
    exact List.mem_flatMap.2 ⟨_, look_mem h1, List.mem_map.2 ⟨_, look_mem h2, rfl⟩⟩
  refine Nat.le_trans (List.subperm_of_subset (List.nodup_dedup _) hsub).length_le ?_
  rw [List.length_flatMap, Schema.size]
  simp

/-! ## C49 -/

/-- **C49**, with conditions on the inputs only: a program whose values have the types of their series completes, whatever its
timestamps are and whatever its calls return, if the filter has the minimal size of 256 bits (up to 40 series). Missing: larger
schemas (`C27_serialise_fails`, `C25_wide_wrong`) and calls without points. -/
theorem C49_small_partial {env : Env} {unsnap : Bytes → Option Bytes} (he : EnvOk env unsnap) {schema : Schema}
    (hwf : schema.WF) {ops : List Op} (htyp : ∀ op ∈ ops, op.recs ≠ [] ∧ Op.Typed schema op)
    (hP : 22 * handed ops + 120 * schema.size + 22 ≤ 2 ^ 32) (hm : schema.size ≤ 256)
    (hB : ∀ n ≤ schema.size, env.bloomSize n ≤ 256) : (session env schema ops).isSome := by
  obtain ⟨w, hn⟩ := new_total env schema
  have hp := known_paths (storedBy_known schema ops (w.grown env ops))
  have hb := hB _ hp
  refine (C49_session_partial he hwf hn (L := handed ops + 1) (by omega) (handed_bursts _ (by omega)) htyp (by omega)).2 ?_
  have hbits : bloomBits env (pathsOf (storedBy schema ops (w.grown env ops))).length = 256 := by
    rw [bloomBits]
    omega
  have := indexDevices_le (storedBy schema ops (w.grown env ops))
  exact ⟨by omega, by rw [hbits]; exact .inl rfl, by rw [hbits]; intro _ _ _ _ _; rfl⟩

/-- The filter has the minimal size for up to 41 paths. -/
theorem bloomSize_small : ∀ n ≤ 41, SoftFloat.bloomSize n ≤ 256 := by decide +kernel

/-- **C49**, with the size of the filter that the crate computes: a program with up to 41 series whose values have the types of
their series completes, whatever its timestamps are and whatever its calls return. -/
theorem C49_forty_one_partial {env : Env} {unsnap : Bytes → Option Bytes} (he : EnvOk env unsnap)
    (hB : env.bloomSize = SoftFloat.bloomSize) {schema : Schema} (hwf : schema.WF) {ops : List Op}
    (htyp : ∀ op ∈ ops, op.recs ≠ [] ∧ Op.Typed schema op) (hP : handed ops ≤ 190000000) (hm : schema.size ≤ 41) :
    (session env schema ops).isSome :=
  C49_small_partial he hwf htyp (by omega) (by omega) (fun n hn => by rw [hB]; exact bloomSize_small n (by omega))

/-- **C27**, with the size that the crate computes: the filter of up to 43 paths can be stored. (That of 44 paths cannot:
`C27_serialise_fails`.) -/
theorem C27_few_partial {env : Env} (hB : env.bloomSize = SoftFloat.bloomSize) {n : Nat} (hn : n ≤ 43) (f : BloomFilter)
    (hf : f.bitSet.length = bloomBits env n) : f.serializeBits ≠ none := by
  rw [Ne, (C27_serialise_partial f).1, hf, bloomBits, hB]
  have : ∀ n ≤ 43, ¬ (max (SoftFloat.bloomSize n) 256 % 8 = 1 ∨ max (SoftFloat.bloomSize n) 256 % 8 = 2
    ∨ max (SoftFloat.bloomSize n) 256 % 8 = 3) := by decide +kernel
  exact this n hn

/-- **C27** fails for every program with a filter of a bad size: if the number of bits for the paths of the stored points leaves
remainder 1, 2 or 3 when divided by eight, closing aborts the program, whatever was written. With the size that the crate computes
this is so for every program that stores points of exactly 44 paths. -/
theorem C27_closing_wrong {env : Env} {unsnap : Bytes → Option Bytes} (he : EnvOk env unsnap) {schema : Schema}
    (hsch : schema.WF) {ops : List Op} {w : Writer} (hn : Writer.new env schema ⟨[], none⟩ = .ok w)
    {L : Nat} (hL : 22 * L + 120 * schema.size ≤ 2 ^ 32)
    (hlen : burstsBelow L 0 (ops.zip ((w.grown env ops).map (fun n => decide (0 < n)))))
    (htyp : ∀ op ∈ ops, op.recs ≠ [] ∧ Op.Typed schema op)
    (hbad : (env.bloomSize (pathsOf (storedBy schema ops (w.grown env ops))).length < 2 ^ 31
        ∧ bloomBits env (pathsOf (storedBy schema ops (w.grown env ops))).length % 8 ∈ [1, 2, 3])
      ∨ (env.bloomSize = SoftFloat.bloomSize ∧ (pathsOf (storedBy schema ops (w.grown env ops))).length = 44)) :
    .panic ∉ (w.run env ops).2 ∧ session env schema ops = none := by
  refine ⟨C49_calls he.snappy hsch hn hL hlen htyp, ?_⟩
  have hbad' : env.bloomSize (pathsOf (storedBy schema ops (w.grown env ops))).length < 2 ^ 31
      ∧ bloomBits env (pathsOf (storedBy schema ops (w.grown env ops))).length % 8 ∈ [1, 2, 3] := by
    rcases hbad with h | ⟨h1, h2⟩
    · exact h
    · rw [h2, bloomBits, h1]
      decide +kernel
  have := (C49_session_partial he hsch hn hL hlen htyp hbad'.1).not
  cases hs : session env schema ops with
  | none => rfl
  | some s =>
    rw [hs] at this
    have hc : Closable env (storedBy schema ops (w.grown env ops)) :=
      Decidable.byContradiction (dec := Classical.propDecidable _) (fun h => this.2 h rfl)
    have h1 := hc.bits
    rw [SizeOk] at h1
    have h2 := hbad'.2
    simp only [List.mem_cons, List.not_mem_nil, or_false] at h2
    omega

/-- The writer before the calls of `ops44`. -/
def Demo.w44 : Writer :=
  match Writer.new Demo.env Demo.schema44 ⟨[], none⟩ with
  | .ok w => w
  | .error _ => Demo.w0

theorem Demo.typed44 : ∀ op ∈ Demo.ops44, op.recs ≠ [] ∧ Op.Typed Demo.schema44 op := by
  have h : ∀ op ∈ Demo.ops44, op.recs ≠ [] ∧ ∀ r ∈ op.recs, ((look r.device Demo.schema44).all (fun ms =>
    (look r.measurement ms).all (fun s => fits s.dataType r.value && encodable s.dataType s.encoding))) = true := by decide +kernel
  intro op hop
  obtain ⟨h1, h2⟩ := h op hop
  refine ⟨h1, fun r hr ms s e1 e2 => ?_⟩
  have := h2 r hr
  rw [e1] at this
  simp only [Option.all_some] at this
  rw [e2] at this
  simpa using this

/-- 44 series of one device. -/
example : .panic ∉ (Demo.w44.run Demo.env Demo.ops44).2 ∧ session Demo.env Demo.schema44 Demo.ops44 = none :=
  C27_closing_wrong Demo.envOk ⟨by decide +kernel, by decide +kernel⟩ (w := Demo.w44) rfl (L := 190000000) (by decide +kernel)
    (by decide +kernel) Demo.typed44 (.inr ⟨rfl, by decide +kernel⟩)

example : (session Demo.env Demo.schema Demo.ops).isSome :=
  C49_forty_one_partial Demo.envOk rfl Demo.indexable.wf Demo.typed (by decide +kernel) (by decide +kernel)

/-- A history with refused points. -/
example : (session Demo.env Demo.schema Demo.ops).isSome :=
  C49_small_partial Demo.envOk Demo.indexable.wf Demo.typed (by decide +kernel) (by decide +kernel) (by decide +kernel)

/-! ## C06 -/

theorem wideOps_typed (d m : Bytes) (j1 j2 : Nat) :
    ∀ op ∈ wideOps d m 0 j1 ++ wideOps d m 0 j2, op.recs ≠ [] ∧ Op.Typed (wideSchema d m) op := by
  intro op hop
  rw [List.mem_append] at hop
  obtain ⟨t, rfl⟩ : ∃ t, op = .write d m t (.LONG 0) := by
    rcases hop with hop | hop
    all_goals
      rw [wideOps, List.mem_map] at hop
      obtain ⟨i, _, rfl⟩ := hop
      exact ⟨_, rfl⟩
  refine ⟨by simp [Op.recs], fun r hr ms s h3 h4 => ?_⟩
  rw [Op.recs, List.mem_singleton] at hr
  subst hr
  simp only [wideSchema, look, if_true, Option.some.injEq] at h3
  subst h3
  simp only [look, if_true, Option.some.injEq] at h4
  subst h4
  exact ⟨rfl, rfl⟩

/-- **C06** is violated in closed files: there is a program that completes and whose file, read through its index, has a series
with timestamps that do not increase. -/
theorem C06_closed_wrong {env : Env} {unsnap : Bytes → Option Bytes} (he : EnvOk env unsnap) {d m : Bytes}
    (hsch : (wideSchema d m).Indexable) (hN : (wideSchema d m).NamesBelow 100) (hB : ∀ n ≤ 1, env.bloomSize n ≤ 8 * n + 1) :
    ∃ ops s points, session env (wideSchema d m) ops = some s ∧ readSeries unsnap s.file d m = some points ∧ ¬ Increasing points := by
  obtain ⟨j1, j2, w0, w, _, h1, h1', h2, h2', hr, hst, _, _⟩ := wide_restart he.snappy hsch.toNamed
  have hP : handed (wideOps d m 0 j1 ++ wideOps d m 0 j2) ≤ 2 ^ 25 + 2 := by
    rw [handed, List.map_append, List.sum_append, wideOps_recs, wideOps_recs]
    omega
  have hsize : (wideSchema d m).size = 1 := rfl
  have htyp := wideOps_typed d m j1 j2
  obtain ⟨s, hs⟩ := Option.isSome_iff_exists.1 (C49_small_partial he hsch.wf htyp (by omega) (by omega)
    (fun n hn => by have := hB n (by omega); omega))
  have hread := C01_hundred_million_partial he hsch hs (by omega) (show (wideSchema d m).length ≤ 1000 by simp [wideSchema]) (by omega) hN
    (fun n hn => ?_) d m
  · rw [(session_unfold hs hr.new).2, hst] at hread
    exact ⟨_, s, _, hs, hread, wide_not_increasing d m h1 h2⟩
  · exact hB n hn

/-- A series that satisfies the hypotheses. -/
example : ∃ ops s points, session Demo.env (wideSchema (str "root.sg.d1") (str "s1")) ops = some s
    ∧ readSeries some s.file (str "root.sg.d1") (str "s1") = some points ∧ ¬ Increasing points :=
  C06_closed_wrong Demo.envOk ⟨⟨⟨by decide +kernel, by decide +kernel⟩, by decide +kernel, by decide +kernel⟩, by decide +kernel, by decide +kernel⟩
    ⟨by decide +kernel, by decide +kernel⟩ (by decide +kernel)

end TsFile
