import Verif.Proofs.StatsFile
import Verif.Props.Write
import Verif.Props.ReadBack
/-! # The statistics in a closed file: C16–C21

Where statistics are in a file, and of which points, is said by `StatsIn` in `Spec/Stats.lean`. -/

namespace TsFile
open Spec

/-! ## What `Describes` says about the statistics as read -/

section
variable {env : Env} {st : Statistics} {pts : List Point}

theorem Describes.count (h : Describes env st pts) : st.toSpec.count = pts.length % 2 ^ 32 := by
  cases h with
  | int h _ => simp [Statistics.toSpec, h.count, u32]
  | long h => simp [Statistics.toSpec, h.count, u32]
  | float h => simp [Statistics.toSpec, h.count, u32]

theorem Describes.start (h : Describes env st pts) : ∀ p ∈ pts, st.toSpec.startTime.toInt ≤ p.1.toInt := by
  intro p hp
  cases h with
  | int h _ => obtain ⟨q, hq, rfl⟩ := List.mem_map.1 hp; exact h.first q hq
  | long h => obtain ⟨q, hq, rfl⟩ := List.mem_map.1 hp; exact h.first q hq
  | float h => obtain ⟨q, hq, rfl⟩ := List.mem_map.1 hp; exact h.first q hq

theorem Describes.end (h : Describes env st pts) : ∀ p ∈ pts, p.1.toInt ≤ st.toSpec.endTime.toInt := by
  intro p hp
  cases h with
  | int h _ => obtain ⟨q, hq, rfl⟩ := List.mem_map.1 hp; exact h.last q hq
  | long h => obtain ⟨q, hq, rfl⟩ := List.mem_map.1 hp; exact h.last q hq
  | float h => obtain ⟨q, hq, rfl⟩ := List.mem_map.1 hp; exact h.last q hq

theorem Describes.first (h : Describes env st pts) :
    st.toSpec.startTime = BitVec.intMax 64 ∨ (st.toSpec.startTime, st.toSpec.first) ∈ pts := by
  cases h with
  | int h _ => exact h.first'.imp id (fun e => List.mem_map.2 ⟨_, e, rfl⟩)
  | long h => exact h.first'.imp id (fun e => List.mem_map.2 ⟨_, e, rfl⟩)
  | float h => exact h.first'.imp id (fun e => List.mem_map.2 ⟨_, e, rfl⟩)

theorem Describes.last (h : Describes env st pts) :
    st.toSpec.endTime = BitVec.intMin 64 ∨ (st.toSpec.endTime, st.toSpec.last) ∈ pts := by
  cases h with
  | int h _ => exact h.last'.imp id (fun e => List.mem_map.2 ⟨_, e, rfl⟩)
  | long h => exact h.last'.imp id (fun e => List.mem_map.2 ⟨_, e, rfl⟩)
  | float h => exact h.last'.imp id (fun e => List.mem_map.2 ⟨_, e, rfl⟩)

end

theorem intMax_toInt : (BitVec.intMax 64).toInt = 2 ^ 63 - 1 := by decide
theorem intMin_toInt : (BitVec.intMin 64).toInt = -2 ^ 63 := by decide

section
variable {env : Env} {unsnap : Bytes → Option Bytes} {schema : Schema} {ops : List Op} {s : Session} {d m : Bytes}
  {st : Stats} {pts : List Point}

/-- What is known about statistics in a file written by a session. -/
theorem statsAbout_session (he : EnvOk env unsnap) (hsch : schema.Named)
    (hs : session env schema ops = some s) (hw : s.Within ops) (h : StatsIn unsnap schema s.file d m st pts) :
    ∃ ms sc stm, look d schema = some ms ∧ look m ms = some sc ∧ st = Statistics.toSpec stm ∧ stm.type = sc.dataType
      ∧ Describes env stm pts ∧ pts ≠ [] ∧ ∀ p ∈ pts, 0 ≤ p.1.toInt := by
  obtain ⟨c⟩ := session_outlined he hsch hs hw
  obtain ⟨ms, sc, stm, h1, h2, h3, h4, h5, h6, h7⟩ :=
    h.elim (fun h => c.layout.statsAbout h.1 c.ok c.fits h.2) (c.layout.pageStats hsch c.ok c.fits)
  refine ⟨ms, sc, stm, h1, h2, h3, h4, h5, h6, fun p hp => ?_⟩
  obtain ⟨bs, e1, e2, _⟩ := stored_bursts hs d m
  have := h7 hp
  rw [c.pts, e1] at this
  obtain ⟨b, hb, hpb⟩ := List.mem_flatten.1 this
  exact (e2 b hb).1 p hpb

/-- Every series with stored points has statistics in the index, which are about all of these points. -/
theorem C16_present (he : EnvOk env unsnap) (hsch : schema.IndexableAt d) (hs : session env schema ops = some s)
    (hw : s.Within ops) (hm : NoDot m) (hne : series (storedBy schema ops s.grown) d m ≠ []) :
    ∃ sm, readSeriesMeta s.file d m = some (some sm)
      ∧ StatsAbout unsnap s.file d m sm.stats (series (storedBy schema ops s.grown) d m) := by
  have hr := C01_device_partial he hsch hs hw m
  rw [if_pos hm] at hr
  obtain ⟨c⟩ := session_outlined he hsch.toNamed hs hw
  rcases c.layout.readSeriesMeta hsch c.ok c.fits m with ⟨h1, h2⟩ | ⟨ms, sc, _, h1, h2, h3, h4⟩
  · rw [← c.pts, filePts_eq_locs env, h1 hm] at hne
    simp at hne
  · exact ⟨_, h4, .series h4 hr⟩

/-- **C16.** The point count in any statistics in the file is the number of points they are about (modulo
2^32; the field has 32 bits). -/
theorem C16_count (he : EnvOk env unsnap) (hsch : schema.Named) (hs : session env schema ops = some s)
    (hw : s.Within ops) (h : StatsIn unsnap schema s.file d m st pts) :
    st.count = pts.length % 2 ^ 32 ∧ (pts.length < 2 ^ 32 → st.count = pts.length) := by
  obtain ⟨ms, sc, stm, _, _, rfl, _, hd, _⟩ := statsAbout_session he hsch hs hw h
  exact ⟨hd.count, fun hlt => by rw [hd.count, Nat.mod_eq_of_lt hlt]⟩

/-- **C17.** Start and end time are the smallest and the largest of the timestamps. -/
theorem C17_time_range (he : EnvOk env unsnap) (hsch : schema.Named) (hs : session env schema ops = some s)
    (hw : s.Within ops) (h : StatsIn unsnap schema s.file d m st pts) :
    (∃ p ∈ pts, p.1 = st.startTime) ∧ (∃ p ∈ pts, p.1 = st.endTime)
      ∧ ∀ p ∈ pts, st.startTime.toInt ≤ p.1.toInt ∧ p.1.toInt ≤ st.endTime.toInt := by
  obtain ⟨ms, sc, stm, _, _, rfl, _, hd, hne, hpos⟩ := statsAbout_session he hsch hs hw h
  obtain ⟨p, hp⟩ := List.exists_mem_of_ne_nil _ hne
  refine ⟨?_, ?_, fun p hp => ⟨hd.start p hp, hd.end p hp⟩⟩
  · rcases hd.first with e | e
    · refine ⟨p, hp, ?_⟩
      have h1 := hd.start p hp
      rw [e]
      rw [e, intMax_toInt] at h1
      have h2 := BitVec.toInt_lt (x := p.1)
      apply BitVec.eq_of_toInt_eq
      rw [intMax_toInt]
      omega
    · exact ⟨_, e, rfl⟩
  · rcases hd.last with e | e
    · have h1 := hd.end p hp
      have h2 := hpos p hp
      rw [e, intMin_toInt] at h1
      omega
    · exact ⟨_, e, rfl⟩

/-- **C18.** For series of type INT32 and INT64, minimum and maximum are those of the values. -/
theorem C18_int_min_max (he : EnvOk env unsnap) (hsch : schema.Named) (hs : session env schema ops = some s)
    (hw : s.Within ops) (h : StatsIn unsnap schema s.file d m st pts) {ms : List (Bytes × MeasurementSchema)}
    {sc : MeasurementSchema} (hd : look d schema = some ms) (hm : look m ms = some sc) (ht : sc.dataType ≠ .FLOAT) :
    (∃ p ∈ pts, p.2 = st.min) ∧ (∃ p ∈ pts, p.2 = st.max)
      ∧ ∃ lo hi, intVal st.min = some lo ∧ intVal st.max = some hi
        ∧ ∀ p ∈ pts, ∃ v, intVal p.2 = some v ∧ lo ≤ v ∧ v ≤ hi := by
  obtain ⟨ms', sc', stm, h1, h2, rfl, htype, hds, hne, hpos⟩ := statsAbout_session he hsch hs hw h
  rw [hd] at h1; cases h1
  rw [hm] at h2; cases h2
  rw [← htype] at ht
  clear h
  cases hds with
  | @int s l h _ =>
    have hl : l ≠ [] := fun e => hne (by rw [e]; rfl)
    obtain ⟨p, hp⟩ := List.exists_mem_of_ne_nil _ hl
    obtain ⟨x, hx, hmin⟩ := h.min
    obtain ⟨y, hy, hmax⟩ := h.max
    simp only [Option.some.injEq] at hx hy hmin hmax
    refine ⟨?_, ?_, x, y, by simp [Statistics.toSpec, intVal, hx], by simp [Statistics.toSpec, intVal, hy], ?_⟩
    · rcases h.min' with e | ⟨q, hq, e⟩
      · refine ⟨_, List.mem_map.2 ⟨p, hp, rfl⟩, ?_⟩
        have h1 := hmin p hp _ rfl
        have h2 := BitVec.toInt_lt (x := p.2)
        have h3 : (statI32).max.toInt = 2 ^ 31 - 1 := by decide
        rw [e, h3] at hx
        show IoTDBValue.INT p.2 = .INT s.minValue
        rw [e]
        congr 1
        apply BitVec.eq_of_toInt_eq
        rw [h3]; omega
      · exact ⟨_, List.mem_map.2 ⟨q, hq, rfl⟩, by simp [Statistics.toSpec, e]⟩
    · rcases h.max' with e | ⟨q, hq, e⟩
      · refine ⟨_, List.mem_map.2 ⟨p, hp, rfl⟩, ?_⟩
        have h1 := hmax p hp _ rfl
        have h2 := BitVec.le_toInt (x := p.2)
        have h3 : (statI32).min.toInt = -2 ^ 31 := by decide
        rw [e, h3] at hy
        show IoTDBValue.INT p.2 = .INT s.maxValue
        rw [e]
        congr 1
        apply BitVec.eq_of_toInt_eq
        rw [h3]; omega
      · exact ⟨_, List.mem_map.2 ⟨q, hq, rfl⟩, by simp [Statistics.toSpec, e]⟩
    · intro p hp
      obtain ⟨q, hq, rfl⟩ := List.mem_map.1 hp
      exact ⟨q.2.toInt, rfl, hmin q hq _ rfl, hmax q hq _ rfl⟩
  | @long s l h _ =>
    have hl : l ≠ [] := fun e => hne (by rw [e]; rfl)
    obtain ⟨p, hp⟩ := List.exists_mem_of_ne_nil _ hl
    obtain ⟨x, hx, hmin⟩ := h.min
    obtain ⟨y, hy, hmax⟩ := h.max
    simp only [Option.some.injEq] at hx hy hmin hmax
    refine ⟨?_, ?_, x, y, by simp [Statistics.toSpec, intVal, hx], by simp [Statistics.toSpec, intVal, hy], ?_⟩
    · rcases h.min' with e | ⟨q, hq, e⟩
      · refine ⟨_, List.mem_map.2 ⟨p, hp, rfl⟩, ?_⟩
        have h1 := hmin p hp _ rfl
        have h2 := BitVec.toInt_lt (x := p.2)
        have h3 : (statI64 env).max.toInt = 2 ^ 63 - 1 := intMax_toInt
        rw [e, h3] at hx
        show IoTDBValue.LONG p.2 = .LONG s.minValue
        rw [e]
        congr 1
        apply BitVec.eq_of_toInt_eq
        rw [h3]; omega
      · exact ⟨_, List.mem_map.2 ⟨q, hq, rfl⟩, by simp [Statistics.toSpec, e]⟩
    · rcases h.max' with e | ⟨q, hq, e⟩
      · refine ⟨_, List.mem_map.2 ⟨p, hp, rfl⟩, ?_⟩
        have h1 := hmax p hp _ rfl
        have h2 := BitVec.le_toInt (x := p.2)
        have h3 : (statI64 env).min.toInt = -2 ^ 63 := intMin_toInt
        rw [e, h3] at hy
        show IoTDBValue.LONG p.2 = .LONG s.maxValue
        rw [e]
        congr 1
        apply BitVec.eq_of_toInt_eq
        rw [h3]; omega
      · exact ⟨_, List.mem_map.2 ⟨q, hq, rfl⟩, by simp [Statistics.toSpec, e]⟩
    · intro p hp
      obtain ⟨q, hq, rfl⟩ := List.mem_map.1 hp
      exact ⟨q.2.toInt, rfl, hmin q hq _ rfl, hmax q hq _ rfl⟩
  | float h => exact absurd rfl ht

/-- **C19**, partial: the last value always belongs to the point with the largest timestamp. The first value
belongs to the point with the smallest timestamp, unless the only timestamp is 2^63 - 1. The full property, without
this exception, is false: `C19_first_wrong`. -/
theorem C19_first_last_partial (he : EnvOk env unsnap) (hsch : schema.Named)
    (hs : session env schema ops = some s) (hw : s.Within ops) (h : StatsIn unsnap schema s.file d m st pts) :
    (st.endTime, st.last) ∈ pts ∧ (∀ p ∈ pts, p.1.toInt ≤ st.endTime.toInt)
      ∧ ((∃ p ∈ pts, p.1.toInt < 2 ^ 63 - 1) → (st.startTime, st.first) ∈ pts)
      ∧ (∀ p ∈ pts, st.startTime.toInt ≤ p.1.toInt) := by
  obtain ⟨ms, sc, stm, _, _, rfl, _, hd, hne, hpos⟩ := statsAbout_session he hsch hs hw h
  refine ⟨?_, hd.end, ?_, hd.start⟩
  · obtain ⟨p, hp⟩ := List.exists_mem_of_ne_nil _ hne
    rcases hd.last with e | e
    · have h1 := hd.end p hp
      have h2 := hpos p hp
      rw [e, intMin_toInt] at h1
      omega
    · exact e
  · rintro ⟨p, hp, hlt⟩
    rcases hd.first with e | e
    · have h1 := hd.start p hp
      rw [e, intMax_toInt] at h1
      omega
    · exact e

/-- **C19** fails in every file with such statistics: if all timestamps are 2^63 - 1, the first value in the statistics is zero,
whatever the values are; if none of them is zero, it is not the value of any point. -/
theorem C19_zero_wrong (he : EnvOk env unsnap) (hsch : schema.Named) (hs : session env schema ops = some s)
    (hw : s.Within ops) (h : StatsIn unsnap schema s.file d m st pts) (hall : ∀ p ∈ pts, p.1.toInt = 2 ^ 63 - 1) :
    (st.first = .INT 0 ∨ st.first = .LONG 0 ∨ st.first = .FLOAT 0)
      ∧ ((∀ p ∈ pts, p.2 ≠ .INT 0 ∧ p.2 ≠ .LONG 0 ∧ p.2 ≠ .FLOAT 0) → ∀ p ∈ pts, p.2 ≠ st.first) := by
  obtain ⟨ms, sc, stm, _, _, rfl, _, hd, hne, hpos⟩ := statsAbout_session he hsch hs hw h
  have hmax : stm.toSpec.startTime = BitVec.intMax 64 := by
    rcases hd.first with e | e
    · exact e
    · exact BitVec.eq_of_toInt_eq (by rw [intMax_toInt]; exact hall _ e)
  have hz : stm.toSpec.first = .INT 0 ∨ stm.toSpec.first = .LONG 0 ∨ stm.toSpec.first = .FLOAT 0 := by
    clear h
    cases hd with
    | int h _ => exact .inl (congrArg IoTDBValue.INT (h.unset hmax))
    | long h => exact .inr (.inl (congrArg IoTDBValue.LONG (h.unset hmax)))
    | float h => exact .inr (.inr (congrArg IoTDBValue.FLOAT (h.unset hmax)))
  refine ⟨hz, fun hp p hm e => ?_⟩
  have := hp p hm
  rw [e] at this
  rcases hz with z | z | z <;> simp [z] at this

/-- **C20.** The sum of an INT32 series is exact. -/
theorem C20_int_sum (he : EnvOk env unsnap) (hsch : schema.Named) (hs : session env schema ops = some s)
    (hw : s.Within ops) (h : StatsIn unsnap schema s.file d m st pts) {ms : List (Bytes × MeasurementSchema)}
    {sc : MeasurementSchema} (hd : look d schema = some ms) (hm : look m ms = some sc) (ht : sc.dataType = .INT32)
    (hlen : pts.length < 2 ^ 32) :
    ∃ vs : List Int, pts.map (fun p => intVal p.2) = vs.map some ∧ st.sum.toInt = vs.sum := by
  obtain ⟨ms', sc', stm, h1, h2, rfl, htype, hds, hne, hpos⟩ := statsAbout_session he hsch hs hw h
  rw [hd] at h1; cases h1
  rw [hm] at h2; cases h2
  rw [ht] at htype
  clear h
  cases hds with
  | @int s l h hsum =>
    refine ⟨l.map (fun p => p.2.toInt), by simp [intVal, Function.comp_def], ?_⟩
    simp only [Statistics.toSpec, hsum, intSum]
    have hb : ∀ l : List (W64 × W32), -(2 ^ 31 * l.length : Int) ≤ (l.map (fun p => p.2.toInt)).sum
        ∧ (l.map (fun p => p.2.toInt)).sum ≤ (2 ^ 31 - 1) * l.length := by
      intro l
      induction l with
      | nil => simp
      | cons p l ih =>
        have h1 := BitVec.toInt_lt (x := p.2)
        have h2 := BitVec.le_toInt (x := p.2)
        simp only [List.map_cons, List.sum_cons, List.length_cons]
        push_cast
        omega
    have hbl := hb l
    rw [List.length_map] at hlen
    rw [BitVec.toInt_ofInt]
    apply Int.bmod_eq_of_le <;> omega
  | long h => simp [Statistics.type] at htype
  | float h => simp [Statistics.type] at htype

/-- A number below infinity is at most the largest finite number, and equal only for one bit pattern. -/
theorem f32Val_lt_inf {x : W32} {v : Int} (h : f32Val x = some v) (hlt : v < f32Inf) :
    v ≤ (2 ^ 24 - 1) * 2 ^ 253 ∧ (v = (2 ^ 24 - 1) * 2 ^ 253 → x = 0x7F7FFFFF#32) := by
  rw [f32Val_eq] at h
  split at h
  · simp at h
  · simp only [Option.some.injEq] at h
    have hmax : f32Mag 0x7F7FFFFF = (2 ^ 24 - 1) * 2 ^ 253 := by decide +kernel
    have hinf : (f32Mag 0x7F800000 : Int) = f32Inf := by decide +kernel
    have h1 := f32Mag_lt_iff (x.toNat % 2 ^ 31) 0x7F800000
    have h2 := f32Mag_lt_iff 0x7F7FFFFF (x.toNat % 2 ^ 31)
    have h3 := f32Mag_lt_iff (x.toNat % 2 ^ 31) 0x7F7FFFFF
    have hmaxI : ((2 ^ 24 - 1) * 2 ^ 253 : Int) = (f32Mag 0x7F7FFFFF : Int) := by rw [hmax]; decide +kernel
    have hpos : 0 < f32Mag 0x7F7FFFFF := by rw [hmax]; decide
    rw [hmaxI]
    rw [← hinf] at hlt
    have hx := x.isLt
    have hmi := (f32Mag_lt_iff 0x7F7FFFFF 0x7F800000).2 (by decide)
    generalize f32Mag 0x7F7FFFFF = A at *
    generalize f32Mag 0x7F800000 = B at *
    generalize f32Mag (x.toNat % 2 ^ 31) = M at *
    split at h
    · refine ⟨by omega, fun e => by omega⟩
    · refine ⟨by omega, fun e => ?_⟩
      apply BitVec.eq_of_toNat_eq
      show x.toNat = 0x7F7FFFFF
      omega

theorem f32Val_gt_neg_inf {x : W32} {v : Int} (h : f32Val x = some v) (hlt : -f32Inf < v) :
    -((2 ^ 24 - 1) * 2 ^ 253) ≤ v ∧ (v = -((2 ^ 24 - 1) * 2 ^ 253) → x = 0xFF7FFFFF#32) := by
  rw [f32Val_eq] at h
  split at h
  · simp at h
  · simp only [Option.some.injEq] at h
    have hmax : f32Mag 0x7F7FFFFF = (2 ^ 24 - 1) * 2 ^ 253 := by decide +kernel
    have hinf : (f32Mag 0x7F800000 : Int) = f32Inf := by decide +kernel
    have h1 := f32Mag_lt_iff (x.toNat % 2 ^ 31) 0x7F800000
    have h2 := f32Mag_lt_iff 0x7F7FFFFF (x.toNat % 2 ^ 31)
    have h3 := f32Mag_lt_iff (x.toNat % 2 ^ 31) 0x7F7FFFFF
    have hmaxI : ((2 ^ 24 - 1) * 2 ^ 253 : Int) = (f32Mag 0x7F7FFFFF : Int) := by rw [hmax]; decide +kernel
    have hpos : 0 < f32Mag 0x7F7FFFFF := by rw [hmax]; decide
    rw [hmaxI]
    rw [← hinf] at hlt
    have hx := x.isLt
    have hmi := (f32Mag_lt_iff 0x7F7FFFFF 0x7F800000).2 (by decide)
    generalize f32Mag 0x7F7FFFFF = A at *
    generalize f32Mag 0x7F800000 = B at *
    generalize f32Mag (x.toNat % 2 ^ 31) = M at *
    split at h
    · refine ⟨by omega, fun e => ?_⟩
      apply BitVec.eq_of_toNat_eq
      show x.toNat = 0xFF7FFFFF
      omega
    · refine ⟨by omega, fun e => by omega⟩

/-- **C21**, partial: minimum and maximum of a FLOAT series are numbers that bound every value that is a number.
The minimum is one of the values if some value is below infinity, the maximum if some value is above minus infinity.
The full property, without these conditions, is false: `C21_infinity_wrong`, `C21_nan_wrong`. -/
theorem C21_float_min_max_partial (he : EnvOk env unsnap) (hsch : schema.Named)
    (hs : session env schema ops = some s) (hw : s.Within ops) (h : StatsIn unsnap schema s.file d m st pts)
    {ms : List (Bytes × MeasurementSchema)} {sc : MeasurementSchema} (hd : look d schema = some ms)
    (hm : look m ms = some sc) (ht : sc.dataType = .FLOAT) :
    ∃ lo hi, floatVal st.min = some lo ∧ floatVal st.max = some hi
      ∧ (∀ p ∈ pts, ∀ v, floatVal p.2 = some v → lo ≤ v ∧ v ≤ hi)
      ∧ ((∃ p ∈ pts, ∃ v, floatVal p.2 = some v ∧ v < f32Inf) → ∃ p ∈ pts, p.2 = st.min)
      ∧ ((∃ p ∈ pts, ∃ v, floatVal p.2 = some v ∧ -f32Inf < v) → ∃ p ∈ pts, p.2 = st.max) := by
  obtain ⟨ms', sc', stm, h1, h2, rfl, htype, hds, hne, hpos⟩ := statsAbout_session he hsch hs hw h
  rw [hd] at h1; cases h1
  rw [hm] at h2; cases h2
  rw [ht] at htype
  clear h
  cases hds with
  | int h _ => simp [Statistics.type] at htype
  | long h => simp [Statistics.type] at htype
  | @float s l h _ =>
    obtain ⟨x, hx, hmin⟩ := h.min
    obtain ⟨y, hy, hmax⟩ := h.max
    refine ⟨x, y, hx, hy, ?_, ?_, ?_⟩
    · intro p hp v hv
      obtain ⟨q, hq, rfl⟩ := List.mem_map.1 hp
      exact ⟨hmin q hq v hv, hmax q hq v hv⟩
    · rintro ⟨p, hp, v, hv, hlt⟩
      obtain ⟨q, hq, rfl⟩ := List.mem_map.1 hp
      rcases h.min' with e | ⟨r, hr, e⟩
      · refine ⟨_, List.mem_map.2 ⟨q, hq, rfl⟩, ?_⟩
        have h1 := hmin q hq v hv
        rw [e, (keyed_f32 env).max] at hx
        cases hx
        have h2 := f32Val_lt_inf hv hlt
        have h3 := h2.2 (by omega)
        show IoTDBValue.FLOAT q.2 = .FLOAT s.minValue
        rw [e, h3]
        rfl
      · exact ⟨_, List.mem_map.2 ⟨r, hr, rfl⟩, by simp [Statistics.toSpec, e]⟩
    · rintro ⟨p, hp, v, hv, hlt⟩
      obtain ⟨q, hq, rfl⟩ := List.mem_map.1 hp
      rcases h.max' with e | ⟨r, hr, e⟩
      · refine ⟨_, List.mem_map.2 ⟨q, hq, rfl⟩, ?_⟩
        have h1 := hmax q hq v hv
        rw [e, (keyed_f32 env).min] at hy
        cases hy
        have h2 := f32Val_gt_neg_inf hv hlt
        have h3 := h2.2 (by omega)
        show IoTDBValue.FLOAT q.2 = .FLOAT s.maxValue
        rw [e, h3]
        rfl
      · exact ⟨_, List.mem_map.2 ⟨r, hr, rfl⟩, by simp [Statistics.toSpec, e]⟩

/-- **C21**, exactly when it holds: the minimum of a FLOAT series is one of its values if and only if some value is a number below
infinity, and the maximum if and only if some value is a number above minus infinity. Otherwise they are the largest and the
smallest finite number, which are not in the series. -/
theorem C21_attained_partial (he : EnvOk env unsnap) (hsch : schema.Named)
    (hs : session env schema ops = some s) (hw : s.Within ops) (h : StatsIn unsnap schema s.file d m st pts)
    {ms : List (Bytes × MeasurementSchema)} {sc : MeasurementSchema} (hd : look d schema = some ms)
    (hm : look m ms = some sc) (ht : sc.dataType = .FLOAT) :
    ((∃ p ∈ pts, p.2 = st.min) ↔ ∃ p ∈ pts, ∃ v, floatVal p.2 = some v ∧ v < f32Inf)
    ∧ ((∃ p ∈ pts, p.2 = st.max) ↔ ∃ p ∈ pts, ∃ v, floatVal p.2 = some v ∧ -f32Inf < v)
    ∧ ((∃ p ∈ pts, p.2 = st.min) ∨ st.min = .FLOAT 0x7F7FFFFF)
    ∧ ((∃ p ∈ pts, p.2 = st.max) ∨ st.max = .FLOAT 0xFF7FFFFF) := by
  obtain ⟨_, _, _, _, _, hmin, hmax⟩ := C21_float_min_max_partial he hsch hs hw h hd hm ht
  obtain ⟨ms', sc', stm, h1, h2, rfl, htype, hds, hne, hpos⟩ := statsAbout_session he hsch hs hw h
  rw [hd] at h1; cases h1
  rw [hm] at h2; cases h2
  rw [ht] at htype
  clear h
  have hbig : ((2 ^ 24 - 1) * 2 ^ 253 : Int) < f32Inf := by decide +kernel
  cases hds with
  | int h _ => simp [Statistics.type] at htype
  | long h => simp [Statistics.type] at htype
  | @float s l h _ =>
    refine ⟨⟨?_, hmin⟩, ⟨?_, hmax⟩, ?_, ?_⟩
    · rintro ⟨p, hp, e⟩
      obtain ⟨x, hx, _⟩ := h.min
      refine ⟨p, hp, x, by rw [e]; exact hx, ?_⟩
      rcases h.low with e | e
      · rw [e, (keyed_f32 env).max] at hx
        cases hx
        exact hbig
      · obtain ⟨a, b, ha, hb, hab⟩ := ((keyed_f32 env).lt_iff _ _).1 e
        rw [hx] at ha
        rw [(keyed_f32 env).max] at hb
        cases ha; cases hb
        omega
    · rintro ⟨p, hp, e⟩
      obtain ⟨x, hx, _⟩ := h.max
      refine ⟨p, hp, x, by rw [e]; exact hx, ?_⟩
      rcases h.high with e | e
      · rw [e, (keyed_f32 env).min] at hx
        cases hx
        omega
      · obtain ⟨a, b, ha, hb, hab⟩ := ((keyed_f32 env).lt_iff _ _).1 e
        rw [hx] at hb
        rw [(keyed_f32 env).min] at ha
        cases ha; cases hb
        omega
    · rcases h.min' with e | ⟨r, hr, e⟩
      · exact .inr (congrArg IoTDBValue.FLOAT e)
      · exact .inl ⟨_, List.mem_map.2 ⟨r, hr, rfl⟩, by simp [Statistics.toSpec, e]⟩
    · rcases h.max' with e | ⟨r, hr, e⟩
      · exact .inr (congrArg IoTDBValue.FLOAT e)
      · exact .inl ⟨_, List.mem_map.2 ⟨r, hr, rfl⟩, by simp [Statistics.toSpec, e]⟩

end

/-! ## The hypotheses can be met -/

section
open Demo

/-- There are statistics about the two points of the demo series. -/
theorem Demo.stats_about : ∃ st, StatsAbout some result.file (str "root.sg.d1") (str "s1") st
    [(10, .INT 7), (12, .INT (-1))] := by
  have h : series (storedBy schema ops result.grown) (str "root.sg.d1") (str "s1") = [(10, .INT 7), (12, .INT (-1))] := by
    decide +kernel
  obtain ⟨sm, _, h2⟩ := C16_present (d := str "root.sg.d1") (m := str "s1") envOk (indexable.at _) session_eq within
    (by decide) (by rw [h]; simp)
  rw [h] at h2
  exact ⟨_, h2⟩

theorem Demo.stats_about_float : ∃ st, StatsAbout some result.file (str "root.sg.d2") (str "s2") st
    [(6, .FLOAT 0x40490fdb)] := by
  have h : series (storedBy schema ops result.grown) (str "root.sg.d2") (str "s2") = [(6, .FLOAT 0x40490fdb)] := by
    decide +kernel
  obtain ⟨sm, _, h2⟩ := C16_present (d := str "root.sg.d2") (m := str "s2") envOk (indexable.at _) session_eq within
    (by decide) (by rw [h]; simp)
  rw [h] at h2
  exact ⟨_, h2⟩

example : ∃ st, StatsAbout some result.file (str "root.sg.d1") (str "s1") st [(10, .INT 7), (12, .INT (-1))]
    ∧ st.count = 2 := by
  obtain ⟨st, h⟩ := stats_about
  exact ⟨st, h, (C16_count envOk indexable.toNamed session_eq within (.inl ⟨indexable.at _, h⟩)).2 (by decide)⟩

example : ∃ st, StatsAbout some result.file (str "root.sg.d1") (str "s1") st [(10, .INT 7), (12, .INT (-1))]
    ∧ st.sum.toInt = 6 := by
  obtain ⟨st, h⟩ := stats_about
  obtain ⟨vs, h1, h2⟩ := C20_int_sum envOk indexable.toNamed session_eq within (.inl ⟨indexable.at _, h⟩) (by rfl) (by rfl) rfl (by decide)
  refine ⟨st, h, ?_⟩
  rw [h2]
  have h1 : [some (7 : Int), some (-1)] = vs.map some := h1
  have : vs = [7, -1] := by
    match vs, h1 with
    | [a, b], h1 => simp at h1; rw [h1.1, h1.2]
  rw [this]; rfl

example := fun st h => C17_time_range (st := st) envOk indexable.toNamed session_eq within
  (pts := [(10, .INT 7), (12, .INT (-1))]) (d := str "root.sg.d1") (m := str "s1") (.inl ⟨indexable.at _, h⟩)
example := fun st h => C18_int_min_max (st := st) envOk indexable.toNamed session_eq within
  (pts := [(10, .INT 7), (12, .INT (-1))]) (d := str "root.sg.d1") (m := str "s1") (.inl ⟨indexable.at _, h⟩) rfl rfl (by decide)
example : ∃ st, StatsAbout some result.file (str "root.sg.d1") (str "s1") st [(10, .INT 7), (12, .INT (-1))]
    ∧ (st.startTime, st.first) ∈ ([(10, .INT 7), (12, .INT (-1))] : List Point) := by
  obtain ⟨st, h⟩ := stats_about
  exact ⟨st, h, (C19_first_last_partial envOk indexable.toNamed session_eq within (.inl ⟨indexable.at _, h⟩)).2.2.1 ⟨(10, .INT 7), by simp, by decide⟩⟩
example : ∃ st, StatsAbout some result.file (str "root.sg.d2") (str "s2") st [(6, .FLOAT 0x40490fdb)]
    ∧ st.min = .FLOAT 0x40490fdb := by
  obtain ⟨st, h⟩ := stats_about_float
  obtain ⟨lo, hi, _, _, _, h1, _⟩ := C21_float_min_max_partial envOk indexable.toNamed session_eq within (.inl ⟨indexable.at _, h⟩) (by rfl) (by rfl) rfl
  obtain ⟨p, hp, h2⟩ := h1 ⟨_, List.mem_singleton.2 rfl, _, rfl, by decide +kernel⟩
  rw [List.mem_singleton.1 hp] at h2
  exact ⟨st, h, h2.symm⟩

end

/-! ## The exceptions are real -/

/-- The file of a session that writes one value. -/
def oneValue (dt : TSDataType) (t : W64) (v : IoTDBValue) : Option Session :=
  session (Env.std some) [(str "d", [(str "m", ⟨dt, .PLAIN, .UNCOMPRESSED⟩)])] [.write (str "d") (str "m") t v]

/-- Count, start time and first value in the index for that series. -/
def oneStats (dt : TSDataType) (t : W64) (v : IoTDBValue) : Option Stats :=
  ((oneValue dt t v).bind (fun s => readSeriesMeta s.file (str "d") (str "m"))).bind (fun r => r.map SeriesMeta.stats)

/-- **C19 is false** in general: the value 7 is stored at the last possible timestamp; it is read back, but the
statistics give 0 as the first value. The same for the other types. -/
theorem C19_first_wrong :
    (oneValue .INT32 (BitVec.intMax 64) (.INT 7)).map (fun s => (s.results, readSeries some s.file (str "d") (str "m")))
      = some ([.ok ()], some [(BitVec.intMax 64, .INT 7)])
    ∧ (oneStats .INT32 (BitVec.intMax 64) (.INT 7)).map (fun st => (st.startTime, st.first))
      = some (BitVec.intMax 64, .INT 0)
    ∧ (oneStats .INT64 (BitVec.intMax 64) (.LONG 7)).map (fun st => (st.startTime, st.first))
      = some (BitVec.intMax 64, .LONG 0)
    ∧ (oneStats .FLOAT (BitVec.intMax 64) (.FLOAT 0x40490fdb)).map (fun st => (st.startTime, st.first))
      = some (BitVec.intMax 64, .FLOAT 0) := by
  refine ⟨?_, ?_, ?_, ?_⟩ <;> decide +kernel

/-- **C21 is false** for infinities: the only value is +∞, but the minimum in the statistics is the largest finite
number. In the same way, for −∞ the maximum is the smallest finite number. -/
theorem C21_infinity_wrong :
    (oneValue .FLOAT 1 (.FLOAT 0x7F800000)).map (fun s => (s.results, readSeries some s.file (str "d") (str "m")))
      = some ([.ok ()], some [(1, .FLOAT 0x7F800000)])
    ∧ (oneStats .FLOAT 1 (.FLOAT 0x7F800000)).map (fun st => (st.min, st.max))
      = some (.FLOAT 0x7F7FFFFF, .FLOAT 0x7F800000)
    ∧ (oneStats .FLOAT 1 (.FLOAT 0xFF800000)).map (fun st => (st.min, st.max))
      = some (.FLOAT 0xFF800000, .FLOAT 0xFF7FFFFF) := by
  refine ⟨?_, ?_, ?_⟩ <;> decide +kernel

/-- **C21 is false** for NaN: the only value is NaN, but the minimum is the largest and the maximum the
smallest finite number. -/
theorem C21_nan_wrong :
    (oneValue .FLOAT 1 (.FLOAT 0x7FC00000)).map (fun s => (s.results, readSeries some s.file (str "d") (str "m")))
      = some ([.ok ()], some [(1, .FLOAT 0x7FC00000)])
    ∧ (oneStats .FLOAT 1 (.FLOAT 0x7FC00000)).map (fun st => (st.min, st.max))
      = some (.FLOAT 0x7F7FFFFF, .FLOAT 0xFF7FFFFF) := by
  constructor <;> decide +kernel

/-- A schema of one series. -/
def Demo.edgeSchema (dt : TSDataType) : Schema := [(str "d", [(str "m", ⟨dt, .PLAIN, .UNCOMPRESSED⟩)])]

theorem Demo.edgeIndexable (dt : TSDataType) : (Demo.edgeSchema dt).Indexable := by
  cases dt <;>
  exact ⟨⟨⟨by decide +kernel, by decide +kernel⟩, by decide +kernel, by decide +kernel⟩, by decide +kernel, by decide +kernel⟩

/-- There are statistics as in `C19_zero_wrong`. -/
example : ∃ s st, session Demo.env (Demo.edgeSchema .INT32) [.write (str "d") (str "m") (BitVec.intMax 64) (.INT 7)] = some s
    ∧ StatsAbout some s.file (str "d") (str "m") st [(BitVec.intMax 64, .INT 7)] ∧ .INT 7 ≠ st.first := by
  have h0 : (session Demo.env (Demo.edgeSchema .INT32) [.write (str "d") (str "m") (BitVec.intMax 64) (.INT 7)]).map
      (fun s => (s.grown, s.closing, s.file.length)) = some ([0], 185, 192) := by decide +kernel
  cases h : session Demo.env (Demo.edgeSchema .INT32) [.write (str "d") (str "m") (BitVec.intMax 64) (.INT 7)] with
  | none => rw [h] at h0; cases h0
  | some s =>
    rw [h] at h0
    simp only [Option.map_some, Option.some.injEq, Prod.mk.injEq] at h0
    obtain ⟨g, c, l⟩ := h0
    have hw : s.Within [.write (str "d") (str "m") (BitVec.intMax 64) (.INT 7)] :=
      ⟨by rw [g]; decide +kernel, by rw [g]; decide +kernel, by rw [c]; decide, by rw [l]; decide⟩
    have hser : series (storedBy (Demo.edgeSchema .INT32) [.write (str "d") (str "m") (BitVec.intMax 64) (.INT 7)] s.grown)
        (str "d") (str "m") = [(BitVec.intMax 64, .INT 7)] := by
      rw [g]; decide +kernel
    obtain ⟨sm, _, h2⟩ := C16_present (d := str "d") (m := str "m") Demo.envOk ((Demo.edgeIndexable .INT32).at _) h hw
      (by decide) (by rw [hser]; simp)
    rw [hser] at h2
    exact ⟨s, sm.stats, rfl, h2, (C19_zero_wrong Demo.envOk (Demo.edgeIndexable .INT32).toNamed h hw
      (.inl ⟨(Demo.edgeIndexable .INT32).at _, h2⟩) (by simp)).2 (by simp) _ (List.mem_singleton.2 rfl)⟩

/-- The statistics of `C21_attained_partial` for a series of one number, which is attained, and for a series of one infinity, where
the minimum is not attained. -/
example : ∃ st, StatsAbout some Demo.result.file (str "root.sg.d2") (str "s2") st [(6, .FLOAT 0x40490fdb)]
    ∧ ∃ p ∈ ([(6, .FLOAT 0x40490fdb)] : List Point), p.2 = st.min := by
  obtain ⟨st, h⟩ := Demo.stats_about_float
  exact ⟨st, h, (C21_attained_partial Demo.envOk Demo.indexable.toNamed Demo.session_eq Demo.within (.inl ⟨Demo.indexable.at _, h⟩)
    (by rfl) (by rfl) rfl).1.2 ⟨_, List.mem_singleton.2 rfl, _, rfl, by decide +kernel⟩⟩

example : ∃ s st, session Demo.env (Demo.edgeSchema .FLOAT) [.write (str "d") (str "m") 1 (.FLOAT 0x7F800000)] = some s
    ∧ StatsAbout some s.file (str "d") (str "m") st [(1, .FLOAT 0x7F800000)] ∧ .FLOAT 0x7F800000 ≠ st.min := by
  have h0 : (session Demo.env (Demo.edgeSchema .FLOAT) [.write (str "d") (str "m") 1 (.FLOAT 0x7F800000)]).map
      (fun s => (s.grown, s.closing, s.file.length)) = some ([0], 188, 195) := by decide +kernel
  cases h : session Demo.env (Demo.edgeSchema .FLOAT) [.write (str "d") (str "m") 1 (.FLOAT 0x7F800000)] with
  | none => rw [h] at h0; cases h0
  | some s =>
    rw [h] at h0
    simp only [Option.map_some, Option.some.injEq, Prod.mk.injEq] at h0
    obtain ⟨g, c, l⟩ := h0
    have hw : s.Within [.write (str "d") (str "m") 1 (.FLOAT 0x7F800000)] :=
      ⟨by rw [g]; decide +kernel, by rw [g]; decide +kernel, by rw [c]; decide, by rw [l]; decide⟩
    have hser : series (storedBy (Demo.edgeSchema .FLOAT) [.write (str "d") (str "m") 1 (.FLOAT 0x7F800000)] s.grown)
        (str "d") (str "m") = [(1, .FLOAT 0x7F800000)] := by
      rw [g]; decide +kernel
    obtain ⟨sm, _, h2⟩ := C16_present (d := str "d") (m := str "m") Demo.envOk ((Demo.edgeIndexable .FLOAT).at _) h hw
      (by decide) (by rw [hser]; simp)
    rw [hser] at h2
    refine ⟨s, sm.stats, rfl, h2, fun e => ?_⟩
    obtain ⟨p, hp, v, hv, hlt⟩ := (C21_attained_partial Demo.envOk (Demo.edgeIndexable .FLOAT).toNamed h hw
      (.inl ⟨(Demo.edgeIndexable .FLOAT).at _, h2⟩) (by rfl) (by rfl) rfl).1.1 ⟨_, List.mem_singleton.2 rfl, e⟩
    rw [List.mem_singleton.1 hp] at hv
    have hinf : floatVal (.FLOAT 0x7F800000) = some f32Inf := by decide +kernel
    rw [hinf] at hv
    cases hv
    omega

end TsFile
