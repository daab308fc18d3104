import Verif.Proofs.SumError
/-! # The error of the sums of INT64 and FLOAT series: C56 -/

namespace TsFile
open Spec

theorem intSum_mul (k : Int) (zs : List Int) : zs.sum * k = (zs.map (fun z => z * k)).sum := by
  induction zs with
  | nil => simp
  | cons a zs ih => simp only [List.sum_cons, List.map_cons, Int.add_mul, ih]

theorem absSum_mul (k : Nat) (zs : List Int) :
    ((zs.map (fun z => z * 2 ^ k)).map Int.natAbs).sum = (zs.map Int.natAbs).sum * 2 ^ k := by
  induction zs with
  | nil => simp
  | cons a zs ih =>
    simp only [List.sum_cons, List.map_cons, Nat.add_mul, ih, Int.natAbs_mul, Int.natAbs_pow]
    rfl

theorem absSum_le {zs : List Int} {b : Nat} (h : ∀ z ∈ zs, z.natAbs ≤ b) : (zs.map Int.natAbs).sum ≤ zs.length * b := by
  induction zs with
  | nil => simp
  | cons a zs ih =>
    have := h a (by simp)
    have := ih (fun z hz => h z (by simp [hz]))
    simp only [List.map_cons, List.sum_cons, List.length_cons, Nat.add_mul]
    omega

/-- The sums are far below the largest double. -/
theorem below_max {a n k : Nat} {M : Nat} (hM : M ≤ n * 2 ^ a) (hn : n ≤ 2 ^ 52) (hk : a + 52 + k + 1 ≤ 2045) :
    2 * (M * 2 ^ k) ≤ f64Max := by
  rw [f64Max]
  have h1 : 2 ^ (a + 52 + k + 1) ≤ 2 ^ 2045 := Nat.pow_le_pow_right (by omega) hk
  generalize 2 ^ 2045 = K at h1 ⊢
  have h2 : M ≤ 2 ^ (a + 52) := by
    rw [Nat.pow_add, Nat.mul_comm]
    exact Nat.le_trans hM (Nat.mul_le_mul_right _ hn)
  have h3 : M * 2 ^ k ≤ 2 ^ (a + 52) * 2 ^ k := Nat.mul_le_mul_right _ h2
  rw [← Nat.pow_add] at h3
  rw [Nat.pow_succ] at h1
  omega

section
variable {env : Env} {unsnap : Bytes → Option Bytes} {schema : Schema} {ops : List Op} {s : Session} {d m : Bytes}
  {st : Stats} {pts : List Point}

/-- **C56**, INT64: whatever the values are, the sum is a finite double, and its error is at most `n * 2^-52` times the sum of the
magnitudes of the `n` values. -/
theorem C56_long_error (hi : IeeeRounds env) (he : EnvOk env unsnap) (hsch : schema.Named)
    (hs : session env schema ops = some s) (hw : s.Within ops) (h : StatsIn unsnap schema s.file d m st pts)
    {ms : List (Bytes × MeasurementSchema)} {sc : MeasurementSchema} (hd : look d schema = some ms) (hm : look m ms = some sc)
    (ht : sc.dataType = .INT64) (hn : pts.length ≤ 2 ^ 52) :
    ∃ (vs : List Int) (z : Int), pts.map (fun p => intVal p.2) = vs.map some ∧ f64Val st.sum = some z
      ∧ 2 ^ 52 * (z - vs.sum * 2 ^ 1074).natAbs ≤ pts.length * ((vs.map Int.natAbs).sum * 2 ^ 1074) := by
  obtain ⟨ms', sc', stm, h1, h2, rfl, htype, hds, hne, hpos⟩ := statsAbout_session he hsch hs hw h
  rw [hd] at h1; cases h1
  rw [hm] at h2; cases h2
  rw [ht] at htype
  clear h
  cases hds with
  | int h hsum => simp [Statistics.type] at htype
  | float h => simp [Statistics.type] at htype
  | @long s l h hsum =>
    have hk : (1074 : Nat) ≤ 1900 := by omega
    have hof := hi.ofIntNear
    generalize (1074 : Nat) = k at hk hof ⊢
    have hr : ∀ l : List (W64 × W64), Rounded (l.map (fun p => env.i64ToF64 p.2)) ((l.map (fun p => p.2.toInt)).map (fun z => z * 2 ^ k)) := by
      intro l
      induction l with
      | nil => exact .nil
      | cons p l ih =>
        obtain ⟨z, h3, h4⟩ := hof p.2
        exact .cons h3 h4 ih
    have hle : ∀ z ∈ l.map (fun p => p.2.toInt), z.natAbs ≤ 2 ^ 63 := by
      intro z hz
      obtain ⟨p, _, rfl⟩ := List.mem_map.1 hz
      have := p.2.isLt
      have := BitVec.toInt_eq_toNat_cond p.2
      split at this <;> omega
    have hM := absSum_le hle
    rw [List.length_map] at hM hn
    obtain ⟨z, h5, h6⟩ := addedUp_near hi hsum _ (hr l) (by simpa using hn)
      (by rw [absSum_mul]; exact below_max hM hn (by omega))
    refine ⟨l.map (fun p => p.2.toInt), z, by simp [intVal, Function.comp_def], h5, ?_⟩
    rw [intSum_mul, ← absSum_mul]
    simpa using h6

/-- **C56**, FLOAT: if all values are finite, the sum is a finite double, and its error is at most `n * 2^-52` times the sum of the
magnitudes of the `n` values. Numbers are in units of 2^-149 (values) and 2^-1074 (the sum). -/
theorem C56_float_error (hi : IeeeRounds env) (he : EnvOk env unsnap) (hsch : schema.Named)
    (hs : session env schema ops = some s) (hw : s.Within ops) (h : StatsIn unsnap schema s.file d m st pts)
    {ms : List (Bytes × MeasurementSchema)} {sc : MeasurementSchema} (hd : look d schema = some ms) (hm : look m ms = some sc)
    (ht : sc.dataType = .FLOAT) {vs : List Int} (hvs : pts.map (fun p => floatVal p.2) = vs.map some)
    (hfin : ∀ v ∈ vs, -f32Inf < v ∧ v < f32Inf) (hn : pts.length ≤ 2 ^ 52) :
    ∃ z, f64Val st.sum = some z
      ∧ 2 ^ 52 * (z - vs.sum * 2 ^ 925).natAbs ≤ pts.length * ((vs.map Int.natAbs).sum * 2 ^ 925) := by
  obtain ⟨ms', sc', stm, h1, h2, rfl, htype, hds, hne, hpos⟩ := statsAbout_session he hsch hs hw h
  rw [hd] at h1; cases h1
  rw [hm] at h2; cases h2
  rw [ht] at htype
  clear h
  cases hds with
  | int h hsum => simp [Statistics.type] at htype
  | long h => simp [Statistics.type] at htype
  | @float s l h hsum =>
    have hj : (925 : Nat) ≤ 1000 := by omega
    have hof := hi.ofFloat
    generalize (925 : Nat) = j at hj hof ⊢
    have hr : ∀ (l : List (W64 × W32)) (vs : List Int),
        (l.map (fun p => (p.1, IoTDBValue.FLOAT p.2))).map (fun p => floatVal p.2) = vs.map some →
        (∀ v ∈ vs, -f32Inf < v ∧ v < f32Inf) →
        Rounded (l.map (fun p => env.f32ToF64 p.2)) (vs.map (fun z => z * 2 ^ j)) := by
      intro l
      induction l with
      | nil =>
        intro vs hv _
        cases vs with
        | nil => exact .nil
        | cons => simp at hv
      | cons p l ih =>
        intro vs hv hf
        cases vs with
        | nil => simp at hv
        | cons v vs =>
          simp only [List.map_cons, List.cons.injEq] at hv
          have h3 := hf v (by simp)
          exact .cons (hof _ _ hv.1 h3.1 h3.2) (by simp) (ih vs hv.2 (fun w hw => hf w (by simp [hw])))
    have hlen : vs.length = l.length := by simpa using (congrArg List.length hvs).symm
    have hM := absSum_le (zs := vs) (b := 2 ^ 277) (by
      intro z hz
      have := hfin z hz
      have e : f32Inf = ((2 ^ 277 : Nat) : Int) := by decide
      rw [e] at this
      omega)
    rw [hlen] at hM
    rw [List.length_map] at hn
    obtain ⟨z, h5, h6⟩ := addedUp_near hi hsum _ (hr l vs hvs hfin) (by rw [List.length_map, hlen]; exact hn)
      (by rw [absSum_mul]; exact below_max hM hn (by omega))
    refine ⟨z, h5, ?_⟩
    rw [intSum_mul, ← absSum_mul, List.length_map, ← hlen]
    simpa using h6

end

namespace Demo

/-- Three values whose sum, 2^53 + 2, is a double, but whose partial sum 2^53 + 1 is not. -/
def bigOps : List Op :=
  [.write (str "root.sg.d2") (str "s1") 1 (.LONG 9007199254740992),
   .write (str "root.sg.d2") (str "s1") 2 (.LONG 1),
   .write (str "root.sg.d2") (str "s1") 3 (.LONG 1)]

def bigResult : Session := (session env schema bigOps).getD ⟨[], [], 0, []⟩

theorem bigSession_eq : session env schema bigOps = some bigResult := by
  have : (session env schema bigOps).isSome = true := by decide +kernel
  rw [bigResult]
  cases h : session env schema bigOps with
  | none => rw [h] at this; simp at this
  | some s => rfl

theorem bigWithin : bigResult.Within bigOps :=
  ⟨by decide +kernel, by decide +kernel, by decide +kernel, by decide +kernel⟩

/-- The sum in the series metadata of the file is the double 2^53. -/
theorem big_stats : ∃ st, StatsAbout some bigResult.file (str "root.sg.d2") (str "s1") st
    [(1, .LONG 9007199254740992), (2, .LONG 1), (3, .LONG 1)] ∧ st.sum = 0x4340000000000000 := by
  have h : ((readSeriesMeta bigResult.file (str "root.sg.d2") (str "s1")).getD none).map (fun sm => sm.stats.sum)
        = some 0x4340000000000000
      ∧ readSeries some bigResult.file (str "root.sg.d2") (str "s1")
        = some [(1, .LONG 9007199254740992), (2, .LONG 1), (3, .LONG 1)] := by
    decide +kernel
  cases e : readSeriesMeta bigResult.file (str "root.sg.d2") (str "s1") with
  | none => rw [e] at h; simp at h
  | some r =>
    cases r with
    | none => rw [e] at h; simp at h
    | some sm =>
      rw [e] at h
      simp only [Option.getD_some, Option.map_some, Option.some.injEq] at h
      exact ⟨_, .series e h.2, h.1⟩

-- the bound for it
example : ∃ st z, StatsAbout some bigResult.file (str "root.sg.d2") (str "s1") st
      [(1, .LONG 9007199254740992), (2, .LONG 1), (3, .LONG 1)]
    ∧ f64Val st.sum = some z ∧ 2 ^ 52 * (z - 9007199254740994 * 2 ^ 1074).natAbs ≤ 3 * (9007199254740994 * 2 ^ 1074) := by
  obtain ⟨st, h, _⟩ := big_stats
  obtain ⟨vs, z, h1, h2, h3⟩ := C56_long_error (ieeeRounds_std some) envOk indexable.toNamed bigSession_eq bigWithin
    (.inl ⟨indexable.at _, h⟩) (by rfl) (by rfl) rfl (by decide)
  refine ⟨st, z, h, h2, ?_⟩
  have h1 : [some (9007199254740992 : Int), some 1, some 1] = vs.map some := h1
  have : vs = [9007199254740992, 1, 1] := by
    match vs, h1 with
    | [a, b, c], h1 => simp at h1; obtain ⟨rfl, rfl, rfl⟩ := h1; rfl
  subst this
  have e1 : ([9007199254740992, 1, 1] : List Int).sum = 9007199254740994 := by decide
  have e2 : (([9007199254740992, 1, 1] : List Int).map Int.natAbs).sum = 9007199254740994 := by decide
  have e3 : ([(1, .LONG 9007199254740992), (2, .LONG 1), (3, .LONG 1)] : List Point).length = 3 := rfl
  rw [e1, e2, e3] at h3
  exact h3

-- FLOAT
example : ∃ st z, StatsAbout some result.file (str "root.sg.d2") (str "s2") st [(6, .FLOAT 0x40490fdb)]
    ∧ f64Val st.sum = some z := by
  obtain ⟨st, h⟩ := stats_about_float
  obtain ⟨z, h1, _⟩ := C56_float_error (ieeeRounds_std some) envOk indexable.toNamed session_eq within (.inl ⟨indexable.at _, h⟩)
    (by rfl) (by rfl) rfl (vs := [13176795 * 2 ^ 127]) (by decide +kernel) (by decide +kernel) (by decide)
  exact ⟨st, z, h, h1⟩

end Demo

/-- The sum is not the double next to the sum of the values: the values 2^53, 1, 1 have the sum 2^53 + 2, which is a double, but the
file says 2^53. So an error bound is what there is to prove. -/
theorem C56_nearest_wrong : ∃ s st, session Demo.env Demo.schema Demo.bigOps = some s
    ∧ StatsAbout some s.file (str "root.sg.d2") (str "s1") st
      [(1, .LONG 9007199254740992), (2, .LONG 1), (3, .LONG 1)]
    ∧ f64Val st.sum = some (9007199254740992 * 2 ^ 1074)
    ∧ ∃ c, f64Val c = some (9007199254740994 * 2 ^ 1074) := by
  obtain ⟨st, h, e⟩ := Demo.big_stats
  have e1 : f64Val 0x4340000000000000 = some (9007199254740992 * 2 ^ 1074) := by decide +kernel
  have e2 : f64Val 0x4340000000000001 = some (9007199254740994 * 2 ^ 1074) := by decide +kernel
  exact ⟨_, st, Demo.bigSession_eq, h, by rw [e]; exact e1, _, e2⟩

end TsFile
