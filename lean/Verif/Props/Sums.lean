import Verif.Props.Stats
import Verif.Proofs.SoftFloat
/-! # The sums of INT64 and FLOAT series: C56 -/

namespace TsFile
open Spec

/-- An integer of at most 53 bits, times a power of two, has a double. -/
theorem exists_double (m : Int) (k : Nat) (hm : m.natAbs ≤ 2 ^ 53) (hk : k ≤ 2044) : ∃ c, f64Val c = some (m * 2 ^ k) := by
  by_cases h0 : m = 0
  · exact ⟨0, by rw [h0, Int.zero_mul]; exact f64Val_enc false 0 (by omega)⟩
  · obtain ⟨a, b, ha, hb, e⟩ : ∃ a b, a < 2 ^ 53 ∧ b ≤ 2045 ∧ m.natAbs * 2 ^ k = a * 2 ^ b := by
      by_cases h : m.natAbs < 2 ^ 53
      · exact ⟨_, k, h, by omega, rfl⟩
      · refine ⟨2 ^ 52, k + 1, by omega, by omega, ?_⟩
        rw [show m.natAbs = 2 ^ 53 by omega, ← Nat.pow_add, ← Nat.pow_add]
        congr 1
        omega
    obtain ⟨h1, h2⟩ := roundRat_exact m.natAbs k (by omega) ha hb e
    have h3 := f64Val_enc (decide (m < 0)) _ h1
    refine ⟨_, h3.trans ?_⟩
    rw [h2]
    have hc : ((m.natAbs * 2 ^ k : Nat) : Int) = (m.natAbs : Int) * 2 ^ k := by push_cast; rfl
    rw [hc]
    by_cases hneg : m < 0
    · rw [if_pos (decide_eq_true hneg), ← Int.neg_mul, show -((m.natAbs : Nat) : Int) = m by omega]
    · rw [if_neg (by simpa using hneg), show ((m.natAbs : Nat) : Int) = m by omega]

theorem natAbs_sum (l : List Int) : l.sum.natAbs ≤ (l.map Int.natAbs).sum := by
  induction l with
  | nil => simp
  | cons a l ih =>
    simp only [List.sum_cons, List.map_cons]
    omega

theorem le_sum_mem {l : List Nat} {a : Nat} (h : a ∈ l) : a ≤ l.sum := by
  induction l with
  | nil => simp at h
  | cons b l ih =>
    rw [List.sum_cons]
    rcases List.mem_cons.1 h with rfl | h
    · omega
    · have := ih h; omega

theorem dvd_sum {l : List Int} {u : Int} (h : ∀ z ∈ l, u ∣ z) : u ∣ l.sum := by
  induction l with
  | nil => exact ⟨0, by simp⟩
  | cons a l ih =>
    rw [List.sum_cons]
    exact Int.dvd_add (h a (by simp)) (ih (fun z hz => h z (by simp [hz])))

/-- Additions in any order are exact if everything is a multiple of one power of two and not too large. -/
theorem addedUp_exact {env : Env} (hi : IeeeOk env) {k : Nat} (hk : k ≤ 2044) {xs : List W64} {r : W64}
    (h : AddedUp env.f64Add 0 xs r) (zs : List Int) (hz : xs.map f64Val = zs.map some) (hd : ∀ z ∈ zs, (2 ^ k : Int) ∣ z)
    (hb : (zs.map Int.natAbs).sum ≤ 2 ^ 53 * 2 ^ k) : f64Val r = some zs.sum := by
  induction h generalizing zs with
  | nothing =>
    have : zs = [] := by
      cases zs with
      | nil => rfl
      | cons => simp at hz
    subst this
    exact f64Val_enc false 0 (by omega)
  | one x =>
    cases zs with
    | nil => simp at hz
    | cons z zs =>
      cases zs with
      | nil =>
        simp only [List.map_cons, List.map_nil, List.cons.injEq, and_true] at hz
        rw [hz]
        simp
      | cons => simp at hz
  | @both xs ys a b _ _ iha ihb =>
    rw [List.map_append] at hz
    obtain ⟨z1, z2, rfl, e1, e2⟩ := List.map_eq_append_iff.1 hz.symm
    rw [List.map_append, List.sum_append] at hb
    have ha := iha z1 e1.symm (fun z hz => hd z (by simp [hz])) (by omega)
    have hbb := ihb z2 e2.symm (fun z hz => hd z (by simp [hz])) (by omega)
    rw [List.sum_append]
    obtain ⟨c, hc⟩ : ∃ c, f64Val c = some (z1.sum + z2.sum) := by
      rw [← List.sum_append]
      obtain ⟨q, hq⟩ := dvd_sum hd
      have h1 := natAbs_sum (z1 ++ z2)
      have h1' := List.sum_append (l₁ := z1.map Int.natAbs) (l₂ := z2.map Int.natAbs)
      rw [List.map_append, h1'] at h1
      have h2 : q.natAbs ≤ 2 ^ 53 := by
        have h3 : (z1 ++ z2).sum.natAbs = q.natAbs * 2 ^ k := by
          rw [hq, Int.natAbs_mul, Nat.mul_comm, Int.natAbs_pow]
          rfl
        exact Nat.le_of_mul_le_mul_right (c := 2 ^ k) (by omega) (Nat.two_pow_pos k)
      obtain ⟨c, hc⟩ := exists_double q k h2 hk
      exact ⟨c, by rw [hc, hq, Int.mul_comm]⟩
    exact hi.add _ _ _ _ _ ha hbb hc

section
variable {env : Env} {unsnap : Bytes → Option Bytes} {schema : Schema} {ops : List Op} {s : Session} {d m : Bytes}
  {st : Stats} {pts : List Point}

/-- **C56.** The sum in the statistics of INT64 and FLOAT data is the result of adding all values, as doubles and in their order. -/
theorem C56_added_up (he : EnvOk env unsnap) (hsch : schema.Named) (hs : session env schema ops = some s)
    (hw : s.Within ops) (h : StatsIn unsnap schema s.file d m st pts) {ms : List (Bytes × MeasurementSchema)}
    {sc : MeasurementSchema} (hd : look d schema = some ms) (hm : look m ms = some sc) (ht : sc.dataType ≠ .INT32) :
    ∃ xs, pts.map (fun p => asDouble env p.2) = xs.map some ∧ AddedUp env.f64Add 0 xs st.sum := by
  obtain ⟨ms', sc', stm, h1, h2, rfl, htype, hds, hne, hpos⟩ := statsAbout_session he hsch hs hw h
  rw [hd] at h1; cases h1
  rw [hm] at h2; cases h2
  clear h
  cases hds with
  | int h hsum => exact absurd htype.symm ht
  | @long s l h hsum => exact ⟨_, by simp [asDouble, Function.comp_def], hsum⟩
  | @float s l h hsum => exact ⟨_, by simp [asDouble, Function.comp_def], hsum⟩

/-- **C56**, INT64: the sum is exact if the magnitudes of the values add up to at most 2^53. -/
theorem C56_long_exact (hi : IeeeOk env) (he : EnvOk env unsnap) (hsch : schema.Named)
    (hs : session env schema ops = some s) (hw : s.Within ops) (h : StatsIn unsnap schema s.file d m st pts)
    {ms : List (Bytes × MeasurementSchema)} {sc : MeasurementSchema} (hd : look d schema = some ms) (hm : look m ms = some sc)
    (ht : sc.dataType = .INT64) :
    ∃ vs : List Int, pts.map (fun p => intVal p.2) = vs.map some
      ∧ ((vs.map Int.natAbs).sum ≤ 2 ^ 53 → f64Val st.sum = some (vs.sum * 2 ^ 1074)) := by
  obtain ⟨ms', sc', stm, h1, h2, rfl, htype, hds, hne, hpos⟩ := statsAbout_session he hsch hs hw h
  rw [hd] at h1; cases h1
  rw [hm] at h2; cases h2
  rw [ht] at htype
  clear h
  cases hds with
  | int h hsum => simp [Statistics.type] at htype
  | @long s l h hsum =>
    refine ⟨l.map (fun p => p.2.toInt), by simp [intVal, Function.comp_def], fun hb => ?_⟩
    have hk : (1074 : Nat) ≤ 2044 := by omega
    have hof := hi.ofInt
    generalize (1074 : Nat) = k at hk hof ⊢
    have hpk : 0 < 2 ^ k := Nat.two_pow_pos k
    have hmul : ∀ zs : List Int, zs.sum * 2 ^ k = (zs.map (fun z => z * 2 ^ k)).sum := by
      intro zs
      induction zs with
      | nil => simp
      | cons a zs ih => simp only [List.sum_cons, List.map_cons, Int.add_mul, ih]
    have habs : ∀ zs : List Int, ((zs.map (fun z => z * 2 ^ k)).map Int.natAbs).sum = (zs.map Int.natAbs).sum * 2 ^ k := by
      intro zs
      induction zs with
      | nil => simp
      | cons a zs ih =>
        simp only [List.sum_cons, List.map_cons, Nat.add_mul, ih, Int.natAbs_mul, Int.natAbs_pow]
        rfl
    rw [hmul]
    refine addedUp_exact hi hk hsum _ ?_ ?_ ?_
    · simp only [List.map_map]
      apply List.map_congr_left
      intro p hp
      simp only [Function.comp_apply]
      have hle : p.2.toInt.natAbs ≤ 2 ^ 53 := by
        have : p.2.toInt.natAbs ∈ (l.map (fun p => p.2.toInt)).map Int.natAbs :=
          List.mem_map.2 ⟨_, List.mem_map.2 ⟨p, hp, rfl⟩, rfl⟩
        have := le_sum_mem this
        omega
      obtain ⟨c, hc⟩ := exists_double _ k hle hk
      exact hof _ _ hc
    · intro z hz
      obtain ⟨y, _, rfl⟩ := List.mem_map.1 hz
      exact Int.dvd_mul_left _ _
    · rw [habs]
      exact Nat.mul_le_mul_right _ hb
  | float h => simp [Statistics.type] at htype

/-- **C56**, FLOAT: the sum is exact if all values are multiples of one power of two and their magnitudes add up to at most 2^53
times that power. Numbers are in units of 2^-149 (values) and 2^-1074 (the sum). -/
theorem C56_float_exact (hi : IeeeOk env) (he : EnvOk env unsnap) (hsch : schema.Named)
    (hs : session env schema ops = some s) (hw : s.Within ops) (h : StatsIn unsnap schema s.file d m st pts)
    {ms : List (Bytes × MeasurementSchema)} {sc : MeasurementSchema} (hd : look d schema = some ms) (hm : look m ms = some sc)
    (ht : sc.dataType = .FLOAT) {vs : List Int} (hvs : pts.map (fun p => floatVal p.2) = vs.map some)
    (hfin : ∀ v ∈ vs, -f32Inf < v ∧ v < f32Inf) {k : Nat} (hk : k ≤ 254) (hdvd : ∀ v ∈ vs, (2 ^ k : Int) ∣ v)
    (hb : (vs.map Int.natAbs).sum ≤ 2 ^ 53 * 2 ^ k) : f64Val st.sum = some (vs.sum * 2 ^ 925) := by
  obtain ⟨ms', sc', stm, h1, h2, rfl, htype, hds, hne, hpos⟩ := statsAbout_session he hsch hs hw h
  rw [hd] at h1; cases h1
  rw [hm] at h2; cases h2
  rw [ht] at htype
  clear h
  cases hds with
  | int h hsum => simp [Statistics.type] at htype
  | long h => simp [Statistics.type] at htype
  | @float s l h hsum =>
    have hj : (925 : Nat) ≤ 1000 := by omega
    have hof := hi.ofFloat
    generalize (925 : Nat) = j at hj hof ⊢
    have hmul : ∀ zs : List Int, zs.sum * 2 ^ j = (zs.map (fun z => z * 2 ^ j)).sum := by
      intro zs
      induction zs with
      | nil => simp
      | cons a zs ih => simp only [List.sum_cons, List.map_cons, Int.add_mul, ih]
    have habs : ∀ zs : List Int, ((zs.map (fun z => z * 2 ^ j)).map Int.natAbs).sum = (zs.map Int.natAbs).sum * 2 ^ j := by
      intro zs
      induction zs with
      | nil => simp
      | cons a zs ih =>
        simp only [List.sum_cons, List.map_cons, Nat.add_mul, ih, Int.natAbs_mul, Int.natAbs_pow]
        rfl
    rw [hmul]
    refine addedUp_exact hi (k := k + j) (by omega) hsum _ ?_ ?_ ?_
    · have : ∀ (l : List (W64 × W32)) (vs : List Int),
          (l.map (fun p => (p.1, IoTDBValue.FLOAT p.2))).map (fun p => floatVal p.2) = vs.map some →
          (∀ v ∈ vs, -f32Inf < v ∧ v < f32Inf) →
          (l.map (fun p => env.f32ToF64 p.2)).map f64Val = (vs.map (fun z => z * 2 ^ j)).map some := by
        intro l
        induction l with
        | nil =>
          intro vs h _
          cases vs with
          | nil => rfl
          | cons => simp at h
        | cons p l ih =>
          intro vs h hf
          cases vs with
          | nil => simp at h
          | cons v vs =>
            simp only [List.map_cons, List.cons.injEq] at h ⊢
            exact ⟨hof _ _ h.1 (hf v (by simp)).1 (hf v (by simp)).2, ih vs h.2 (fun v hv => hf v (by simp [hv]))⟩
      exact this l vs hvs hfin
    · intro z hz
      obtain ⟨y, hy, rfl⟩ := List.mem_map.1 hz
      rw [Int.pow_add]
      exact Int.mul_dvd_mul (hdvd y hy) (Int.dvd_refl _)
    · rw [habs, Nat.pow_add, ← Nat.mul_assoc]
      exact Nat.mul_le_mul_right _ hb

end

namespace Demo

-- INT64: the values -3 and 9000000000
theorem stats_about_long : ∃ st, StatsAbout some result.file (str "root.sg.d2") (str "s1") st
    [(5, .LONG (-3)), (6, .LONG 9000000000)] := by
  have h : (readSeriesMeta result.file (str "root.sg.d2") (str "s1")).isSome = true
      ∧ ((readSeriesMeta result.file (str "root.sg.d2") (str "s1")).getD none).isSome = true
      ∧ readSeries some result.file (str "root.sg.d2") (str "s1") = some [(5, .LONG (-3)), (6, .LONG 9000000000)] := by
    decide +kernel
  cases e : readSeriesMeta result.file (str "root.sg.d2") (str "s1") with
  | none => rw [e] at h; simp at h
  | some r =>
    cases r with
    | none => rw [e] at h; simp at h
    | some sm => exact ⟨_, .series e h.2.2⟩

example : ∃ st, StatsAbout some result.file (str "root.sg.d2") (str "s1") st [(5, .LONG (-3)), (6, .LONG 9000000000)]
    ∧ f64Val st.sum = some (8999999997 * 2 ^ 1074) := by
  obtain ⟨st, h⟩ := stats_about_long
  obtain ⟨vs, h1, h2⟩ := C56_long_exact (ieeeOk_std some) envOk indexable.toNamed session_eq within (.inl ⟨indexable.at _, h⟩) (by rfl) (by rfl) rfl
  refine ⟨st, h, ?_⟩
  have h1 : [some (-3 : Int), some 9000000000] = vs.map some := h1
  have : vs = [-3, 9000000000] := by
    match vs, h1 with
    | [a, b], h1 => simp at h1; rw [h1.1, h1.2]
  subst this
  exact h2 (by decide)

-- FLOAT: one value, in units of 2^-22 (the exponent of the last bit of 0x40490fdb)
example : ∃ st, StatsAbout some result.file (str "root.sg.d2") (str "s2") st [(6, .FLOAT 0x40490fdb)]
    ∧ f64Val st.sum = some (13176795 * 2 ^ 127 * 2 ^ 925) := by
  obtain ⟨st, h⟩ := stats_about_float
  refine ⟨st, h, ?_⟩
  have := C56_float_exact (ieeeOk_std some) envOk indexable.toNamed session_eq within (.inl ⟨indexable.at _, h⟩) (by rfl) (by rfl) rfl
    (vs := [13176795 * 2 ^ 127]) (by decide +kernel) (by decide +kernel) (k := 127) (by omega) (by decide +kernel) (by decide +kernel)
  rw [this, List.sum_cons, List.sum_nil, Int.add_zero]

end Demo

end TsFile
