import Verif.Proofs.SoftFloat
/-! # The arithmetic of the concrete environment rounds as IEEE 754 requires

Used only to show that the assumption `IeeeRounds` can be met. -/

namespace TsFile
open Spec

/-- A number of at most 53 bits below the largest double has a double. -/
theorem small_form {n j : Nat} (h53 : n < 2 ^ 53) (hn : n ≠ 0) (hb : n * 2 ^ j ≤ (2 ^ 53 - 1) * 2 ^ 2045) :
    ∃ m k, m < 2 ^ 53 ∧ k ≤ 2045 ∧ n * 2 ^ j = m * 2 ^ k := by
  by_cases hj : j ≤ 2045
  · exact ⟨n, j, h53, hj, rfl⟩
  · generalize (2045 : Nat) = K at hb hj ⊢
    have hp : 2 ^ j = 2 ^ (j - K) * 2 ^ K := by
      rw [← Nat.pow_add]
      congr 1
      omega
    refine ⟨n * 2 ^ (j - K), K, ?_, Nat.le_refl _, by rw [hp, Nat.mul_assoc]⟩
    rw [hp, ← Nat.mul_assoc] at hb
    have := Nat.le_of_mul_le_mul_right hb (Nat.two_pow_pos K)
    omega

/-- Rounding to the nearest double. -/
theorem roundRat_near (n j : Nat) (hn : n ≠ 0) (hb : n * 2 ^ j ≤ (2 ^ 53 - 1) * 2 ^ 2045) :
    SoftFloat.roundRat SoftFloat.f64 n 1 ((j : Int) - 1074) < 2047 * 2 ^ 52
    ∧ 2 ^ 53 * ((f64Mag (SoftFloat.roundRat SoftFloat.f64 n 1 ((j : Int) - 1074)) : Int) - (n * 2 ^ j : Nat)).natAbs ≤ n * 2 ^ j := by
  by_cases h53 : n < 2 ^ 53
  · obtain ⟨m, k, h1, h2, h3⟩ := small_form h53 hn hb
    obtain ⟨g1, g2⟩ := roundRat_exact n j hn h1 h2 h3
    refine ⟨g1, ?_⟩
    rw [g2]
    simp
  · have hL := Nat.log2_self_le hn
    have hL' := Nat.lt_log2_self (n := n)
    have hmant : SoftFloat.f64.mant = 52 := rfl
    have hemin : SoftFloat.f64.emin = -1074 := rfl
    have hexpo : SoftFloat.f64.expo = 11 := rfl
    have h1 : Nat.log2 1 = 0 := rfl
    rw [SoftFloat.roundRat]
    dsimp only
    rw [if_neg hn, hmant, hemin, hexpo, h1]
    generalize Nat.log2 n = L at hL hL'
    have h52 : 52 < L := by
      have : 2 ^ 53 < 2 ^ (L + 1) := by omega
      have := (Nat.pow_lt_pow_iff_right (by omega)).1 this
      omega
    have hs0 : ¬ ((L : Int) - ((0 : Nat) : Int) - ((52 : Nat) : Int)) ≤ 0 := by omega
    have habs : ((L : Int) - ((0 : Nat) : Int) - ((52 : Nat) : Int)).natAbs = L - 52 := by omega
    have hc : ¬ ((L : Int) - ((0 : Nat) : Int) - ((52 : Nat) : Int)) + ((j : Int) - 1074) < -1074 := by omega
    have hex : ((L : Int) - ((0 : Nat) : Int) - ((52 : Nat) : Int) + ((j : Int) - 1074) - -1074 + 1).toNat = (L - 52 + j) + 1 := by
      omega
    have hp : 0 < 2 ^ (L - 52) := Nat.two_pow_pos _
    -- the size of the number
    have hk : L - 52 + j ≤ 2045 := by
      have h2 : 2 ^ (L + j) < 2 ^ (53 + 2045) := by
        rw [Nat.pow_add, Nat.pow_add 2 53]
        generalize (2045 : Nat) = K at hb ⊢
        have e1 : 2 ^ L * 2 ^ j ≤ n * 2 ^ j := Nat.mul_le_mul_right _ hL
        have e2 : (2 ^ 53 - 1) * 2 ^ K < 2 ^ 53 * 2 ^ K := Nat.mul_lt_mul_of_pos_right (by omega) (Nat.two_pow_pos K)
        omega
      have := (Nat.pow_lt_pow_iff_right (by omega)).1 h2
      omega
    have hdm := Nat.div_add_mod n (2 ^ (L - 52))
    have hml := Nat.mod_lt n hp
    have hD : 2 ^ L = 2 ^ (L - 52) * 2 ^ 52 := by
      rw [← Nat.pow_add]
      congr 1
      omega
    have hD' : 2 ^ (L + 1) = 2 ^ (L - 52) * 2 ^ 53 := by
      rw [← Nat.pow_add]
      congr 1
      omega
    have hq1 : 2 ^ 52 ≤ n / 2 ^ (L - 52) := (Nat.le_div_iff_mul_le hp).2 (by rw [Nat.mul_comm, ← hD]; exact hL)
    have hq2 : n / 2 ^ (L - 52) < 2 ^ 53 := (Nat.div_lt_iff_lt_mul hp).2 (by rw [Nat.mul_comm, ← hD']; exact hL')
    -- at the upper end nothing is rounded up
    have htop : L - 52 + j = 2045 → n / 2 ^ (L - 52) = 2 ^ 53 - 1 → n % 2 ^ (L - 52) = 0 := by
      intro e1 e2
      rw [e2] at hdm
      rw [← e1, Nat.pow_add, ← Nat.mul_assoc] at hb
      have := Nat.le_of_mul_le_mul_right hb (Nat.two_pow_pos j)
      rw [Nat.mul_comm] at hdm
      omega
    simp only [if_neg hs0, habs, Nat.one_mul, if_neg (Nat.not_lt.2 hq1), if_neg hc, hex, ge_iff_le]
    generalize hQ : n / 2 ^ (L - 52) = q at *
    generalize hR : n % 2 ^ (L - 52) = r at *
    generalize hDD : 2 ^ (L - 52) = D at *
    -- the rounded quotient
    obtain ⟨q', hq', hnear, hqle, hqge, hcase⟩ : ∃ q', (if (decide (D ≤ 2 * r) && !(decide (2 * r = D) && decide (q % 2 = 0))) = true then q + 1 else q) = q'
        ∧ 2 * ((q' * D : Nat) - (n : Int)).natAbs ≤ D ∧ q' ≤ 2 ^ 53 ∧ 2 ^ 52 ≤ q' ∧ (q' = 2 ^ 53 → q = 2 ^ 53 - 1 ∧ r ≠ 0) := by
      refine ⟨_, rfl, ?_⟩
      have hmul : (q + 1) * D = D * q + D := by rw [Nat.add_mul, Nat.one_mul, Nat.mul_comm]
      have hmul' : q * D = D * q := Nat.mul_comm _ _
      split
      · next h =>
        simp only [Bool.and_eq_true, decide_eq_true_eq] at h
        have := h.1
        exact ⟨by rw [hmul]; omega, by omega, by omega, fun e => ⟨by omega, by omega⟩⟩
      · next h =>
        have : 2 * r ≤ D := by
          simp only [Bool.and_eq_true, decide_eq_true_eq, Bool.not_eq_true', Bool.and_eq_false_iff, decide_eq_false_iff_not] at h
          omega
        exact ⟨by rw [hmul']; omega, by omega, by omega, fun e => by omega⟩
    rw [hq', if_neg (Nat.not_lt.2 hqge)]
    have hfin : (L - 52 + j + 1) * 2 ^ 52 + (q' - 2 ^ 52) < 2047 * 2 ^ 52 := by
      by_cases he : q' = 2 ^ 53
      · obtain ⟨h3, h4⟩ := hcase he
        have : L - 52 + j ≠ 2045 := fun e => h4 (htop e h3)
        omega
      · omega
    have hinf : ¬ (2 ^ 11 - 1) * 2 ^ 52 ≤ (L - 52 + j + 1) * 2 ^ 52 + (q' - 2 ^ 52) := by omega
    rw [if_neg hinf]
    have hmag : f64Mag ((L - 52 + j + 1) * 2 ^ 52 + (q' - 2 ^ 52)) = q' * 2 ^ (L - 52 + j) := by
      by_cases he : q' = 2 ^ 53
      · have hk' : L - 52 + j + 1 ≤ 2045 := by omega
        obtain ⟨_, g⟩ := f64Mag_normal (2 ^ 52) (L - 52 + j + 1) (Nat.le_refl _) (by omega) hk'
        rw [he, show (L - 52 + j + 1) * 2 ^ 52 + (2 ^ 53 - 2 ^ 52) = (L - 52 + j + 1 + 1) * 2 ^ 52 + (2 ^ 52 - 2 ^ 52) by omega, g,
          Nat.pow_succ 2 (L - 52 + j), Nat.mul_comm (2 ^ (L - 52 + j)) 2, ← Nat.mul_assoc]
      · exact (f64Mag_normal q' _ hqge (by omega) hk).2
    refine ⟨hfin, ?_⟩
    rw [hmag, Nat.pow_add, hDD, ← Nat.mul_assoc]
    have e1 : (((q' * D * 2 ^ j : Nat) : Int) - ((n * 2 ^ j : Nat) : Int)).natAbs = ((q' * D : Nat) - (n : Int)).natAbs * 2 ^ j := by
      have : ((q' * D * 2 ^ j : Nat) : Int) - ((n * 2 ^ j : Nat) : Int) = (((q' * D : Nat) : Int) - (n : Int)) * ((2 ^ j : Nat) : Int) := by
        rw [Int.sub_mul]
        push_cast
        rfl
      rw [this, Int.natAbs_mul, Int.natAbs_natCast]
    rw [e1, ← Nat.mul_assoc]
    apply Nat.mul_le_mul_right
    have : 2 ^ 52 * D ≤ n := by rw [Nat.mul_comm, ← hD]; exact hL
    omega

/-- Rounding a signed number. -/
theorem round_signed_near {v : Int} {j : Nat} (hv : v ≠ 0) (hb : (v * 2 ^ j).natAbs ≤ f64Max) :
    ∃ z, f64Val (BitVec.ofNat 64 ((if v < 0 then 2 ^ 63 else 0) + SoftFloat.roundRat SoftFloat.f64 v.natAbs 1 ((j : Int) - 1074))) = some z
      ∧ 2 ^ 53 * (z - v * 2 ^ j).natAbs ≤ (v * 2 ^ j).natAbs := by
  have hab : (v * 2 ^ j).natAbs = v.natAbs * 2 ^ j := by rw [Int.natAbs_mul, Int.natAbs_pow]; rfl
  rw [hab, f64Max] at hb
  obtain ⟨h1, h2⟩ := roundRat_near v.natAbs j (by omega) hb
  have h3 := f64Val_enc (decide (v < 0)) _ h1
  simp only [decide_eq_true_eq] at h3
  refine ⟨_, h3, ?_⟩
  rw [hab]
  have hc : ((v.natAbs * 2 ^ j : Nat) : Int) = (v.natAbs : Int) * 2 ^ j := by push_cast; rfl
  rw [hc] at h2
  refine Nat.le_trans (Nat.le_of_eq ?_) h2
  congr 1
  generalize (f64Mag (SoftFloat.roundRat SoftFloat.f64 v.natAbs 1 ((j : Int) - 1074)) : Int) = z
  split
  · next h =>
    have : v * 2 ^ j = -((v.natAbs : Int) * 2 ^ j) := by rw [← Int.neg_mul, show -((v.natAbs : Nat) : Int) = v by omega]
    rw [this]
    generalize (v.natAbs : Int) * 2 ^ j = y
    omega
  · next h => rw [show ((v.natAbs : Nat) : Int) = v by omega]

theorem add64_near {a b : W64} {x y : Int} (ha : f64Val a = some x) (hb : f64Val b = some y)
    (hc : (x + y).natAbs ≤ f64Max) :
    ∃ z, f64Val (SoftFloat.add64 a b) = some z ∧ 2 ^ 53 * (z - (x + y)).natAbs ≤ (x + y).natAbs := by
  obtain ⟨ba, hba, ea, va⟩ := f64Val_dec ha
  obtain ⟨bb, hbb, eb, vb⟩ := f64Val_dec hb
  obtain ⟨ma, ja, da, fa, sa⟩ := decode_f64 a ba hba ea
  obtain ⟨mb, jb, db, fb, sb⟩ := decode_f64 b bb hbb eb
  rw [SoftFloat.add64]
  simp only [isNaN_of_special sa, isNaN_of_special sb, sa, sb, Bool.or_self, Bool.false_eq_true, if_false, da, db]
  generalize hj : min ja jb = j
  have hmin : min ((ja : Int) - 1074) ((jb : Int) - 1074) = (j : Int) - 1074 := by omega
  have hta : ((ja : Int) - 1074 - ((j : Int) - 1074)).toNat = ja - j := by omega
  have htb : ((jb : Int) - 1074 - ((j : Int) - 1074)).toNat = jb - j := by omega
  rw [hmin, hta, htb]
  have key : ∀ (s : Prop) [Decidable s] (m i : Nat), j ≤ i → (if s then -((m * 2 ^ i : Nat) : Int) else ((m * 2 ^ i : Nat) : Int))
      = ((if decide s = true then -1 else 1) * ((m * 2 ^ (i - j) : Nat) : Int)) * 2 ^ j := by
    intro s _ m i hij
    have : m * 2 ^ i = m * 2 ^ (i - j) * 2 ^ j := by
      rw [Nat.mul_assoc, ← Nat.pow_add]; congr 2; omega
    rw [this]
    push_cast
    by_cases hs : s
    · rw [if_pos hs, if_pos (decide_eq_true hs)]; rw [Int.neg_mul, Int.neg_mul, Int.one_mul]
    · rw [if_neg hs, if_neg (by simpa using hs), Int.one_mul]
  rw [fa, key _ _ _ (by omega)] at va
  rw [fb, key _ _ _ (by omega)] at vb
  generalize ((if decide (a.toNat / 2 ^ 63 = 1) = true then -1 else 1) * ((ma * 2 ^ (ja - j) : Nat) : Int)) = vx at va ⊢
  generalize ((if decide (b.toNat / 2 ^ 63 = 1) = true then -1 else 1) * ((mb * 2 ^ (jb - j) : Nat) : Int)) = vy at vb ⊢
  have hsum : x + y = (vx + vy) * 2 ^ j := by rw [va, vb, Int.add_mul]
  rw [hsum] at hc ⊢
  split
  · next h0 =>
    rw [h0, Int.zero_mul]
    split
    · exact ⟨_, f64Val_enc true 0 (by omega), by simp [f64Mag_sub]⟩
    · exact ⟨_, f64Val_enc false 0 (by omega), by simp [f64Mag_sub]⟩
  · next h0 => exact round_signed_near h0 hc

theorem ofI64_near (v : W64) {j : Nat} (hj : (j : Int) - 1074 = 0) :
    ∃ z, f64Val (SoftFloat.ofI64 v) = some z ∧ 2 ^ 53 * (z - v.toInt * 2 ^ j).natAbs ≤ (v.toInt * 2 ^ j).natAbs := by
  rw [SoftFloat.ofI64]
  by_cases h0 : v.toInt = 0
  · rw [h0, Int.zero_mul]
    exact ⟨_, f64Val_enc false 0 (by omega), by simp [f64Mag_sub]⟩
  · have hb : (v.toInt * 2 ^ j).natAbs ≤ f64Max := by
      have hab : (v.toInt * 2 ^ j).natAbs = v.toInt.natAbs * 2 ^ j := by rw [Int.natAbs_mul, Int.natAbs_pow]; rfl
      rw [hab, f64Max]
      have h1 : v.toInt.natAbs ≤ 2 ^ 63 := by
        have := v.isLt
        have := BitVec.toInt_eq_toNat_cond v
        split at this <;> omega
      have h2 : 2 ^ j * 2 ^ 11 ≤ 2 ^ 2045 := by
        rw [← Nat.pow_add]
        exact Nat.pow_le_pow_right (by omega) (by omega)
      generalize 2 ^ 2045 = K at h2 ⊢
      calc v.toInt.natAbs * 2 ^ j ≤ 2 ^ 63 * 2 ^ j := Nat.mul_le_mul_right _ h1
        _ = 2 ^ 52 * (2 ^ j * 2 ^ 11) := by omega
        _ ≤ (2 ^ 53 - 1) * K := Nat.mul_le_mul (by omega) h2
    have := round_signed_near h0 hb
    rw [hj] at this
    exact this

/-- The concrete environment rounds as IEEE doubles do. -/
theorem ieeeRounds_std (snappy : Bytes → Option Bytes) : IeeeRounds (Env.std snappy) :=
  { ieeeOk_std snappy with
    addNear := fun _ _ _ _ ha hb hc => add64_near ha hb hc
    ofIntNear := fun v => ofI64_near v (by omega) }

end TsFile
