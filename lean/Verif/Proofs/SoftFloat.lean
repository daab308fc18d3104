import Verif.Model.EnvStd
import Verif.Spec.Sums
/-! # The arithmetic of the concrete environment is exact where IEEE 754 requires it

Used only to show that the assumption `IeeeOk` can be met. -/

namespace TsFile
open Spec

/-- The value of a bit pattern without sign. -/
def f64Mag (b : Nat) : Nat :=
  if b / 2 ^ 52 % 2 ^ 11 = 0 then b % 2 ^ 52 else (2 ^ 52 + b % 2 ^ 52) * 2 ^ (b / 2 ^ 52 % 2 ^ 11 - 1)

theorem f64Val_enc (neg : Bool) (b : Nat) (hb : b < 2047 * 2 ^ 52) :
    f64Val (BitVec.ofNat 64 ((if neg then 2 ^ 63 else 0) + b)) = some (if neg then -(f64Mag b : Int) else f64Mag b) := by
  have h1 : ((if neg then 2 ^ 63 else 0) + b) % 2 ^ 64 = (if neg then 2 ^ 63 else 0) + b := by
    apply Nat.mod_eq_of_lt
    split <;> omega
  have h2 : ((if neg then 2 ^ 63 else 0) + b) / 2 ^ 52 % 2 ^ 11 = b / 2 ^ 52 % 2 ^ 11 := by split <;> omega
  have h3 : ((if neg then 2 ^ 63 else 0) + b) % 2 ^ 52 = b % 2 ^ 52 := by split <;> omega
  have h4 : (((if neg then 2 ^ 63 else 0) + b) / 2 ^ 63 = 1) ↔ neg = true := by split <;> simp_all <;> omega
  have h5 : ¬ b / 2 ^ 52 % 2 ^ 11 = 2047 := by omega
  rw [f64Val, BitVec.toNat_ofNat, h1]
  simp only [h2, h3, h4, if_neg h5, f64Mag]

theorem f64Val_dec {x : W64} {v : Int} (h : f64Val x = some v) :
    ∃ b, b < 2047 * 2 ^ 52 ∧ x.toNat = (if x.toNat / 2 ^ 63 = 1 then 2 ^ 63 else 0) + b
      ∧ v = if x.toNat / 2 ^ 63 = 1 then -(f64Mag b : Int) else f64Mag b := by
  rw [f64Val] at h
  split at h
  · simp at h
  · next hne =>
    have hlt := x.isLt
    refine ⟨x.toNat % 2 ^ 63, by omega, by split <;> omega, ?_⟩
    have h2 : x.toNat % 2 ^ 63 / 2 ^ 52 % 2 ^ 11 = x.toNat / 2 ^ 52 % 2 ^ 11 := by omega
    have h3 : x.toNat % 2 ^ 63 % 2 ^ 52 = x.toNat % 2 ^ 52 := by omega
    rw [f64Mag, h2, h3]
    exact (Option.some.inj h).symm

/-- Every double has at most 53 significant bits. -/
theorem f64Mag_form (b : Nat) (hb : b < 2047 * 2 ^ 52) : ∃ m k, m < 2 ^ 53 ∧ k ≤ 2045 ∧ f64Mag b = m * 2 ^ k := by
  rw [f64Mag]
  split
  · exact ⟨b % 2 ^ 52, 0, by omega, by omega, by simp⟩
  · exact ⟨_, _, by omega, by omega, rfl⟩

/-- The pattern of a normal number. -/
theorem f64Mag_normal (q k : Nat) (h1 : 2 ^ 52 ≤ q) (h2 : q < 2 ^ 53) (hk : k ≤ 2045) :
    (k + 1) * 2 ^ 52 + (q - 2 ^ 52) < 2047 * 2 ^ 52 ∧ f64Mag ((k + 1) * 2 ^ 52 + (q - 2 ^ 52)) = q * 2 ^ k := by
  refine ⟨by omega, ?_⟩
  have h3 : ((k + 1) * 2 ^ 52 + (q - 2 ^ 52)) / 2 ^ 52 % 2 ^ 11 = k + 1 := by omega
  have h4 : ((k + 1) * 2 ^ 52 + (q - 2 ^ 52)) % 2 ^ 52 = q - 2 ^ 52 := by omega
  rw [f64Mag, h3, h4, if_neg (by omega), show 2 ^ 52 + (q - 2 ^ 52) = q by omega, Nat.add_sub_cancel]

theorem f64Mag_sub (q : Nat) (h : q < 2 ^ 52) : f64Mag q = q := by
  have h1 : q / 2 ^ 52 % 2 ^ 11 = 0 := by omega
  rw [f64Mag, h1, if_pos rfl, Nat.mod_eq_of_lt h]

/-- Rounding a number that has a double gives it. -/
theorem roundRat_exact (n j : Nat) (hn : n ≠ 0) {m k : Nat} (hm : m < 2 ^ 53) (hk : k ≤ 2045) (h : n * 2 ^ j = m * 2 ^ k) :
    SoftFloat.roundRat SoftFloat.f64 n 1 ((j : Int) - 1074) < 2047 * 2 ^ 52
    ∧ f64Mag (SoftFloat.roundRat SoftFloat.f64 n 1 ((j : Int) - 1074)) = n * 2 ^ j := by
  have hL := Nat.log2_self_le hn
  have hL' := Nat.lt_log2_self (n := n)
  have hmant : SoftFloat.f64.mant = 52 := rfl
  have hemin : SoftFloat.f64.emin = -1074 := rfl
  have hexpo : SoftFloat.f64.expo = 11 := rfl
  have h1 : Nat.log2 1 = 0 := rfl
  rw [SoftFloat.roundRat]
  dsimp only
  rw [if_neg hn, hmant, hemin, hexpo, h1]
  generalize Nat.log2 n = L at hL hL'
  have hpos : 0 < 2 ^ j := Nat.two_pow_pos j
  -- the size of the number
  have hsize : L + j < 53 + k := by
    have : 2 ^ (L + j) < 2 ^ (53 + k) := by
      rw [Nat.pow_add, Nat.pow_add]
      calc 2 ^ L * 2 ^ j ≤ n * 2 ^ j := Nat.mul_le_mul_right _ hL
        _ = m * 2 ^ k := h
        _ < 2 ^ 53 * 2 ^ k := Nat.mul_lt_mul_of_pos_right hm (Nat.two_pow_pos k)
    exact (Nat.pow_lt_pow_iff_right (by omega)).1 this
  have hdvd : 52 ≤ L → 2 ^ (L - 52) ∣ n := by
    intro h52
    have h2 : 2 ^ (L - 52 + j) ∣ n * 2 ^ j := by
      rw [h]
      exact Nat.dvd_trans (Nat.pow_dvd_pow 2 (by omega)) (Nat.dvd_mul_left _ _)
    rw [Nat.pow_add] at h2
    exact Nat.dvd_of_mul_dvd_mul_right hpos h2
  by_cases h52 : L ≤ 52
  · -- few bits: shift to the left
    have hs0 : ((L : Int) - ((0 : Nat) : Int) - ((52 : Nat) : Int)) ≤ 0 := by omega
    have habs : ((L : Int) - ((0 : Nat) : Int) - ((52 : Nat) : Int)).natAbs = 52 - L := by omega
    have hq1 : 2 ^ 52 ≤ n * 2 ^ (52 - L) := by
      calc 2 ^ 52 = 2 ^ L * 2 ^ (52 - L) := by rw [← Nat.pow_add]; congr 1; omega
        _ ≤ _ := Nat.mul_le_mul_right _ hL
    have hq2 : n * 2 ^ (52 - L) < 2 ^ 53 := by
      calc n * 2 ^ (52 - L) < 2 ^ (L + 1) * 2 ^ (52 - L) := Nat.mul_lt_mul_of_pos_right hL' (Nat.two_pow_pos _)
        _ = 2 ^ 53 := by rw [← Nat.pow_add]; congr 1; omega
    simp only [if_pos hs0, habs, Nat.div_one, if_neg (Nat.not_lt.2 hq1)]
    by_cases hsub : L + j < 52
    · -- subnormal
      have hc : ((L : Int) - ((0 : Nat) : Int) - ((52 : Nat) : Int)) + ((j : Int) - 1074) < -1074 := by omega
      rw [if_pos hc]
      have hs : (-1074 : Int) - ((j : Int) - 1074) ≤ 0 := by omega
      have ha : ((-1074 : Int) - ((j : Int) - 1074)).natAbs = j := by omega
      have hV : n * 2 ^ j < 2 ^ 52 := by
        calc n * 2 ^ j < 2 ^ (L + 1) * 2 ^ j := Nat.mul_lt_mul_of_pos_right hL' hpos
          _ = 2 ^ (L + 1 + j) := by rw [Nat.pow_add _ (L + 1)]
          _ ≤ 2 ^ 52 := Nat.pow_le_pow_right (by omega) (by omega)
      simp only [if_pos hs, ha, Nat.div_one, Nat.mod_one, Nat.mul_zero, ge_iff_le, Nat.le_zero_eq, Nat.one_ne_zero, decide_false,
        Bool.false_and, Bool.false_eq_true, if_false, if_pos hV]
      exact ⟨by omega, f64Mag_sub _ hV⟩
    · have hc : ¬ ((L : Int) - ((0 : Nat) : Int) - ((52 : Nat) : Int)) + ((j : Int) - 1074) < -1074 := by omega
      rw [if_neg hc]
      have hex : ((L : Int) - ((0 : Nat) : Int) - ((52 : Nat) : Int) + ((j : Int) - 1074) - -1074 + 1).toNat = (L + j - 52) + 1 := by
        omega
      obtain ⟨g1, g2⟩ := f64Mag_normal (n * 2 ^ (52 - L)) (L + j - 52) hq1 hq2 (by omega)
      have hinf : ¬ (L + j - 52 + 1) * 2 ^ 52 + (n * 2 ^ (52 - L) - 2 ^ 52) ≥ (2 ^ 11 - 1) * 2 ^ 52 := by omega
      simp only [if_pos hs0, habs, Nat.div_one, Nat.mod_one, Nat.mul_zero, ge_iff_le, Nat.le_zero_eq, Nat.one_ne_zero,
        decide_false, Bool.false_and, Bool.false_eq_true, if_false, if_neg (Nat.not_lt.2 hq1), hex]
      rw [if_neg hinf]
      refine ⟨g1, g2.trans ?_⟩
      rw [Nat.mul_assoc, ← Nat.pow_add]
      congr 2
      omega
  · -- many bits, the last ones are zero
    have hs0 : ¬ ((L : Int) - ((0 : Nat) : Int) - ((52 : Nat) : Int)) ≤ 0 := by omega
    have habs : ((L : Int) - ((0 : Nat) : Int) - ((52 : Nat) : Int)).natAbs = L - 52 := by omega
    obtain ⟨q, hq⟩ := hdvd (by omega)
    have hp : 0 < 2 ^ (L - 52) := Nat.two_pow_pos _
    have hdiv : n / (1 * 2 ^ (L - 52)) = q := by rw [Nat.one_mul, hq, Nat.mul_div_cancel_left _ hp]
    have hmod : n % (1 * 2 ^ (L - 52)) = 0 := by rw [Nat.one_mul, hq, Nat.mul_mod_right]
    have hq1 : 2 ^ 52 ≤ q := by
      apply Nat.le_of_mul_le_mul_left _ hp
      rw [← hq, ← Nat.pow_add, show L - 52 + 52 = L by omega]
      exact hL
    have hq2 : q < 2 ^ 53 := by
      apply Nat.lt_of_mul_lt_mul_left (a := 2 ^ (L - 52))
      rw [← hq, ← Nat.pow_add, show L - 52 + 53 = L + 1 by omega]
      exact hL'
    have hc : ¬ ((L : Int) - ((0 : Nat) : Int) - ((52 : Nat) : Int)) + ((j : Int) - 1074) < -1074 := by omega
    have hex : ((L : Int) - ((0 : Nat) : Int) - ((52 : Nat) : Int) + ((j : Int) - 1074) - -1074 + 1).toNat = (L - 52 + j) + 1 := by
      omega
    obtain ⟨g1, g2⟩ := f64Mag_normal q (L - 52 + j) hq1 hq2 (by omega)
    have hinf : ¬ (L - 52 + j + 1) * 2 ^ 52 + (q - 2 ^ 52) ≥ (2 ^ 11 - 1) * 2 ^ 52 := by omega
    have hup : ¬ 1 * 2 ^ (L - 52) ≤ 2 * 0 := by omega
    simp only [if_neg hs0, habs, hdiv, hmod, if_neg (Nat.not_lt.2 hq1), if_neg hc, ge_iff_le, hup, decide_false,
      Bool.false_and, Bool.false_eq_true, if_false, hex]
    rw [if_neg hinf]
    refine ⟨g1, g2.trans ?_⟩
    rw [Nat.pow_add, ← Nat.mul_assoc, hq, Nat.mul_comm q]

theorem decode_f64 (x : W64) (b : Nat) (hb : b < 2047 * 2 ^ 52)
    (hx : x.toNat = (if x.toNat / 2 ^ 63 = 1 then 2 ^ 63 else 0) + b) :
    ∃ m j : Nat, SoftFloat.decode SoftFloat.f64 x.toNat = (decide (x.toNat / 2 ^ 63 = 1), m, (j : Int) - 1074) ∧ f64Mag b = m * 2 ^ j
      ∧ SoftFloat.special SoftFloat.f64 x.toNat = false := by
  have hmant : SoftFloat.f64.mant = 52 := rfl
  have hemin : SoftFloat.f64.emin = -1074 := rfl
  have hexpo : SoftFloat.f64.expo = 11 := rfl
  have hlt := x.isLt
  have h1 : x.toNat / 2 ^ 52 % 2 ^ 11 = b / 2 ^ 52 % 2 ^ 11 := by split at hx <;> omega
  have h2 : x.toNat % 2 ^ 52 = b % 2 ^ 52 := by split at hx <;> omega
  have h3 : x.toNat / 2 ^ (52 + 11) % 2 = x.toNat / 2 ^ 63 := by omega
  rw [SoftFloat.decode, SoftFloat.special, hmant, hemin, hexpo, h1, h2, h3, f64Mag]
  split
  · next h0 =>
    refine ⟨_, 0, rfl, by simp, ?_⟩
    rw [h0]; rfl
  · refine ⟨_, b / 2 ^ 52 % 2 ^ 11 - 1, ?_, by rw [Nat.add_comm (2 ^ 52)], ?_⟩
    · simp only [Prod.mk.injEq, true_and]
      omega
    · simp only [decide_eq_false_iff_not]
      omega

theorem isNaN_of_special {x : Nat} (h : SoftFloat.special SoftFloat.f64 x = false) : SoftFloat.isNaN SoftFloat.f64 x = false := by
  rw [SoftFloat.isNaN, h]; rfl

/-- A number with a double, written with another power of two. -/
theorem has_form {c : W64} {v : Int} {n j : Nat} (h : f64Val c = some v) (hv : v.natAbs = n * 2 ^ j) :
    ∃ m k, m < 2 ^ 53 ∧ k ≤ 2045 ∧ n * 2 ^ j = m * 2 ^ k := by
  obtain ⟨b, hb, _, hvb⟩ := f64Val_dec h
  obtain ⟨m, k, hm, hk, e⟩ := f64Mag_form b hb
  refine ⟨m, k, hm, hk, ?_⟩
  rw [← hv, ← e, hvb]
  split <;> omega

/-- Rounding a signed number that has a double gives it. -/
theorem round_signed {c : W64} {v : Int} {j : Nat} (hv : v ≠ 0) (h : f64Val c = some (v * 2 ^ j)) :
    f64Val (BitVec.ofNat 64 ((if v < 0 then 2 ^ 63 else 0) + SoftFloat.roundRat SoftFloat.f64 v.natAbs 1 ((j : Int) - 1074)))
      = some (v * 2 ^ j) := by
  have hab : (v * 2 ^ j).natAbs = v.natAbs * 2 ^ j := by rw [Int.natAbs_mul, Int.natAbs_pow]; rfl
  obtain ⟨m, k, hm, hk, e⟩ := has_form h hab
  obtain ⟨h1, h2⟩ := roundRat_exact v.natAbs j (by omega) hm hk e
  have h3 := f64Val_enc (decide (v < 0)) _ h1
  simp only [decide_eq_true_eq] at h3
  rw [h3, h2]
  have hc : ((v.natAbs * 2 ^ j : Nat) : Int) = (v.natAbs : Int) * 2 ^ j := by push_cast; rfl
  rw [hc]
  split
  · next h => rw [← Int.neg_mul, show -((v.natAbs : Nat) : Int) = v by omega]
  · next h => rw [show ((v.natAbs : Nat) : Int) = v by omega]

theorem add64_exact {a b c : W64} {x y : Int} (ha : f64Val a = some x) (hb : f64Val b = some y)
    (hc : f64Val c = some (x + y)) : f64Val (SoftFloat.add64 a b) = some (x + y) := by
  obtain ⟨ba, hba, ea, va⟩ := f64Val_dec ha
  obtain ⟨bb, hbb, eb, vb⟩ := f64Val_dec hb
  obtain ⟨ma, ja, da, fa, sa⟩ := decode_f64 a ba hba ea
  obtain ⟨mb, jb, db, fb, sb⟩ := decode_f64 b bb hbb eb
  rw [SoftFloat.add64]
  simp only [isNaN_of_special sa, isNaN_of_special sb, sa, sb, Bool.or_self, Bool.false_eq_true, if_false, da, db]
  generalize hj : min ja jb = j
  have hmin : min ((ja : Int) - 1074) ((jb : Int) - 1074) = (j : Int) - 1074 := by omega
  have hta : ((ja : Int) - 1074 - ((j : Int) - 1074)).toNat = ja - j := by omega
  have htb : ((jb : Int) - 1074 - ((j : Int) - 1074)).toNat = jb - j := by omega
  rw [hmin, hta, htb]
  have key : ∀ (s : Prop) [Decidable s] (m i : Nat), j ≤ i → (if s then -((m * 2 ^ i : Nat) : Int) else ((m * 2 ^ i : Nat) : Int))
      = ((if decide s = true then -1 else 1) * ((m * 2 ^ (i - j) : Nat) : Int)) * 2 ^ j := by
    intro s _ m i hij
    have : m * 2 ^ i = m * 2 ^ (i - j) * 2 ^ j := by
      rw [Nat.mul_assoc, ← Nat.pow_add]; congr 2; omega
    rw [this]
    push_cast
    by_cases hs : s
    · rw [if_pos hs, if_pos (decide_eq_true hs)]; rw [Int.neg_mul, Int.neg_mul, Int.one_mul]
    · rw [if_neg hs, if_neg (by simpa using hs), Int.one_mul]
  rw [fa, key _ _ _ (by omega)] at va
  rw [fb, key _ _ _ (by omega)] at vb
  generalize ((if decide (a.toNat / 2 ^ 63 = 1) = true then -1 else 1) * ((ma * 2 ^ (ja - j) : Nat) : Int)) = vx at va ⊢
  generalize ((if decide (b.toNat / 2 ^ 63 = 1) = true then -1 else 1) * ((mb * 2 ^ (jb - j) : Nat) : Int)) = vy at vb ⊢
  have hsum : x + y = (vx + vy) * 2 ^ j := by rw [va, vb, Int.add_mul]
  rw [hsum] at hc ⊢
  split
  · next h0 =>
    rw [h0, Int.zero_mul]
    split
    · exact f64Val_enc true 0 (by omega)
    · exact f64Val_enc false 0 (by omega)
  · next h0 => exact round_signed h0 hc

theorem ofI64_exact {v c : W64} {j : Nat} (hj : (j : Int) - 1074 = 0) (h : f64Val c = some (v.toInt * 2 ^ j)) :
    f64Val (SoftFloat.ofI64 v) = some (v.toInt * 2 ^ j) := by
  rw [SoftFloat.ofI64]
  by_cases h0 : v.toInt = 0
  · rw [h0, Int.zero_mul]
    exact f64Val_enc false 0 (by omega)
  · have := round_signed h0 h
    rw [hj] at this
    exact this

theorem ofF32_exact {v : W32} {x : Int} (h : f32Val v = some x) (h1 : -f32Inf < x) (h2 : x < f32Inf) :
    f64Val (SoftFloat.ofF32 v) = some (x * 2 ^ 925) := by
  have hlt := v.isLt
  have hmant : SoftFloat.f32.mant = 23 := rfl
  have hemin : SoftFloat.f32.emin = -149 := rfl
  have hexpo : SoftFloat.f32.expo = 8 := rfl
  rw [f32Val] at h
  -- the exponent is not the one of infinity
  have hfin : v.toNat / 2 ^ 23 % 2 ^ 8 ≠ 255 := by
    intro he
    simp only [he, true_and] at h
    split at h
    · simp at h
    · next hf =>
      simp only [ne_eq, Decidable.not_not] at hf
      have hx : x = f32Inf ∨ x = -f32Inf := by
        rw [hf] at h
        simp only [Nat.reduceEqDiff, if_false, Nat.add_zero, Option.some.injEq] at h
        have : ((2 ^ 23 * 2 ^ (255 - 1) : Nat) : Int) = f32Inf := by decide +kernel
        rw [this] at h
        split at h
        · exact .inr h.symm
        · exact .inl h.symm
      omega
  rw [if_neg (fun hh => hfin hh.1)] at h
  have hx := Option.some.inj h
  have hsp : SoftFloat.special SoftFloat.f32 v.toNat = false := by
    rw [SoftFloat.special, hmant, hexpo]
    simpa using hfin
  have hnan : SoftFloat.isNaN SoftFloat.f32 v.toNat = false := by rw [SoftFloat.isNaN, hsp]; rfl
  rw [SoftFloat.ofF32]
  simp only [hnan, hsp, Bool.false_eq_true, if_false]
  -- mantissa and exponent
  obtain ⟨m, i, sg, hd, hmag, hm, hi⟩ : ∃ (m i : Nat) (sg : Bool),
      SoftFloat.decode SoftFloat.f32 v.toNat = (sg, m, ((925 + i : Nat) : Int) - 1074)
      ∧ (if v.toNat / 2 ^ 23 % 2 ^ 8 = 0 then v.toNat % 2 ^ 23 else (2 ^ 23 + v.toNat % 2 ^ 23) * 2 ^ (v.toNat / 2 ^ 23 % 2 ^ 8 - 1))
        = m * 2 ^ i ∧ m < 2 ^ 24 ∧ i < 255 := by
    rw [SoftFloat.decode, hmant, hexpo, hemin]
    by_cases h0 : v.toNat / 2 ^ 23 % 2 ^ 8 = 0
    · rw [if_pos h0, if_pos h0]
      exact ⟨_, 0, _, rfl, by simp, by omega, by omega⟩
    · rw [if_neg h0, if_neg h0]
      refine ⟨v.toNat % 2 ^ 23 + 2 ^ 23, v.toNat / 2 ^ 23 % 2 ^ 8 - 1, decide (v.toNat / 2 ^ (23 + 8) % 2 = 1), ?_, by rw [Nat.add_comm (2 ^ 23)], by omega, by omega⟩
      simp only [Prod.mk.injEq, true_and]
      omega
  rw [hd]
  rw [hmag] at hx
  have hs : v.toNat / 2 ^ 31 * 2 ^ 63 = if decide (v.toNat / 2 ^ 31 = 1) then 2 ^ 63 else 0 := by
    by_cases h : v.toNat / 2 ^ 31 = 1
    · rw [h]; rfl
    · have : v.toNat / 2 ^ 31 = 0 := by omega
      rw [this]; rfl
  dsimp only
  rw [hs]
  have hval : SoftFloat.roundRat SoftFloat.f64 m 1 (((925 + i : Nat) : Int) - 1074) < 2047 * 2 ^ 52
      ∧ f64Mag (SoftFloat.roundRat SoftFloat.f64 m 1 (((925 + i : Nat) : Int) - 1074)) = m * 2 ^ (925 + i) := by
    by_cases h0 : m = 0
    · subst h0
      rw [SoftFloat.roundRat, if_pos rfl]
      exact ⟨by omega, by rw [Nat.zero_mul]; exact f64Mag_sub 0 (by omega)⟩
    · exact roundRat_exact m (925 + i) h0 (m := m) (k := 925 + i) (by omega) (by omega) rfl
  rw [f64Val_enc _ _ hval.1, hval.2, ← hx]
  have hp : ((m * 2 ^ (925 + i) : Nat) : Int) = ((m * 2 ^ i : Nat) : Int) * 2 ^ 925 := by
    rw [Nat.add_comm, Nat.pow_add, ← Nat.mul_assoc]
    push_cast
    rfl
  rw [hp]
  by_cases h : v.toNat / 2 ^ 31 = 1
  · rw [if_pos (decide_eq_true h), if_pos h, Int.neg_mul]
  · rw [if_neg (by simpa using h), if_neg h]

/-- The concrete environment computes with IEEE doubles. -/
theorem ieeeOk_std (snappy : Bytes → Option Bytes) : IeeeOk (Env.std snappy) :=
  ⟨fun _ _ _ _ _ ha hb hc => add64_exact ha hb hc, fun _ _ h => ofI64_exact (by omega) h, fun _ _ h h1 h2 => ofF32_exact h h1 h2⟩

end TsFile
