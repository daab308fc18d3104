import Verif.Proofs.Prim
import Mathlib.Data.List.Forall2
import Verif.Model.Encoders
/-! # TS_2DIFF: bit packing and single blocks -/

namespace TsFile
open Spec

/-! ## bit packing -/

/-- `result` holds the `pos` bits of the number `v`, padded with zero bits to whole bytes. -/
def BitRep (result : Bytes) (pos v : Nat) : Prop :=
  result.length = (pos + 7) / 8 ∧ beNat result = v * 2 ^ (8 * result.length - pos)

theorem longMask_and : ∀ cnt < 8, ∀ a < 2 ^ cnt,
    (UInt8.ofNat (a * 2 ^ (8 - cnt)) &&& longMask cnt) = UInt8.ofNat (a * 2 ^ (8 - cnt)) := by
  decide +kernel

theorem intMask_and : ∀ cnt < 8, ∀ m < 9, cnt + m ≤ 8 → ∀ a < 2 ^ cnt,
    (UInt8.ofNat (a * 2 ^ (8 - cnt)) &&& intMask cnt (cnt + m)) = UInt8.ofNat (a * 2 ^ (8 - cnt)) := by
  decide +kernel

/-- Shifting a byte left keeps the low bits. -/
theorem byte_shl (x : Nat) (k : Nat) (hk : k < 8) :
    (UInt8.ofNat x <<< UInt8.ofNat k).toNat = x % 2 ^ (8 - k) * 2 ^ k := by
  rw [UInt8.toNat_shiftLeft, uint8_ofNat_toNat, uint8_ofNat_toNat, Nat.mod_eq_of_lt (show k < 256 by omega),
    Nat.mod_eq_of_lt hk, Nat.shiftLeft_eq]
  have h : (2 : Nat) ^ 8 = 2 ^ (8 - k) * 2 ^ k := by rw [← Nat.pow_add]; congr 1; omega
  rw [h, Nat.mul_mod_mul_right]
  congr 1
  rw [show (256 : Nat) = 2 ^ (8 - k) * 2 ^ k by rw [← h]]
  exact Nat.mod_mul_right_mod _ _ _

/-- The core of one packing step: the free low bits of the last byte receive the next `m` bits `c`. -/
theorem pack_step (old : UInt8) (a cnt m c x : Nat) (mask : UInt8) (hm : 0 < m) (hcm : cnt + m ≤ 8)
    (hold : old.toNat = a * 2 ^ (8 - cnt))
    (hmask : UInt8.ofNat (a * 2 ^ (8 - cnt)) &&& mask = UInt8.ofNat (a * 2 ^ (8 - cnt)))
    (hc : c < 2 ^ m) (hx : x % 2 ^ (cnt + m) = c) :
    ((old &&& mask) ||| (UInt8.ofNat x <<< UInt8.ofNat (8 - (cnt + m)))).toNat
      = old.toNat + c * 2 ^ (8 - (cnt + m)) := by
  have hold' : old = UInt8.ofNat (a * 2 ^ (8 - cnt)) := by
    rw [← hold]; simp
  rw [UInt8.toNat_or]
  rw [hold', hmask, ← hold', byte_shl x (8 - (cnt + m)) (by omega)]
  rw [show 8 - (8 - (cnt + m)) = cnt + m by omega, hx, hold]
  have hlt : c * 2 ^ (8 - (cnt + m)) < 2 ^ (8 - cnt) := by
    have : (2 : Nat) ^ (8 - cnt) = 2 ^ m * 2 ^ (8 - (cnt + m)) := by
      rw [← Nat.pow_add]; congr 1; omega
    rw [this]
    exact Nat.mul_lt_mul_of_pos_right hc (Nat.two_pow_pos _)
  have := Nat.two_pow_add_eq_or_of_lt hlt a
  rw [Nat.mul_comm] at this
  exact this.symm

/-- The next byte exists (a zero byte is appended when the last one is full) and can be replaced. -/
theorem bitRep_open (result : Bytes) (cnt index v : Nat) (hcnt : cnt < 8)
    (h : BitRep result (8 * index + cnt) v) :
    ∃ pre old, (if index ≤ result.length then resize0 result (index + 1) else result) = pre ++ [old]
      ∧ pre.length = index ∧ old.toNat = v % 2 ^ cnt * 2 ^ (8 - cnt)
      ∧ beNat (pre ++ [old]) = v * 2 ^ (8 - cnt) := by
  obtain ⟨hlen, hval⟩ := h
  by_cases hc : cnt = 0
  · subst hc
    have hl : result.length = index := by omega
    refine ⟨result, 0, ?_, hl, ?_, ?_⟩
    · rw [if_pos (by omega), resize0, List.take_of_length_le (by omega), hl]
      simp
    · simp [Nat.mod_one]
    · rw [beNat_append_single, hval, hl]
      simp
  · have hl : result.length = index + 1 := by omega
    have hne : result ≠ [] := by intro h; rw [h] at hl; simp at hl
    have heq : result = result.dropLast ++ [result.getLast hne] := (List.dropLast_concat_getLast hne).symm
    have hb : beNat result = v * 2 ^ (8 - cnt) := by
      rw [hval, hl]; congr 2; omega
    refine ⟨result.dropLast, result.getLast hne, ?_, by simp [hl], ?_, ?_⟩
    · rw [if_pos (by omega), resize0, List.take_of_length_le (by omega), hl]
      simpa using heq
    · rw [heq, beNat_append_single] at hb
      have hlt : (result.getLast hne).toNat < 256 := (result.getLast hne).toNat_lt
      have h2 : (result.getLast hne).toNat = (v * 2 ^ (8 - cnt)) % 256 := by rw [← hb]; omega
      rw [h2]
      have : (256 : Nat) = 2 ^ cnt * 2 ^ (8 - cnt) := by
        rw [← Nat.pow_add, show cnt + (8 - cnt) = 8 by omega]
      rw [this, Nat.mul_mod_mul_right]
    · rw [← heq]; exact hb

/-- After one packing step the bits are those of `v * 2 ^ m + c`. -/
theorem bitRep_step (pre : Bytes) (old new : UInt8) (cnt index m v c : Nat)
    (hm : 0 < m) (hcm : cnt + m ≤ 8) (hpre : pre.length = index)
    (hb : beNat (pre ++ [old]) = v * 2 ^ (8 - cnt))
    (hnew : new.toNat = old.toNat + c * 2 ^ (8 - (cnt + m))) :
    BitRep (pre ++ [new]) (8 * index + cnt + m) (v * 2 ^ m + c) := by
  constructor
  · simp [hpre]; omega
  · rw [beNat_append_single] at hb ⊢
    have h8 : 8 * (pre ++ [new]).length - (8 * index + cnt + m) = 8 - (cnt + m) := by
      simp [hpre]; omega
    rw [h8, hnew, Nat.add_mul, ← Nat.add_assoc, hb]
    rw [Nat.mul_assoc, ← Nat.pow_add]
    rw [show m + (8 - (cnt + m)) = 8 - cnt by omega]

theorem getElem?_append_single (pre : Bytes) (x : UInt8) (i : Nat) (h : pre.length = i) :
    (pre ++ [x])[i]? = some x := by
  subst h; simp

theorem set_append_single (pre : Bytes) (x y : UInt8) (i : Nat) (h : pre.length = i) :
    (pre ++ [x]).set i y = pre ++ [y] := by
  subst h; simp

/-- Low byte of an arithmetic right shift. -/
theorem byte_sshiftRight (number : BitVec w) (k width : Nat) (hlt : number.toNat < 2 ^ width)
    (hw : width < w ∨ k + 8 ≤ w) (h8 : 8 ≤ w) :
    byte (number.sshiftRight k) = UInt8.ofNat (number.toNat / 2 ^ k) := by
  rw [byte]
  by_cases hmsb : number.msb = false
  · rw [BitVec.sshiftRight_eq_of_msb_false hmsb, BitVec.toNat_ushiftRight, Nat.shiftRight_eq_div_pow]
  · have hmsb : number.msb = true := by simpa using hmsb
    have hk : k + 8 ≤ w := by
      rcases hw with hw | hw
      · exfalso
        have := BitVec.msb_eq_true_iff_two_mul_ge.1 hmsb
        have h2 : 2 ^ (width + 1) ≤ 2 ^ w := Nat.pow_le_pow_right (by omega) (by omega)
        rw [Nat.pow_succ] at h2
        omega
      · exact hw
    apply UInt8.toNat_inj.1
    rw [uint8_ofNat_toNat, uint8_ofNat_toNat, BitVec.sshiftRight_eq_of_msb_true hmsb, BitVec.toNat_not,
      BitVec.toNat_ushiftRight, BitVec.toNat_not, Nat.shiftRight_eq_div_pow]
    have hn := number.isLt
    have e1 : (2 : Nat) ^ w = 2 ^ k * (2 ^ (w - k)) := by rw [← Nat.pow_add]; congr 1; omega
    have e2 : (2 : Nat) ^ (w - k) = 256 * 2 ^ (w - k - 8) := by
      rw [show (256 : Nat) = 2 ^ 8 by rfl, ← Nat.pow_add]; congr 1; omega
    have e3 : (2 : Nat) ^ w = 256 * 2 ^ (w - 8) := by
      rw [show (256 : Nat) = 2 ^ 8 by rfl, ← Nat.pow_add]; congr 1; omega
    have hd : (2 ^ w - 1 - number.toNat) / 2 ^ k = 2 ^ (w - k) - 1 - number.toNat / 2 ^ k := by
      rw [e1]
      have hnn : number.toNat < 2 ^ k * 2 ^ (w - k) := by rw [← e1]; exact hn
      rw [show 2 ^ k * 2 ^ (w - k) - 1 - number.toNat = 2 ^ k * 2 ^ (w - k) - (number.toNat + 1) by omega]
      have hq : number.toNat / 2 ^ k < 2 ^ (w - k) := Nat.div_lt_of_lt_mul hnn
      have hdm := Nat.div_add_mod number.toNat (2 ^ k)
      have hml := Nat.mod_lt number.toNat (Nat.two_pow_pos k)
      generalize hQ : number.toNat / 2 ^ k = q at *
      generalize hR : number.toNat % 2 ^ k = r at *
      apply Nat.div_eq_of_lt_le
      · rw [← hdm]
        have : (2 ^ (w - k) - 1 - q) * 2 ^ k + (2 ^ k * q + 2 ^ k) = 2 ^ k * 2 ^ (w - k) := by
          have : (2 : Nat) ^ (w - k) = (2 ^ (w - k) - 1 - q) + q + 1 := by omega
          conv => rhs; rw [this]
          rw [Nat.mul_add, Nat.mul_add, Nat.mul_comm (2 ^ (w - k) - 1 - q)]
          omega
        omega
      · rw [← hdm]
        have : (2 ^ (w - k) - 1 - q + 1) * 2 ^ k + (2 ^ k * q) = 2 ^ k * 2 ^ (w - k) := by
          have : (2 : Nat) ^ (w - k) = (2 ^ (w - k) - 1 - q + 1) + q := by omega
          conv => rhs; rw [this]
          rw [Nat.mul_add, Nat.mul_comm (2 ^ (w - k) - 1 - q + 1)]
        omega
    rw [hd]
    have hq : number.toNat / 2 ^ k < 2 ^ (w - k) := Nat.div_lt_of_lt_mul (by rw [← e1]; exact hn)
    rw [show 2 ^ w - 1 - (2 ^ (w - k) - 1 - number.toNat / 2 ^ k)
      = number.toNat / 2 ^ k + (2 ^ w - 2 ^ (w - k)) by
        have : (2 : Nat) ^ (w - k) ≤ 2 ^ w := Nat.pow_le_pow_right (by omega) (by omega)
        clear e1 e2 e3 hd
        generalize number.toNat / 2 ^ k = q at *
        generalize (2 : Nat) ^ (w - k) = P at *
        omega]
    rw [e2, e3, ← Nat.mul_sub, Nat.add_mul_mod_self_left]

theorem div_pow_sub (n k m : Nat) : n / 2 ^ (k + m) = n / 2 ^ k / 2 ^ m := by
  rw [Nat.pow_add, Nat.div_div_eq_div_mul]

/-- Splitting off the next `m` of the remaining bits. -/
theorem next_bits (n k m : Nat) : n / 2 ^ (k + m) * 2 ^ m + n / 2 ^ k % 2 ^ m = n / 2 ^ k := by
  rw [div_pow_sub, Nat.mul_comm]
  exact Nat.div_add_mod _ _

theorem longToBytesLoop_zero (number : W64) (fuel : Nat) (result : Bytes) (cnt index : Nat) :
    longToBytesLoop number fuel result cnt index 0 = some result := by
  cases fuel <;> simp [longToBytesLoop]

/-- The loop of the 64-bit bit packer. `rest` bits remain; at a byte boundary the bits above `rest` were
already written, otherwise there are none. -/
theorem longLoop_rep (number : W64) (width fuel : Nat) (hlt : number.toNat < 2 ^ width) (hw : width ≤ 64) :
    ∀ (rest cnt index v : Nat) (result : Bytes), rest ≤ fuel → rest ≤ width → cnt < 8 →
    (width = 64 → cnt = 0 ∧ rest % 8 = 0) →
    (cnt = 0 ∨ number.toNat < 2 ^ rest) →
    BitRep result (8 * index + cnt) (v + number.toNat / 2 ^ rest) →
    ∃ result', longToBytesLoop number fuel result cnt index rest = some result'
      ∧ BitRep result' (8 * index + cnt + rest) (v * 2 ^ rest + number.toNat) := by
  induction fuel with
  | zero =>
    intro rest cnt index v result hf hr hcnt hal hc hrep
    have : rest = 0 := by omega
    subst this
    refine ⟨result, by simp [longToBytesLoop], ?_⟩
    simpa using hrep
  | succ fuel ih =>
    intro rest cnt index v result hf hr hcnt hal hc hrep
    by_cases h0 : rest = 0
    · subst h0
      refine ⟨result, by simp [longToBytesLoop], ?_⟩
      simpa using hrep
    obtain ⟨pre, old, hopen, hpre, hold, hbe⟩ := bitRep_open result cnt index _ hcnt hrep
    -- the number of bits of this step
    obtain ⟨m, hmdef⟩ : ∃ m, m = (if rest + cnt ≥ 8 then 8 - cnt else rest) := ⟨_, rfl⟩
    have hm : 0 < m := by rw [hmdef]; split <;> omega
    have hmr : m ≤ rest := by rw [hmdef]; split <;> omega
    have hcm : cnt + m ≤ 8 := by rw [hmdef]; split <;> omega
    have hbyte : byte (number.sshiftRight (rest - m)) = UInt8.ofNat (number.toNat / 2 ^ (rest - m)) := by
      apply byte_sshiftRight number _ width hlt _ (by omega)
      by_cases h64 : width = 64
      · right
        obtain ⟨h1, h2⟩ := hal h64
        have : m = 8 := by rw [hmdef, h1]; rw [if_pos (by omega)]
        omega
      · left; omega
    have hsplit : number.toNat / 2 ^ rest * 2 ^ m + number.toNat / 2 ^ (rest - m) % 2 ^ m
        = number.toNat / 2 ^ (rest - m) := by
      have := next_bits number.toNat (rest - m) m
      rwa [show rest - m + m = rest by omega] at this
    have hx : number.toNat / 2 ^ (rest - m) % 2 ^ (cnt + m) = number.toNat / 2 ^ (rest - m) % 2 ^ m := by
      rcases hc with hc | hc
      · rw [hc, Nat.zero_add]
      · have : number.toNat / 2 ^ (rest - m) < 2 ^ m := by
          apply Nat.div_lt_of_lt_mul
          rw [← Nat.pow_add, show rest - m + m = rest by omega]; exact hc
        rw [Nat.mod_eq_of_lt this, Nat.mod_eq_of_lt]
        exact Nat.lt_of_lt_of_le this (Nat.pow_le_pow_right (by omega) (by omega))
    have hpack := pack_step old _ cnt m (number.toNat / 2 ^ (rest - m) % 2 ^ m)
      (number.toNat / 2 ^ (rest - m)) (longMask cnt) hm hcm hold
      (longMask_and cnt hcnt _ (Nat.mod_lt _ (Nat.two_pow_pos _))) (Nat.mod_lt _ (Nat.two_pow_pos _)) hx
    have hstep := bitRep_step pre old _ cnt index m _ _ hm hcm hpre hbe hpack
    -- the value after the step
    have hval : (v + number.toNat / 2 ^ rest) * 2 ^ m + number.toNat / 2 ^ (rest - m) % 2 ^ m
        = v * 2 ^ m + number.toNat / 2 ^ (rest - m) := by
      rw [Nat.add_mul, Nat.add_assoc, hsplit]
    rw [hval] at hstep
    have hfin : ∀ z, v * 2 ^ m * 2 ^ (rest - m) + z = v * 2 ^ rest + z := by
      intro z
      rw [Nat.mul_assoc, ← Nat.pow_add, show m + (rest - m) = rest by omega]
    rw [longToBytesLoop, if_neg h0]
    simp only [← hmdef, hopen, hbyte, getElem?_append_single pre old index hpre,
      set_append_single pre old _ index hpre]
    by_cases h8 : cnt + m = 8
    · rw [if_pos h8]
      obtain ⟨r', hr', hrep'⟩ := ih (rest - m) 0 (index + 1) (v * 2 ^ m)
        _ (by omega) (by omega) (by omega)
        (by
          intro h64
          obtain ⟨h1, h2⟩ := hal h64
          omega)
        (Or.inl rfl)
        (by
          rw [show 8 * (index + 1) + 0 = 8 * index + cnt + m by omega]
          exact hstep)
      refine ⟨r', hr', ?_⟩
      rw [hfin] at hrep'
      rwa [show 8 * (index + 1) + 0 + (rest - m) = 8 * index + cnt + rest by omega] at hrep'
    · rw [if_neg h8]
      have hrm : rest - m = 0 := by
        by_cases hge : rest + cnt ≥ 8
        · rw [if_pos hge] at hmdef; omega
        · rw [if_neg hge] at hmdef; omega
      rw [hrm, longToBytesLoop_zero]
      refine ⟨_, rfl, ?_⟩
      rw [hrm] at hstep
      have hmr' : m = rest := by omega
      rw [hmr'] at hstep ⊢
      simpa using hstep


theorem intToBytesLoop_zero (number : W32) (fuel : Nat) (result : Bytes) (cnt index : Nat) :
    intToBytesLoop fuel number result cnt index 0 = some result := by
  cases fuel <;> simp [intToBytesLoop]

theorem and_not_mask (n : W32) (k : Nat) (hk : k ≤ 32) :
    (n &&& ~~~ ((BitVec.allOnes 32) <<< k)).toNat = n.toNat % 2 ^ k := by
  have : n &&& ~~~ ((BitVec.allOnes 32) <<< k) = BitVec.ofNat 32 (n.toNat % 2 ^ k) := by
    ext i hi
    have hr : (BitVec.ofNat 32 (n.toNat % 2 ^ k))[i] = (decide (i < k) && n.toNat.testBit i) := by
      rw [BitVec.getElem_eq_testBit_toNat, BitVec.toNat_ofNat, Nat.testBit_mod_two_pow,
        Nat.testBit_mod_two_pow]
      simp [hi]
    rw [hr]
    simp only [BitVec.getElem_and, BitVec.getElem_not, BitVec.getElem_shiftLeft, BitVec.getElem_allOnes]
    by_cases h : i < k
    · simp [h, BitVec.getElem_eq_testBit_toNat]
    · simp [h]
  rw [this, BitVec.toNat_ofNat]
  apply Nat.mod_eq_of_lt
  exact Nat.lt_of_lt_of_le (Nat.mod_lt _ (Nat.two_pow_pos _)) (Nat.pow_le_pow_right (by omega) hk)

/-- The loop of the 32-bit bit packer. -/
theorem intLoop_rep (fuel : Nat) :
    ∀ (number : W32) (rest cnt index v : Nat) (result : Bytes), rest ≤ fuel → cnt < 8 →
    (rest < 32 ∨ (rest = 32 ∧ cnt = 0)) → number.toNat < 2 ^ rest →
    BitRep result (8 * index + cnt) v →
    ∃ result', intToBytesLoop fuel number result cnt index rest = some result'
      ∧ BitRep result' (8 * index + cnt + rest) (v * 2 ^ rest + number.toNat) := by
  induction fuel with
  | zero =>
    intro number rest cnt index v result hf hcnt hal hlt hrep
    have : rest = 0 := by omega
    subst this
    refine ⟨result, by simp [intToBytesLoop], ?_⟩
    have : number.toNat = 0 := by simpa using hlt
    simpa [this] using hrep
  | succ fuel ih =>
    intro number rest cnt index v result hf hcnt hal hlt hrep
    by_cases h0 : rest = 0
    · subst h0
      refine ⟨result, by simp [intToBytesLoop], ?_⟩
      have : number.toNat = 0 := by simpa using hlt
      simpa [this] using hrep
    obtain ⟨pre, old, hopen, hpre, hold, hbe⟩ := bitRep_open result cnt index _ hcnt hrep
    obtain ⟨m, hmdef⟩ : ∃ m, m = (if rest + cnt ≥ 8 then 8 - cnt else rest) := ⟨_, rfl⟩
    have hm : 0 < m := by rw [hmdef]; split <;> omega
    have hmr : m ≤ rest := by rw [hmdef]; split <;> omega
    have hcm : cnt + m ≤ 8 := by rw [hmdef]; split <;> omega
    have hbyte : byte (number.sshiftRight (rest - m)) = UInt8.ofNat (number.toNat / 2 ^ (rest - m)) := by
      apply byte_sshiftRight number _ rest hlt _ (by omega)
      rcases hal with hal | ⟨h1, h2⟩
      · exact Or.inl hal
      · right
        have : m = 8 := by rw [hmdef, h2]; rw [if_pos (by omega)]
        omega
    have hclt : number.toNat / 2 ^ (rest - m) < 2 ^ m := by
      apply Nat.div_lt_of_lt_mul
      rw [← Nat.pow_add, show rest - m + m = rest by omega]; exact hlt
    have hpack := pack_step old _ cnt m (number.toNat / 2 ^ (rest - m))
      (number.toNat / 2 ^ (rest - m)) (intMask cnt (cnt + m)) hm hcm hold
      (intMask_and cnt hcnt m (by omega) hcm _ (Nat.mod_lt _ (Nat.two_pow_pos _))) hclt
      (Nat.mod_eq_of_lt (Nat.lt_of_lt_of_le hclt (Nat.pow_le_pow_right (by omega) (by omega))))
    have hstep := bitRep_step pre old _ cnt index m _ _ hm hcm hpre hbe hpack
    have hfin : (v * 2 ^ m + number.toNat / 2 ^ (rest - m)) * 2 ^ (rest - m)
        + number.toNat % 2 ^ (rest - m) = v * 2 ^ rest + number.toNat := by
      rw [Nat.add_mul, Nat.mul_assoc, ← Nat.pow_add, show m + (rest - m) = rest by omega, Nat.add_assoc]
      congr 1
      rw [Nat.mul_comm]
      exact Nat.div_add_mod _ _
    rw [intToBytesLoop, if_neg h0]
    simp only [← hmdef, hopen, hbyte, getElem?_append_single pre old index hpre,
      set_append_single pre old _ index hpre]
    by_cases h8 : cnt + m = 8
    · rw [if_pos h8]
      have hmask := and_not_mask number (rest - m) (by omega)
      obtain ⟨r', hr', hrep'⟩ := ih (number &&& ~~~ ((BitVec.allOnes 32) <<< (rest - m)))
        (rest - m) 0 (index + 1) _ _ (by omega) (by omega) (by omega)
        (by rw [hmask]; exact Nat.mod_lt _ (Nat.two_pow_pos _))
        (by
          rw [show 8 * (index + 1) + 0 = 8 * index + cnt + m by omega]
          exact hstep)
      refine ⟨r', hr', ?_⟩
      rw [hmask, hfin] at hrep'
      rwa [show 8 * (index + 1) + 0 + (rest - m) = 8 * index + cnt + rest by omega] at hrep'
    · rw [if_neg h8]
      have hrm : rest - m = 0 := by
        by_cases hge : rest + cnt ≥ 8
        · rw [if_pos hge] at hmdef; omega
        · rw [if_neg hge] at hmdef; omega
      rw [hrm, intToBytesLoop_zero]
      refine ⟨_, rfl, ?_⟩
      rw [hrm] at hstep
      have hmr' : m = rest := by omega
      rw [hmr'] at hstep ⊢
      simpa using hstep

/-- What the encoder needs from `to_bytes`: it appends `width` bits at bit position `pos`. -/
def PackOk (w : Nat) (tb : BitVec w → Bytes → Nat → Nat → Option Bytes) : Prop :=
  ∀ (number : BitVec w) (result : Bytes) (pos width v : Nat), number.toNat < 2 ^ width → width ≤ w →
    (width = w → pos % 8 = 0) → BitRep result pos v →
    ∃ result', tb number result pos width = some result'
      ∧ BitRep result' (pos + width) (v * 2 ^ width + number.toNat)

theorem packOk_long : PackOk 64 longToBytes := by
  intro number result pos width v hlt hw hal hrep
  have h := longLoop_rep number width width hlt hw width (pos % 8) (pos / 8) v result
    (Nat.le_refl _) (Nat.le_refl _) (Nat.mod_lt _ (by omega))
    (by intro h; exact ⟨hal h, by omega⟩) (Or.inr hlt)
    (by
      rw [Nat.div_add_mod, Nat.div_eq_of_lt hlt]
      exact hrep)
  rw [Nat.div_add_mod] at h
  exact h

theorem packOk_int : PackOk 32 intToBytes := by
  intro number result pos width v hlt hw hal hrep
  have h := intLoop_rep width number width (pos % 8) (pos / 8) v result
    (Nat.le_refl _) (Nat.mod_lt _ (by omega))
    (by
      by_cases h : width = 32
      · exact Or.inr ⟨h, hal h⟩
      · left; omega) hlt
    (by rw [Nat.div_add_mod]; exact hrep)
  rw [Nat.div_add_mod] at h
  exact h

/-! ## payload -/

/-- The concatenation of the bit fields as one number. -/
def fieldsNat (width : Nat) {w : Nat} (l : List (BitVec w)) (v : Nat) : Nat :=
  l.foldl (fun v x => v * 2 ^ width + x.toNat) v

theorem payload_rep {w : Nat} (tb : BitVec w → Bytes → Nat → Nat → Option Bytes) (hp : PackOk w tb)
    (width : Nat) (hw : width ≤ w) (h8 : w % 8 = 0) (l : List (BitVec w))
    (hl : ∀ x ∈ l, x.toNat < 2 ^ width) (i v : Nat) (buf : Bytes) (hrep : BitRep buf (i * width) v) :
    ∃ out, Ts2Diff.payload tb width i buf l = some out
      ∧ BitRep out ((i + l.length) * width) (fieldsNat width l v) := by
  induction l generalizing i v buf with
  | nil => exact ⟨buf, rfl, by simpa [fieldsNat] using hrep⟩
  | cons x l ih =>
    obtain ⟨buf', hb, hrep'⟩ := hp x buf (i * width) width v (hl x (by simp)) hw
      (by intro h; rw [h, Nat.mul_mod, h8]; simp) hrep
    rw [show i * width + width = (i + 1) * width by rw [Nat.add_mul]; omega] at hrep'
    obtain ⟨out, ho, hrep''⟩ := ih (fun y hy => hl y (by simp [hy])) (i + 1) _ buf' hrep'
    refine ⟨out, ?_, ?_⟩
    · rw [Ts2Diff.payload, hb]; exact ho
    · rw [show i + (x :: l).length = i + 1 + l.length by simp; omega]
      exact hrep''

theorem fieldsNat_eq (width : Nat) {w : Nat} (l : List (BitVec w)) (v : Nat) :
    fieldsNat width l v = v * 2 ^ (l.length * width) + fieldsNat width l 0 := by
  induction l generalizing v with
  | nil => simp [fieldsNat]
  | cons x l ih =>
    have h1 : fieldsNat width (x :: l) v = fieldsNat width l (v * 2 ^ width + x.toNat) := rfl
    have h2 : fieldsNat width (x :: l) 0 = fieldsNat width l (0 * 2 ^ width + x.toNat) := rfl
    rw [h1, h2, ih, ih (0 * 2 ^ width + x.toNat), List.length_cons, Nat.add_mul, Nat.zero_mul, Nat.zero_add,
      Nat.add_mul l.length, Nat.one_mul, Nat.pow_add, Nat.mul_assoc, Nat.mul_comm (2 ^ width), Nat.add_assoc]

theorem fieldsNat_lt (width : Nat) {w : Nat} (l : List (BitVec w)) (hl : ∀ x ∈ l, x.toNat < 2 ^ width) :
    fieldsNat width l 0 < 2 ^ (l.length * width) := by
  induction l with
  | nil => simp [fieldsNat]
  | cons x l ih =>
    have h2 : fieldsNat width (x :: l) 0 = fieldsNat width l (0 * 2 ^ width + x.toNat) := rfl
    rw [h2, fieldsNat_eq, Nat.zero_mul, Nat.zero_add]
    have := ih (fun y hy => hl y (by simp [hy]))
    have hx := hl x (by simp)
    rw [List.length_cons, Nat.add_mul, Nat.one_mul, Nat.pow_add, Nat.mul_comm (2 ^ (l.length * width))]
    calc x.toNat * 2 ^ (l.length * width) + fieldsNat width l 0
        < x.toNat * 2 ^ (l.length * width) + 2 ^ (l.length * width) := by omega
      _ = (x.toNat + 1) * 2 ^ (l.length * width) := by rw [Nat.add_mul, Nat.one_mul]
      _ ≤ 2 ^ width * 2 ^ (l.length * width) := Nat.mul_le_mul_right _ hx

/-- The `i`-th field is read back. -/
theorem fieldsNat_get (width : Nat) {w : Nat} (l : List (BitVec w)) (hl : ∀ x ∈ l, x.toNat < 2 ^ width)
    (i : Nat) (hi : i < l.length) :
    fieldsNat width l 0 / 2 ^ ((l.length - (i + 1)) * width) % 2 ^ width = l[i].toNat := by
  induction l generalizing i with
  | nil => simp at hi
  | cons x l ih =>
    have h2 : fieldsNat width (x :: l) 0 = fieldsNat width l (0 * 2 ^ width + x.toNat) := rfl
    have hl' : ∀ y ∈ l, y.toNat < 2 ^ width := fun y hy => hl y (by simp [hy])
    have hlt := fieldsNat_lt width l hl'
    rw [h2, fieldsNat_eq, Nat.zero_mul, Nat.zero_add]
    cases i with
    | zero =>
      rw [List.length_cons, Nat.add_sub_cancel, Nat.add_comm, Nat.add_mul_div_right _ _ (Nat.two_pow_pos _),
        Nat.div_eq_of_lt hlt, Nat.zero_add]
      exact Nat.mod_eq_of_lt (hl x (by simp))
    | succ i =>
      have hi' : i < l.length := by simpa using hi
      rw [List.length_cons, show l.length + 1 - (i + 1 + 1) = l.length - (i + 1) by omega]
      have e : l.length * width = (l.length - (i + 1)) * width + width + i * width := by
        rw [show (l.length - (i + 1)) * width + width = (l.length - (i + 1) + 1) * width by
          rw [Nat.add_mul, Nat.one_mul], ← Nat.add_mul]
        congr 1; omega
      rw [e, Nat.pow_add, Nat.pow_add, Nat.add_comm]
      rw [show x.toNat * (2 ^ ((l.length - (i + 1)) * width) * 2 ^ width * 2 ^ (i * width))
        = (2 ^ ((l.length - (i + 1)) * width)) * (2 ^ width * (x.toNat * 2 ^ (i * width))) by
          simp only [Nat.mul_comm, Nat.mul_left_comm, Nat.mul_assoc]]
      rw [Nat.add_mul_div_left _ _ (Nat.two_pow_pos _), Nat.add_mul_mod_self_left]
      simpa using ih hl' i hi'

/-- The bit fields of the specification are the packed numbers. -/
theorem bitField_rep {w : Nat} (width : Nat) (l : List (BitVec w)) (hl : ∀ x ∈ l, x.toNat < 2 ^ width)
    (out : Bytes) (h : BitRep out (l.length * width) (fieldsNat width l 0)) (i : Nat) (hi : i < l.length) :
    bitField out width i = l[i].toNat := by
  obtain ⟨hlen, hval⟩ := h
  have hle : (i + 1) * width ≤ l.length * width := Nat.mul_le_mul_right _ hi
  rw [bitField, hval]
  have e : 8 * out.length - (i + 1) * width
      = (8 * out.length - l.length * width) + (l.length - (i + 1)) * width := by
    rw [Nat.sub_mul]
    omega
  rw [e, Nat.pow_add, ← Nat.div_div_eq_div_mul, Nat.mul_div_cancel _ (Nat.two_pow_pos _)]
  exact fieldsNat_get width l hl i hi

theorem map_range_get {α β : Type} (l : List α) (f : Nat → β) (g : α → β)
    (h : ∀ i (hi : i < l.length), f i = g l[i]) : (List.range l.length).map f = l.map g := by
  apply List.ext_getElem
  · simp
  · intro i h1 h2
    simp at h1
    simp [h i h1]

/-! ## bit widths -/

theorem lt_valueWidth {w : Nat} (v : BitVec w) : v.toNat < 2 ^ Ts2Diff.valueWidth v := by
  unfold Ts2Diff.valueWidth
  split
  · next h => simp [h]
  · exact Nat.lt_log2_self

theorem valueWidth_le {w : Nat} (v : BitVec w) : Ts2Diff.valueWidth v ≤ w := by
  unfold Ts2Diff.valueWidth
  split
  · omega
  · next h => exact (Nat.log2_lt h).2 v.isLt

theorem foldl_max_le {w : Nat} (l : List (BitVec w)) (a b : Nat) (h : ∀ x ∈ l, Ts2Diff.valueWidth x ≤ b)
    (ha : a ≤ b) : l.foldl (fun width v => max width (Ts2Diff.valueWidth v)) a ≤ b := by
  induction l generalizing a with
  | nil => simpa
  | cons x l ih =>
    rw [List.foldl_cons]
    exact ih (max a (Ts2Diff.valueWidth x)) (fun y hy => h y (by simp [hy]))
      (Nat.max_le.2 ⟨ha, h x (by simp)⟩)

theorem le_foldl_max {w : Nat} (l : List (BitVec w)) (a : Nat) :
    a ≤ l.foldl (fun width v => max width (Ts2Diff.valueWidth v)) a
      ∧ ∀ x ∈ l, Ts2Diff.valueWidth x ≤ l.foldl (fun width v => max width (Ts2Diff.valueWidth v)) a := by
  induction l generalizing a with
  | nil => simp
  | cons x l ih =>
    rw [List.foldl_cons]
    obtain ⟨h1, h2⟩ := ih (max a (Ts2Diff.valueWidth x))
    refine ⟨by omega, fun y hy => ?_⟩
    rcases List.mem_cons.1 hy with rfl | hy
    · omega
    · exact h2 y hy

theorem blockWidth_le {w : Nat} (l : List (BitVec w)) : Ts2Diff.blockWidth l ≤ w :=
  foldl_max_le l 0 w (fun x _ => valueWidth_le x) (Nat.zero_le _)

theorem lt_blockWidth {w : Nat} (l : List (BitVec w)) (x : BitVec w) (hx : x ∈ l) :
    x.toNat < 2 ^ Ts2Diff.blockWidth l :=
  Nat.lt_of_lt_of_le (lt_valueWidth x) (Nat.pow_le_pow_right (by omega) ((le_foldl_max l 0).2 x hx))

/-! ## one block -/

/-- The deltas of a list of values, starting from `prev`. -/
def deltasOf {w : Nat} (prev : BitVec w) : List (BitVec w) → List (BitVec w)
  | [] => []
  | v :: vs => (v - prev) :: deltasOf v vs

theorem undelta_deltasOf {w : Nat} (prev : BitVec w) (vs : List (BitVec w)) :
    undelta prev (deltasOf prev vs) = vs := by
  induction vs generalizing prev with
  | nil => rfl
  | cons v vs ih =>
    have : prev + (v - prev) = v := by rw [BitVec.add_comm, BitVec.sub_add_cancel]
    simp only [deltasOf, undelta, this, ih]

theorem length_deltasOf {w : Nat} (prev : BitVec w) (vs : List (BitVec w)) :
    (deltasOf prev vs).length = vs.length := by
  induction vs generalizing prev with
  | nil => rfl
  | cons v vs ih => simp [deltasOf, ih]

theorem deltasOf_append {w : Nat} (prev : BitVec w) (vs : List (BitVec w)) (v : BitVec w) :
    deltasOf prev (vs ++ [v]) = deltasOf prev vs ++ [v - vs.getLastD prev] := by
  induction vs generalizing prev with
  | nil => rfl
  | cons x vs ih => rw [List.cons_append, deltasOf, ih]; simp [deltasOf]; cases vs <;> rfl

/-- A block as the encoder writes it is read back by the specification; moreover it is short. -/
theorem block_roundtrip {w : Nat} (tb : BitVec w → Bytes → Nat → Nat → Option Bytes) (hp : PackOk w tb)
    (h8 : w % 8 = 0) (hw : w ≤ 64) (first minDelta : BitVec w) (deltas : List (BitVec w))
    (hlen : deltas.length < 2 ^ 32) :
    ∃ p, Ts2Diff.payload tb (Ts2Diff.blockWidth (deltas.map (· - minDelta))) 0 []
        (deltas.map (· - minDelta)) = some p
      ∧ p.length ≤ 8 * deltas.length
      ∧ ∀ r, pTs2DiffBlock w (be32 (u32 deltas.length)
          ++ be32 (u32 (Ts2Diff.blockWidth (deltas.map (· - minDelta))))
          ++ beBytes (w / 8) minDelta.toNat ++ beBytes (w / 8) first.toNat ++ p ++ r)
        = some (first :: undelta first deltas, r) := by
  generalize hl : deltas.map (· - minDelta) = l
  have hlen' : l.length = deltas.length := by rw [← hl]; simp
  have hwd := blockWidth_le l
  have hlt := lt_blockWidth l
  obtain ⟨p, hpay, hrep⟩ := payload_rep tb hp (Ts2Diff.blockWidth l) hwd h8 l hlt 0 0 []
    ⟨by simp, by simp [beNat]⟩
  rw [Nat.zero_add] at hrep
  have hpl : p.length = (l.length * Ts2Diff.blockWidth l + 7) / 8 := hrep.1
  refine ⟨p, hpay, ?_, ?_⟩
  · rw [hpl, hlen']
    have : deltas.length * Ts2Diff.blockWidth l ≤ deltas.length * 64 := Nat.mul_le_mul_left _ (by omega)
    omega
  · intro r
    have hb1 : minDelta.toNat < 256 ^ (w / 8) := by
      rw [show (256 : Nat) = 2 ^ 8 by rfl, ← Nat.pow_mul, show 8 * (w / 8) = w by omega]
      exact minDelta.isLt
    have hb2 : first.toNat < 256 ^ (w / 8) := by
      rw [show (256 : Nat) = 2 ^ 8 by rfl, ← Nat.pow_mul, show 8 * (w / 8) = w by omega]
      exact first.isLt
    have hd : (List.range deltas.length).map
        (fun i => BitVec.ofNat w (bitField p (Ts2Diff.blockWidth l) i) + BitVec.ofNat w minDelta.toNat)
        = deltas := by
      rw [← hlen', map_range_get l _ (fun x => x + minDelta)]
      · rw [← hl, List.map_map]
        conv => rhs; rw [← List.map_id deltas]
        congr 1
        funext x
        simp [BitVec.sub_add_cancel]
      · intro i hi
        rw [bitField_rep _ l hlt p hrep i hi]
        simp
    simp only [pTs2DiffBlock, List.append_assoc, pBE_be32, pBE_beBytes _ _ hb1, pBE_beBytes _ _ hb2,
      Option.bind_eq_bind, Option.bind_some]
    rw [u32_toNat _ hlen, u32_toNat _ (by omega), pTake_append _ p r (by rw [hpl, hlen'])]
    simp only [Option.bind_some, hd]
    simp

/-! ## the encoder -/

/-- `minDelta` is the least difference of the open block. -/
structure MinRep {w : Nat} (e : Ts2Diff w) : Prop where
  init : e.values = [] → e.minDelta = BitVec.intMax w
  lower : ∀ d ∈ e.values, e.minDelta.toInt ≤ d.toInt
  attained : e.values ≠ [] → e.minDelta ∈ e.values

theorem minRep_nil {w : Nat} {e : Ts2Diff w} (hv : e.values = []) (hm : e.minDelta = BitVec.intMax w) : MinRep e :=
  ⟨fun _ => hm, by simp [hv], fun h => absurd hv h⟩

theorem toInt_le_intMax {w : Nat} (x : BitVec w) : x.toInt ≤ (BitVec.intMax w).toInt := by
  rw [BitVec.toInt_intMax]
  have := BitVec.toInt_lt (x := x)
  omega

theorem minRep_snoc {w : Nat} {e e' : Ts2Diff w} (h : MinRep e) (delta : BitVec w)
    (hm : e'.minDelta = if delta.slt e.minDelta then delta else e.minDelta) (hv : e'.values = e.values ++ [delta]) :
    MinRep e' := by
  refine ⟨by simp [hv], ?_, ?_⟩
  · intro d hd
    rw [hm]
    rw [hv] at hd
    have hle : (if delta.slt e.minDelta = true then delta else e.minDelta).toInt ≤ delta.toInt
        ∧ (if delta.slt e.minDelta = true then delta else e.minDelta).toInt ≤ e.minDelta.toInt := by
      split
      · next h => rw [BitVec.slt_iff_toInt_lt] at h; omega
      · next h => rw [BitVec.slt_iff_toInt_lt] at h; omega
    rcases List.mem_append.1 hd with hd | hd
    · have := h.lower d hd; omega
    · rw [List.mem_singleton.1 hd]; exact hle.1
  · intro _
    rw [hm, hv]
    split
    · simp
    · next hn =>
      rw [BitVec.slt_iff_toInt_lt] at hn
      by_cases hv : e.values = []
      · have hi := h.init hv
        have hle := toInt_le_intMax delta
        rw [← hi] at hle
        have : e.minDelta = delta := BitVec.eq_of_toInt_eq (by omega)
        rw [this]; simp
      · exact List.mem_append_left _ (h.attained hv)

end TsFile
