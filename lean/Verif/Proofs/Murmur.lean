import Verif.Model.Bloom
import Verif.Spec.Murmur
/-! # The crate's Murmur hash is the reference function -/

namespace TsFile.Murmur128
open Spec

theorem rotl64_eq (v : W64) (n : Nat) (h : n < 64) : rotl64 v n = v.rotateLeft n := by
  rw [BitVec.rotateLeft_eq_rotateLeftAux_of_lt h]; rfl

theorem at?_append (pre l : Bytes) (i : Nat) : at? (pre ++ l) (pre.length + i) = at? l i := by
  simp [at?, List.getElem?_append_right]

theorem toNat_or_shift (x : W64) (b : UInt8) (hx : x.toNat < 2 ^ 56) :
    ((x <<< 8) ||| BitVec.ofNat 64 b.toNat).toNat = x.toNat * 256 + b.toNat := by
  have hb : b.toNat < 256 := b.toNat_lt
  rw [BitVec.toNat_or, BitVec.toNat_shiftLeft, BitVec.toNat_ofNat, Nat.mod_eq_of_lt (by omega : b.toNat < 2 ^ 64),
    Nat.shiftLeft_eq, Nat.mod_eq_of_lt (by omega)]
  have := Nat.two_pow_add_eq_or_of_lt (i := 8) hb x.toNat
  rw [Nat.mul_comm] at this
  exact this.symm

theorem toNat_byteShift (b : UInt8) (k : Nat) (hk : k ≤ 7) :
    ((BitVec.ofNat 64 b.toNat &&& 0xff#64) <<< (8 * k)).toNat = b.toNat * 256 ^ k := by
  have hb : b.toNat < 256 := b.toNat_lt
  have h1 : (BitVec.ofNat 64 b.toNat &&& 0xff#64).toNat = b.toNat := by
    rw [BitVec.toNat_and, BitVec.toNat_ofNat, Nat.mod_eq_of_lt (by omega : b.toNat < 2 ^ 64)]
    have := Nat.and_two_pow_sub_one_eq_mod b.toNat 8
    simp at this ⊢; omega
  rw [BitVec.toNat_shiftLeft]
  show (BitVec.ofNat 64 b.toNat &&& 0xff#64).toNat <<< (8 * k) % 2 ^ 64 = _
  rw [h1, Nat.shiftLeft_eq]
  have h2 : 2 ^ (8 * k) = 256 ^ k := by rw [Nat.pow_mul]
  rw [h2]
  apply Nat.mod_eq_of_lt
  have : 256 ^ k ≤ 256 ^ 7 := Nat.pow_le_pow_right (by omega) hk
  have h3 : b.toNat * 256 ^ k ≤ 255 * 256 ^ 7 := Nat.mul_le_mul (by omega) this
  omega

theorem sum_mod (a0 a1 a2 a3 a4 a5 a6 a7 : Nat) (h0 : a0 < 2 ^ 8) (h1 : a1 < 2 ^ 8) (h2 : a2 < 2 ^ 8)
    (h3 : a3 < 2 ^ 8) (h4 : a4 < 2 ^ 8) (h5 : a5 < 2 ^ 8) (h6 : a6 < 2 ^ 8) (h7 : a7 < 2 ^ 8) :
    (a0 + a1 * 256 + a2 * 65536 + a3 * 16777216 + a4 * 4294967296 + a5 * 1099511627776
      + a6 * 281474976710656 + a7 * 72057594037927936) % 2 ^ 64
    = (((((((0 * 256 + a7) * 256 + a6) * 256 + a5) * 256 + a4) * 256 + a3) * 256 + a2) * 256 + a1) * 256 + a0 := by
  rw [Nat.mod_eq_of_lt (by omega)]
  omega

/-- A block of eight bytes is read least significant byte first. -/
theorem getBlock_eq (pre l post : Bytes) (index : Nat) (hpre : pre.length = index * 8) (hl : l.length = 8) :
    getBlock (pre ++ l ++ post) 0 index = some (Murmur3.le64 l) := by
  match l, hl with
  | [b0, b1, b2, b3, b4, b5, b6, b7], _ =>
    have key : ∀ i, i < 8 → at? (pre ++ [b0, b1, b2, b3, b4, b5, b6, b7] ++ post) (index * 8 + i)
        = at? [b0, b1, b2, b3, b4, b5, b6, b7] i := by
      intro i hi
      rw [List.append_assoc, ← hpre, at?_append]
      simp only [at?]
      rw [List.getElem?_append_left (by simpa using hi)]
    have k0 := key 0 (by omega)
    simp only [Nat.add_zero] at k0
    simp only [getBlock, Nat.zero_add, k0, key 1 (by omega), key 2 (by omega), key 3 (by omega), key 4 (by omega),
      key 5 (by omega), key 6 (by omega), key 7 (by omega)]
    simp only [at?, List.getElem?_cons_zero, List.getElem?_cons_succ, Option.map_some, Option.bind_eq_bind,
      Option.bind_some, Option.pure_def, Option.some.injEq]
    have t0 := toNat_byteShift b0 0 (by omega)
    have t1 := toNat_byteShift b1 1 (by omega)
    have t2 := toNat_byteShift b2 2 (by omega)
    have t3 := toNat_byteShift b3 3 (by omega)
    have t4 := toNat_byteShift b4 4 (by omega)
    have t5 := toNat_byteShift b5 5 (by omega)
    have t6 := toNat_byteShift b6 6 (by omega)
    have t7 := toNat_byteShift b7 7 (by omega)
    simp only [Nat.mul_zero, Nat.mul_one, Nat.reduceMul, BitVec.shiftLeft_zero, Nat.reducePow] at t0 t1 t2 t3 t4 t5 t6 t7
    have l0 := b0.toNat_lt
    have l1 := b1.toNat_lt
    have l2 := b2.toNat_lt
    have l3 := b3.toNat_lt
    have l4 := b4.toNat_lt
    have l5 := b5.toNat_lt
    have l6 := b6.toNat_lt
    have l7 := b7.toNat_lt
    apply BitVec.eq_of_toNat_eq
    have t0' : (BitVec.ofNat 64 b0.toNat &&& 0xff#64).toNat = b0.toNat := by simpa using t0
    simp only [BitVec.toNat_add, t0', t1, t2, t3, t4, t5, t6, t7, Nat.mod_add_mod]
    simp only [Murmur3.le64, List.foldr_cons, List.foldr_nil]
    have z : (0 : BitVec 64).toNat = 0 := rfl
    have s7 := toNat_or_shift 0 b7 (by omega)
    have s6 := toNat_or_shift _ b6 (by rw [s7]; omega)
    have s5 := toNat_or_shift _ b5 (by rw [s6, s7]; omega)
    have s4 := toNat_or_shift _ b4 (by rw [s5, s6, s7]; omega)
    have s3 := toNat_or_shift _ b3 (by rw [s4, s5, s6, s7]; omega)
    have s2 := toNat_or_shift _ b2 (by rw [s3, s4, s5, s6, s7]; omega)
    have s1 := toNat_or_shift _ b1 (by rw [s2, s3, s4, s5, s6, s7]; omega)
    have s0 := toNat_or_shift _ b0 (by rw [s1, s2, s3, s4, s5, s6, s7]; omega)
    rw [s0, s1, s2, s3, s4, s5, s6, s7, z]
    exact sum_mod _ _ _ _ _ _ _ _ l0 l1 l2 l3 l4 l5 l6 l7

/-- The body loop consumes the key in blocks. -/
theorem body_eq (n : Nat) : ∀ (i : Nat) (pre rest : Bytes) (h : W64 × W64), pre.length = i * 16 →
    rest.length / 16 = n →
    ∃ h', body (pre ++ rest) n i h.1 h.2 = some h' ∧
      Murmur3.blocks h rest = (h', rest.drop (16 * n)) := by
  induction n with
  | zero =>
    intro i pre rest h _ hn
    refine ⟨h, rfl, ?_⟩
    rw [Murmur3.blocks, dif_neg (by omega)]
    simp
  | succ n ih =>
    intro i pre rest h hpre hn
    have h16 : 16 ≤ rest.length := by omega
    have e1 : pre ++ rest = pre ++ rest.take 8 ++ rest.drop 8 := by simp
    have e2 : pre ++ rest = (pre ++ rest.take 8) ++ (rest.drop 8).take 8 ++ rest.drop 16 := by
      have : rest = rest.take 8 ++ ((rest.drop 8).take 8 ++ (rest.drop 8).drop 8) := by
        rw [List.take_append_drop, List.take_append_drop]
      calc pre ++ rest = pre ++ (rest.take 8 ++ ((rest.drop 8).take 8 ++ (rest.drop 8).drop 8)) := by rw [← this]
        _ = _ := by simp only [List.drop_drop, List.append_assoc]
    have b1 : getBlock (pre ++ rest) 0 (i * 2) = some (Murmur3.le64 (rest.take 8)) := by
      rw [e1]; exact getBlock_eq _ _ _ _ (by omega) (by simp; omega)
    have b2 : getBlock (pre ++ rest) 0 (i * 2 + 1) = some (Murmur3.le64 ((rest.drop 8).take 8)) := by
      rw [e2]; exact getBlock_eq _ _ _ _ (by simp; omega) (by simp; omega)
    obtain ⟨h', i1, i2⟩ := ih (i + 1) (pre ++ rest.take 16) (rest.drop 16) (Murmur3.block h (rest.take 16))
      (by simp; omega) (by simp; omega)
    refine ⟨h', ?_, ?_⟩
    · rw [body]
      simp only [b1, b2, Option.bind_eq_bind, Option.bind_some]
      rw [List.append_assoc, List.take_append_drop] at i1
      rw [← i1]
      have t1 : (rest.take 16).take 8 = rest.take 8 := by simp [List.take_take]
      have t2 : ((rest.take 16).drop 8).take 8 = (rest.drop 8).take 8 := by
        simp [List.drop_take, List.take_take]
      simp only [Murmur3.block, Murmur3.mixK1, Murmur3.mixK2, t1, t2]
      simp only [rotl64_eq _ 31 (by omega), rotl64_eq _ 27 (by omega), rotl64_eq _ 33 (by omega)]
      rfl
    · rw [Murmur3.blocks, dif_pos h16, i2, List.drop_drop]
      congr 2
      omega

theorem xor_step (x : W64) (b : UInt8) (j : Nat) :
    (x <<< (8 * (j + 1))) ^^^ (BitVec.ofNat 64 b.toNat <<< (8 * j))
      = ((x <<< 8) ||| BitVec.ofNat 64 b.toNat) <<< (8 * j) := by
  have hb : b.toNat < 2 ^ 8 := b.toNat_lt
  apply BitVec.eq_of_getLsbD_eq
  intro i hi
  simp only [BitVec.getLsbD_xor, BitVec.getLsbD_shiftLeft, BitVec.getLsbD_or, BitVec.getLsbD_ofNat]
  rcases Nat.lt_or_ge i (8 * j) with h1 | h1
  · simp [h1, show i < 8 * (j + 1) by omega]
  · rcases Nat.lt_or_ge i (8 * (j + 1)) with h2 | h2
    · simp [Nat.not_lt.2 h1, h2, hi, show i - 8 * j < 8 by omega]
    · have : b.toNat.testBit (i - 8 * j) = false :=
        Nat.testBit_lt_two_pow (Nat.lt_of_lt_of_le hb (Nat.pow_le_pow_right (by omega) (by omega)))
      simp [Nat.not_lt.2 h1, Nat.not_lt.2 h2, hi, this, show ¬ (i - 8 * j < 8) by omega,
        show i - 8 * j < 64 by omega, show i - 8 * j - 8 = i - 8 * (j + 1) by omega]

/-- Little endian word with `x` above the given bytes. -/
def leOn (bs : Bytes) (x : W64) : W64 :=
  bs.foldr (fun b acc => (acc <<< 8) ||| BitVec.ofNat 64 b.toNat) x

theorem leOn_snoc (bs : Bytes) (b : UInt8) (x : W64) :
    leOn (bs ++ [b]) x = leOn bs ((x <<< 8) ||| BitVec.ofNat 64 b.toNat) := by
  simp [leOn, List.foldr_append]

theorem take_succ_snoc (l : Bytes) (n : Nat) (b : UInt8) (h : l[n]? = some b) :
    l.take (n + 1) = l.take n ++ [b] := by
  rw [List.take_add_one, h]; rfl

/-- The tail loop below eight bytes. -/
theorem tail_low (pre t : Bytes) (n : Nat) (hn : n < 8) : ∀ (s : Tail) (x : W64), n < t.length →
    s.k1 = x <<< (8 * (n + 1)) →
    ∃ s', tail (pre ++ t) pre.length (n + 1) s = some s'
      ∧ s'.h1 = s.h1 ^^^ Murmur3.mixK1 (leOn (t.take (n + 1)) x) ∧ s'.h2 = s.h2 := by
  induction n with
  | zero =>
    intro s x ht hk
    obtain ⟨b, hb⟩ : ∃ b, t[0]? = some b := ⟨t[0], by simp [List.getElem?_eq_getElem ht]⟩
    have ha : at? (pre ++ t) (pre.length + (0 + 1 - 1)) = some (BitVec.ofNat 64 b.toNat) := by
      rw [at?_append]; simp [at?, hb]
    have hx := xor_step x b 0
    simp only [Nat.mul_zero, BitVec.shiftLeft_zero] at hx
    refine ⟨⟨rotl64 ((s.k1 ^^^ BitVec.ofNat 64 b.toNat) * c1) 31 * c2, s.k2,
      s.h1 ^^^ rotl64 ((s.k1 ^^^ BitVec.ofNat 64 b.toNat) * c1) 31 * c2, s.h2⟩,
      by simp only [tail, tailStep, ha, Option.bind_eq_bind, Option.bind_some, Option.pure_def], ?_, rfl⟩
    rw [take_succ_snoc t 0 b hb]
    simp only [Murmur3.mixK1, leOn_snoc, hk, hx, rotl64_eq _ 31 (by omega), List.take_zero]
    rfl
  | succ n ih =>
    intro s x ht hk
    obtain ⟨b, hb⟩ : ∃ b, t[n + 1]? = some b := ⟨t[n + 1], by simp [List.getElem?_eq_getElem ht]⟩
    have ha : at? (pre ++ t) (pre.length + (n + 1 + 1 - 1)) = some (BitVec.ofNat 64 b.toNat) := by
      rw [at?_append]; simp [at?, hb]
    have hstep : tailStep (pre ++ t) pre.length (n + 1 + 1) s
        = some { s with k1 := s.k1 ^^^ (BitVec.ofNat 64 b.toNat <<< (8 * (n + 1))) } := by
      unfold tailStep
      rw [ha]
      have : n = 0 ∨ n = 1 ∨ n = 2 ∨ n = 3 ∨ n = 4 ∨ n = 5 ∨ n = 6 := by omega
      rcases this with rfl | rfl | rfl | rfl | rfl | rfl | rfl <;> rfl
    obtain ⟨s', i1, i2, i3⟩ := ih (by omega)
      { s with k1 := s.k1 ^^^ (BitVec.ofNat 64 b.toNat <<< (8 * (n + 1))) }
      ((x <<< 8) ||| BitVec.ofNat 64 b.toNat) (by omega) (by
        show s.k1 ^^^ _ = _
        rw [hk, xor_step])
    refine ⟨s', ?_, ?_, i3⟩
    · rw [tail]
      simp only [hstep, Option.bind_eq_bind, Option.bind_some]
      exact i1
    · rw [i2, take_succ_snoc t (n + 1) b hb, leOn_snoc]

/-- The tail loop above eight bytes. -/
theorem tail_high (pre t : Bytes) (n : Nat) (hn : n < 7) : ∀ (s : Tail) (x : W64), n + 8 < t.length →
    s.k2 = x <<< (8 * (n + 1)) → s.k1 = 0 →
    ∃ s', tail (pre ++ t) pre.length (n + 8 + 1) s = some s'
      ∧ s'.h1 = s.h1 ^^^ Murmur3.mixK1 (Murmur3.le64 (t.take 8))
      ∧ s'.h2 = s.h2 ^^^ Murmur3.mixK2 (leOn ((t.drop 8).take (n + 1)) x) := by
  induction n with
  | zero =>
    intro s x ht hk hk1
    obtain ⟨b, hb⟩ : ∃ b, t[8]? = some b := ⟨t[8], by simp⟩
    have ha : at? (pre ++ t) (pre.length + (0 + 8 + 1 - 1)) = some (BitVec.ofNat 64 b.toNat) := by
      rw [at?_append]; simp [at?, hb]
    have hx := xor_step x b 0
    simp only [Nat.mul_zero, BitVec.shiftLeft_zero] at hx
    let k2 := rotl64 ((s.k2 ^^^ BitVec.ofNat 64 b.toNat) * c2) 33 * c1
    have hstep : tailStep (pre ++ t) pre.length (0 + 8 + 1) s = some { s with k2 := k2, h2 := s.h2 ^^^ k2 } := by
      unfold tailStep
      rw [ha]
      rfl
    obtain ⟨s', i1, i2, i3⟩ := tail_low pre t 7 (by omega) { s with k2 := k2, h2 := s.h2 ^^^ k2 } 0 (by omega)
      (by show s.k1 = _; rw [hk1]; rfl)
    refine ⟨s', ?_, i2, ?_⟩
    · rw [tail]
      simp only [hstep, Option.bind_eq_bind, Option.bind_some]
      exact i1
    · rw [i3, take_succ_snoc (t.drop 8) 0 b (by simpa using hb)]
      show s.h2 ^^^ k2 = _
      simp only [k2, Murmur3.mixK2, leOn_snoc, hk, hx, rotl64_eq _ 33 (by omega), List.take_zero]
      rfl
  | succ n ih =>
    intro s x ht hk hk1
    obtain ⟨b, hb⟩ : ∃ b, t[n + 1 + 8]? = some b := ⟨t[n + 1 + 8], by simp⟩
    have ha : at? (pre ++ t) (pre.length + (n + 1 + 8 + 1 - 1)) = some (BitVec.ofNat 64 b.toNat) := by
      rw [at?_append]; simp [at?, hb]
    have hstep : tailStep (pre ++ t) pre.length (n + 1 + 8 + 1) s
        = some { s with k2 := s.k2 ^^^ (BitVec.ofNat 64 b.toNat <<< (8 * (n + 1))) } := by
      unfold tailStep
      rw [ha]
      have : n = 0 ∨ n = 1 ∨ n = 2 ∨ n = 3 ∨ n = 4 ∨ n = 5 := by omega
      rcases this with rfl | rfl | rfl | rfl | rfl | rfl <;> rfl
    obtain ⟨s', i1, i2, i3⟩ := ih (by omega)
      { s with k2 := s.k2 ^^^ (BitVec.ofNat 64 b.toNat <<< (8 * (n + 1))) }
      ((x <<< 8) ||| BitVec.ofNat 64 b.toNat) (by omega) (by
        show s.k2 ^^^ _ = _
        rw [hk, xor_step]) hk1
    refine ⟨s', ?_, i2, ?_⟩
    · rw [tail]
      simp only [hstep, Option.bind_eq_bind, Option.bind_some]
      have : n + 1 + 8 = n + 8 + 1 := by omega
      rw [this]
      exact i1
    · rw [i3, take_succ_snoc (t.drop 8) (n + 1) b (by rw [List.getElem?_drop, ← hb]; congr 1; omega), leOn_snoc]

theorem tail_eq (pre t : Bytes) (h1 h2 : W64) (ht : t.length < 16) :
    ∃ s', tail (pre ++ t) pre.length t.length ⟨0, 0, h1, h2⟩ = some s'
      ∧ s'.h1 = h1 ^^^ Murmur3.mixK1 (Murmur3.le64 (t.take 8))
      ∧ s'.h2 = h2 ^^^ Murmur3.mixK2 (Murmur3.le64 (t.drop 8)) := by
  have m1 : Murmur3.mixK1 0 = 0 := by decide
  have m2 : Murmur3.mixK2 0 = 0 := by decide
  rcases Nat.lt_or_ge 8 t.length with h | h
  · obtain ⟨n, hn⟩ : ∃ n, t.length = n + 8 + 1 := ⟨t.length - 9, by omega⟩
    obtain ⟨s', i1, i2, i3⟩ := tail_high pre t n (by omega) ⟨0, 0, h1, h2⟩ 0 (by omega) (by simp) rfl
    refine ⟨s', by rw [hn]; exact i1, i2, ?_⟩
    rw [i3, List.take_of_length_le (by simp; omega)]
    rfl
  · have hd : t.drop 8 = [] := List.drop_eq_nil_of_le h
    have hle : Murmur3.le64 [] = 0 := rfl
    cases hn : t.length with
    | zero =>
      have : t = [] := List.eq_nil_of_length_eq_zero hn
      subst this
      refine ⟨_, rfl, ?_, ?_⟩
      · show h1 = h1 ^^^ Murmur3.mixK1 (Murmur3.le64 [])
        rw [hle, m1]; exact (BitVec.xor_zero).symm
      · show h2 = h2 ^^^ Murmur3.mixK2 (Murmur3.le64 [])
        rw [hle, m2]; exact (BitVec.xor_zero).symm
    | succ n =>
      obtain ⟨s', i1, i2, i3⟩ := tail_low pre t n (by omega) ⟨0, 0, h1, h2⟩ 0 (by omega) (by simp)
      refine ⟨s', i1, ?_, ?_⟩
      · rw [i2, ← hn, List.take_of_length_le (Nat.le_refl _), List.take_of_length_le h]
        rfl
      · rw [i3, hd, hle, m2]; simp

theorem innerHash_eq (key : Bytes) (seed : W64) :
    innerHash key seed = some ((Murmur3.hash128 key seed).1 + (Murmur3.hash128 key seed).2) := by
  obtain ⟨⟨h1, h2⟩, hb, hbl⟩ := body_eq (key.length / 16) 0 [] key (seed, seed) rfl rfl
  have hsplit : key = key.take (16 * (key.length / 16)) ++ key.drop (16 * (key.length / 16)) := by simp
  have hlen : (key.take (16 * (key.length / 16))).length = key.length / 16 * 16 := by
    simp; omega
  have hlen2 : (key.drop (16 * (key.length / 16))).length = key.length % 16 := by simp; omega
  obtain ⟨s', t1, t2, t3⟩ := tail_eq (key.take (16 * (key.length / 16))) (key.drop (16 * (key.length / 16))) h1 h2
    (by omega)
  rw [← hsplit, hlen, hlen2] at t1
  simp only [List.nil_append] at hb
  simp only [innerHash, hb, t1, Option.bind_eq_bind, Option.bind_some, Option.pure_def, t2, t3,
    Murmur3.hash128, hbl]
  rfl

end TsFile.Murmur128
