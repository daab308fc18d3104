import Verif.Spec.Format
/-! # Lemmas about bytes, variable length integers and strings -/

namespace TsFile
open Spec

/-! ## big-endian numbers -/

theorem beNat_append_single (b : Bytes) (x : UInt8) : beNat (b ++ [x]) = beNat b * 256 + x.toNat := by
  simp [beNat]

theorem beNat_nil : beNat [] = 0 := rfl

@[simp] theorem length_beBytes (n x : Nat) : (beBytes n x).length = n := by
  induction n generalizing x with
  | zero => rfl
  | succ n ih => simp [beBytes, ih]

theorem uint8_ofNat_toNat (x : Nat) : (UInt8.ofNat x).toNat = x % 256 := by
  simp

theorem beNat_beBytes (n x : Nat) : beNat (beBytes n x) = x % 256 ^ n := by
  induction n generalizing x with
  | zero => simp [beBytes, beNat, Nat.mod_one]
  | succ n ih =>
    rw [beBytes, beNat_append_single, ih, uint8_ofNat_toNat]
    rw [Nat.pow_succ, Nat.mul_comm (256 ^ n) 256, Nat.mod_mul]
    omega

@[simp] theorem length_be32 (x : W32) : (be32 x).length = 4 := length_beBytes _ _
@[simp] theorem length_be64 (x : W64) : (be64 x).length = 8 := length_beBytes _ _

theorem pTake_append (n : Nat) (a r : Bytes) (h : a.length = n) : pTake n (a ++ r) = some (a, r) := by
  subst h
  simp [pTake]

theorem pBE_beBytes (n x : Nat) (h : x < 256 ^ n) (r : Bytes) :
    pBE n (beBytes n x ++ r) = some (x, r) := by
  simp [pBE, pTake_append n (beBytes n x) r (length_beBytes n x), beNat_beBytes, Nat.mod_eq_of_lt h]

theorem pBE_be32 (x : W32) (r : Bytes) : pBE 4 (be32 x ++ r) = some (x.toNat, r) :=
  pBE_beBytes 4 _ x.isLt r

theorem pBE_be64 (x : W64) (r : Bytes) : pBE 8 (be64 x ++ r) = some (x.toNat, r) :=
  pBE_beBytes 8 _ x.isLt r

theorem u32_toNat (n : Nat) (h : n < 2 ^ 32) : (u32 n).toNat = n := by
  simp [u32, Nat.mod_eq_of_lt h]

/-! ## variable length integers -/

theorem and_7f (n : W32) : (n &&& 0x7F#32).toNat = n.toNat % 128 := by
  rw [BitVec.toNat_and]
  exact Nat.and_two_pow_sub_one_eq_mod n.toNat 7

theorem byte_and_7f (n : W32) : (byte (n &&& 0x7F#32)).toNat = n.toNat % 128 := by
  rw [byte, uint8_ofNat_toNat, and_7f]; omega

theorem byte_or_80 (n : W32) : (byte ((n &&& 0x7F#32) ||| 0x80#32)).toNat = n.toNat % 128 + 128 := by
  have h : ((n &&& 0x7F#32) ||| 0x80#32).toNat = n.toNat % 128 + 128 := by
    rw [BitVec.toNat_or, and_7f]
    have := Nat.two_pow_add_eq_or_of_lt (i := 7) (b := n.toNat % 128) (by omega) 1
    rw [Nat.or_comm]
    simpa [Nat.add_comm] using this.symm
  rw [byte, uint8_ofNat_toNat, h]; omega

theorem hi_zero_iff (n : W32) : (n &&& 0xFFFFFF80#32 = 0#32) ↔ n.toNat < 128 := by
  have key : n &&& 0xFFFFFF80#32 = (n >>> 7) <<< 7 := by
    ext i hi
    simp only [BitVec.getElem_and, BitVec.getElem_shiftLeft, BitVec.getElem_ushiftRight]
    have : (0xFFFFFF80#32)[i] = decide (7 ≤ i) := by
      have : ∀ i : Fin 32, (0xFFFFFF80#32)[i.1]'i.2 = decide (7 ≤ i.1) := by decide
      exact this ⟨i, hi⟩
    rw [this]
    by_cases h : 7 ≤ i
    · simp [h, show ¬ i < 7 by omega, show 7 + (i - 7) = i by omega, BitVec.getLsbD_eq_getElem hi]
    · simp [h, show i < 7 by omega]
  rw [key]
  constructor
  · intro h
    have h2 : ((n >>> 7) <<< 7).toNat = 0 := by rw [h]; rfl
    rw [BitVec.toNat_shiftLeft, BitVec.toNat_ushiftRight, Nat.shiftLeft_eq, Nat.shiftRight_eq_div_pow] at h2
    have := n.isLt
    rw [Nat.mod_eq_of_lt] at h2 <;> omega
  · intro h
    apply BitVec.eq_of_toNat_eq
    rw [BitVec.toNat_shiftLeft, BitVec.toNat_ushiftRight, Nat.shiftLeft_eq, Nat.shiftRight_eq_div_pow]
    rw [Nat.div_eq_of_lt (by simpa using h)]
    rfl

theorem shift7 (n : W32) : (n >>> 7).toNat = n.toNat / 128 := by
  rw [BitVec.toNat_ushiftRight, Nat.shiftRight_eq_div_pow]

/-- The loop writes the LEB128 representation whenever the fuel suffices. -/
theorem pVarU_loop (fuel : Nat) (n : W32) (h : n.toNat < 128 ^ (fuel + 1)) (r : Bytes) :
    pVarU (writeVarU32Loop fuel n ++ r) = some (n.toNat, r) := by
  induction fuel generalizing n with
  | zero =>
    have h : n.toNat < 128 := by simpa using h
    simp only [writeVarU32Loop, List.cons_append, List.nil_append, pVarU, byte_and_7f]
    rw [if_pos (by omega)]
    rw [Nat.mod_eq_of_lt h]
  | succ fuel ih =>
    rw [writeVarU32Loop]
    by_cases hs : n.toNat < 128
    · rw [if_neg (by simpa using (hi_zero_iff n).2 hs)]
      simp only [List.cons_append, List.nil_append, pVarU, byte_and_7f]
      rw [if_pos (by omega), Nat.mod_eq_of_lt hs]
    · rw [if_pos (by intro hc; exact hs ((hi_zero_iff n).1 hc))]
      simp only [List.cons_append, pVarU, byte_or_80]
      rw [if_neg (by omega)]
      rw [ih (n >>> 7) (by
        rw [shift7]
        rw [Nat.pow_succ] at h
        exact Nat.div_lt_of_lt_mul (by rw [Nat.mul_comm]; exact h))]
      simp only [shift7]
      congr 2
      omega

/-- Every `u32` is read back from its variable length form, whatever follows it. -/
theorem pVarU_writeVarU32 (n : W32) (r : Bytes) : pVarU (writeVarU32 n ++ r) = some (n.toNat, r) :=
  pVarU_loop 5 n (by have := n.isLt; omega) r

theorem pVarU_u32 (n : Nat) (h : n < 2 ^ 32) (r : Bytes) :
    pVarU (writeVarU32 (u32 n) ++ r) = some (n, r) := by
  rw [pVarU_writeVarU32, u32_toNat n h]

theorem length_loop_eq (fuel p : Nat) (n : W32) (h : n.toNat < 128 ^ (fuel + 1)) :
    sizeVarU32Loop fuel (p + 1) n = p + (writeVarU32Loop fuel n).length := by
  induction fuel generalizing n p with
  | zero => simp [sizeVarU32Loop, writeVarU32Loop]
  | succ fuel ih =>
    rw [writeVarU32Loop, sizeVarU32Loop]
    split
    · rw [ih (p + 1)]
      · simp; omega
      · rw [shift7]
        rw [Nat.pow_succ] at h
        exact Nat.div_lt_of_lt_mul (by rw [Nat.mul_comm]; exact h)
    · simp

/-- `size_var_u32` is the number of bytes `write_var_u32` writes. -/
theorem sizeVarU32_eq (n : W32) : sizeVarU32 n = (writeVarU32 n).length := by
  have := length_loop_eq 5 0 n (by have := n.isLt; omega)
  simpa [sizeVarU32, writeVarU32] using this

theorem sizeVarI32_eq (n : W32) : sizeVarI32 n = (writeVarI32 n).length := by
  rw [sizeVarI32, writeVarI32, sizeVarU32_eq]

theorem length_writeVarU32Loop_le (fuel : Nat) (n : W32) :
    (writeVarU32Loop fuel n).length ≤ fuel + 1 := by
  induction fuel generalizing n with
  | zero => simp [writeVarU32Loop]
  | succ fuel ih =>
    rw [writeVarU32Loop]
    split
    · simpa using ih (n >>> 7)
    · simp

theorem length_writeVarU32_le (n : W32) : (writeVarU32 n).length ≤ 6 := length_writeVarU32Loop_le 5 n

theorem length_writeVarU32_pos (n : W32) : 0 < (writeVarU32 n).length := by
  unfold writeVarU32 writeVarU32Loop
  split <;> simp

theorem zigzag_toNat (n : W32) :
    (zigzag n).toNat = if n.toInt < 0 then (-2 * n.toInt - 1).toNat else (2 * n.toInt).toNat := by
  have hlt := n.isLt
  rw [zigzag]
  by_cases h : 2 * n.toNat < 2 ^ 32
  · have hi : n.toInt = n.toNat := BitVec.toInt_eq_toNat_of_lt h
    have hs : n.slt 0#32 = false := by simp [BitVec.slt, hi]
    simp only [hs, hi]
    rw [if_neg (by simp), if_neg (by omega), BitVec.toNat_shiftLeft, Nat.shiftLeft_eq]
    omega
  · have hi : n.toInt = (n.toNat : Int) - 2 ^ 32 := by
      rw [BitVec.toInt_eq_toNat_cond]; simp [h]
    have hs : n.slt 0#32 = true := by simp [BitVec.slt, hi]; omega
    simp only [hs, hi]
    rw [if_pos (by simp), if_pos (by omega), BitVec.toNat_not, BitVec.toNat_shiftLeft, Nat.shiftLeft_eq]
    omega

theorem unzigzag_zigzag (n : W32) : unzigzag (zigzag n).toNat = n.toInt := by
  rw [zigzag_toNat]
  unfold unzigzag
  split <;> split <;> omega

/-- Every `i32` is read back from its variable length form. -/
theorem pVarI_writeVarI32 (n : W32) (r : Bytes) : pVarI (writeVarI32 n ++ r) = some (n.toInt, r) := by
  rw [pVarI, writeVarI32, pVarU_writeVarU32]
  simp [unzigzag_zigzag]

theorem u32_toInt (n : Nat) (h : n < 2 ^ 31) : (u32 n).toInt = n := by
  have h2 : (u32 n).toNat = n := u32_toNat n (by omega)
  rw [BitVec.toInt_eq_toNat_of_lt (by omega), h2]

/-- Every string shorter than 2^31 bytes is read back. -/
theorem pStr_writeStr (s : Bytes) (h : s.length < 2 ^ 31) (r : Bytes) :
    pStr (writeStr s ++ r) = some (s, r) := by
  rw [pStr, writeStr, List.append_assoc, pVarI_writeVarI32]
  simp only [u32_toInt s.length h]
  rw [if_neg (by omega)]
  exact pTake_append _ _ _ (by simp)

theorem pByte_cons (b : UInt8) (r : Bytes) : pByte (b :: r) = some (b, r) := rfl

/-! ## sequences -/

/-- A parser inverts an encoder on a class of values. -/
theorem pAllFuel_flatMap {α β : Type} (p : Parser β) (enc : α → Bytes) (f : α → β) (l : List α)
    (h : ∀ a ∈ l, ∀ r, p (enc a ++ r) = some (f a, r)) (hne : ∀ a ∈ l, enc a ≠ []) (fuel : Nat)
    (hf : l.length ≤ fuel) : pAllFuel p fuel (l.flatMap enc) = some (l.map f) := by
  induction l generalizing fuel with
  | nil => cases fuel <;> simp [pAllFuel]
  | cons a l ih =>
    obtain ⟨fuel, rfl⟩ : ∃ k, fuel = k + 1 := ⟨fuel - 1, by simp at hf; omega⟩
    rw [List.flatMap_cons]
    have hp := h a (by simp) (l.flatMap enc)
    obtain ⟨x, xs, hx⟩ := List.exists_cons_of_ne_nil (hne a (by simp))
    rw [hx, List.cons_append] at hp ⊢
    rw [pAllFuel, hp]
    simp only
    rw [ih (fun a ha => h a (by simp [ha])) (fun a ha => hne a (by simp [ha])) fuel (by simpa using hf)]
    rfl

theorem length_le_flatMap {α : Type} (enc : α → Bytes) (l : List α) (hne : ∀ a ∈ l, enc a ≠ []) :
    l.length ≤ (l.flatMap enc).length := by
  induction l with
  | nil => simp
  | cons a l ih =>
    rw [List.flatMap_cons, List.length_cons, List.length_append]
    have := ih (fun a ha => hne a (by simp [ha]))
    have := List.length_pos_iff.2 (hne a (by simp))
    omega

theorem pAll_flatMap {α β : Type} (p : Parser β) (enc : α → Bytes) (f : α → β) (l : List α)
    (h : ∀ a ∈ l, ∀ r, p (enc a ++ r) = some (f a, r)) (hne : ∀ a ∈ l, enc a ≠ []) :
    pAll p (l.flatMap enc) = some (l.map f) :=
  pAllFuel_flatMap p enc f l h hne _ (length_le_flatMap enc l hne)

end TsFile
