import Verif.Proofs.Page
/-! # Primitive encodings: C07–C12, C38 -/

namespace TsFile
open Spec

/-! ## Variable length integers -/

theorem length_loop_le (k : Nat) : ∀ (fuel : Nat) (n : W32), n.toNat < 128 ^ (k + 1) →
    (writeVarU32Loop fuel n).length ≤ k + 1 := by
  induction k with
  | zero =>
    intro fuel n h
    have : n &&& 0xFFFFFF80#32 = 0#32 := (hi_zero_iff n).2 (by simpa using h)
    cases fuel <;> simp [writeVarU32Loop, this]
  | succ k ih =>
    intro fuel n h
    cases fuel with
    | zero => simp [writeVarU32Loop]
    | succ fuel =>
      rw [writeVarU32Loop]
      split
      · have := ih fuel (n >>> 7) (by rw [shift7]; rw [Nat.pow_succ] at h; omega)
        simpa using this
      · simp

/-- **C07.** A standard LEB128 reader recovers every `u32`, whatever follows; 1 to 5 bytes are written. -/
theorem C07_varint_round_trip (n : W32) (rest : Bytes) :
    pVarU (writeVarU32 n ++ rest) = some (n.toNat, rest)
    ∧ 1 ≤ (writeVarU32 n).length ∧ (writeVarU32 n).length ≤ 5 :=
  ⟨pVarU_writeVarU32 n rest, length_writeVarU32_pos n,
    length_loop_le 4 5 n (by have := n.isLt; omega)⟩

example : writeVarU32 300 = [0xAC, 0x02] ∧ (writeVarU32 0xFFFFFFFF).length = 5 := by decide

/-- **C07**, the crate's own reader: it is wrong, because it takes the byte `0xFF` for the last one. -/
theorem C07_own_reader_wrong :
    ¬ ∀ (n : W32) (rest : Bytes), readVarU32 (writeVarU32 n ++ rest) = some (n, rest) := by
  intro h
  have := h 16383 []
  exact absurd this (by decide)

theorem or_shift (n : W32) (i : Nat) :
    (BitVec.ofNat 32 (n.toNat % 128) <<< i) ||| (n >>> 7 <<< (i + 7)) = n <<< i := by
  apply BitVec.eq_of_getLsbD_eq
  intro j hj
  have hm : n.toNat % 128 = n.toNat % 2 ^ 7 := rfl
  simp only [BitVec.getLsbD_or, BitVec.getLsbD_shiftLeft, BitVec.getLsbD_ushiftRight, BitVec.getLsbD_ofNat,
    hm, Nat.testBit_mod_two_pow]
  rcases Nat.lt_or_ge j i with h1 | h1
  · simp [h1, show j < i + 7 by omega]
  · rcases Nat.lt_or_ge j (i + 7) with h2 | h2
    · simp [Nat.not_lt.2 h1, h2, hj, show j - i < 7 by omega, show j - i < 32 by omega, BitVec.getLsbD]
    · simp [Nat.not_lt.2 h1, Nat.not_lt.2 h2, hj, show ¬ (j - i < 7) by omega,
        show 7 + (j - (i + 7)) = j - i by omega]

theorem readVarU32Loop_write (fuel : Nat) (rest : Bytes) : ∀ (n value : W32) (i : Nat),
    n.toNat < 128 ^ (fuel + 1) → n.toNat * 2 ^ i < 2 ^ 32 → i < 32 →
    ((0xFF ∉ writeVarU32Loop fuel n →
      readVarU32Loop value i (writeVarU32Loop fuel n ++ rest) = some (value ||| (n <<< i), rest))
    ∧ (0xFF ∈ writeVarU32Loop fuel n →
      ∃ v r, readVarU32Loop value i (writeVarU32Loop fuel n ++ rest) = some (v, r) ∧ rest.length < r.length)) := by
  -- the last byte
  have hlast : ∀ (n value : W32) (i : Nat), n.toNat < 128 → i < 32 →
      (0xFF : UInt8) ∉ [byte (n &&& 0x7F#32)]
      ∧ readVarU32Loop value i ([byte (n &&& 0x7F#32)] ++ rest) = some (value ||| (n <<< i), rest) := by
    intro n value i hn hi
    have hb : (byte (n &&& 0x7F#32)).toNat = n.toNat := by rw [byte_and_7f]; omega
    have hne : byte (n &&& 0x7F#32) ≠ 0xFF := by
      intro h
      rw [h] at hb
      have : (0xFF : UInt8).toNat = 255 := rfl
      omega
    have h80 : byte (n &&& 0x7F#32) &&& 0x80 = 0 := by
      apply UInt8.toNat.inj
      rw [UInt8.toNat_and, hb]
      have := Nat.and_two_pow_sub_one_eq_mod n.toNat 7
      have h2 : n.toNat = n.toNat &&& 127 := by
        have := Nat.and_two_pow_sub_one_eq_mod n.toNat 7
        simp at this; omega
      rw [h2, Nat.and_assoc]
      simp
    refine ⟨by simpa using fun h => hne h.symm, ?_⟩
    simp only [List.cons_append, List.nil_append, readVarU32Loop]
    rw [if_neg (by simp [h80]), Nat.mod_eq_of_lt hi, hb]
    simp
  induction fuel with
  | zero =>
    intro n value i hn _ hi
    obtain ⟨h1, h2⟩ := hlast n value i (by simpa using hn) hi
    exact ⟨fun _ => h2, fun h => absurd h h1⟩
  | succ fuel ih =>
    intro n value i hn hsh hi
    rw [writeVarU32Loop]
    by_cases hz : n &&& 0xFFFFFF80#32 = 0#32
    · rw [if_neg (by simpa using hz)]
      obtain ⟨h1, h2⟩ := hlast n value i ((hi_zero_iff n).1 hz) hi
      exact ⟨fun _ => h2, fun h => absurd h h1⟩
    · rw [if_pos hz]
      have hge : 128 ≤ n.toNat := by
        have := (not_congr (hi_zero_iff n)).1 hz
        omega
      have hb : (byte ((n &&& 0x7F#32) ||| 0x80#32)).toNat = n.toNat % 128 + 128 := byte_or_80 n
      have hi7 : i + 7 < 32 := by
        by_contra hc
        have : 2 ^ 25 ≤ 2 ^ i := Nat.pow_le_pow_right (by omega) (by omega)
        have := Nat.mul_le_mul hge this
        omega
      have h80 : byte ((n &&& 0x7F#32) ||| 0x80#32) &&& 0x80 ≠ 0 := by
        intro h
        have := congrArg UInt8.toNat h
        rw [UInt8.toNat_and, hb] at this
        have h3 : (n.toNat % 128 + 128).testBit 7 = true := by
          rw [Nat.testBit_eq_decide_div_mod_eq]
          have : (n.toNat % 128 + 128) / 2 ^ 7 = 1 := by omega
          rw [this]; rfl
        have h4 := congrArg (fun x => x.testBit 7) this
        simp only [Nat.testBit_and, h3] at h4
        revert h4; decide
      obtain ⟨i1, i2⟩ := ih (n >>> 7)
        (value ||| (BitVec.ofNat 32 (byte ((n &&& 0x7F#32) ||| 0x80#32) &&& 0x7F).toNat <<< (i % 32))) (i + 7)
        (by rw [shift7]; rw [Nat.pow_succ] at hn; omega)
        (by
          rw [shift7, Nat.pow_add]
          have : n.toNat / 128 * 128 ≤ n.toNat := Nat.div_mul_le_self _ _
          have h2 : n.toNat / 128 * (2 ^ i * 2 ^ 7) = n.toNat / 128 * 128 * 2 ^ i := by
            rw [Nat.mul_comm (2 ^ i), ← Nat.mul_assoc]
          rw [h2]
          exact Nat.lt_of_le_of_lt (Nat.mul_le_mul_right _ this) hsh) hi7
      have hmask : (byte ((n &&& 0x7F#32) ||| 0x80#32) &&& 0x7F).toNat = n.toNat % 128 := by
        rw [UInt8.toNat_and, hb]
        have := Nat.and_two_pow_sub_one_eq_mod (n.toNat % 128 + 128) 7
        simp at this
        simp; omega
      constructor
      · intro hff
        simp only [List.mem_cons, not_or] at hff
        simp only [List.cons_append, readVarU32Loop]
        rw [if_pos ⟨fun h => hff.1 h.symm, h80⟩, i1 hff.2, hmask, Nat.mod_eq_of_lt hi]
        congr 2
        rw [BitVec.or_assoc]
        congr 1
        exact or_shift n i
      · intro hff
        simp only [List.cons_append, readVarU32Loop]
        by_cases hb255 : byte ((n &&& 0x7F#32) ||| 0x80#32) = 0xFF
        · rw [if_neg (by simp [hb255])]
          refine ⟨_, _, rfl, ?_⟩
          rw [List.length_append]
          have : 0 < (writeVarU32Loop fuel (n >>> 7)).length := by
            cases fuel <;> simp only [writeVarU32Loop]
            · simp
            · split <;> simp
          omega
        · rw [if_pos ⟨hb255, h80⟩]
          exact i2 ((List.mem_cons.1 hff).resolve_left (fun h => hb255 h.symm))

/-- **C07**, the crate's own reader: it recovers the number exactly when no byte `0xFF` is among those
written. -/
theorem C07_own_reader_partial (n : W32) (rest : Bytes) :
    readVarU32 (writeVarU32 n ++ rest) = some (n, rest) ↔ 0xFF ∉ writeVarU32 n := by
  obtain ⟨h1, h2⟩ := readVarU32Loop_write 5 rest n 0#32 0 (by have := n.isLt; omega)
    (by have := n.isLt; simpa using this) (by omega)
  constructor
  · intro h hff
    obtain ⟨v, r, hr, hl⟩ := h2 hff
    rw [readVarU32, writeVarU32] at h
    rw [hr] at h
    simp only [Option.some.injEq, Prod.mk.injEq] at h
    rw [h.2] at hl
    omega
  · intro h
    have := h1 h
    simpa [readVarU32, writeVarU32] using this

example : (0xFF : UInt8) ∉ writeVarU32 123456 := by decide

/-- **C08.** The size functions return the number of bytes that the writers write. -/
theorem C08_varint_sizes (n : W32) :
    sizeVarU32 n = (writeVarU32 n).length ∧ sizeVarI32 n = (writeVarI32 n).length :=
  ⟨sizeVarU32_eq n, sizeVarI32_eq n⟩

example : sizeVarU32 300 = 2 ∧ sizeVarI32 (-65) = 2 := by decide

/-- **C09.** Every `i32` and every string is recovered, whatever follows. -/
theorem C09_signed_and_strings (rest : Bytes) :
    (∀ n : W32, pVarI (writeVarI32 n ++ rest) = some (n.toInt, rest))
    ∧ ∀ s : Bytes, s.length < 2 ^ 31 → pStr (writeStr s ++ rest) = some (s, rest) :=
  ⟨fun n => pVarI_writeVarI32 n rest, fun s h => pStr_writeStr s h rest⟩

example : writeVarI32 (-2) = [3] ∧ writeStr [0x61, 0x62] = [4, 0x61, 0x62] := by decide

/-! ## Value encodings -/

/-- Encode a list with the TS_2DIFF encoder: write all values, then serialize. -/
def encodeTs2Diff {w : Nat} (tb : BitVec w → Bytes → Nat → Nat → Option Bytes) (vs : List (BitVec w)) :
    Option Bytes :=
  match vs.foldlM (fun e v => Ts2Diff.write tb e v) (Ts2Diff.new : Ts2Diff w) with
  | none => none
  | some e => (e.serialize tb).map Prod.snd

theorem encodeTs2Diff_spec {w : Nat} (tb : BitVec w → Bytes → Nat → Nat → Option Bytes) (hp : PackOk w tb)
    (h8 : w % 8 = 0) (hw : w ≤ 64) (hw0 : 0 < w) (vs : List (BitVec w)) :
    ∃ b, encodeTs2Diff tb vs = some b ∧ decodeTs2Diff w b = some vs := by
  have key : ∀ (l : List (BitVec w)) (e : Ts2Diff w) (done : List (BitVec w)), EncRep e done →
      ∃ e', l.foldlM (fun e v => Ts2Diff.write tb e v) e = some e' ∧ EncRep e' (done ++ l) := by
    intro l
    induction l with
    | nil => intro e done h; exact ⟨e, rfl, by simpa using h⟩
    | cons v l ih =>
      intro e done h
      obtain ⟨e1, h1, h2⟩ := write_rep tb hp h8 hw hw0 e done v h
      obtain ⟨e2, h3, h4⟩ := ih e1 _ h2
      exact ⟨e2, by simp [h1, h3], by simpa using h4⟩
  obtain ⟨e, h1, h2⟩ := key vs _ [] encRep_new
  obtain ⟨e', b, h3, h4, _⟩ := serialize_rep tb hp h8 hw hw0 e _ h2
  exact ⟨b, by simp [encodeTs2Diff, h1, h3], by simpa using h4⟩

/-- **C10.** Every list of 64 bit integers is recovered from its TS_2DIFF encoding; the encoder never
panics. -/
theorem C10_ts2diff_long (vs : List W64) :
    ∃ b, encodeTs2Diff longToBytes vs = some b ∧ decodeTs2Diff 64 b = some vs :=
  encodeTs2Diff_spec longToBytes packOk_long rfl (by omega) (by omega) vs

example : (encodeTs2Diff longToBytes [1, 0x7fffffffffffffff, -5]).map List.length = some 25 := by decide +kernel

/-- **C11.** The same for 32 bit integers. -/
theorem C11_ts2diff_int (vs : List W32) :
    ∃ b, encodeTs2Diff intToBytes vs = some b ∧ decodeTs2Diff 32 b = some vs :=
  encodeTs2Diff_spec intToBytes packOk_int rfl (by omega) (by omega) vs

example : (encodeTs2Diff intToBytes [1, 3, 4]).map List.length = some 17 := by decide +kernel

/-- **C12.** Every list of values of one type is recovered from its PLAIN encoding, bit for bit. -/
theorem C12_plain (dt : TSDataType) (vs : List IoTDBValue) (h : ∀ v ∈ vs, fits dt v = true) :
    decodeValues dt .PLAIN (vs.foldl PlainEncoder.write (PlainEncoder.new dt)).buffer = some vs := by
  have key : ∀ (l : List IoTDBValue) (e : PlainEncoder),
      (l.foldl PlainEncoder.write e).buffer = e.buffer ++ l.flatMap plainBytes := by
    intro l
    induction l with
    | nil => simp
    | cons v l ih => intro e; simp [ih, PlainEncoder.write]
  rw [key]
  simpa [decodeValues, PlainEncoder.new] using plain_roundtrip dt vs h

example : ∀ v ∈ [IoTDBValue.FLOAT 0x7fc00001, .FLOAT 0x80000000], fits .FLOAT v = true := by decide

/-! ## Codes -/

/-- **C38.** The codes are those of the format; converting back gives the same value; every other code is
rejected. -/
theorem C38_codes :
    (∀ c dt, TSDataType.tryFrom c = some dt ↔ c = TSDataType.serialize dt)
    ∧ (∀ c e, TSEncoding.tryFrom c = some e ↔ c = TSEncoding.serialize e)
    ∧ (∀ c z, CompressionType.tryFrom c = some z ↔ c = CompressionType.serialize z)
    ∧ (∀ dt, dataTypeOfCode dt.serialize = some dt)
    ∧ (∀ e, encodingOfCode e.serialize = some e)
    ∧ (∀ z, compressionOfCode z.serialize = some z) := by
  refine ⟨?_, ?_, ?_, ?_, ?_, ?_⟩
  · intro c dt
    unfold TSDataType.tryFrom
    cases dt <;> simp only [TSDataType.serialize] <;> split_ifs <;> simp_all
  · intro c dt
    unfold TSEncoding.tryFrom
    cases dt <;> simp only [TSEncoding.serialize] <;> split_ifs <;> simp_all
  · intro c dt
    unfold CompressionType.tryFrom
    cases dt <;> simp only [CompressionType.serialize] <;> split_ifs <;> simp_all
  · intro dt; cases dt <;> rfl
  · intro dt; cases dt <;> rfl
  · intro dt; cases dt <;> rfl

end TsFile
