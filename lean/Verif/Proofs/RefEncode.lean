import Verif.Spec.Reference
import Verif.Proofs.Ts2DiffBlock
import Mathlib.Data.List.Induction
/-! # The encoders produce the bytes of the reference writer -/

namespace TsFile
open Spec

theorem big_eq (n x : Nat) : Ref.big n x = beBytes n x := by
  induction n generalizing x with
  | zero => rfl
  | succ n ih =>
    rw [beBytes, ← ih, Ref.big, Ref.big, List.range_succ, List.map_append]
    congr 1
    · apply List.map_congr_left
      intro i hi
      rw [List.mem_range] at hi
      rw [show n + 1 - 1 - i = 1 + (n - 1 - i) by omega, Nat.pow_add, Nat.pow_one, Nat.div_div_eq_div_mul]
    · simp

theorem length_big (n x : Nat) : (Ref.big n x).length = n := by simp [Ref.big]

theorem varFuel_eq (k : Nat) : ∀ (f : Nat) (x : W32), k ≤ f → x.toNat < 128 ^ (k + 1) → writeVarU32Loop f x = Ref.varFuel k x.toNat := by
  induction k with
  | zero =>
    intro f x _ hx
    have hx : x.toNat < 128 := by simpa using hx
    have hb : byte (x &&& 0x7F#32) = UInt8.ofNat (x.toNat % 128) := by rw [byte, and_7f]
    cases f with
    | zero => rw [writeVarU32Loop, Ref.varFuel, hb]
    | succ f => rw [writeVarU32Loop, if_neg (by simpa using (hi_zero_iff x).2 hx), Ref.varFuel, hb]
  | succ k ih =>
    intro f x hf hx
    obtain ⟨f, rfl⟩ : ∃ g, f = g + 1 := ⟨f - 1, by omega⟩
    rw [writeVarU32Loop, Ref.varFuel]
    by_cases hs : x.toNat < 128
    · rw [if_neg (by simpa using (hi_zero_iff x).2 hs), if_pos hs, byte, and_7f, Nat.mod_eq_of_lt hs]
    · rw [if_pos (by intro hc; exact hs ((hi_zero_iff x).1 hc)), if_neg hs, ih f (x >>> 7) (by omega) (by
        rw [shift7]
        rw [Nat.pow_succ] at hx
        exact Nat.div_lt_of_lt_mul (by rw [Nat.mul_comm]; exact hx)), shift7]
      congr 1
      apply UInt8.toNat_inj.1
      rw [byte_or_80, uint8_ofNat_toNat]
      omega

theorem varint_eq (x : W32) : writeVarU32 x = Ref.varint x.toNat :=
  varFuel_eq 4 5 x (by omega) (by have := x.isLt; omega)

theorem varint_u32 {n : Nat} (h : n < 2 ^ 32) : writeVarU32 (u32 n) = Ref.varint n := by
  rw [varint_eq, u32_toNat n h]

/-- Bytes are determined by their number and length. -/
theorem beBytes_beNat (l : Bytes) : beBytes l.length (beNat l) = l := by
  induction l using List.reverseRecOn with
  | nil => rfl
  | append_singleton l x ih =>
    rw [List.length_append, List.length_singleton, beBytes, beNat_append_single]
    have hx : x.toNat < 256 := x.toNat_lt
    rw [show (beNat l * 256 + x.toNat) / 256 = beNat l by omega, ih]
    congr 2
    apply UInt8.toNat_inj.1
    rw [uint8_ofNat_toNat]
    omega

theorem bitRep_bytes {out : Bytes} {pos v : Nat} (h : BitRep out pos v) :
    out = Ref.big ((pos + 7) / 8) (v * 2 ^ (8 * ((pos + 7) / 8) - pos)) := by
  rw [big_eq, ← h.1, ← h.2, beBytes_beNat]

theorem digits_eq {w : Nat} (v : BitVec w) : Ts2Diff.valueWidth v = Ref.digits v.toNat := rfl

theorem differences_eq {w : Nat} (f : BitVec w) (rest : List (BitVec w)) : Ref.differences (f :: rest) = deltasOf f rest := by
  induction rest generalizing f with
  | nil => rfl
  | cons v rest ih => rw [Ref.differences, ih, deltasOf]

theorem blockWidth_eq {w : Nat} (l : List (BitVec w)) : Ts2Diff.blockWidth l = ((l.map BitVec.toNat).map Ref.digits).foldl max 0 := by
  rw [Ts2Diff.blockWidth, List.foldl_map, List.foldl_map]
  rfl

/-- The payload of a block. -/
theorem payload_eq {w : Nat} (tb : BitVec w → Bytes → Nat → Nat → Option Bytes) (hp : PackOk w tb) (h8 : w % 8 = 0)
    (l : List (BitVec w)) :
    Ts2Diff.payload tb (Ts2Diff.blockWidth l) 0 [] l = some (Ref.packed (Ts2Diff.blockWidth l) (l.map BitVec.toNat)) := by
  obtain ⟨p, hpay, hrep⟩ := payload_rep tb hp (Ts2Diff.blockWidth l) (blockWidth_le l) h8 l (lt_blockWidth l) 0 0 []
    ⟨by simp, by simp [beNat]⟩
  rw [hpay, bitRep_bytes hrep, Ref.packed, Nat.zero_add, List.length_map, fieldsNat, List.foldl_map]

/-- The encoder after writing `vs`, byte by byte. -/
structure EncExact {w : Nat} (e : Ts2Diff w) (vs : List (BitVec w)) : Prop where
  buffer : e.buffer = Ref.blocks (vs.length / 129) vs
  values : e.values = Ref.differences (vs.drop (129 * (vs.length / 129)))
  first : e.firstValue = (vs.drop (129 * (vs.length / 129))).head?
  prev : ∀ x, (vs.drop (129 * (vs.length / 129))).getLast? = some x → e.previousValue = x
  min : e.minDelta = Ref.least (Ref.differences (vs.drop (129 * (vs.length / 129))))

theorem encExact_new {w : Nat} : EncExact (Ts2Diff.new : Ts2Diff w) [] := by
  constructor <;> simp [Ts2Diff.new, Ref.blocks, Ref.differences, Ref.least]

theorem blocks_append {w : Nat} (k : Nat) (a b : List (BitVec w)) (h : 129 * k ≤ a.length) : Ref.blocks k (a ++ b) = Ref.blocks k a := by
  rw [Ref.blocks, Ref.blocks]
  apply List.flatMap_congr
  intro i hi
  rw [List.mem_range] at hi
  rw [List.drop_append_of_le_length (by omega), List.take_append_of_le_length (by rw [List.length_drop]; omega)]

theorem blocks_succ {w : Nat} (k : Nat) (a : List (BitVec w)) :
    Ref.blocks (k + 1) a = Ref.blocks k a ++ Ref.block ((a.drop (129 * k)).take 129) := by
  rw [Ref.blocks, Ref.blocks, List.range_succ, List.flatMap_append]
  simp

theorem length_differences {w : Nat} (l : List (BitVec w)) : (Ref.differences l).length = l.length - 1 := by
  cases l with
  | nil => rfl
  | cons f rest => rw [differences_eq, length_deltasOf]; simp

theorem differences_snoc {w : Nat} (l : List (BitVec w)) (p v : BitVec w) (h : l.getLast? = some p) :
    Ref.differences (l ++ [v]) = Ref.differences l ++ [v - p] := by
  cases l with
  | nil => simp at h
  | cons f rest =>
    rw [List.cons_append, differences_eq, differences_eq, deltasOf_append]
    rw [List.getLast?_cons, Option.some.injEq] at h
    rw [← h, List.getLastD_eq_getLast?]

theorem flush_exact {w : Nat} (tb : BitVec w → Bytes → Nat → Nat → Option Bytes) (hp : PackOk w tb) (h8 : w % 8 = 0) (hw : w ≤ 64)
    {e : Ts2Diff w} {l : List (BitVec w)} (hl : l.length ≤ 129) (hv : e.values = Ref.differences l) (hf : e.firstValue = l.head?)
    (hm : e.minDelta = Ref.least (Ref.differences l)) {e' : Ts2Diff w} (h : Ts2Diff.flush tb e = some e') :
    e'.buffer = e.buffer ++ Ref.block l ∧ (l ≠ [] → e'.firstValue = none ∧ e'.values = [] ∧ e'.minDelta = BitVec.intMax w) := by
  cases l with
  | nil =>
    rw [Ts2Diff.flush, hf] at h
    simp only [List.head?_nil, Option.some.injEq] at h
    subst h
    simp [Ref.block]
  | cons f rest =>
    rw [Ts2Diff.flush, hf] at h
    simp only [List.head?_cons] at h
    rw [payload_eq tb hp h8] at h
    simp only [Option.some.injEq] at h
    subst h
    refine ⟨?_, fun _ => ⟨rfl, rfl, rfl⟩⟩
    have hlen := length_differences (f :: rest)
    simp only [List.length_cons] at hlen hl
    have hbw := blockWidth_le (e.values.map (fun d => d - e.minDelta))
    simp only [hv, hm] at hbw ⊢
    rw [blockWidth_eq] at hbw
    simp only [Ref.block, big_eq, blockWidth_eq, be32, List.map_map, Function.comp_def, List.append_assoc] at hbw ⊢
    rw [u32_toNat _ (by omega), u32_toNat _ (by omega)]

theorem least_snoc {w : Nat} (l : List (BitVec w)) (d : BitVec w) :
    Ref.least (l ++ [d]) = if d.slt (Ref.least l) then d else Ref.least l := by
  rw [Ref.least, List.foldl_append, List.foldl_cons, List.foldl_nil]
  simp only [BitVec.slt_iff_toInt_lt]
  rfl

theorem encExact_write {w : Nat} (tb : BitVec w → Bytes → Nat → Nat → Option Bytes) (hp : PackOk w tb) (h8 : w % 8 = 0) (hw : w ≤ 64)
    {e e' : Ts2Diff w} {vs : List (BitVec w)} {v : BitVec w} (h : EncExact e vs) (hwr : e.write tb v = some e') :
    EncExact e' (vs ++ [v]) := by
  obtain ⟨q, r, hn, hr⟩ : ∃ q r, vs.length = 129 * q + r ∧ r < 129 := ⟨vs.length / 129, vs.length % 129, by omega, by omega⟩
  have hq : vs.length / 129 = q := by omega
  obtain ⟨h1, h2, h3, h4, h5⟩ := h
  rw [hq] at h1 h2 h3 h4 h5
  generalize hl : vs.drop (129 * q) = l at h2 h3 h4 h5
  have hll : l.length = r := by rw [← hl, List.length_drop]; omega
  have hdrop : (vs ++ [v]).drop (129 * q) = l ++ [v] := by rw [List.drop_append_of_le_length (by omega), hl]
  have hblk : Ref.blocks q (vs ++ [v]) = Ref.blocks q vs := blocks_append q vs [v] (by omega)
  -- the state before the block is full
  have key : ∀ e1 : Ts2Diff w, e1.buffer = e.buffer → e1.values = Ref.differences (l ++ [v]) → e1.firstValue = (l ++ [v]).head? →
      e1.previousValue = v → e1.minDelta = Ref.least (Ref.differences (l ++ [v])) →
      (if e1.values.length = 128 then Ts2Diff.flush tb e1 else some e1) = some e' → EncExact e' (vs ++ [v]) := by
    intro e1 k1 k2 k3 k4 k5 k6
    have hlen : e1.values.length = r := by rw [k2, length_differences]; simp [hll]
    by_cases h128 : r = 128
    · rw [if_pos (by omega)] at k6
      obtain ⟨f1, f2⟩ := flush_exact tb hp h8 hw (l := l ++ [v]) (by simp; omega) k2 k3 k5 k6
      obtain ⟨f2, f3, f4⟩ := f2 (by simp)
      have hq' : (vs ++ [v]).length / 129 = q + 1 := by simp; omega
      have hd' : (vs ++ [v]).drop (129 * (q + 1)) = [] := List.drop_eq_nil_of_le (by simp; omega)
      constructor
      · rw [hq', blocks_succ, hblk, hdrop, f1, k1, h1, List.take_of_length_le (by simp; omega)]
      · rw [hq', hd', f3]; rfl
      · rw [hq', hd', f2]; rfl
      · rw [hq', hd']; simp
      · rw [hq', hd', f4]; rfl
    · rw [if_neg (by omega)] at k6
      simp only [Option.some.injEq] at k6
      subst k6
      have hq' : (vs ++ [v]).length / 129 = q := by simp; omega
      constructor
      · rw [hq', hblk, k1, h1]
      · rw [hq', hdrop, k2]
      · rw [hq', hdrop, k3]
      · rw [hq', hdrop]
        intro x hx
        rw [List.getLast?_concat, Option.some.injEq] at hx
        rw [k4, hx]
      · rw [hq', hdrop, k5]
  rw [Ts2Diff.write] at hwr
  cases l with
  | nil =>
    rw [h3] at hwr
    simp only [List.head?_nil] at hwr
    exact key { e with firstValue := some v, previousValue := v } rfl (by dsimp only; rw [h2]; rfl) rfl rfl (by dsimp only; rw [h5]; rfl) hwr
  | cons f rest =>
    rw [h3] at hwr
    simp only [List.head?_cons] at hwr
    have hp' : (f :: rest).getLast? = some e.previousValue := by
      rw [List.getLast?_eq_some_getLast (by simp), Option.some.injEq]
      exact (h4 _ (List.getLast?_eq_some_getLast (by simp))).symm
    refine key { e with firstValue := some f, minDelta := (if (v - e.previousValue).slt e.minDelta = true then v - e.previousValue else e.minDelta), previousValue := v, values := e.values ++ [v - e.previousValue] } rfl ?_ rfl rfl ?_ hwr
    · dsimp only; rw [h2, differences_snoc _ _ _ hp']
    · dsimp only; rw [differences_snoc _ _ _ hp', least_snoc, h5]

/-- Serialising gives the bytes of the reference. -/
theorem encExact_serialize {w : Nat} (tb : BitVec w → Bytes → Nat → Nat → Option Bytes) (hp : PackOk w tb) (h8 : w % 8 = 0) (hw : w ≤ 64)
    {e : Ts2Diff w} {vs : List (BitVec w)} (h : EncExact e vs) {r : Ts2Diff w × Bytes} (hs : e.serialize tb = some r) :
    r.2 = Ref.ts2diff vs := by
  rw [Ts2Diff.serialize] at hs
  cases hf : Ts2Diff.flush tb e with
  | none => rw [hf] at hs; simp at hs
  | some e' =>
    rw [hf] at hs
    simp only [Option.some.injEq] at hs
    subst hs
    show e'.buffer = _
    have hl : (vs.drop (129 * (vs.length / 129))).length = vs.length % 129 := by rw [List.length_drop]; omega
    rw [(flush_exact tb hp h8 hw (by omega) h.values h.first h.min hf).1, h.buffer, Ref.ts2diff]
    by_cases h0 : vs.length % 129 = 0
    · rw [List.length_eq_zero_iff.1 (hl.trans h0), show (vs.length + 128) / 129 = vs.length / 129 by omega]
      simp [Ref.block]
    · rw [show (vs.length + 128) / 129 = vs.length / 129 + 1 by omega, blocks_succ, List.take_of_length_le (by omega)]

/-- The estimate of the encoder. -/
theorem EncExact.room {w : Nat} {e : Ts2Diff w} {vs : List (BitVec w)} (h : EncExact e vs) :
    e.buffer.length + (24 + e.values.length * w / 8) = Ref.room vs := by
  rw [h.buffer, h.values, length_differences, List.length_drop, Ref.room]
  rw [show vs.length - 129 * (vs.length / 129) = vs.length % 129 by omega]

theorem zigzag_eq (x : W32) : (zigzag x).toNat = Ref.zigzag x.toInt := by
  simp only [zigzag, Ref.zigzag, BitVec.slt_iff_toInt_lt]
  have hx := BitVec.toInt_eq_toNat_cond x
  have hl := x.isLt
  simp only [BitVec.toInt_zero]
  by_cases h : x.toInt < 0
  · rw [if_pos h, if_neg (by omega)]
    simp only [BitVec.toNat_not, BitVec.toNat_shiftLeft, Nat.shiftLeft_eq]
    split at hx <;> omega
  · rw [if_neg h, if_pos (by omega)]
    simp only [BitVec.toNat_shiftLeft, Nat.shiftLeft_eq]
    split at hx <;> omega

theorem string_eq {s : Bytes} (h : s.length < 2 ^ 31) : writeStr s = Ref.string s := by
  rw [writeStr, writeVarI32, varint_eq, zigzag_eq, Ref.string]
  have : (u32 s.length).toInt = s.length := by
    rw [BitVec.toInt_eq_toNat_cond, u32_toNat _ (by omega)]
    split <;> omega
  rw [this]

theorem plain_eq (v : IoTDBValue) : plainBytes v = Ref.plain v := by
  cases v <;> simp only [plainBytes, Ref.plain, big_eq, be32, be64, writeVarI32, varint_eq, zigzag_eq]

end TsFile
