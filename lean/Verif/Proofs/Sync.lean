import Verif.Spec.Sync
import Verif.Proofs.Prim
import Mathlib.Tactic.IntervalCases
import Mathlib.Data.List.Induction
/-! # Lemmas about the metadata log and the digest -/

namespace TsFile
open Spec

/-- The bytes of a plan. -/
def planBytes : Plan → Bytes
  | .setStorageGroup path => MLog.setStorageGroupPlanBytes path
  | .createTimeseries path dt enc comp => MLog.createPlanBytes path dt enc comp

theorem length_planBytes (p : Plan) : (planBytes p).length = p.size := by
  cases p with
  | setStorageGroup path =>
    simp only [planBytes, MLog.setStorageGroupPlanBytes, List.length_append, length_be32, length_be64, List.length_cons,
      List.length_nil, Plan.size]
    omega
  | createTimeseries path dt enc comp =>
    simp only [planBytes, MLog.createPlanBytes, List.length_append, length_be32, length_be64, List.length_cons,
      List.length_nil, Plan.size]
    omega

theorem dataTypeOfCode_serialize (dt : TSDataType) : dataTypeOfCode dt.serialize = some dt := by cases dt <;> rfl
theorem encodingOfCode_serialize (e : TSEncoding) : encodingOfCode e.serialize = some e := by cases e <;> rfl
theorem compressionOfCode_serialize (c : CompressionType) : compressionOfCode c.serialize = some c := by cases c <;> rfl

theorem pPlan_planBytes (p : Plan) (h : p.size < 2 ^ 31) (r : Bytes) : pPlan (planBytes p ++ r) = some (p, r) := by
  cases p with
  | setStorageGroup path =>
    have hl : path.length < 2 ^ 31 := by simp only [Plan.size] at h; omega
    simp only [planBytes, MLog.setStorageGroupPlanBytes, List.append_assoc, List.cons_append, List.nil_append]
    rw [pPlan]
    simp only [pByte_cons, Option.bind_eq_bind, Option.bind_some, pBE_be32, u32_toNat _ (by omega : path.length < 2 ^ 32), hl,
      if_true, pTake_append _ _ _ rfl, pBE_be64, BitVec.toNat_ofNat]
  | createTimeseries path dt enc comp =>
    have hl : path.length < 2 ^ 31 := by simp only [Plan.size] at h; omega
    have h4 : ∀ r : Bytes, pTake 4 (0 :: 0 :: 0 :: 0 :: r) = some ([0, 0, 0, 0], r) :=
      fun r => pTake_append 4 [0, 0, 0, 0] r rfl
    have hk : ¬ ((4 : UInt8) = 3) := by decide
    have hm : (BitVec.ofInt 64 (-1)).toNat = 2 ^ 64 - 1 := by decide
    simp only [planBytes, MLog.createPlanBytes, List.append_assoc, List.cons_append, List.nil_append]
    rw [pPlan]
    simp only [pByte_cons, Option.bind_eq_bind, Option.bind_some, pBE_be32, u32_toNat _ (by omega : path.length < 2 ^ 32), hl,
      if_true, pTake_append _ _ _ rfl, pBE_be64, hk, if_false, h4, hm, dataTypeOfCode_serialize, encodingOfCode_serialize,
      compressionOfCode_serialize]
    rfl

theorem planBytes_ne_nil (p : Plan) : planBytes p ≠ [] := by
  cases p <;> simp [planBytes, MLog.setStorageGroupPlanBytes, MLog.createPlanBytes]

/-- Total size of plans. -/
def plansSize (ps : List Plan) : Nat := (ps.map Plan.size).sum

theorem plansSize_mem {ps : List Plan} {p : Plan} (h : p ∈ ps) : p.size ≤ plansSize ps := by
  induction ps with
  | nil => simp at h
  | cons q ps ih =>
    simp only [plansSize, List.map_cons, List.sum_cons] at ih ⊢
    rcases List.mem_cons.1 h with rfl | h
    · omega
    · have := ih h; omega

theorem length_plans (ps : List Plan) : (ps.flatMap planBytes).length = plansSize ps := by
  induction ps with
  | nil => rfl
  | cons p ps ih =>
    rw [List.flatMap_cons, List.length_append, ih, length_planBytes, plansSize, plansSize, List.map_cons, List.sum_cons]

theorem pAll_plans (ps : List Plan) (h : plansSize ps < 2 ^ 31) : pAll pPlan (ps.flatMap planBytes) = some ps := by
  have := pAll_flatMap pPlan planBytes id ps
    (fun p hp r => pPlan_planBytes p (by have := plansSize_mem hp; omega) r) (fun p _ => planBytes_ne_nil p)
  rw [List.map_id] at this
  exact this

/-- The bytes of a record. -/
def recordBytes (crc : Bytes → W32) (payload : Bytes) : Bytes :=
  be32 (u32 payload.length) ++ payload ++ be64 ((crc payload).setWidth 64)

theorem pRecord_recordBytes (crc : Bytes → W32) (payload : Bytes) (h : payload.length < 2 ^ 31) (r : Bytes) :
    pRecord crc (recordBytes crc payload ++ r) = some (payload, r) := by
  have hw : ((crc payload).setWidth 64).toNat = (crc payload).toNat := by
    rw [BitVec.toNat_setWidth]
    have := (crc payload).isLt
    omega
  rw [recordBytes, List.append_assoc, List.append_assoc, pRecord]
  simp only [Option.bind_eq_bind, Option.bind_some, pBE_be32, u32_toNat _ (by omega : payload.length < 2 ^ 32), h,
    if_true, pTake_append _ _ _ rfl, pBE_be64, hw]

theorem mapM_pAll (bs : List (List Plan)) (h : ∀ ps ∈ bs, plansSize ps < 2 ^ 31) :
    (bs.map (fun ps => ps.flatMap planBytes)).mapM (pAll pPlan) = some bs := by
  induction bs with
  | nil => rfl
  | cons ps bs ih =>
    rw [List.map_cons, List.mapM_cons, pAll_plans ps (h ps (by simp)), ih (fun q hq => h q (by simp [hq]))]
    rfl

theorem readLog_records (crc : Bytes → W32) (bs : List (List Plan)) (h : ∀ ps ∈ bs, plansSize ps < 2 ^ 31) :
    readLog crc (bs.flatMap (fun ps => recordBytes crc (ps.flatMap planBytes))) = some bs := by
  have := pAll_flatMap (pRecord crc) (fun ps : List Plan => recordBytes crc (ps.flatMap planBytes))
    (fun ps => ps.flatMap planBytes) bs
    (fun ps hp r => pRecord_recordBytes crc _ (by rw [length_plans]; exact h ps hp) r)
    (fun p _ hp => by
      have := congrArg List.length hp
      simp only [recordBytes, List.length_append, length_be32, List.length_nil] at this
      omega)
  rw [readLog, this]
  exact mapM_pAll bs h

/-! ## Digest -/

theorem hexDigit_value (n : Nat) (h : n < 16) :
    isHexDigit (hexDigit n) = true ∧ (if (hexDigit n).toNat < 58 then (hexDigit n).toNat - 48 else (hexDigit n).toNat - 87) = n
      ∧ (hexDigit n = '0' ↔ n = 0) := by
  interval_cases n <;> decide

theorem hexEncode_hex (b : Bytes) : ∀ c ∈ hexEncode b, isHexDigit c = true := by
  intro c hc
  obtain ⟨x, _, hx⟩ := List.mem_flatMap.1 hc
  have := x.toNat_lt
  rcases List.mem_cons.1 hx with rfl | hx
  · exact (hexDigit_value _ (by omega)).1
  · rw [List.mem_singleton.1 hx]
    exact (hexDigit_value _ (by omega)).1

theorem hexValue_append (s t : List Char) : hexValue (s ++ t)
    = t.foldl (fun a c => a * 16 + (if c.toNat < 58 then c.toNat - 48 else c.toNat - 87)) (hexValue s) := by
  rw [hexValue, List.foldl_append]; rfl

theorem hexEncode_append (a b : Bytes) : hexEncode (a ++ b) = hexEncode a ++ hexEncode b := by
  rw [hexEncode, List.flatMap_append]; rfl

theorem hexValue_hexEncode (b : Bytes) : hexValue (hexEncode b) = beNat b := by
  induction b using List.reverseRecOn with
  | nil => rfl
  | append_singleton b x ih =>
    have hx := x.toNat_lt
    rw [hexEncode_append, hexValue_append, ih, beNat_append_single]
    simp only [hexEncode, List.flatMap_cons, List.flatMap_nil, List.append_nil, List.foldl_cons, List.foldl_nil]
    rw [(hexDigit_value (x.toNat / 16) (by omega)).2.1, (hexDigit_value (x.toNat % 16) (by omega)).2.1]
    omega

theorem hexValue_dropZeros (s : List Char) : hexValue (s.dropWhile (fun c => c == '0')) = hexValue s := by
  induction s with
  | nil => rfl
  | cons c s ih =>
    rw [List.dropWhile_cons]
    by_cases hc : c = '0'
    · subst hc
      rw [if_pos (by decide), ih]
      rfl
    · rw [if_neg (by simpa using hc)]

end TsFile
