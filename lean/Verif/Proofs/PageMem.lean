import Verif.Proofs.Page
/-! # The size estimate of an open page

The estimates are computed in `u32`. Here: the exact number they stand for, and an upper bound. -/

namespace TsFile
open Spec

theorem u32_add (a b : Nat) : u32 a + u32 b = u32 (a + b) := by simp [u32, BitVec.ofNat_add]

/-- Exact value of `estimate_max_mem_size` of the value encoder (`size` and `get_max_byte_size`). -/
def ValueEncoder.memN : ValueEncoder → Nat
  | .plain e => e.buffer.length + (match e.dataType with | .INT32 => 24 + e.buffer.length | _ => 0)
  | .long e => e.buffer.length + (24 + e.values.length * 64 / 8)
  | .int e => e.buffer.length + (24 + e.values.length * 32 / 8)

theorem ValueEncoder.memN_eq (e : ValueEncoder) : e.size + e.getMaxByteSize = u32 e.memN := by
  cases e with
  | plain e =>
    simp only [size, getMaxByteSize, memN, PlainEncoder.size, PlainEncoder.getMaxByteSize]
    cases e.dataType <;> simp [u32_add]
  | long e => simp only [size, getMaxByteSize, memN, Ts2Diff.size, Ts2Diff.getMaxByteSize, u32_add]
  | int e => simp only [size, getMaxByteSize, memN, Ts2Diff.size, Ts2Diff.getMaxByteSize, u32_add]

/-- Exact value of `estimate_max_mem_size` of a page. -/
def PageWriter.memN (p : PageWriter) : Nat :=
  p.timeEncoder.buffer.length + (24 + p.timeEncoder.values.length * 64 / 8) + p.valueEncoder.memN

theorem PageWriter.memN_eq (p : PageWriter) : p.estimateMaxMemSize = u32 p.memN := by
  rw [estimateMaxMemSize, memN, ← u32_add, ← ValueEncoder.memN_eq, ← u32_add, Ts2Diff.size, Ts2Diff.getMaxByteSize]
  ac_rfl

/-- The flushed blocks, and what the open block may take. -/
theorem EncRep.size_le {w : Nat} {e : Ts2Diff w} {vs : List (BitVec w)} (h : EncRep e vs) :
    e.buffer.length + 9 * e.values.length ≤ 9 * vs.length := by
  obtain ⟨⟨blocks, done, cur, hvs, hbuf, hall, hcur⟩, _, _⟩ := h
  have h1 := forall₂_flatten_le (P := fun b d => ∀ r, pTs2DiffBlock w (b ++ r) = some (d, r)) hall
  rw [hbuf, hvs, List.length_append]
  cases cur with
  | nil => simp only at hcur; rw [hcur.2, List.length_nil]; omega
  | cons f rest =>
    simp only at hcur
    rw [hcur.2.1, length_deltasOf, List.length_cons]
    omega

theorem length_plainBytes_int_le {dt : TSDataType} (v : IoTDBValue) (h : fits dt v = true) (hd : dt = .INT32) :
    (plainBytes v).length ≤ 6 := by
  subst hd
  cases v <;> simp [fits] at h
  simp only [plainBytes, writeVarI32]
  exact length_writeVarU32_le _

theorem ValRep.mem_le {dt : TSDataType} {enc : TSEncoding} {e : ValueEncoder} {vs : List IoTDBValue}
    (h : ValRep dt enc e vs) : e.memN ≤ 24 + 12 * vs.length := by
  cases h with
  | plain _ e _ hd hb ht =>
    simp only [ValueEncoder.memN]
    rw [hd, hb]
    cases dt with
    | INT32 =>
      have : (vs.flatMap plainBytes).length ≤ 6 * vs.length := by
        clear hb hd
        induction vs with
        | nil => simp
        | cons v vs ih =>
          have h1 := ih (fun x hx => ht x (by simp [hx]))
          have h2 := length_plainBytes_int_le v (ht v (by simp)) rfl
          rw [List.flatMap_cons, List.length_append, List.length_cons]
          omega
      simp only
      omega
    | _ =>
      have := length_flatMap_le plainBytes 8 vs length_plainBytes_le
      simp only
      omega
  | int e xs h =>
    have := h.size_le
    simp only [ValueEncoder.memN, List.length_map]
    omega
  | long e xs h =>
    have := h.size_le
    simp only [ValueEncoder.memN, List.length_map]
    omega

theorem PageRep.mem_le {env : Env} {dt : TSDataType} {enc : TSEncoding} {p : PageWriter} {pts : List Point}
    (h : PageRep env dt enc p pts) : p.memN ≤ 48 + 21 * pts.length := by
  have h1 := h.time.size_le
  have h2 := h.value.mem_le
  simp only [List.length_map] at h1 h2
  simp only [PageWriter.memN]
  omega

/-- A page that is closed for its size has at least 3000 points. -/
theorem PageRep.full {env : Env} {dt : TSDataType} {enc : TSEncoding} {p : PageWriter} {pts : List Point}
    (h : PageRep env dt enc p pts) (hbig : pageSizeThreshold < p.estimateMaxMemSize.toNat) : 3000 ≤ pts.length := by
  have h1 := h.mem_le
  rw [p.memN_eq, u32, BitVec.toNat_ofNat, pageSizeThreshold] at hbig
  have := Nat.mod_le p.memN (2 ^ 32)
  omega

theorem ValRep.room {dt : TSDataType} {enc : TSEncoding} {e : ValueEncoder} {vs : List IoTDBValue} (h : ValRep dt enc e vs) :
    e.memN = Ref.valueRoom dt enc vs := by
  cases h with
  | plain _ e _ hd hb ht =>
    simp only [ValueEncoder.memN, Ref.valueRoom]
    rw [hd, hb, flatMap_plain]
    cases dt <;> rfl
  | int e xs h => simp only [ValueEncoder.memN, Ref.valueRoom, ints_map, h.exact.room]
  | long e xs h => simp only [ValueEncoder.memN, Ref.valueRoom, longs_map, h.exact.room]

theorem PageRep.room {env : Env} {ms : MeasurementSchema} {p : PageWriter} {pts : List Point}
    (h : PageRep env ms.dataType ms.encoding p pts) : p.memN = Ref.pageRoom ms pts := by
  rw [PageWriter.memN, h.value.room, Ref.pageRoom, h.time.exact.room]

/-- The estimate of a page that is not too long. -/
theorem PageRep.estimate {env : Env} {ms : MeasurementSchema} {p : PageWriter} {pts : List Point}
    (h : PageRep env ms.dataType ms.encoding p pts) (hl : pts.length ≤ 1048577) :
    p.estimateMaxMemSize.toNat = Ref.pageRoom ms pts := by
  have h1 := h.mem_le
  rw [p.memN_eq, u32_toNat _ (by omega), h.room]

end TsFile
