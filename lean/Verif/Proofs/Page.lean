import Verif.Model.Chunk
import Verif.Proofs.Ts2Diff
import Verif.Spec.Machine
/-! # Values, pages and chunks -/

namespace TsFile
open Spec

/-! ## PLAIN -/

theorem pPlain_plainBytes (dt : TSDataType) (v : IoTDBValue) (h : fits dt v = true) (r : Bytes) :
    pPlain dt (plainBytes v ++ r) = some (v, r) := by
  cases dt <;> cases v <;> simp [fits] at h <;>
    simp [pPlain, plainBytes, pVarI_writeVarI32, pBE_be32, pBE_be64]

theorem plainBytes_ne_nil (v : IoTDBValue) : plainBytes v ≠ [] := by
  intro h
  have h' := congrArg List.length h
  cases v with
  | INT v => exact absurd h' (by have := length_writeVarU32_pos (zigzag v); simp only [plainBytes, writeVarI32, List.length_nil]; omega)
  | _ => simp [plainBytes, be32, be64] at h'

theorem length_plainBytes_le (v : IoTDBValue) : (plainBytes v).length ≤ 8 := by
  cases v with
  | INT v => have := length_writeVarU32_le (zigzag v); simp only [plainBytes, writeVarI32]; omega
  | _ => simp [plainBytes, be32, be64]

theorem length_flatMap_le {α : Type} (enc : α → Bytes) (n : Nat) (l : List α)
    (h : ∀ a, (enc a).length ≤ n) : (l.flatMap enc).length ≤ n * l.length := by
  induction l with
  | nil => simp
  | cons a l ih =>
    rw [List.flatMap_cons, List.length_append, List.length_cons, Nat.mul_add]
    have := h a
    omega

theorem le_length_flatMap (vs : List IoTDBValue) : vs.length ≤ (vs.flatMap plainBytes).length := by
  induction vs with
  | nil => simp
  | cons v vs ih =>
    have := List.length_pos_iff.2 (plainBytes_ne_nil v)
    rw [List.flatMap_cons, List.length_append, List.length_cons]
    omega

/-- PLAIN round trip for a sequence. -/
theorem plain_roundtrip (dt : TSDataType) (vs : List IoTDBValue) (h : ∀ v ∈ vs, fits dt v = true) :
    pAll (pPlain dt) (vs.flatMap plainBytes) = some vs := by
  rw [pAll_flatMap (pPlain dt) plainBytes id vs (fun v hv r => pPlain_plainBytes dt v (h v hv) r)
    (fun v _ => plainBytes_ne_nil v)]
  simp

/-! ## value encoders -/

theorem flatMap_plain (vs : List IoTDBValue) : vs.flatMap plainBytes = vs.flatMap Ref.plain := by
  congr 1; funext v; exact plain_eq v

theorem ints_map (xs : List W32) : Ref.ints (xs.map .INT) = xs := by
  induction xs with
  | nil => rfl
  | cons x xs ih => rw [Ref.ints, List.map_cons, List.filterMap_cons]; exact congrArg (x :: ·) ih

theorem longs_map (xs : List W64) : Ref.longs (xs.map .LONG) = xs := by
  induction xs with
  | nil => rfl
  | cons x xs ih => rw [Ref.longs, List.map_cons, List.filterMap_cons]; exact congrArg (x :: ·) ih

/-- The value encoder after writing `vs`. -/
inductive ValRep : TSDataType → TSEncoding → ValueEncoder → List IoTDBValue → Prop
  | plain (dt : TSDataType) (e : PlainEncoder) (vs : List IoTDBValue) (hd : e.dataType = dt)
      (hb : e.buffer = vs.flatMap plainBytes) (ht : ∀ v ∈ vs, fits dt v = true) :
      ValRep dt .PLAIN (.plain e) vs
  | int (e : Ts2Diff 32) (xs : List W32) (h : EncRep e xs) :
      ValRep .INT32 .TS2DIFF (.int e) (xs.map .INT)
  | long (e : Ts2Diff 64) (xs : List W64) (h : EncRep e xs) :
      ValRep .INT64 .TS2DIFF (.long e) (xs.map .LONG)

theorem valRep_new (dt : TSDataType) (enc : TSEncoding) (ve : ValueEncoder)
    (h : ValueEncoder.new dt enc = .ok ve) : ValRep dt enc ve [] := by
  cases enc with
  | PLAIN =>
    cases dt <;> (simp only [ValueEncoder.new, Except.ok.injEq] at h; subst h) <;>
      exact .plain _ _ [] rfl rfl (by simp)
  | TS2DIFF =>
    cases dt
    · simp only [ValueEncoder.new, Except.ok.injEq] at h; subst h
      exact .int _ [] encRep_new
    · simp only [ValueEncoder.new, Except.ok.injEq] at h; subst h
      exact .long _ [] encRep_new
    · simp [ValueEncoder.new] at h

theorem valRep_reset {dt : TSDataType} {enc : TSEncoding} {ve : ValueEncoder} {vs : List IoTDBValue}
    (h : ValRep dt enc ve vs) : ValRep dt enc ve.reset [] := by
  cases h with
  | plain _ e _ hd hb ht => exact .plain _ _ [] hd rfl (by simp)
  | int e xs h => exact .int _ [] encRep_new
  | long e xs h => exact .long _ [] encRep_new

theorem valRep_write {dt : TSDataType} {enc : TSEncoding} {ve : ValueEncoder} {vs : List IoTDBValue}
    (h : ValRep dt enc ve vs) (v : IoTDBValue) (hv : fits dt v = true) :
    ∃ ve', ve.write v = some ve' ∧ ValRep dt enc ve' (vs ++ [v]) := by
  cases h with
  | plain _ e _ hd hb ht =>
    refine ⟨_, rfl, .plain _ _ _ hd (by simp [PlainEncoder.write, hb]) ?_⟩
    intro x hx
    rcases List.mem_append.1 hx with hx | hx
    · exact ht x hx
    · simp at hx; subst hx; exact hv
  | int e xs h =>
    cases v <;> simp [fits] at hv
    next v =>
    obtain ⟨e', he', hr⟩ := write_rep intToBytes packOk_int (by rfl) (by omega) (by omega) e xs v h
    refine ⟨.int e', by simp [ValueEncoder.write, he'], ?_⟩
    have := ValRep.int e' _ hr
    simpa using this
  | long e xs h =>
    cases v <;> simp [fits] at hv
    next v =>
    obtain ⟨e', he', hr⟩ := write_rep longToBytes packOk_long (by rfl) (by omega) (by omega) e xs v h
    refine ⟨.long e', by simp [ValueEncoder.write, he'], ?_⟩
    have := ValRep.long e' _ hr
    simpa using this

theorem valRep_serialize {dt : TSDataType} {enc : TSEncoding} {ve : ValueEncoder}
    {vs : List IoTDBValue} (h : ValRep dt enc ve vs) :
    ∃ ve' b, ve.serialize = some (ve', b) ∧ ValRep dt enc ve'.reset [] ∧ decodeValues dt enc b = some vs
      ∧ b.length ≤ 9 * vs.length + 16 ∧ (enc = .PLAIN → vs.length ≤ b.length) ∧ b = Ref.values dt enc vs := by
  cases h with
  | plain _ e _ hd hb ht =>
    refine ⟨_, _, rfl, .plain _ _ [] hd rfl (by simp), ?_, ?_, fun _ => ?_, hb.trans (flatMap_plain vs)⟩
    · rw [hb]; exact plain_roundtrip dt vs ht
    · have := length_flatMap_le plainBytes 8 vs length_plainBytes_le
      rw [hb]
      omega
    · rw [hb]; exact le_length_flatMap vs
  | int e xs h =>
    obtain ⟨e', b, hs, hd, hl, hx⟩ := serialize_rep intToBytes packOk_int (by rfl) (by omega) (by omega) e xs h
    exact ⟨.int e', b, by simp [ValueEncoder.serialize, hs], .int _ [] encRep_new,
      by simp [decodeValues, hd], by simpa using hl, (fun h => by cases h), by rw [hx]; simp only [Ref.values, ints_map]⟩
  | long e xs h =>
    obtain ⟨e', b, hs, hd, hl, hx⟩ := serialize_rep longToBytes packOk_long (by rfl) (by omega) (by omega) e xs h
    exact ⟨.long e', b, by simp [ValueEncoder.serialize, hs], .long _ [] encRep_new,
      by simp [decodeValues, hd], by simpa using hl, (fun h => by cases h), by rw [hx]; simp only [Ref.values, longs_map]⟩

theorem valRep_typed {dt : TSDataType} {enc : TSEncoding} {ve : ValueEncoder}
    {vs : List IoTDBValue} (h : ValRep dt enc ve vs) : ∀ v ∈ vs, fits dt v = true := by
  cases h with
  | plain _ e _ hd hb ht => exact ht
  | int e xs h => intro v hv; obtain ⟨x, _, rfl⟩ := List.mem_map.1 hv; rfl
  | long e xs h => intro v hv; obtain ⟨x, _, rfl⟩ := List.mem_map.1 hv; rfl

/-! ## statistics -/

/-- The data type of a statistics value. -/
def Statistics.type : Statistics → TSDataType
  | .INT32 _ => .INT32 | .INT64 _ => .INT64 | .FLOAT _ => .FLOAT

/-- One update, total. -/
def Statistics.upd (env : Env) (s : Statistics) (p : Point) : Statistics :=
  (s.update env p.1 p.2).getD s

/-- One merge, total. -/
def Statistics.mrg (env : Env) (s o : Statistics) : Statistics := (s.merge env o).getD s

/-- The statistics of a list of points. -/
def statsOf (env : Env) (dt : TSDataType) (pts : List Point) : Statistics :=
  pts.foldl (Statistics.upd env) (Statistics.new env dt)

theorem new_type (env : Env) (dt : TSDataType) : (Statistics.new env dt).type = dt := by
  cases dt <;> rfl

theorem update_some (env : Env) (s : Statistics) (t : W64) (v : IoTDBValue) :
    (fits s.type v = true → s.update env t v = some (s.upd env (t, v)))
    ∧ (fits s.type v = false → s.update env t v = none) := by
  cases s <;> cases v <;> simp [fits, Statistics.type, Statistics.update, Statistics.upd]

theorem upd_type (env : Env) (s : Statistics) (p : Point) : (s.upd env p).type = s.type := by
  obtain ⟨t, v⟩ := p
  cases s <;> cases v <;> rfl

theorem merge_some (env : Env) (s o : Statistics) (h : s.type = o.type) :
    s.merge env o = some (s.mrg env o) := by
  cases s <;> cases o <;> simp [Statistics.type] at h <;> rfl

theorem mrg_type (env : Env) (s o : Statistics) : (s.mrg env o).type = s.type := by
  cases s <;> cases o <;> rfl

theorem statsOf_append (env : Env) (dt : TSDataType) (pts : List Point) (p : Point) :
    statsOf env dt (pts ++ [p]) = (statsOf env dt pts).upd env p := by
  simp [statsOf]

theorem foldl_upd_type (env : Env) (s : Statistics) (pts : List Point) :
    (pts.foldl (Statistics.upd env) s).type = s.type := by
  induction pts generalizing s with
  | nil => rfl
  | cons p pts ih => rw [List.foldl_cons, ih, upd_type]

theorem statsOf_type (env : Env) (dt : TSDataType) (pts : List Point) : (statsOf env dt pts).type = dt := by
  rw [statsOf, foldl_upd_type, new_type]

theorem upd_count (env : Env) (s : Statistics) (p : Point) (h : fits s.type p.2 = true) :
    (s.upd env p).count = s.count + 1 := by
  obtain ⟨t, v⟩ := p
  cases s <;> cases v <;> simp [fits, Statistics.type] at h <;> rfl

theorem foldl_upd_count (env : Env) (s : Statistics) (pts : List Point)
    (h : ∀ p ∈ pts, fits s.type p.2 = true) :
    (pts.foldl (Statistics.upd env) s).count = s.count + u32 pts.length := by
  induction pts generalizing s with
  | nil => simp [u32]
  | cons p pts ih =>
    rw [List.foldl_cons, ih _ (by rw [upd_type]; exact fun q hq => h q (by simp [hq])),
      upd_count env s p (h p (by simp)), List.length_cons]
    rw [u32, u32, BitVec.ofNat_add, BitVec.add_assoc, BitVec.add_comm 1]
    rfl

theorem new_count (env : Env) (dt : TSDataType) : (Statistics.new env dt).count = 0 := by
  cases dt <;> rfl

theorem statsOf_count (env : Env) (dt : TSDataType) (pts : List Point)
    (h : ∀ p ∈ pts, fits dt p.2 = true) : (statsOf env dt pts).count = u32 pts.length := by
  rw [statsOf, foldl_upd_count env _ pts (by rw [new_type]; exact h), new_count]
  simp

theorem mrg_count (env : Env) (s o : Statistics) (h : s.type = o.type) :
    (s.mrg env o).count = s.count + o.count := by
  cases s <;> cases o <;> simp [Statistics.type] at h <;> rfl

/-! ### reading statistics -/

/-- A statistics value as the specification sees it. -/
def Statistics.toSpec : Statistics → Stats
  | .INT32 s => ⟨s.count.toNat, s.tsFirst, s.tsLast, .INT s.minValue, .INT s.maxValue, .INT s.firstValue,
      .INT s.lastValue, s.sumValue⟩
  | .INT64 s => ⟨s.count.toNat, s.tsFirst, s.tsLast, .LONG s.minValue, .LONG s.maxValue, .LONG s.firstValue,
      .LONG s.lastValue, s.sumValue⟩
  | .FLOAT s => ⟨s.count.toNat, s.tsFirst, s.tsLast, .FLOAT s.minValue, .FLOAT s.maxValue,
      .FLOAT s.firstValue, .FLOAT s.lastValue, s.sumValue⟩

theorem pStats_serialize (env : Env) (s : Statistics) (r : Bytes) :
    pStats s.type (s.serialize env ++ r) = some (s.toSpec, r) := by
  cases s <;>
  simp [pStats, Statistics.type, Statistics.serialize, StatisticsStruct.serialize, statI32, statI64, statF32,
    List.append_assoc, pVarU_writeVarU32, pBE_be64, pBE_be32, pFixed, Statistics.toSpec,
    Option.bind_eq_bind, Option.bind_some]

/-! ## pages -/

/-- The page writer after writing `pts` (time order is irrelevant here). -/
structure PageRep (env : Env) (dt : TSDataType) (enc : TSEncoding) (p : PageWriter) (pts : List Point) :
    Prop where
  dataType : p.dataType = dt
  time : EncRep p.timeEncoder (pts.map Prod.fst)
  value : ValRep dt enc p.valueEncoder (pts.map Prod.snd)
  stats : p.statistics = statsOf env dt pts
  count : p.pointNumber = pts.length

theorem PageRep.typed {env : Env} {dt : TSDataType} {enc : TSEncoding} {p : PageWriter} {pts : List Point}
    (h : PageRep env dt enc p pts) : ∀ q ∈ pts, fits dt q.2 = true := fun q hq =>
  valRep_typed h.value q.2 (List.mem_map.2 ⟨q, hq, rfl⟩)

theorem pageRep_new (env : Env) (dt : TSDataType) (enc : TSEncoding) (p : PageWriter)
    (h : PageWriter.new env dt enc = .ok p) : PageRep env dt enc p [] := by
  unfold PageWriter.new at h
  split at h
  · simp at h
  · next ve hve =>
    simp only [Except.ok.injEq] at h
    subst h
    exact ⟨rfl, encRep_new, valRep_new dt enc ve hve, rfl, rfl⟩

theorem pageRep_write (env : Env) {dt : TSDataType} {enc : TSEncoding} {p : PageWriter} {pts : List Point}
    (h : PageRep env dt enc p pts) (t : W64) (v : IoTDBValue) :
    (fits dt v = true → ∃ p', p.write env t v = some p' ∧ PageRep env dt enc p' (pts ++ [(t, v)]))
    ∧ (fits dt v = false → p.write env t v = none) := by
  obtain ⟨te, hte, htr⟩ := write_rep longToBytes packOk_long (by rfl) (by omega) (by omega) _ _ t h.time
  have hty : p.statistics.type = dt := by rw [h.stats, statsOf_type]
  constructor
  · intro hv
    obtain ⟨ve, hve, hvr⟩ := valRep_write h.value v hv
    have hs := (update_some env p.statistics t v).1 (by rw [hty]; exact hv)
    refine ⟨{ p with timeEncoder := te, valueEncoder := ve, statistics := p.statistics.upd env (t, v),
                     pointNumber := p.pointNumber + 1 },
      by simp only [PageWriter.write, hte, hve, hs], ⟨h.dataType, ?_, ?_, ?_, ?_⟩⟩
    · simpa using htr
    · simpa using hvr
    · simp [statsOf_append, h.stats]
    · simp [h.count]
  · intro hv
    have hs := (update_some env p.statistics t v).2 (by rw [hty]; exact hv)
    rw [PageWriter.write, hte]
    simp only
    split
    · rfl
    · rw [hs]

theorem pageRep_reset (env : Env) (dt : TSDataType) (enc : TSEncoding) (p : PageWriter)
    (hd : p.dataType = dt) (hv : ValRep dt enc p.valueEncoder.reset []) :
    PageRep env dt enc (p.reset env) [] :=
  ⟨hd, encRep_new, hv, by simp [PageWriter.reset, statsOf, hd], rfl⟩

/-- Preparing a page gives bytes that decode to its points. -/
theorem pageRep_prepare (env : Env) {dt : TSDataType} {enc : TSEncoding} {p : PageWriter} {pts : List Point}
    (h : PageRep env dt enc p pts) (hlen : 18 * pts.length + 38 < 2 ^ 32) :
    ∃ p', p.prepareBuffer = some p' ∧ p'.dataType = dt ∧ p'.statistics = statsOf env dt pts
      ∧ p'.pointNumber = pts.length
      ∧ ValRep dt enc p'.valueEncoder.reset []
      ∧ decodePage dt enc p'.buffer = some pts ∧ p'.buffer.length ≤ 18 * pts.length + 38
      ∧ (enc = .PLAIN → pts.length ≤ p'.buffer.length)
      ∧ ∀ cm, p'.buffer = Ref.pageContent ⟨dt, enc, cm⟩ pts := by
  obtain ⟨te, tb, hts, htd, htl, hte⟩ :=
    serialize_rep longToBytes packOk_long (by rfl) (by omega) (by omega) _ _ h.time
  obtain ⟨ve, vb, hvs, hvr, hvd, hvl, hpl, hve⟩ := valRep_serialize h.value
  simp only [List.length_map] at htl hvl hpl
  refine ⟨{ p with timeEncoder := te, valueEncoder := ve,
                   buffer := writeVarU32 (u32 tb.length) ++ tb ++ vb },
    by simp only [PageWriter.prepareBuffer, hts, hvs], h.dataType, h.stats, h.count, hvr, ?_, ?_, ?_, ?_⟩
  · have hz : (pts.map Prod.fst).zip (pts.map Prod.snd) = pts := by
      induction pts with
      | nil => rfl
      | cons a l ih => simp [List.zip_map']
    simp only [decodePage, List.append_assoc, pVarU_writeVarU32, Option.bind_eq_bind, Option.bind_some]
    rw [u32_toNat _ (by omega), pTake_append _ _ _ rfl]
    simp [htd, hvd, hz]
  · have := length_writeVarU32_le (u32 tb.length)
    simp only [List.length_append]
    omega
  · intro he
    have := hpl he
    simp only [List.length_append]
    omega
  · intro cm
    simp only [Ref.pageContent, ← hte, ← hve]
    rw [varint_u32 (by omega)]

end TsFile
