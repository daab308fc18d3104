import Verif.Spec.Checked
import Verif.Proofs.CheckedSame
import Verif.Proofs.Memory
/-! # Builds with overflow checks: where the checks cannot fail, encoders to chunks -/

namespace TsFile
open Spec

theorem mem_diffs {l : List Int} {x : Int} (h : x ∈ diffs l) : ∃ (i : Nat) (a b : Int), l[i]? = some a ∧ l[i + 1]? = some b ∧ x = b - a := by
  induction l with
  | nil => simp [diffs] at h
  | cons a l ih =>
    cases l with
    | nil => simp [diffs] at h
    | cons b l =>
      simp only [diffs, List.mem_cons] at h
      rcases h with rfl | h
      · exact ⟨0, a, b, rfl, rfl, rfl⟩
      · obtain ⟨i, a', b', h1, h2, h3⟩ := ih h
        exact ⟨i + 1, a', b', h1, h2, h3⟩

theorem Spec.RunsFit.infix {w : Nat} {vs vs' : List (BitVec w)} (h : RunsFit w vs') (hi : vs <:+: vs') : RunsFit w vs :=
  fun b hb hl => h b (hb.trans hi) hl

/-! ## the delta encoders -/

theorem deltasOf_diffs {w : Nat} (f : BitVec w) (rest : List (BitVec w))
    (h : ∀ x ∈ diffs ((f :: rest).map BitVec.toInt), InRange w x) :
    (deltasOf f rest).map BitVec.toInt = diffs ((f :: rest).map BitVec.toInt) := by
  induction rest generalizing f with
  | nil => rfl
  | cons v rest ih =>
    simp only [List.map_cons, diffs, List.mem_cons, forall_eq_or_imp] at h
    simp only [deltasOf, List.map_cons, diffs]
    have h1 := ih v h.2
    rw [List.map_cons] at h1
    rw [h1]
    congr 1
    cases hs : subC v f with
    | none => exact absurd h.1 (subC_none.1 hs)
    | some x => obtain ⟨e1, e2, _⟩ := subC_some hs; rw [← e1, e2]

theorem EncRep.curRep {w : Nat} {e : Ts2Diff w} {vs : List (BitVec w)} (h : EncRep e vs) (hr : RunsFit w vs) :
    ∃ cur, cur <:+ vs ∧ CurRep e cur := by
  obtain ⟨⟨blocks, done, cur, hvs, hbuf, hall, hcur⟩, hmin, _⟩ := h
  have hsuf : cur <:+ vs := by rw [hvs]; exact List.suffix_append _ _
  refine ⟨cur, hsuf, ?_⟩
  cases cur with
  | nil =>
    obtain ⟨h1, h2⟩ := hcur
    exact ⟨h1, by simp, by simp [h2, diffs], by simp [diffs], hmin.init, hmin.lower, hmin.attained, by simp⟩
  | cons f rest =>
    obtain ⟨h1, h2, h3, h4⟩ := hcur
    have hb := hr _ hsuf.isInfix (by simp; omega)
    refine ⟨h1, fun x hx => ?_, by rw [h2]; exact deltasOf_diffs f rest hb.diff, hb.diff, hmin.init, hmin.lower, hmin.attained,
      by simp; omega⟩
    rw [h3]
    cases rest with
    | nil => simpa using hx
    | cons y rest =>
      rw [List.getLast?_cons_cons] at hx
      rw [List.getLastD_eq_getLast?, hx]
      rfl

theorem EncRep.writeC {w : Nat} {tb : BitVec w → Bytes → Nat → Nat → Option Bytes} (hp : PackOk w tb) (h8 : w % 8 = 0) (hw : w ≤ 64)
    {e : Ts2Diff w} {vs : List (BitVec w)} {v : BitVec w} (h : EncRep e vs) (hr : RunsFit w (vs ++ [v])) :
    (e.writeC tb v).isSome := by
  obtain ⟨cur, hsuf, hcur⟩ := h.curRep (hr.infix (List.prefix_append _ _).isInfix)
  have hl := hcur.len
  have hb : BlockFits w (cur ++ [v]) := by
    obtain ⟨pre, rfl⟩ := hsuf
    refine hr _ ?_ (by simp; omega)
    rw [List.append_assoc]
    exact (List.suffix_append _ _).isInfix
  obtain ⟨t1, t2⟩ := takeC_iff hcur v
  rw [Ts2Diff.writeC]
  cases ht : Ts2Diff.takeC e v with
  | none => exact absurd hb (t1 ht)
  | some e' =>
    obtain ⟨r1, _, r3, r4, _, r6, r7, _⟩ := t2 e' ht
    dsimp only
    split
    · obtain ⟨f1, _⟩ := flushC_iff tb hp h8 hw r1 r3 r4 r6 r7 (by simp; omega)
      rw [Option.isSome_iff_ne_none]
      exact fun hc => f1.1 hc hb
    · rfl

theorem EncRep.serializeC {w : Nat} {tb : BitVec w → Bytes → Nat → Nat → Option Bytes} (hp : PackOk w tb) (h8 : w % 8 = 0) (hw : w ≤ 64)
    {e : Ts2Diff w} {vs : List (BitVec w)} (h : EncRep e vs) (hr : RunsFit w vs) : (e.serializeC tb).isSome := by
  obtain ⟨cur, hsuf, hcur⟩ := h.curRep hr
  have hl := hcur.len
  obtain ⟨f1, _⟩ := flushC_iff tb hp h8 hw hcur.first hcur.vals hcur.fits hcur.min hcur.attained (by omega)
  rw [Ts2Diff.serializeC]
  cases hf : Ts2Diff.flushC tb e with
  | none => exact absurd (hr _ hsuf.isInfix (by omega)) (f1.1 hf)
  | some e' => rfl

/-- The values of a series fit the encoder of the series. -/
def ValsFit (enc : TSEncoding) (vs : List IoTDBValue) : Prop :=
  enc = .TS2DIFF → (∀ xs : List W32, xs.map IoTDBValue.INT <:+: vs → RunsFit 32 xs)
    ∧ (∀ xs : List W64, xs.map IoTDBValue.LONG <:+: vs → RunsFit 64 xs)

/-- The points of a series fit the encoders and the counters. -/
structure PtsFit (enc : TSEncoding) (pts : List Point) : Prop where
  times : RunsFit 64 (pts.map Prod.fst)
  vals : ValsFit enc (pts.map Prod.snd)
  len : pts.length < 2 ^ 32

theorem PtsFit.infix {enc : TSEncoding} {pts pts' : List Point} (h : PtsFit enc pts') (hi : pts <:+: pts') : PtsFit enc pts := by
  refine ⟨h.times.infix (hi.map _), fun he => ?_, Nat.lt_of_le_of_lt hi.length_le h.len⟩
  obtain ⟨h1, h2⟩ := h.vals he
  exact ⟨fun xs hx => h1 xs (hx.trans (hi.map _)), fun xs hx => h2 xs (hx.trans (hi.map _))⟩

theorem ValRep.writeC {dt : TSDataType} {enc : TSEncoding} {ve : ValueEncoder} {vs : List IoTDBValue} {v : IoTDBValue}
    (h : ValRep dt enc ve vs) (hv : fits dt v = true) (hf : ValsFit enc (vs ++ [v])) : (ve.writeC v).isSome := by
  cases h with
  | plain _ e _ hd hb ht => rfl
  | int e xs h =>
    cases v <;> simp [fits] at hv
    next v =>
    have h1 := (hf rfl).1 (xs ++ [v]) (by simp)
    simp only [ValueEncoder.writeC, Option.isSome_map]
    exact h.writeC packOk_int (by rfl) (by omega) h1
  | long e xs h =>
    cases v <;> simp [fits] at hv
    next v =>
    have h1 := (hf rfl).2 (xs ++ [v]) (by simp)
    simp only [ValueEncoder.writeC, Option.isSome_map]
    exact h.writeC packOk_long (by rfl) (by omega) h1

theorem ValRep.serializeC {dt : TSDataType} {enc : TSEncoding} {ve : ValueEncoder} {vs : List IoTDBValue}
    (h : ValRep dt enc ve vs) (hf : ValsFit enc vs) : ve.serializeC.isSome := by
  cases h with
  | plain _ e _ hd hb ht => rfl
  | int e xs h =>
    simp only [ValueEncoder.serializeC, Option.isSome_map]
    exact h.serializeC packOk_int (by rfl) (by omega) ((hf rfl).1 xs (List.infix_refl _))
  | long e xs h =>
    simp only [ValueEncoder.serializeC, Option.isSome_map]
    exact h.serializeC packOk_long (by rfl) (by omega) ((hf rfl).2 xs (List.infix_refl _))

/-! ## the statistics -/

theorem uaddC_isSome {w : Nat} {a b : BitVec w} (h : a.toNat + b.toNat < 2 ^ w) : uaddC a b = some (a + b) := by
  rw [uaddC, if_neg]
  rw [BitVec.uaddOverflow]
  simp only [ge_iff_le, decide_eq_true_eq]
  omega

theorem addC_isSome {w : Nat} {a b : BitVec w} (h : InRange w (a.toInt + b.toInt)) :
    addC a b = some (a + b) ∧ (a + b).toInt = a.toInt + b.toInt := by
  have ho : ¬ a.saddOverflow b = true := by
    rw [BitVec.saddOverflow]
    simp only [Bool.or_eq_true, decide_eq_true_eq]
    rw [InRange] at h
    omega
  exact ⟨by rw [addC, if_neg ho], BitVec.toInt_add_of_not_saddOverflow (by simpa using ho)⟩

/-- An integer sum is at most what `n` values of 32 bits can sum to. -/
def SumLe (n : Nat) : Statistics → Prop
  | .INT32 s => -(2 ^ 31 * (n : Int)) ≤ s.sumValue.toInt ∧ s.sumValue.toInt ≤ 2 ^ 31 * (n : Int)
  | _ => True

/-- The count is `n`, and an integer sum is at most what `n` values of 32 bits can sum to. -/
structure SumOk (s : Statistics) (n : Nat) : Prop where
  count : s.count = u32 n
  sum : SumLe n s

theorem sumOk_new (env : Env) (dt : TSDataType) : SumOk (Statistics.new env dt) 0 := by
  cases dt <;> refine ⟨rfl, ?_⟩ <;> simp [SumLe, Statistics.new, StatisticsStruct.new, statI32]

theorem SumOk.updateC {env : Env} {s : Statistics} {n : Nat} (h : SumOk s n) (hn : n + 1 < 2 ^ 32) (t : W64) {v : IoTDBValue}
    (hv : fits s.type v = true) : ∃ s', s.updateC env t v = some s' ∧ SumOk s' (n + 1) := by
  have hc := h.count
  have hcn : s.count.toNat = n := by rw [hc, u32_toNat _ (by omega)]
  have hadd : ∀ c : W32, c = s.count → uaddC c 1 = some (c + 1) := by
    rintro c rfl
    exact uaddC_isSome (by rw [hcn]; exact hn)
  have hc1 : s.count + 1 = u32 (n + 1) := by rw [hc, ← u32_add]; rfl
  have hs := h.sum
  cases s <;> cases v <;> simp only [fits, Statistics.type, Bool.false_eq_true, reduceCtorEq] at hv
  case INT32.INT s v =>
    have h1 := BitVec.toInt_lt (x := v)
    have h2 := BitVec.le_toInt (x := v)
    have hse : (statI32.toSum v).toInt = v.toInt := BitVec.toInt_signExtend_of_le (by omega)
    simp only [Nat.reduceSub] at h1 h2
    obtain ⟨a1, a2⟩ := addC_isSome (w := 64) (a := s.sumValue) (b := statI32.toSum v) (by
      simp only [SumLe] at hs
      rw [InRange, hse]
      simp only [Nat.reduceSub]
      omega)
    refine ⟨.INT32 { s.update statI32 t v with count := s.count + 1, sumValue := s.sumValue + statI32.toSum v },
      by rw [Statistics.updateC, StatisticsStruct.updateC, hadd s.count rfl]; simp only [a1]; rfl, ⟨hc1, ?_⟩⟩
    simp only [SumLe] at hs ⊢
    rw [a2, hse]
    push_cast
    omega
  case INT64.LONG s v =>
    exact ⟨.INT64 { s.update (statI64 env) t v with count := s.count + 1, sumValue := env.f64Add s.sumValue ((statI64 env).toSum v) },
      by rw [Statistics.updateC, StatisticsStruct.updateC, hadd s.count rfl]; rfl, ⟨hc1, trivial⟩⟩
  case FLOAT.FLOAT s v =>
    exact ⟨.FLOAT { s.update (statF32 env) t v with count := s.count + 1, sumValue := env.f64Add s.sumValue ((statF32 env).toSum v) },
      by rw [Statistics.updateC, StatisticsStruct.updateC, hadd s.count rfl]; rfl, ⟨hc1, trivial⟩⟩

theorem SumOk.mergeC {env : Env} {s o : Statistics} {n k : Nat} (h : SumOk s n) (ho : SumOk o k) (hn : n + k < 2 ^ 32)
    (ht : s.type = o.type) : ∃ s', s.mergeC env o = some s' ∧ SumOk s' (n + k) := by
  have hc := h.count
  have hcn : s.count.toNat = n := by rw [hc, u32_toNat _ (by omega)]
  have hck : o.count.toNat = k := by rw [ho.count, u32_toNat _ (by omega)]
  have hadd : ∀ c c' : W32, c = s.count → c' = o.count → uaddC c c' = some (c + c') := by
    rintro c c' rfl rfl
    exact uaddC_isSome (by rw [hcn, hck]; exact hn)
  have hc1 : s.count + o.count = u32 (n + k) := by rw [hc, ho.count, u32_add]
  have hs := h.sum
  have hso := ho.sum
  cases s <;> cases o <;> simp only [Statistics.type, reduceCtorEq] at ht
  case INT32.INT32 s o =>
    simp only [SumLe] at hs hso
    obtain ⟨a1, a2⟩ := addC_isSome (w := 64) (a := s.sumValue) (b := o.sumValue) (by
      rw [InRange]
      simp only [Nat.reduceSub]
      omega)
    refine ⟨.INT32 { s.merge statI32 o with count := s.count + o.count, sumValue := s.sumValue + o.sumValue },
      by rw [Statistics.mergeC, StatisticsStruct.mergeC, hadd s.count o.count rfl rfl]; simp only [a1]; rfl, ⟨hc1, ?_⟩⟩
    simp only [SumLe]
    rw [a2]
    push_cast
    omega
  case INT64.INT64 s o =>
    exact ⟨.INT64 { s.merge (statI64 env) o with count := s.count + o.count, sumValue := env.f64Add s.sumValue o.sumValue },
      by rw [Statistics.mergeC, StatisticsStruct.mergeC, hadd s.count o.count rfl rfl]; rfl, ⟨hc1, trivial⟩⟩
  case FLOAT.FLOAT s o =>
    exact ⟨.FLOAT { s.merge (statF32 env) o with count := s.count + o.count, sumValue := env.f64Add s.sumValue o.sumValue },
      by rw [Statistics.mergeC, StatisticsStruct.mergeC, hadd s.count o.count rfl rfl]; rfl, ⟨hc1, trivial⟩⟩

theorem SumOk.upd {env : Env} {s : Statistics} {n : Nat} (h : SumOk s n) (hn : n + 1 < 2 ^ 32) (p : Point)
    (hv : fits s.type p.2 = true) : SumOk (s.upd env p) (n + 1) := by
  obtain ⟨s', h1, h2⟩ := h.updateC (env := env) hn p.1 hv
  have h3 := Statistics.updateC_some h1
  rw [(update_some env s p.1 p.2).1 hv, Option.some.injEq] at h3
  rw [show p = (p.1, p.2) from rfl, h3]
  exact h2

theorem SumOk.mrg {env : Env} {s o : Statistics} {n k : Nat} (h : SumOk s n) (ho : SumOk o k) (hn : n + k < 2 ^ 32)
    (ht : s.type = o.type) : SumOk (s.mrg env o) (n + k) := by
  obtain ⟨s', h1, h2⟩ := h.mergeC (env := env) ho hn ht
  have h3 := Statistics.mergeC_some h1
  rw [merge_some env s o ht, Option.some.injEq] at h3
  rw [h3]
  exact h2

theorem sumOk_foldl {env : Env} (pts : List Point) {s : Statistics} {n : Nat} (h : SumOk s n) (hn : n + pts.length < 2 ^ 32)
    (ht : ∀ p ∈ pts, fits s.type p.2 = true) : SumOk (pts.foldl (Statistics.upd env) s) (n + pts.length) := by
  induction pts generalizing s n with
  | nil => exact h
  | cons p pts ih =>
    rw [List.length_cons] at hn ⊢
    have h1 := ih (h.upd (env := env) (by omega) p (ht p (by simp))) (by omega)
      (by rw [upd_type]; exact fun q hq => ht q (by simp [hq]))
    rw [List.foldl_cons]
    rwa [show n + (pts.length + 1) = n + 1 + pts.length by omega]

theorem sumOk_statsOf {env : Env} {dt : TSDataType} {pts : List Point} (hn : pts.length < 2 ^ 32)
    (ht : ∀ p ∈ pts, fits dt p.2 = true) : SumOk (statsOf env dt pts) pts.length := by
  have h := sumOk_foldl (env := env) pts (sumOk_new env dt) (by omega) (by rw [new_type]; exact ht)
  rwa [Nat.zero_add] at h

theorem sumOk_chunkStats {env : Env} {dt : TSDataType} (pages : List GPage) (hn : (pagesPoints pages).length < 2 ^ 32)
    (ht : ∀ g ∈ pages, ∀ p ∈ g.pts, fits dt p.2 = true) : SumOk (chunkStats env dt pages) (pagesPoints pages).length := by
  have key : ∀ (l : List GPage) (st : Statistics) (n : Nat), SumOk st n → st.type = dt → n + (pagesPoints l).length < 2 ^ 32 →
      (∀ g ∈ l, ∀ p ∈ g.pts, fits dt p.2 = true) →
      SumOk ((l.map (fun g => statsOf env dt g.pts)).foldl (Statistics.mrg env) st) (n + (pagesPoints l).length) := by
    intro l
    induction l with
    | nil => intro st n h _ _ _; exact h
    | cons g l ih =>
      intro st n h hst hlt htl
      have hpp : pagesPoints (g :: l) = g.pts ++ pagesPoints l := by simp [pagesPoints]
      rw [hpp, List.length_append] at hlt ⊢
      have h1 := ih _ _ (h.mrg (env := env) (sumOk_statsOf (env := env) (by omega) (htl g (by simp))) (by omega)
        (by rw [hst, statsOf_type])) (by rw [mrg_type, hst]) (by omega) (fun x hx => htl x (by simp [hx]))
      rw [List.map_cons, List.foldl_cons]
      rwa [← Nat.add_assoc]
  have h1 := key pages _ 0 (sumOk_new env dt) (new_type env dt) (by omega) ht
  rwa [Nat.zero_add] at h1

/-! ## pages -/

theorem PageRep.writeC {env : Env} {dt : TSDataType} {enc : TSEncoding} {p : PageWriter} {pts : List Point}
    (h : PageRep env dt enc p pts) {t : W64} {v : IoTDBValue} (hv : fits dt v = true) (hf : PtsFit enc (pts ++ [(t, v)])) :
    (p.writeC env t v).isSome := by
  have hl := hf.len
  rw [List.length_append, List.length_singleton] at hl
  have h1 := h.time.writeC packOk_long (by rfl) (by omega) (v := t) (by simpa using hf.times)
  have h2 := h.value.writeC hv (by simpa using hf.vals)
  have h3 : ∃ st, p.statistics.updateC env t v = some st := by
    rw [h.stats]
    obtain ⟨st, hst, _⟩ := (sumOk_statsOf (env := env) (dt := dt) (by omega) h.typed).updateC (env := env) hl t
      (v := v) (by rw [statsOf_type]; exact hv)
    exact ⟨st, hst⟩
  obtain ⟨te, hte⟩ := Option.isSome_iff_exists.1 h1
  obtain ⟨ve, hve⟩ := Option.isSome_iff_exists.1 h2
  obtain ⟨st, hst⟩ := h3
  rw [PageWriter.writeC, hte]
  dsimp only
  rw [hve]
  dsimp only
  rw [hst]
  dsimp only
  rw [if_pos (by rw [h.count]; exact hl)]
  rfl

theorem PageRep.prepareC {env : Env} {dt : TSDataType} {enc : TSEncoding} {p : PageWriter} {pts : List Point}
    (h : PageRep env dt enc p pts) (hf : PtsFit enc pts) : p.prepareBufferC.isSome := by
  have h1 := h.time.serializeC packOk_long (by rfl) (by omega) hf.times
  have h2 := h.value.serializeC hf.vals
  obtain ⟨te, hte⟩ := Option.isSome_iff_exists.1 h1
  obtain ⟨ve, hve⟩ := Option.isSome_iff_exists.1 h2
  rw [PageWriter.prepareBufferC, hte]
  dsimp only
  rw [hve]
  rfl

theorem u32_toNat_le (n : Nat) : (u32 n).toNat ≤ n := by
  rw [u32, BitVec.toNat_ofNat]; exact Nat.mod_le _ _

theorem uaddC_u32 {a b : Nat} (h : a + b < 2 ^ 32) : uaddC (u32 a) (u32 b) = some (u32 (a + b)) := by
  rw [uaddC_isSome, u32_add]
  rw [u32_toNat _ (by omega), u32_toNat _ (by omega)]
  exact h

theorem PageWriter.estimateC_isSome {p : PageWriter} (h : p.memN < 2 ^ 32) : p.estimateMaxMemSizeC = some (u32 p.memN) := by
  have key : ∀ (sz mx s2 m2 : Nat), sz + mx + (s2 + m2) < 2 ^ 32 →
      (match uaddC (u32 sz) (u32 s2) with
        | none => none
        | some a => match uaddC a (u32 mx) with
          | none => none
          | some b => uaddC b (u32 m2)) = some (u32 (sz + mx + (s2 + m2))) := by
    intro sz mx s2 m2 hh
    rw [uaddC_u32 (by omega)]
    dsimp only
    rw [uaddC_u32 (by omega)]
    dsimp only
    rw [uaddC_u32 (by omega)]
    congr 2
    omega
  rw [estimateMaxMemSizeC]
  rw [memN] at h ⊢
  cases hv : p.valueEncoder with
  | plain e =>
    rw [hv] at h
    simp only [ValueEncoder.memN] at h ⊢
    simp only [ValueEncoder.size, ValueEncoder.getMaxByteSize, PlainEncoder.size, PlainEncoder.getMaxByteSize, Ts2Diff.size, Ts2Diff.getMaxByteSize]
    cases hd : e.dataType with
    | INT32 => rw [hd] at h; exact key _ _ _ _ h
    | INT64 => rw [hd] at h; exact key _ _ _ 0 h
    | FLOAT => rw [hd] at h; exact key _ _ _ 0 h
  | long e => rw [hv] at h; exact key _ _ _ _ h
  | int e => rw [hv] at h; exact key _ _ _ _ h

/-! ## chunks -/

theorem pages_length_le {unsnap : Bytes → Option Bytes} {ms : MeasurementSchema} (pages : List GPage) (h : ∀ g ∈ pages, g.Ok unsnap ms) :
    pages.length ≤ (pagesPoints pages).length := by
  induction pages with
  | nil => simp
  | cons g pages ih =>
    have h1 := ih (fun x hx => h x (by simp [hx]))
    have h2 := List.length_pos_iff.2 (h g (by simp)).ne
    simp only [pagesPoints, List.map_cons, List.flatten_cons, List.length_append, List.length_cons] at h1 ⊢
    omega

theorem ChunkRep.writePageC {env : Env} {unsnap : Bytes → Option Bytes}
    {id : Bytes} {ms : MeasurementSchema} {c : ChunkWriter} {pages : List GPage} {cur : List Point}
    (h : ChunkRep env unsnap id ms c pages cur) (hne : cur ≠ []) (hle : cur.length ≤ 1048577)
    (hf : PtsFit ms.encoding (pagesPoints pages ++ cur)) : c.writePageToBufferC env = c.writePageToBuffer env := by
  have hl := hf.len
  rw [List.length_append] at hl
  have hcl := List.length_pos_iff.2 hne
  have hpl := pages_length_le pages h.ok
  have hpage := h.page
  rw [ChunkWriter.writePageToBufferC]
  cases hc : c.currentPageWriter with
  | none => rw [hc] at hpage; exact absurd hpage.1 hne
  | some p =>
    rw [hc] at hpage
    dsimp only at hpage ⊢
    obtain ⟨p', hp', hd, hst, _⟩ := pageRep_prepare env hpage (by omega)
    obtain ⟨p2, hp2⟩ := Option.isSome_iff_exists.1 (hpage.prepareC (hf.infix (List.suffix_append _ _).isInfix))
    have hpp := PageWriter.prepareBufferC_some hp2
    rw [hp', Option.some.injEq] at hpp
    subst hpp
    rw [hp2]
    dsimp only
    cases ChunkWriter.pageContent env c.compression p'.buffer with
    | none => rfl
    | some x =>
      dsimp only
      rw [if_pos (by rw [h.numPages]; omega)]
      obtain ⟨s', hs', _⟩ := (sumOk_chunkStats (env := env) pages (by omega) (fun g hg => (h.ok g hg).typed)).mergeC (env := env)
        (sumOk_statsOf (env := env) (dt := ms.dataType) (pts := cur) (by omega) hpage.typed) (by omega)
        (by rw [chunkStats_type, statsOf_type])
      rw [h.stats, hst, hs']

theorem ChunkRep.sealC {env : Env} {unsnap : Bytes → Option Bytes}
    {id : Bytes} {ms : MeasurementSchema} {c : ChunkWriter} {pages : List GPage} {cur : List Point}
    (h : ChunkRep env unsnap id ms c pages cur) (hle : cur.length ≤ 1048577)
    (hf : PtsFit ms.encoding (pagesPoints pages ++ cur)) : c.sealCurrentPageC env = c.sealCurrentPage env := by
  rw [ChunkWriter.sealCurrentPageC, ChunkWriter.sealCurrentPage]
  have hpage := h.page
  cases hc : c.currentPageWriter with
  | none => rfl
  | some p =>
    rw [hc] at hpage
    dsimp only at hpage ⊢
    by_cases h0 : p.pointNumber > 0
    · rw [if_pos h0, if_pos h0]
      refine h.writePageC (fun hn => ?_) hle hf
      rw [hpage.count, hn] at h0
      simp at h0
    · rw [if_neg h0, if_neg h0]

theorem ChunkRep.estimateC {env : Env} {unsnap : Bytes → Option Bytes}
    {id : Bytes} {ms : MeasurementSchema} {c : ChunkWriter} {pages : List GPage} {cur : List Point}
    (_h : ChunkRep env unsnap id ms c pages cur) (hm : c.memN < 2 ^ 32) : c.estimateMaxSeriesMemSizeC = some (u32 c.memN) := by
  rw [ChunkWriter.memN] at hm ⊢
  rw [ChunkWriter.estimateMaxSeriesMemSizeC]
  cases hc : c.currentPageWriter with
  | none => rfl
  | some p =>
    rw [hc] at hm
    dsimp only at hm ⊢
    have h10 : (2 * (4 + 1) : W32) = u32 10 := rfl
    rw [PageWriter.estimateC_isSome (by omega), Statistics.sizeN_eq, h10]
    dsimp only
    rw [uaddC_u32 (by omega)]
    dsimp only
    rw [uaddC_u32 (by omega)]
    dsimp only
    rw [uaddC_u32 (by omega)]

theorem ChunkRep.checkC {env : Env} {unsnap : Bytes → Option Bytes}
    {id : Bytes} {ms : MeasurementSchema} {c : ChunkWriter} {pages : List GPage} {cur : List Point}
    (h : ChunkRep env unsnap id ms c pages cur) (hne : cur ≠ []) (hle : cur.length ≤ 1048577)
    (hf : PtsFit ms.encoding (pagesPoints pages ++ cur)) : c.checkPageSizeC env = c.checkPageSize env := by
  rw [ChunkWriter.checkPageSizeC, ChunkWriter.checkPageSize]
  have hpage := h.page
  have hw := h.writePageC hne hle hf
  cases hc : c.currentPageWriter with
  | none => rfl
  | some p =>
    rw [hc] at hpage
    dsimp only at hpage ⊢
    rw [hw]
    have hm := hpage.mem_le
    rw [PageWriter.estimateC_isSome (by omega), PageWriter.memN_eq]
    dsimp only
    split
    · rfl
    · split
      · split
        · cases c.writePageToBuffer env <;> rfl
        · rw [← hc]
      · rfl

theorem ChunkRep.writeC {env : Env} {unsnap : Bytes → Option Bytes}
    {id : Bytes} {ms : MeasurementSchema} {c : ChunkWriter} {pages : List GPage} {cur : List Point}
    (h : ChunkRep env unsnap id ms c pages cur) (hle : cur.length ≤ 1048576) {t : W64} {v : IoTDBValue}
    (hv : fits ms.dataType v = true) (hf : PtsFit ms.encoding (pagesPoints pages ++ cur ++ [(t, v)])) :
    c.writeC env t v = c.write env t v := by
  have hpage := h.page
  rw [ChunkWriter.writeC, ChunkWriter.write]
  cases ho : c.openPage env with
  | error e => rfl
  | ok p =>
    have hp : PageRep env ms.dataType ms.encoding p cur := by
      rw [ChunkWriter.openPage] at ho
      cases hc : c.currentPageWriter with
      | some q => rw [hc] at ho hpage; cases ho; exact hpage
      | none =>
        rw [hc] at ho hpage
        obtain ⟨rfl, -⟩ := hpage
        dsimp only at ho
        rw [h.dataType, h.encoding] at ho
        exact pageRep_new env _ _ p ho
    dsimp only
    obtain ⟨p', hw, hp'⟩ := (pageRep_write env hp t v).1 hv
    obtain ⟨p2, hp2⟩ := Option.isSome_iff_exists.1 (hp.writeC hv (t := t) (hf.infix (by
      rw [List.append_assoc]; exact (List.suffix_append _ _).isInfix)))
    have := PageWriter.writeC_some hp2
    rw [hw, Option.some.injEq] at this
    subst this
    rw [hw, hp2]
    dsimp only
    have hrep : ChunkRep env unsnap id ms { c with currentPageWriter := some p' } pages (cur ++ [(t, v)]) :=
      ⟨h.id_eq, h.dataType, h.encoding, h.compression, h.ok, h.stats, h.numPages, h.buffer, h.first, h.size0,
        h.size1, hp'⟩
    rw [hrep.checkC (by simp) (by simp; omega) (by rw [← List.append_assoc]; exact hf)]
    cases ChunkWriter.checkPageSize env { c with currentPageWriter := some p' } <;> rfl

end TsFile
