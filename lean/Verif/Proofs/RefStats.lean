import Verif.Proofs.RefEncode
import Verif.Proofs.Stats
import Verif.Proofs.Chunk
/-! # Statistics are those of the reference -/

namespace TsFile
open Spec

variable {env : Env} {unsnap : Bytes → Option Bytes}

/-! ## summaries, one part after the other -/

/-- One more part. -/
def join (env : Env) (dt : TSDataType) (s o : Ref.Summary) : Ref.Summary :=
  { count := (s.count + o.count) % 2 ^ 32
    start := if o.start.toInt < s.start.toInt then o.start else s.start
    stop := if s.stop.toInt < o.stop.toInt then o.stop else s.stop
    low := if Ref.less dt o.low s.low then o.low else s.low
    high := if Ref.less dt s.high o.high then o.high else s.high
    first := if o.start.toInt < s.start.toInt then o.first else s.first
    last := if s.stop.toInt < o.stop.toInt then o.last else s.last
    sum := Ref.plus env dt s.sum o.sum }

theorem least_append {w : Nat} (l : List (BitVec w)) (x : BitVec w) :
    Ref.least (l ++ [x]) = if x.toInt < (Ref.least l).toInt then x else Ref.least l := by
  rw [Ref.least, List.foldl_append]
  rfl

theorem greatest_append {w : Nat} (l : List (BitVec w)) (x : BitVec w) :
    Ref.greatest (l ++ [x]) = if (Ref.greatest l).toInt < x.toInt then x else Ref.greatest l := by
  rw [Ref.greatest, List.foldl_append]
  rfl

theorem least_spec (l : List W64) : (∀ x ∈ l, (Ref.least l).toInt ≤ x.toInt) ∧ ((Ref.least l).toInt < 2 ^ 63 - 1 → Ref.least l ∈ l) := by
  induction l using List.reverseRecOn with
  | nil =>
    refine ⟨by simp, fun h => ?_⟩
    exact absurd h (by decide)
  | append_singleton l x ih =>
    rw [least_append]
    split
    · refine ⟨fun y hy => ?_, fun _ => by simp⟩
      rcases List.mem_append.1 hy with hy | hy
      · have := ih.1 y hy; omega
      · rw [List.mem_singleton.1 hy]; exact Int.le_refl _
    · refine ⟨fun y hy => ?_, fun h => List.mem_append_left _ (ih.2 h)⟩
      rcases List.mem_append.1 hy with hy | hy
      · exact ih.1 y hy
      · rw [List.mem_singleton.1 hy]; omega

theorem greatest_spec (l : List W64) : (∀ x ∈ l, x.toInt ≤ (Ref.greatest l).toInt) ∧ (- 2 ^ 63 < (Ref.greatest l).toInt → Ref.greatest l ∈ l) := by
  induction l using List.reverseRecOn with
  | nil =>
    refine ⟨by simp, fun h => ?_⟩
    exact absurd h (by decide)
  | append_singleton l x ih =>
    rw [greatest_append]
    split
    · refine ⟨fun y hy => ?_, fun _ => by simp⟩
      rcases List.mem_append.1 hy with hy | hy
      · have := ih.1 y hy; omega
      · rw [List.mem_singleton.1 hy]; exact Int.le_refl _
    · refine ⟨fun y hy => ?_, fun h => List.mem_append_left _ (ih.2 h)⟩
      rcases List.mem_append.1 hy with hy | hy
      · exact ih.1 y hy
      · rw [List.mem_singleton.1 hy]; omega

theorem toInt_lt (x : W64) : - 2 ^ 63 ≤ x.toInt ∧ x.toInt ≤ 2 ^ 63 - 1 := by
  have := x.toInt_lt
  have := x.le_toInt
  constructor <;> omega

/-- The first value with one more part. -/
theorem first_append (l : List Ref.Summary) (x : Ref.Summary) :
    (((l ++ [x]).find? (fun s => decide (s.start = Ref.least ((l ++ [x]).map Ref.Summary.start)
        ∧ (Ref.least ((l ++ [x]).map Ref.Summary.start)).toInt < 2 ^ 63 - 1))).map Ref.Summary.first).getD 0
      = if x.start.toInt < (Ref.least (l.map Ref.Summary.start)).toInt then x.first else
        ((l.find? (fun s => decide (s.start = Ref.least (l.map Ref.Summary.start)
          ∧ (Ref.least (l.map Ref.Summary.start)).toInt < 2 ^ 63 - 1))).map Ref.Summary.first).getD 0 := by
  rw [List.map_append, List.map_singleton, least_append]
  obtain ⟨h1, h2⟩ := least_spec (l.map Ref.Summary.start)
  generalize Ref.least (l.map Ref.Summary.start) = m at h1 h2
  have hm := toInt_lt m
  split
  · next hlt =>
    have hno : l.find? (fun s => decide (s.start = x.start ∧ x.start.toInt < 2 ^ 63 - 1)) = none := by
      rw [List.find?_eq_none]
      intro s hs
      have := h1 s.start (List.mem_map_of_mem hs)
      simp only [decide_eq_true_eq, not_and]
      intro he
      rw [he] at this
      omega
    rw [List.find?_append, hno]
    have : x.start.toInt < 9223372036854775807 := by omega
    simp [this]
  · by_cases hb : m.toInt < 2 ^ 63 - 1
    · have hb' : m.toInt < 9223372036854775807 := hb
      obtain ⟨s, hs, he⟩ := List.mem_map.1 (h2 hb)
      have : (l.find? (fun s => decide (s.start = m ∧ m.toInt < 2 ^ 63 - 1))).isSome = true := by
        rw [List.find?_isSome]
        exact ⟨s, hs, by simp [he, hb']⟩
      obtain ⟨y, hy⟩ := Option.isSome_iff_exists.1 this
      rw [List.find?_append, hy]
      rfl
    · have hb' : ¬ m.toInt < 9223372036854775807 := hb
      simp [hb']

/-- The last value with one more part. -/
theorem last_append (l : List Ref.Summary) (x : Ref.Summary) :
    (((l ++ [x]).find? (fun s => decide (s.stop = Ref.greatest ((l ++ [x]).map Ref.Summary.stop)
        ∧ - 2 ^ 63 < (Ref.greatest ((l ++ [x]).map Ref.Summary.stop)).toInt))).map Ref.Summary.last).getD 0
      = if (Ref.greatest (l.map Ref.Summary.stop)).toInt < x.stop.toInt then x.last else
        ((l.find? (fun s => decide (s.stop = Ref.greatest (l.map Ref.Summary.stop)
          ∧ - 2 ^ 63 < (Ref.greatest (l.map Ref.Summary.stop)).toInt))).map Ref.Summary.last).getD 0 := by
  rw [List.map_append, List.map_singleton, greatest_append]
  obtain ⟨h1, h2⟩ := greatest_spec (l.map Ref.Summary.stop)
  generalize Ref.greatest (l.map Ref.Summary.stop) = m at h1 h2
  have hm := toInt_lt m
  split
  · next hlt =>
    have hno : l.find? (fun s => decide (s.stop = x.stop ∧ - 2 ^ 63 < x.stop.toInt)) = none := by
      rw [List.find?_eq_none]
      intro s hs
      have := h1 s.stop (List.mem_map_of_mem hs)
      simp only [decide_eq_true_eq, not_and]
      intro he
      rw [he] at this
      omega
    rw [List.find?_append, hno]
    have : -9223372036854775808 < x.stop.toInt := by omega
    simp [this]
  · by_cases hb : - 2 ^ 63 < m.toInt
    · have hb' : -9223372036854775808 < m.toInt := hb
      obtain ⟨s, hs, he⟩ := List.mem_map.1 (h2 hb)
      have : (l.find? (fun s => decide (s.stop = m ∧ - 2 ^ 63 < m.toInt))).isSome = true := by
        rw [List.find?_isSome]
        exact ⟨s, hs, by simp [he, hb']⟩
      obtain ⟨y, hy⟩ := Option.isSome_iff_exists.1 this
      rw [List.find?_append, hy]
      rfl
    · have hb' : ¬ -9223372036854775808 < m.toInt := hb
      simp [hb']

theorem together_append (env : Env) (dt : TSDataType) (l : List Ref.Summary) (x : Ref.Summary) :
    Ref.together env dt (l ++ [x]) = join env dt (Ref.together env dt l) x := by
  unfold Ref.together join
  dsimp only
  rw [first_append, last_append]
  simp only [List.map_append, List.map_singleton, least_append, greatest_append, List.foldl_append, List.foldl_cons, List.foldl_nil,
    List.sum_append, List.sum_cons, List.sum_nil, Nat.add_zero, Nat.mod_add_mod]

theorem together_foldl (env : Env) (dt : TSDataType) (l : List Ref.Summary) :
    Ref.together env dt l = l.foldl (join env dt) (Ref.together env dt []) := by
  induction l using List.reverseRecOn with
  | nil => rfl
  | append_singleton l x ih => rw [together_append, List.foldl_append, ← ih]; rfl

/-! ## the statistics of the writer -/

/-- The statistics of the writer as a summary. -/
def Statistics.summary : Statistics → Ref.Summary
  | .INT32 s => ⟨s.count.toNat, s.tsFirst, s.tsLast, s.minValue.signExtend 64, s.maxValue.signExtend 64, s.firstValue.signExtend 64,
      s.lastValue.signExtend 64, s.sumValue⟩
  | .INT64 s => ⟨s.count.toNat, s.tsFirst, s.tsLast, s.minValue, s.maxValue, s.firstValue, s.lastValue, s.sumValue⟩
  | .FLOAT s => ⟨s.count.toNat, s.tsFirst, s.tsLast, s.minValue.setWidth 64, s.maxValue.setWidth 64, s.firstValue.setWidth 64,
      s.lastValue.setWidth 64, s.sumValue⟩

theorem new_summary (env : Env) (dt : TSDataType) : (Statistics.new env dt).summary = Ref.together env dt [] := by
  cases dt <;> rfl

theorem slt_decide {w : Nat} (a b : BitVec w) : a.slt b = decide (a.toInt < b.toInt) := rfl

theorem less_int (a b : W32) : Ref.less .INT32 (a.signExtend 64) (b.signExtend 64) = a.slt b := by
  rw [Ref.less, slt_decide, BitVec.toInt_signExtend_of_le (by omega), BitVec.toInt_signExtend_of_le (by omega)]
  intro h; cases h

theorem less_float (a b : W32) : Ref.less .FLOAT (a.setWidth 64) (b.setWidth 64) = f32Lt a b := by
  have h : ∀ x : W32, (x.setWidth 64).setWidth 32 = x := by
    intro x
    apply BitVec.eq_of_toNat_eq
    rw [BitVec.toNat_setWidth, BitVec.toNat_setWidth]
    have := x.isLt
    omega
  rw [Ref.less, h, h, Bool.eq_iff_iff, f32Lt_iff]
  cases f32Val a <;> cases f32Val b <;> simp

theorem ite_setWidth' (p : Prop) [Decidable p] (a b : W32) :
    (if p then a else b).setWidth 64 = if p then a.setWidth 64 else b.setWidth 64 := by split <;> rfl

theorem mrg_summary (env : Env) {dt : TSDataType} {s o : Statistics} (hs : s.type = dt) (ho : o.type = dt) :
    (s.mrg env o).summary = join env dt s.summary o.summary := by
  subst hs
  cases s <;> cases o <;> first | (cases ho; done) | skip
  · next s o =>
    simp only [Statistics.mrg, Statistics.merge, Option.getD_some, Statistics.summary, join, Statistics.type, StatisticsStruct.merge, statI32,
      less_int, slt_decide, decide_eq_true_eq, apply_ite (BitVec.signExtend 64), Ref.plus, BitVec.toNat_add]
    rfl
  · next s o =>
    simp only [Statistics.mrg, Statistics.merge, Option.getD_some, Statistics.summary, join, Statistics.type, StatisticsStruct.merge, statI64,
      Ref.less, slt_decide, decide_eq_true_eq, Ref.plus, BitVec.toNat_add]
    rfl
  · next s o =>
    simp only [Statistics.mrg, Statistics.merge, Option.getD_some, Statistics.summary, join, Statistics.type, StatisticsStruct.merge, statF32,
      less_float, slt_decide, decide_eq_true_eq, ite_setWidth', Ref.plus, BitVec.toNat_add]
    rw [Ref.Summary.mk.injEq]
    refine ⟨rfl, rfl, rfl, ?_, ?_, rfl, rfl, rfl⟩
    · by_cases h : f32Lt o.minValue s.minValue = true <;> simp [h]
    · by_cases h : f32Lt s.maxValue o.maxValue = true <;> simp [h]

theorem upd_summary (env : Env) {dt : TSDataType} {s : Statistics} {p : Point} (hs : s.type = dt) (hp : fits dt p.2 = true) :
    (s.upd env p).summary = join env dt s.summary (Ref.single env p) := by
  subst hs
  obtain ⟨t, v⟩ := p
  cases s <;> cases v <;> first | (cases hp; done) | skip
  · next s v =>
    simp only [Statistics.upd, Statistics.update, Option.getD_some, Statistics.summary, join, Statistics.type, StatisticsStruct.update, statI32,
      less_int, slt_decide, decide_eq_true_eq, apply_ite (BitVec.signExtend 64), Ref.plus, BitVec.toNat_add, Ref.single, Ref.word, Ref.summand]
    rfl
  · next s v =>
    simp only [Statistics.upd, Statistics.update, Option.getD_some, Statistics.summary, join, Statistics.type, StatisticsStruct.update, statI64,
      Ref.less, slt_decide, decide_eq_true_eq, Ref.plus, BitVec.toNat_add, Ref.single, Ref.word, Ref.summand]
    rfl
  · next s v =>
    simp only [Statistics.upd, Statistics.update, Option.getD_some, Statistics.summary, join, Statistics.type, StatisticsStruct.update, statF32,
      less_float, slt_decide, decide_eq_true_eq, ite_setWidth', Ref.plus, BitVec.toNat_add, Ref.single, Ref.word, Ref.summand]
    rw [Ref.Summary.mk.injEq]
    refine ⟨rfl, rfl, rfl, ?_, ?_, rfl, rfl, rfl⟩
    · by_cases h : f32Lt v s.minValue = true <;> simp [h]
    · by_cases h : f32Lt s.maxValue v = true <;> simp [h]

theorem statsOf_summary (env : Env) (dt : TSDataType) (pts : List Point) (h : ∀ q ∈ pts, fits dt q.2 = true) :
    (statsOf env dt pts).summary = Ref.stats env dt pts := by
  induction pts using List.reverseRecOn with
  | nil => exact new_summary env dt
  | append_singleton pts p ih =>
    rw [statsOf_append, upd_summary env (statsOf_type env dt pts) (h p (by simp)), ih (fun q hq => h q (by simp [hq])), Ref.stats, Ref.stats,
      List.map_append, List.map_singleton, together_append]

theorem mrgs_summary (env : Env) (dt : TSDataType) (l : List Statistics) (h : ∀ s ∈ l, s.type = dt) :
    (l.foldl (Statistics.mrg env) (Statistics.new env dt)).summary = Ref.together env dt (l.map Statistics.summary) := by
  have key : ∀ (l : List Statistics) (s : Statistics), s.type = dt → (∀ s ∈ l, s.type = dt) →
      (l.foldl (Statistics.mrg env) s).summary = (l.map Statistics.summary).foldl (join env dt) s.summary := by
    intro l
    induction l with
    | nil => intro s _ _; rfl
    | cons x l ih =>
      intro s hs hl
      rw [List.foldl_cons, ih _ (by rw [mrg_type, hs]) (fun s h => hl s (by simp [h])), mrg_summary env hs (hl x (by simp))]
      rfl
  rw [key l _ (new_type env dt) h, together_foldl, new_summary]

theorem big4_signExtend (x : W32) : Ref.big 4 (x.signExtend 64).toNat = be32 x := by
  rw [be32, ← big_eq, Ref.big, Ref.big]
  refine List.map_congr_left fun i hi => ?_
  rw [List.mem_range] at hi
  apply UInt8.toNat_inj.1
  simp only [UInt8.toNat_ofNat']
  have h : (x.signExtend 64).toNat % 2 ^ 32 = x.toNat := by
    have := x.isLt
    rw [BitVec.toNat_signExtend, BitVec.toNat_setWidth]
    split <;> omega
  generalize (x.signExtend 64).toNat = a at h
  rw [← h]
  obtain rfl | rfl | rfl | rfl : i = 0 ∨ i = 1 ∨ i = 2 ∨ i = 3 := by omega
  all_goals simp only [Nat.reducePow, Nat.reduceSub]; omega

theorem big4_setWidth (x : W32) : Ref.big 4 (x.setWidth 64).toNat = be32 x := by
  have := x.isLt
  rw [BitVec.toNat_setWidth, be32, ← big_eq, Nat.mod_eq_of_lt (by omega)]

theorem summary_bytes (env : Env) (s : Statistics) : s.summary.bytes s.type = s.serialize env := by
  cases s <;> simp only [Statistics.summary, Ref.Summary.bytes, Statistics.type, Statistics.serialize, StatisticsStruct.serialize, statI32,
    statI64, statF32, big4_signExtend, big4_setWidth, be64, ← big_eq, varint_eq]

theorem chunkStats_summary (env : Env) (dt : TSDataType) (pages : List GPage) (h : ∀ g ∈ pages, ∀ q ∈ g.pts, fits dt q.2 = true) :
    (chunkStats env dt pages).summary = Ref.together env dt (pages.map (fun g => Ref.stats env dt g.pts)) := by
  rw [chunkStats, mrgs_summary, List.map_map]
  · congr 1
    exact List.map_congr_left fun g hg => statsOf_summary env dt g.pts (h g hg)
  · intro s hs
    obtain ⟨g, _, rfl⟩ := List.mem_map.1 hs
    exact statsOf_type env dt g.pts

end TsFile
