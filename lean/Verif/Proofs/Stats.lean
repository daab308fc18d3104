import Verif.Proofs.Close
import Verif.Spec.Stats
import Verif.Spec.Sums
/-! # Statistics: invariants under `update` and `merge` -/

namespace TsFile
open Spec

/-- The order used by the statistics is that of integer keys; a value without a key is not comparable. -/
structure Keyed {T S : Type} (k : StatType T S) (key : T → Option Int) (lo hi : Int) : Prop where
  lt_iff : ∀ a b, k.lt a b = true ↔ ∃ x y, key a = some x ∧ key b = some y ∧ x < y
  max : key k.max = some hi
  min : key k.min = some lo

/-- `s` summarises the points `l`. -/
structure Summ {T S : Type} (k : StatType T S) (key : T → Option Int) (s : StatisticsStruct T S)
    (l : List (W64 × T)) : Prop where
  count : s.count = u32 l.length
  first : ∀ p ∈ l, s.tsFirst.toInt ≤ p.1.toInt
  first' : s.tsFirst = BitVec.intMax 64 ∨ (s.tsFirst, s.firstValue) ∈ l
  last : ∀ p ∈ l, p.1.toInt ≤ s.tsLast.toInt
  last' : s.tsLast = BitVec.intMin 64 ∨ (s.tsLast, s.lastValue) ∈ l
  min : ∃ x, key s.minValue = some x ∧ ∀ p ∈ l, ∀ y, key p.2 = some y → x ≤ y
  min' : s.minValue = k.max ∨ ∃ p ∈ l, p.2 = s.minValue
  max : ∃ x, key s.maxValue = some x ∧ ∀ p ∈ l, ∀ y, key p.2 = some y → y ≤ x
  max' : s.maxValue = k.min ∨ ∃ p ∈ l, p.2 = s.maxValue
  unset : s.tsFirst = BitVec.intMax 64 → s.firstValue = k.zero
  low : s.minValue = k.max ∨ k.lt s.minValue k.max = true
  high : s.maxValue = k.min ∨ k.lt k.min s.maxValue = true

theorem slt_iff (a b : W64) : a.slt b = true ↔ a.toInt < b.toInt := by simp [BitVec.slt]

section
variable {T S : Type} {k : StatType T S} {key : T → Option Int} {lo hi : Int}

theorem Keyed.trans (hk : Keyed k key lo hi) {a b c : T} (h : k.lt a b = true) (h' : k.lt b c = true) : k.lt a c = true := by
  obtain ⟨x, y, hx, hy, hxy⟩ := (hk.lt_iff _ _).1 h
  obtain ⟨y', z, hy', hz, hyz⟩ := (hk.lt_iff _ _).1 h'
  rw [hy] at hy'
  cases hy'
  exact (hk.lt_iff _ _).2 ⟨x, z, hx, hz, by omega⟩

theorem slt_intMax {a b : W64} (h : a.slt b = true) : a ≠ BitVec.intMax 64 := by
  intro e
  rw [slt_iff, e] at h
  have : (BitVec.intMax 64).toInt = 2 ^ 63 - 1 := by decide
  have := BitVec.toInt_lt (x := b)
  omega

theorem summ_new (hk : Keyed k key lo hi) : Summ k key (StatisticsStruct.new k) [] :=
  ⟨rfl, by simp, .inl rfl, by simp, .inl rfl, ⟨hi, hk.max, by simp⟩, .inl rfl, ⟨lo, hk.min, by simp⟩, .inl rfl, fun _ => rfl, .inl rfl, .inl rfl⟩

theorem summ_merge (hk : Keyed k key lo hi) {s o : StatisticsStruct T S} {l l' : List (W64 × T)}
    (h : Summ k key s l) (h' : Summ k key o l') : Summ k key (s.merge k o) (l ++ l') := by
  refine ⟨?_, ?_, ?_, ?_, ?_, ?_, ?_, ?_, ?_, ?_, ?_, ?_⟩
  · simp only [StatisticsStruct.merge, h.count, h'.count, List.length_append, u32, BitVec.ofNat_add]
  · intro p hp
    simp only [StatisticsStruct.merge]
    split
    · next hc =>
      rw [slt_iff] at hc
      rcases List.mem_append.1 hp with hp | hp
      · have := h.first p hp; omega
      · exact h'.first p hp
    · next hc =>
      rw [slt_iff] at hc
      rcases List.mem_append.1 hp with hp | hp
      · exact h.first p hp
      · have := h'.first p hp; omega
  · simp only [StatisticsStruct.merge]
    split
    · rcases h'.first' with e | e
      · exact .inl e
      · exact .inr (List.mem_append_right _ e)
    · rcases h.first' with e | e
      · exact .inl e
      · exact .inr (List.mem_append_left _ e)
  · intro p hp
    simp only [StatisticsStruct.merge]
    split
    · next hc =>
      rw [slt_iff] at hc
      rcases List.mem_append.1 hp with hp | hp
      · have := h.last p hp; omega
      · exact h'.last p hp
    · next hc =>
      rw [slt_iff] at hc
      rcases List.mem_append.1 hp with hp | hp
      · exact h.last p hp
      · have := h'.last p hp; omega
  · simp only [StatisticsStruct.merge]
    split
    · rcases h'.last' with e | e
      · exact .inl e
      · exact .inr (List.mem_append_right _ e)
    · rcases h.last' with e | e
      · exact .inl e
      · exact .inr (List.mem_append_left _ e)
  · obtain ⟨x, hx, h1⟩ := h.min
    obtain ⟨x', hx', h2⟩ := h'.min
    simp only [StatisticsStruct.merge]
    split
    · next hc =>
      obtain ⟨a, b, ha, hb, hab⟩ := (hk.lt_iff _ _).1 hc
      rw [hx'] at ha; rw [hx] at hb; cases ha; cases hb
      refine ⟨x', hx', fun p hp y hy => ?_⟩
      rcases List.mem_append.1 hp with hp | hp
      · have := h1 p hp y hy; omega
      · exact h2 p hp y hy
    · next hc =>
      have hc' : ¬ x' < x := fun hlt => hc ((hk.lt_iff _ _).2 ⟨x', x, hx', hx, hlt⟩)
      refine ⟨x, hx, fun p hp y hy => ?_⟩
      rcases List.mem_append.1 hp with hp | hp
      · exact h1 p hp y hy
      · have := h2 p hp y hy; omega
  · simp only [StatisticsStruct.merge]
    split
    · rcases h'.min' with e | ⟨p, hp, e⟩
      · exact .inl e
      · exact .inr ⟨p, List.mem_append_right _ hp, e⟩
    · rcases h.min' with e | ⟨p, hp, e⟩
      · exact .inl e
      · exact .inr ⟨p, List.mem_append_left _ hp, e⟩
  · obtain ⟨x, hx, h1⟩ := h.max
    obtain ⟨x', hx', h2⟩ := h'.max
    simp only [StatisticsStruct.merge]
    split
    · next hc =>
      obtain ⟨a, b, ha, hb, hab⟩ := (hk.lt_iff _ _).1 hc
      rw [hx] at ha; rw [hx'] at hb; cases ha; cases hb
      refine ⟨x', hx', fun p hp y hy => ?_⟩
      rcases List.mem_append.1 hp with hp | hp
      · have := h1 p hp y hy; omega
      · exact h2 p hp y hy
    · next hc =>
      have hc' : ¬ x < x' := fun hlt => hc ((hk.lt_iff _ _).2 ⟨x, x', hx, hx', hlt⟩)
      refine ⟨x, hx, fun p hp y hy => ?_⟩
      rcases List.mem_append.1 hp with hp | hp
      · exact h1 p hp y hy
      · have := h2 p hp y hy; omega
  · simp only [StatisticsStruct.merge]
    split
    · rcases h'.max' with e | ⟨p, hp, e⟩
      · exact .inl e
      · exact .inr ⟨p, List.mem_append_right _ hp, e⟩
    · rcases h.max' with e | ⟨p, hp, e⟩
      · exact .inl e
      · exact .inr ⟨p, List.mem_append_left _ hp, e⟩
  · simp only [StatisticsStruct.merge]
    split
    · next hc => exact fun e => absurd e (slt_intMax hc)
    · exact h.unset
  · simp only [StatisticsStruct.merge]
    split
    · exact h'.low
    · exact h.low
  · simp only [StatisticsStruct.merge]
    split
    · exact h'.high
    · exact h.high

theorem summ_update (hk : Keyed k key lo hi) {s : StatisticsStruct T S} {l : List (W64 × T)}
    (h : Summ k key s l) (t : W64) (v : T) : Summ k key (s.update k t v) (l ++ [(t, v)]) := by
  have hmem : ∀ p, p ∈ l ++ [(t, v)] → p ∈ l ∨ p = (t, v) := by
    intro p hp; simpa using hp
  refine ⟨?_, ?_, ?_, ?_, ?_, ?_, ?_, ?_, ?_, ?_, ?_, ?_⟩
  · simp only [StatisticsStruct.update, h.count, List.length_append, List.length_singleton, u32, BitVec.ofNat_add]
    rfl
  · intro p hp
    simp only [StatisticsStruct.update]
    split
    · next hc =>
      rw [slt_iff] at hc
      rcases hmem p hp with hp | rfl
      · have := h.first p hp; omega
      · exact Int.le_refl _
    · next hc =>
      rw [slt_iff] at hc
      rcases hmem p hp with hp | rfl
      · exact h.first p hp
      · simp only; omega
  · simp only [StatisticsStruct.update]
    split
    · exact .inr (by simp)
    · rcases h.first' with e | e
      · exact .inl e
      · exact .inr (List.mem_append_left _ e)
  · intro p hp
    simp only [StatisticsStruct.update]
    split
    · next hc =>
      rw [slt_iff] at hc
      rcases hmem p hp with hp | rfl
      · have := h.last p hp; omega
      · exact Int.le_refl _
    · next hc =>
      rw [slt_iff] at hc
      rcases hmem p hp with hp | rfl
      · exact h.last p hp
      · simp only; omega
  · simp only [StatisticsStruct.update]
    split
    · exact .inr (by simp)
    · rcases h.last' with e | e
      · exact .inl e
      · exact .inr (List.mem_append_left _ e)
  · obtain ⟨x, hx, h1⟩ := h.min
    simp only [StatisticsStruct.update]
    split
    · next hc =>
      obtain ⟨a, b, ha, hb, hab⟩ := (hk.lt_iff _ _).1 hc
      rw [hx] at hb; cases hb
      refine ⟨a, ha, fun p hp y hy => ?_⟩
      rcases hmem p hp with hp | rfl
      · have := h1 p hp y hy; omega
      · rw [ha] at hy; cases hy; exact Int.le_refl _
    · next hc =>
      refine ⟨x, hx, fun p hp y hy => ?_⟩
      rcases hmem p hp with hp | rfl
      · exact h1 p hp y hy
      · have hc' : ¬ y < x := fun hlt => hc ((hk.lt_iff _ _).2 ⟨y, x, hy, hx, hlt⟩)
        omega
  · simp only [StatisticsStruct.update]
    split
    · exact .inr ⟨(t, v), by simp, rfl⟩
    · rcases h.min' with e | ⟨p, hp, e⟩
      · exact .inl e
      · exact .inr ⟨p, List.mem_append_left _ hp, e⟩
  · obtain ⟨x, hx, h1⟩ := h.max
    simp only [StatisticsStruct.update]
    split
    · next hc =>
      obtain ⟨a, b, ha, hb, hab⟩ := (hk.lt_iff _ _).1 hc
      rw [hx] at ha; cases ha
      refine ⟨b, hb, fun p hp y hy => ?_⟩
      rcases hmem p hp with hp | rfl
      · have := h1 p hp y hy; omega
      · rw [hb] at hy; cases hy; exact Int.le_refl _
    · next hc =>
      refine ⟨x, hx, fun p hp y hy => ?_⟩
      rcases hmem p hp with hp | rfl
      · exact h1 p hp y hy
      · have hc' : ¬ x < y := fun hlt => hc ((hk.lt_iff _ _).2 ⟨x, y, hx, hy, hlt⟩)
        omega
  · simp only [StatisticsStruct.update]
    split
    · exact .inr ⟨(t, v), by simp, rfl⟩
    · rcases h.max' with e | ⟨p, hp, e⟩
      · exact .inl e
      · exact .inr ⟨p, List.mem_append_left _ hp, e⟩
  · simp only [StatisticsStruct.update]
    split
    · next hc => exact fun e => absurd e (slt_intMax hc)
    · exact h.unset
  · simp only [StatisticsStruct.update]
    split
    · next hc =>
      rcases h.low with e | e
      · rw [e] at hc; exact .inr hc
      · exact .inr (hk.trans hc e)
    · exact h.low
  · simp only [StatisticsStruct.update]
    split
    · next hc =>
      rcases h.high with e | e
      · rw [e] at hc; exact .inr hc
      · exact .inr (hk.trans e hc)
    · exact h.high

end

/-! ## The three types -/

theorem keyed_i32 : Keyed statI32 (fun v => some v.toInt) (-2 ^ 31) (2 ^ 31 - 1) :=
  ⟨fun a b => by simp [statI32, BitVec.slt], by decide, by decide⟩

theorem keyed_i64 (env : Env) : Keyed (statI64 env) (fun v => some v.toInt) (-2 ^ 63) (2 ^ 63 - 1) :=
  ⟨fun a b => by simp [statI64, BitVec.slt],
    show some (BitVec.intMax 64).toInt = some (2 ^ 63 - 1) by decide,
    show some (BitVec.intMin 64).toInt = some (-2 ^ 63) by decide⟩

/-- The magnitude of a float with the given exponent and fraction bits. -/
def f32Mag (n : Nat) : Nat :=
  if n / 2 ^ 23 = 0 then n % 2 ^ 23 else (2 ^ 23 + n % 2 ^ 23) * 2 ^ (n / 2 ^ 23 - 1)

theorem f32Mag_lt_succ (n : Nat) : f32Mag n < f32Mag (n + 1) := by
  have h23 : (2 : Nat) ^ 23 = 8388608 := rfl
  simp only [f32Mag, h23]
  by_cases hw : n % 8388608 = 8388607
  · have h1 : (n + 1) % 8388608 = 0 := by omega
    have h2 : (n + 1) / 8388608 = n / 8388608 + 1 := by omega
    rw [h1, h2, hw, if_neg (c := n / 8388608 + 1 = 0) (by omega)]
    by_cases h0 : n / 8388608 = 0
    · rw [if_pos h0, h0]; decide
    · rw [if_neg h0]
      obtain ⟨e, he⟩ : ∃ e, n / 8388608 = e + 1 := ⟨n / 8388608 - 1, by omega⟩
      rw [he]
      simp only [Nat.add_sub_cancel]
      have := Nat.pow_succ (n := 2) (m := e)
      have hp : 0 < 2 ^ e := Nat.two_pow_pos e
      rw [this]
      omega
  · have h1 : (n + 1) % 8388608 = n % 8388608 + 1 := by omega
    have h2 : (n + 1) / 8388608 = n / 8388608 := by omega
    rw [h1, h2]
    split
    · omega
    · exact Nat.mul_lt_mul_of_pos_right (by omega) (Nat.two_pow_pos _)

theorem f32Mag_lt {a b : Nat} (h : a < b) : f32Mag a < f32Mag b := by
  induction b with
  | zero => omega
  | succ b ih =>
    rcases Nat.lt_or_eq_of_le (Nat.le_of_lt_succ h) with h | rfl
    · exact Nat.lt_trans (ih h) (f32Mag_lt_succ b)
    · exact f32Mag_lt_succ a

theorem f32Mag_lt_iff (a b : Nat) : f32Mag a < f32Mag b ↔ a < b := by
  refine ⟨fun h => ?_, f32Mag_lt⟩
  by_contra hc
  rcases Nat.lt_or_eq_of_le (Nat.le_of_not_lt hc) with h' | h'
  · have := f32Mag_lt h'; omega
  · subst h'; omega

theorem f32Val_eq (x : W32) : f32Val x = if f32IsNaN x then none else
    some (if x.toNat ≥ 2 ^ 31 then -(f32Mag (x.toNat % 2 ^ 31) : Int) else f32Mag (x.toNat % 2 ^ 31)) := by
  have hx := x.isLt
  generalize hn : x.toNat = n at hx
  have h1 : n % 2 ^ 31 / 2 ^ 23 = n / 2 ^ 23 % 2 ^ 8 := by omega
  have h2 : n % 2 ^ 31 % 2 ^ 23 = n % 2 ^ 23 := by omega
  simp only [f32Val, f32IsNaN, f32Mag, hn, h1, h2]
  have h3 : (n / 2 ^ 23 % 2 ^ 8 = 255 ∧ n % 2 ^ 23 ≠ 0) ↔ n % 2 ^ 31 > 0x7F800000 := by omega
  have h4 : n / 2 ^ 31 = 1 ↔ n ≥ 2 ^ 31 := by omega
  simp only [h3, h4, decide_eq_true_eq]

theorem f32Lt_iff (a b : W32) : f32Lt a b = true ↔ ∃ x y, f32Val a = some x ∧ f32Val b = some y ∧ x < y := by
  rw [f32Val_eq, f32Val_eq, f32Lt]
  cases f32IsNaN a <;> cases f32IsNaN b <;> simp only [Bool.not_true, Bool.not_false, Bool.false_and, Bool.and_false,
    Bool.true_and, Bool.false_eq_true, if_false, if_true, false_and, and_false, exists_false, reduceCtorEq,
    decide_eq_true_eq, Option.some.injEq]
  have hm := f32Mag_lt_iff (a.toNat % 2 ^ 31) (b.toNat % 2 ^ 31)
  have hm' := f32Mag_lt_iff (b.toNat % 2 ^ 31) (a.toNat % 2 ^ 31)
  have h0 : f32Mag 0 = 0 := by decide
  have ha := f32Mag_lt_iff 0 (a.toNat % 2 ^ 31)
  have hb := f32Mag_lt_iff 0 (b.toNat % 2 ^ 31)
  rw [h0] at ha hb
  have hex : ∀ A B : Int, (∃ x y, A = x ∧ B = y ∧ x < y) ↔ A < B := by simp
  rw [hex]
  generalize f32Mag (a.toNat % 2 ^ 31) = ma at *
  generalize f32Mag (b.toNat % 2 ^ 31) = mb at *
  simp only [f32Key]
  split <;> split <;> omega

theorem keyed_f32 (env : Env) : Keyed (statF32 env) f32Val (-((2 ^ 24 - 1) * 2 ^ 253)) ((2 ^ 24 - 1) * 2 ^ 253) :=
  ⟨fun a b => f32Lt_iff a b,
    show f32Val 0x7F7FFFFF = some ((2 ^ 24 - 1) * 2 ^ 253) by decide +kernel,
    show f32Val 0xFF7FFFFF = some (-((2 ^ 24 - 1) * 2 ^ 253)) by decide +kernel⟩

/-- The integer sum, modulo 2^64. -/
def intSum (l : List (W64 × W32)) : W64 := BitVec.ofInt 64 (l.map (fun p => p.2.toInt)).sum

/-- The statistics describe the points. -/
inductive Describes (env : Env) : Statistics → List Point → Prop
  | int {s : StatisticsStruct W32 W64} {l : List (W64 × W32)} (h : Summ statI32 (fun v => some v.toInt) s l)
      (hs : s.sumValue = intSum l) : Describes env (.INT32 s) (l.map (fun p => (p.1, .INT p.2)))
  | long {s : StatisticsStruct W64 W64} {l : List (W64 × W64)}
      (h : Summ (statI64 env) (fun v => some v.toInt) s l)
      (hs : AddedUp env.f64Add 0 (l.map (fun p => env.i64ToF64 p.2)) s.sumValue) :
      Describes env (.INT64 s) (l.map (fun p => (p.1, .LONG p.2)))
  | float {s : StatisticsStruct W32 W64} {l : List (W64 × W32)} (h : Summ (statF32 env) f32Val s l)
      (hs : AddedUp env.f64Add 0 (l.map (fun p => env.f32ToF64 p.2)) s.sumValue) :
      Describes env (.FLOAT s) (l.map (fun p => (p.1, .FLOAT p.2)))

theorem describes_new (env : Env) (dt : TSDataType) : Describes env (Statistics.new env dt) [] := by
  cases dt with
  | INT32 => exact .int (l := []) (summ_new keyed_i32) rfl
  | INT64 => exact .long (l := []) (summ_new (keyed_i64 env)) .nothing
  | FLOAT => exact .float (l := []) (summ_new (keyed_f32 env)) .nothing

theorem intSum_append (l l' : List (W64 × W32)) : intSum (l ++ l') = intSum l + intSum l' := by
  simp [intSum, BitVec.ofInt_add]

theorem describes_upd {env : Env} {s : Statistics} {l : List Point} (h : Describes env s l) {p : Point}
    (hf : fits s.type p.2 = true) : Describes env (s.upd env p) (l ++ [p]) := by
  obtain ⟨t, v⟩ := p
  cases h with
  | int h hs =>
    cases v <;> simp [fits, Statistics.type] at hf
    next v =>
    have := Describes.int (env := env) (summ_update keyed_i32 h t v) (by
      rw [intSum_append, ← hs]
      simp only [StatisticsStruct.update, statI32, intSum, List.map_cons, List.map_nil, List.sum_cons, List.sum_nil,
        Int.add_zero, BitVec.signExtend])
    rw [List.map_append] at this
    exact this
  | long h hs =>
    cases v <;> simp [fits, Statistics.type] at hf
    next v =>
    have := Describes.long (summ_update (keyed_i64 env) h t v) (by
      rw [List.map_append]
      exact .both hs (.one _))
    rw [List.map_append] at this
    exact this
  | float h hs =>
    cases v <;> simp [fits, Statistics.type] at hf
    next v =>
    have := Describes.float (summ_update (keyed_f32 env) h t v) (by
      rw [List.map_append]
      exact .both hs (.one _))
    rw [List.map_append] at this
    exact this

theorem describes_mrg {env : Env} {s o : Statistics} {l l' : List Point} (h : Describes env s l)
    (h' : Describes env o l') (ht : s.type = o.type) : Describes env (s.mrg env o) (l ++ l') := by
  cases h with
  | int h hs =>
    cases h' with
    | int h' hs' =>
      rw [← List.map_append]
      exact .int (summ_merge keyed_i32 h h') (by
        rw [intSum_append, ← hs, ← hs']; rfl)
    | _ => simp [Statistics.type] at ht
  | long h hs =>
    cases h' with
    | long h' hs' =>
      rw [← List.map_append]
      exact .long (summ_merge (keyed_i64 env) h h') (by rw [List.map_append]; exact .both hs hs')
    | _ => simp [Statistics.type] at ht
  | float h hs =>
    cases h' with
    | float h' hs' =>
      rw [← List.map_append]
      exact .float (summ_merge (keyed_f32 env) h h') (by rw [List.map_append]; exact .both hs hs')
    | _ => simp [Statistics.type] at ht

theorem describes_statsOf (env : Env) (dt : TSDataType) (pts : List Point) (h : ∀ q ∈ pts, fits dt q.2 = true) :
    Describes env (statsOf env dt pts) pts := by
  have : ∀ (pts l : List Point) (s : Statistics), Describes env s l → (∀ q ∈ pts, fits s.type q.2 = true) →
      Describes env (pts.foldl (Statistics.upd env) s) (l ++ pts) := by
    intro pts
    induction pts with
    | nil => intro l s h _; simpa using h
    | cons p pts ih =>
      intro l s h hf
      have := ih (l ++ [p]) (s.upd env p) (describes_upd h (hf p (by simp))) (by
        rw [upd_type]; exact fun q hq => hf q (by simp [hq]))
      simpa using this
  have := this pts [] _ (describes_new env dt) (by rw [new_type]; exact h)
  rw [List.nil_append] at this
  exact this

theorem describes_foldl {α : Type} {env : Env} (f : α → Statistics) (g : α → List Point) (xs : List α) (s : Statistics)
    (l : List Point) (h : Describes env s l) (hx : ∀ x ∈ xs, Describes env (f x) (g x) ∧ (f x).type = s.type) :
    Describes env (xs.foldl (fun s x => s.mrg env (f x)) s) (l ++ xs.flatMap g) := by
  induction xs generalizing s l with
  | nil => simpa using h
  | cons x xs ih =>
    have hx0 := hx x (by simp)
    have := ih (s.mrg env (f x)) (l ++ g x) (describes_mrg h hx0.1 hx0.2.symm) (by
      intro y hy
      rw [mrg_type]
      exact hx y (by simp [hy]))
    simpa using this

theorem describes_chunkStats {env : Env} {dt : TSDataType} {pages : List GPage}
    (h : ∀ g ∈ pages, ∀ q ∈ g.pts, fits dt q.2 = true) : Describes env (chunkStats env dt pages) (pagesPoints pages) := by
  have := describes_foldl (env := env) (fun g : GPage => statsOf env dt g.pts) GPage.pts pages (Statistics.new env dt) []
    (describes_new env dt) (fun g hg => ⟨describes_statsOf env dt _ (h g hg), by rw [statsOf_type, new_type]⟩)
  rw [chunkStats, List.foldl_map]
  simpa [pagesPoints, List.flatMap] using this

end TsFile
