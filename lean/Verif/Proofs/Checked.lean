import Verif.Model.Checked
import Verif.Spec.Checked
import Verif.Proofs.Ts2Diff
/-! # Builds with overflow checks: the delta encoders -/

namespace TsFile
open Spec

theorem diffs_snoc (l : List Int) (x y : Int) : diffs (l ++ [x, y]) = diffs (l ++ [x]) ++ [y - x] := by
  induction l with
  | nil => rfl
  | cons a l ih =>
    cases l with
    | nil => rfl
    | cons b l =>
      simp only [List.cons_append, diffs] at ih ⊢
      rw [ih]

theorem diffs_prefix {l l' : List Int} (h : l <+: l') {x : Int} (hx : x ∈ diffs l) : x ∈ diffs l' := by
  obtain ⟨r, rfl⟩ := h
  induction l with
  | nil => simp [diffs] at hx
  | cons a l ih =>
    cases l with
    | nil => simp [diffs] at hx
    | cons b l =>
      simp only [diffs, List.cons_append, List.mem_cons] at hx ih ⊢
      rcases hx with hx | hx
      · exact .inl hx
      · exact .inr (ih hx)

theorem Spec.BlockFits.prefix {w : Nat} {b b' : List (BitVec w)} (h : BlockFits w b') (hp : b <+: b') : BlockFits w b := by
  have hm : b.map BitVec.toInt <+: b'.map BitVec.toInt := hp.map _
  exact ⟨fun x hx => h.diff x (diffs_prefix hm hx), fun x hx y hy => h.spread x (diffs_prefix hm hx) y (diffs_prefix hm hy)⟩

theorem subC_none {w : Nat} {a b : BitVec w} : subC a b = none ↔ ¬ InRange w (a.toInt - b.toInt) := by
  rw [subC, BitVec.ssubOverflow, InRange]
  split
  · next h => simp only [Bool.or_eq_true, decide_eq_true_eq] at h; simp only [true_iff]; omega
  · next h => simp only [Bool.or_eq_true, decide_eq_true_eq] at h; simp only [reduceCtorEq, false_iff]; omega

theorem subC_some {w : Nat} {a b x : BitVec w} (h : subC a b = some x) :
    x = a - b ∧ x.toInt = a.toInt - b.toInt ∧ InRange w (a.toInt - b.toInt) := by
  have hr : InRange w (a.toInt - b.toInt) := by
    by_contra hn
    rw [subC_none.2 hn] at h
    simp at h
  rw [subC] at h
  split at h
  · simp at h
  · next ho =>
    simp only [Option.some.injEq] at h
    subst h
    exact ⟨rfl, BitVec.toInt_sub_of_not_ssubOverflow (by simpa using ho), hr⟩

theorem deltasC_iff {w : Nat} (m : BitVec w) (ds : List (BitVec w)) :
    ((Ts2Diff.deltasC m ds).isSome ↔ ∀ d ∈ ds, InRange w (d.toInt - m.toInt))
    ∧ ∀ l, Ts2Diff.deltasC m ds = some l → l = ds.map (· - m) := by
  induction ds with
  | nil => simp [Ts2Diff.deltasC]
  | cons d ds ih =>
    rw [Ts2Diff.deltasC]
    cases hs : subC d m with
    | none =>
      have := subC_none.1 hs
      simp only [Option.isSome_none, Bool.false_eq_true, false_iff, reduceCtorEq, false_imp_iff, implies_true, and_true]
      intro hall
      exact this (hall d (by simp))
    | some x =>
      obtain ⟨h1, h2, h3⟩ := subC_some hs
      simp only [Option.isSome_map, List.mem_cons, forall_eq_or_imp]
      refine ⟨⟨fun h => ⟨h3, ih.1.1 h⟩, fun h => ih.1.2 h.2⟩, fun l hl => ?_⟩
      obtain ⟨l', hl', rfl⟩ := Option.map_eq_some_iff.1 hl
      rw [ih.2 l' hl', h1]
      rfl

/-- The state of the encoder when no overflow happened and the open block holds `cur`. -/
structure CurRep {w : Nat} (e : Ts2Diff w) (cur : List (BitVec w)) : Prop where
  first : e.firstValue = cur.head?
  prev : ∀ x, cur.getLast? = some x → e.previousValue = x
  vals : e.values.map BitVec.toInt = diffs (cur.map BitVec.toInt)
  fits : ∀ x ∈ diffs (cur.map BitVec.toInt), InRange w x
  init : e.values = [] → e.minDelta = BitVec.intMax w
  min : ∀ d ∈ e.values, e.minDelta.toInt ≤ d.toInt
  attained : e.values ≠ [] → e.minDelta ∈ e.values
  len : cur.length ≤ 128

theorem curRep_new {w : Nat} : CurRep (Ts2Diff.new : Ts2Diff w) [] := by
  refine ⟨rfl, by simp, rfl, by simp [diffs], fun _ => rfl, by simp [Ts2Diff.new], fun h => absurd rfl h, by simp⟩

theorem length_diffs (l : List Int) : (diffs l).length = l.length - 1 := by
  induction l with
  | nil => rfl
  | cons a l ih =>
    cases l with
    | nil => rfl
    | cons b l => simp only [diffs, List.length_cons] at ih ⊢; omega

/-- Flushing succeeds exactly if the open block fits, and gives what a release build gives. -/
theorem flushC_iff {w : Nat} (tb : BitVec w → Bytes → Nat → Nat → Option Bytes) (hp : PackOk w tb) (h8 : w % 8 = 0) (hw : w ≤ 64)
    {e : Ts2Diff w} {cur : List (BitVec w)} (first : e.firstValue = cur.head?)
    (vals : e.values.map BitVec.toInt = diffs (cur.map BitVec.toInt))
    (fits : ∀ x ∈ diffs (cur.map BitVec.toInt), InRange w x)
    (min : ∀ d ∈ e.values, e.minDelta.toInt ≤ d.toInt) (attained : e.values ≠ [] → e.minDelta ∈ e.values)
    (len : cur.length ≤ 129) :
    (Ts2Diff.flushC tb e = none ↔ ¬ BlockFits w cur)
    ∧ ∀ e', Ts2Diff.flushC tb e = some e' → Ts2Diff.flush tb e = some e' ∧ (cur ≠ [] → CurRep e' []) := by
  cases cur with
  | nil =>
    simp only [List.head?_nil] at first
    rw [Ts2Diff.flushC, Ts2Diff.flush, first]
    simp only [reduceCtorEq, false_iff, not_not, Option.some.injEq, ne_eq, not_true, false_imp_iff, and_true, imp_self, implies_true]
    exact ⟨by simp [diffs], by simp [diffs]⟩
  | cons f rest =>
    simp only [List.head?_cons] at first
    generalize f :: rest = cur at vals fits len
    have hlen : e.values.length < 2 ^ 32 := by
      have := congrArg List.length vals
      rw [List.length_map, length_diffs, List.length_map] at this
      omega
    obtain ⟨p, hpay, _, _⟩ := block_roundtrip tb hp h8 hw f e.minDelta e.values hlen
    have hiff : (∀ d ∈ e.values, InRange w (d.toInt - e.minDelta.toInt)) ↔ BlockFits w cur := by
      constructor
      · intro h
        refine ⟨fits, fun x hx y hy => ?_⟩
        rw [← vals] at hx hy
        obtain ⟨d, hd, rfl⟩ := List.mem_map.1 hx
        obtain ⟨d', hd', rfl⟩ := List.mem_map.1 hy
        have h1 := h d hd
        have h2 := h d' hd'
        have h3 := min d hd
        have h4 := min d' hd'
        rw [InRange] at h1 h2 ⊢
        omega
      · intro h d hd
        apply h.spread
        · rw [← vals]; exact List.mem_map_of_mem hd
        · rw [← vals]; exact List.mem_map_of_mem (attained (List.ne_nil_of_mem hd))
    rw [Ts2Diff.flushC, Ts2Diff.flush, first]
    simp only
    obtain ⟨h1, h2⟩ := deltasC_iff e.minDelta e.values
    cases hd : Ts2Diff.deltasC e.minDelta e.values with
    | none =>
      rw [hd] at h1
      simp only [Option.isSome_none, Bool.false_eq_true, false_iff] at h1
      rw [hiff] at h1
      simp [h1]
    | some l =>
      rw [hd] at h1
      simp only [Option.isSome_some, true_iff] at h1
      rw [hiff] at h1
      rw [h2 l hd]
      simp only [hpay, reduceCtorEq, h1, not_true, Option.some.injEq]
      refine ⟨trivial, fun e' he => ⟨he, fun _ => ?_⟩⟩
      subst he
      refine ⟨rfl, by simp, rfl, by simp [diffs], fun _ => rfl, by simp, fun h => absurd rfl h, by simp⟩

theorem map_toInt_snoc {w : Nat} (l : List (BitVec w)) (x y : BitVec w) :
    (l ++ [x] ++ [y]).map BitVec.toInt = l.map BitVec.toInt ++ [x.toInt, y.toInt] := by simp

/-- One value more in the open block. -/
theorem takeC_iff {w : Nat} {e : Ts2Diff w} {cur : List (BitVec w)} (h : CurRep e cur) (v : BitVec w) :
    (Ts2Diff.takeC e v = none → ¬ BlockFits w (cur ++ [v]))
    ∧ ∀ e', Ts2Diff.takeC e v = some e' →
      e'.firstValue = (cur ++ [v]).head? ∧ e'.previousValue = v
      ∧ e'.values.map BitVec.toInt = diffs ((cur ++ [v]).map BitVec.toInt)
      ∧ (∀ x ∈ diffs ((cur ++ [v]).map BitVec.toInt), InRange w x)
      ∧ (e'.values = [] → e'.minDelta = BitVec.intMax w)
      ∧ (∀ d ∈ e'.values, e'.minDelta.toInt ≤ d.toInt) ∧ (e'.values ≠ [] → e'.minDelta ∈ e'.values)
      ∧ ∀ tb, e.write tb v = if e'.values.length = 128 then Ts2Diff.flush tb e' else some e' := by
  obtain ⟨h1, h2, h3, h4, h5, h6, h7, _⟩ := h
  rcases List.eq_nil_or_concat cur with rfl | ⟨l, x, rfl⟩
  · simp only [List.head?_nil] at h1
    rw [Ts2Diff.takeC, h1]
    simp only [reduceCtorEq, false_imp_iff, Option.some.injEq, true_and]
    rintro e' rfl
    have hv : e.values = [] := by simpa [diffs] using h3
    refine ⟨rfl, rfl, by simp [hv, diffs], by simp [diffs], fun h => h5 h, h6, h7, fun tb => ?_⟩
    rw [Ts2Diff.write, h1]
  · rw [List.concat_eq_append] at h1 h2 h3 h4 ⊢
    have hp : e.previousValue = x := h2 x (by simp)
    obtain ⟨f, hf⟩ : ∃ f, (l ++ [x]).head? = some f := by cases l <;> simp
    rw [hf] at h1
    rw [Ts2Diff.takeC, h1]
    simp only
    rw [hp]
    have hdiff : diffs ((l ++ [x] ++ [v]).map BitVec.toInt) = diffs ((l ++ [x]).map BitVec.toInt) ++ [v.toInt - x.toInt] := by
      rw [map_toInt_snoc, diffs_snoc]
      simp
    cases hs : subC v x with
    | none =>
      simp only [reduceCtorEq, false_imp_iff, implies_true, and_true, true_imp_iff]
      intro hb
      exact subC_none.1 hs (hb.diff _ (by rw [hdiff]; simp))
    | some delta =>
      obtain ⟨s1, s2, s3⟩ := subC_some hs
      simp only [reduceCtorEq, false_imp_iff, Option.some.injEq, true_and]
      rintro e' rfl
      refine ⟨?_, rfl, ?_, ?_, by simp, ?_, ?_, fun tb => ?_⟩
      · simp only
        rw [List.head?_append, hf]
        rfl
      · simp only
        rw [List.map_append, h3, hdiff, List.map_singleton, s2]
      · intro y hy
        rw [hdiff] at hy
        rcases List.mem_append.1 hy with hy | hy
        · exact h4 y hy
        · rw [List.mem_singleton.1 hy]; exact s3
      · intro d hd
        simp only at hd ⊢
        have hm : (if delta.slt e.minDelta = true then delta else e.minDelta).toInt ≤ delta.toInt
            ∧ (if delta.slt e.minDelta = true then delta else e.minDelta).toInt ≤ e.minDelta.toInt := by
          split
          · next h => rw [BitVec.slt_iff_toInt_lt] at h; omega
          · next h => rw [BitVec.slt_iff_toInt_lt] at h; omega
        rcases List.mem_append.1 hd with hd | hd
        · have := h6 d hd; omega
        · rw [List.mem_singleton.1 hd]; exact hm.1
      · intro _
        simp only
        split
        · simp
        · next hn =>
          rw [BitVec.slt_iff_toInt_lt] at hn
          by_cases hv : e.values = []
          · have := h5 hv
            have hle := toInt_le_intMax delta
            rw [← this] at hle
            have : e.minDelta = delta := BitVec.eq_of_toInt_eq (by omega)
            rw [this]; simp
          · exact List.mem_append_left _ (h7 hv)
      · rw [Ts2Diff.write, h1]
        simp only [hp, s1]

/-- Writing values and serialising: succeeds exactly if all blocks fit, and gives what a release build gives. -/
theorem encodeC_iff {w : Nat} (tb : BitVec w → Bytes → Nat → Nat → Option Bytes) (hp : PackOk w tb) (h8 : w % 8 = 0) (hw : w ≤ 64)
    (vs : List (BitVec w)) {e : Ts2Diff w} {cur : List (BitVec w)} (h : CurRep e cur) :
    (Ts2Diff.encodeC tb e vs = none ↔ ¬ BlocksFit w (cur ++ vs))
    ∧ ∀ b, Ts2Diff.encodeC tb e vs = some b → Ts2Diff.encode tb e vs = some b := by
  induction vs generalizing e cur with
  | nil =>
    have hl := h.len
    obtain ⟨f1, f2⟩ := flushC_iff tb hp h8 hw h.first h.vals h.fits h.min h.attained (by omega)
    have hb : BlocksFit w (cur ++ []) ↔ BlockFits w cur := by
      rw [List.append_nil]
      constructor
      · intro hb
        have := hb 0
        rwa [Nat.mul_zero, List.drop_zero, List.take_of_length_le (by omega)] at this
      · intro hb i
        refine hb.prefix ?_
        cases i with
        | zero => rw [Nat.mul_zero, List.drop_zero]; exact List.take_prefix _ _
        | succ i => rw [List.drop_eq_nil_of_le (by omega)]; simp
    rw [hb, ← f1, Ts2Diff.encodeC, Ts2Diff.encode]
    refine ⟨by simp, fun b hb => ?_⟩
    obtain ⟨e', he, rfl⟩ := Option.map_eq_some_iff.1 hb
    rw [(f2 e' he).1]
    rfl
  | cons v vs ih =>
    have hl := h.len
    obtain ⟨t1, t2⟩ := takeC_iff h v
    rw [Ts2Diff.encodeC, Ts2Diff.encode, Ts2Diff.writeC]
    have hpre : cur ++ [v] <+: (cur ++ v :: vs).take 129 := by
      rw [show cur ++ v :: vs = (cur ++ [v]) ++ vs by simp, List.take_append]
      rw [List.take_of_length_le (by simp; omega)]
      exact List.prefix_append _ _
    have hfit : BlocksFit w (cur ++ v :: vs) → BlockFits w (cur ++ [v]) := by
      intro hb
      have := hb 0
      rw [Nat.mul_zero, List.drop_zero] at this
      exact this.prefix hpre
    cases ht : Ts2Diff.takeC e v with
    | none =>
      simp only [true_iff, reduceCtorEq, false_imp_iff, implies_true, and_true]
      exact fun hb => t1 ht (hfit hb)
    | some e' =>
      obtain ⟨r1, r2, r3, r4, r5, r6, r7, r8⟩ := t2 e' ht
      simp only
      rw [r8 tb]
      have hvl : e'.values.length = cur.length := by
        have := congrArg List.length r3
        rw [List.length_map, length_diffs, List.length_map] at this
        simpa using this
      by_cases hfull : e'.values.length = 128
      · rw [if_pos hfull, if_pos hfull]
        have hcl : (cur ++ [v]).length = 129 := by simp; omega
        obtain ⟨f1, f2⟩ := flushC_iff tb hp h8 hw r1 r3 r4 r6 r7 (by omega)
        have hsplit : BlocksFit w (cur ++ v :: vs) ↔ BlockFits w (cur ++ [v]) ∧ BlocksFit w vs := by
          rw [show cur ++ v :: vs = (cur ++ [v]) ++ vs by simp]
          constructor
          · intro hb
            refine ⟨?_, fun i => ?_⟩
            · have := hb 0
              rwa [Nat.mul_zero, List.drop_zero, List.take_left' hcl] at this
            · have := hb (i + 1)
              rwa [show 129 * (i + 1) = (cur ++ [v]).length + 129 * i by rw [hcl]; omega, List.drop_length_add_append] at this
          · rintro ⟨ha, hb⟩ i
            cases i with
            | zero => rw [Nat.mul_zero, List.drop_zero, List.take_left' hcl]; exact ha
            | succ i =>
              rw [show 129 * (i + 1) = (cur ++ [v]).length + 129 * i by rw [hcl]; omega, List.drop_length_add_append]
              exact hb i
        cases hf : Ts2Diff.flushC tb e' with
        | none =>
          rw [hf] at f1
          simp only [true_iff, reduceCtorEq, false_imp_iff, implies_true, and_true] at f1 ⊢
          exact fun hb => f1 (hsplit.1 hb).1
        | some e2 =>
          obtain ⟨g1, g2⟩ := f2 e2 hf
          rw [hf] at f1
          simp only [reduceCtorEq, false_iff, not_not] at f1
          obtain ⟨i1, i2⟩ := ih (g2 (by simp))
          rw [g1, hsplit]
          simp only [f1, true_and]
          rw [List.nil_append] at i1
          exact ⟨i1, i2⟩
      · rw [if_neg hfull, if_neg hfull]
        have hrep : CurRep e' (cur ++ [v]) := by
          refine ⟨r1, fun x hx => ?_, r3, r4, r5, r6, r7, by simp; omega⟩
          simp only [List.getLast?_append, List.getLast?_singleton, Option.some_or, Option.some.injEq] at hx
          rw [r2, hx]
        have := ih hrep
        simpa using this

end TsFile
