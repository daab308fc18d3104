import Verif.Spec.PyProgram
import Verif.Props.CProgram
/-! # Property C85: Python programs that hand over their points in order -/

namespace TsFile
open Spec Py
open CApi (CEnv)

/-! ## Lemmas -/

/-- Points of a Python program as points of the library. -/
def cPoints (pts : List (Int × Int)) : List (W64 × W32) := pts.map (fun p => (BitVec.ofInt 64 p.1, BitVec.ofInt 32 p.2))

/-- What was written through a writer object: nothing, or points of its series with increasing timestamps. -/
def PyTold (H : List (PyOp × PyOutcome)) (k : Nat) : Prop :=
  pyWrites k H = [] ∨ ∃ f i d m ms pts, (.newWriter f i, .ok k) ∈ H ∧ MadeSchema H i d m ms
    ∧ pyWrites k H = pointsTo (beforeNul d) (beforeNul m) (cPoints pts) ∧ (∀ p ∈ pts, 0 ≤ p.1 ∧ isCInt p.1)
    ∧ pts.Pairwise (fun p q => p.1 < q.1) ∧ pts.length ≤ 100000000
    ∧ ∀ p ∈ pts, ∃ d' m' r, (.writeInt k d' m' p.1 p.2, .ok r) ∈ H

theorem cPoints_nonneg {pts : List (Int × Int)} (h : ∀ p ∈ pts, 0 ≤ p.1 ∧ isCInt p.1) : ∀ p ∈ cPoints pts, 0 ≤ p.1.toInt := by
  intro p hp
  obtain ⟨q, hq, rfl⟩ := List.mem_map.1 hp
  obtain ⟨h1, h2⟩ := h q hq
  obtain ⟨h3, h4⟩ := h2
  dsimp only
  rw [BitVec.toInt_ofInt, Int.bmod_def]
  omega

theorem cPoints_increasing {pts : List (Int × Int)} (h : ∀ p ∈ pts, 0 ≤ p.1 ∧ isCInt p.1) (hi : pts.Pairwise (fun p q => p.1 < q.1)) :
    (cPoints pts).Pairwise (fun p q => p.1.toInt < q.1.toInt) := by
  rw [cPoints, List.pairwise_map]
  refine hi.imp_of_mem ?_
  intro p q hp hq hpq
  obtain ⟨h1, h2, h3⟩ := h p hp
  obtain ⟨g1, g2, g3⟩ := h q hq
  dsimp only
  rw [BitVec.toInt_ofInt, Int.bmod_def, BitVec.toInt_ofInt, Int.bmod_def]
  omega

section
variable {ce : CEnv} {cs : List PyOp} (hin : ∀ k c, cs[k]? = some c → StepInOrder ce ((cs.zip (run ce start cs).1).take k) c)
include hin

/-- A schema object of a program in order. -/
theorem schema_in_order {k i : Nat} {d m : Bytes} {x y z : Int} (h : (.newSchema d m x y z, .ok i) ∈ (cs.zip (run ce start cs).1).take k) :
    ∃ ms, MadeSchema ((cs.zip (run ce start cs).1).take k) i d m ms := by
  obtain ⟨j, hj⟩ := List.getElem?_of_mem (List.mem_of_mem_take h)
  obtain ⟨-, -, rfl, hy, hz⟩ := hin j _ (List.getElem?_zip_eq_some.1 hj).1
  have hy' : ∃ e, TSEncoding.tryFrom (UInt8.ofNat (y % 256).toNat) = some e := by
    rcases hy with rfl | rfl
    · exact ⟨.PLAIN, by decide⟩
    · exact ⟨.TS2DIFF, by decide⟩
  have hz' : ∃ e, CompressionType.tryFrom (UInt8.ofNat (z % 256).toNat) = some e := by
    rcases hz with rfl | rfl
    · exact ⟨.UNCOMPRESSED, by decide⟩
    · exact ⟨.SNAPPY, by decide⟩
  obtain ⟨e, he⟩ := hy'
  obtain ⟨c, hc⟩ := hz'
  exact ⟨⟨.INT32, e, c⟩, 1, y, z, h, rfl, he, hc⟩

/-- The schema of a schema object. -/
theorem made_in_order {k i : Nat} {d m : Bytes} {ms : MeasurementSchema} (h : MadeSchema ((cs.zip (run ce start cs).1).take k) i d m ms) :
    ms.dataType = .INT32 ∧ (ce.utf8 (beforeNul d) = true ∧ ce.utf8 (beforeNul m) = true)
    ∧ (beforeNul d).length + 1 + (beforeNul m).length ≤ 100 ∧ NoDot (beforeNul m) := by
  obtain ⟨x, y, z, h1, h2, h3, h4⟩ := h
  obtain ⟨j, hj⟩ := List.getElem?_of_mem (List.mem_of_mem_take h1)
  obtain ⟨g1, g2, rfl, -, -⟩ := hin j _ (List.getElem?_zip_eq_some.1 hj).1
  have h5 : TSDataType.tryFrom (UInt8.ofNat ((1 : Int) % 256).toNat) = some .INT32 := by decide
  rw [h5, Option.some.injEq] at h2
  exact ⟨h2.symm, g1, g2⟩

/-- A writer object has a schema object. -/
theorem writer_in_order {k w i : Nat} {f : Bytes} (h : (.newWriter f i, .ok w) ∈ (cs.zip (run ce start cs).1).take k) :
    ∃ d m ms, MadeSchema ((cs.zip (run ce start cs).1).take k) i d m ms := by
  obtain ⟨j, hj⟩ := List.getElem?_of_mem h
  have hjk : j < k := by
    have := (List.getElem?_eq_some_iff.1 hj).1
    rw [List.length_take] at this
    omega
  rw [List.getElem?_take_of_lt hjk] at hj
  have hz := List.getElem?_zip_eq_some.1 hj
  have h1 := C79_raises ce cs j _ _ hz.1 hz.2
  have h2 : ¬ RaiseReason ((cs.zip (run ce start cs).1).take j) (.newWriter f i) := fun h => by cases h1.2 h
  by_cases h3 : ∃ d m x y z, (.newSchema d m x y z, .ok i) ∈ (cs.zip (run ce start cs).1).take j
  · obtain ⟨d, m, x, y, z, h4⟩ := h3
    have h5 : (.newSchema d m x y z, .ok i) ∈ (cs.zip (run ce start cs).1).take k :=
      (List.take_sublist_take_left (Nat.le_of_lt hjk)).subset h4
    obtain ⟨ms, h6⟩ := schema_in_order hin h5
    exact ⟨d, m, ms, h6⟩
  · exact absurd (Or.inl (fun d m x y z h => h3 ⟨d, m, x, y, z, h⟩)) h2

theorem py_told_all (w k : Nat) : PyTold ((cs.zip (run ce start cs).1).take k) w := by
  induction k with
  | zero => exact .inl rfl
  | succ k ih =>
    rw [List.take_add_one]
    cases hx : (cs.zip (run ce start cs).1)[k]? with
    | none => simpa using ih
    | some x =>
      obtain ⟨c, o⟩ := x
      obtain ⟨hc, ho⟩ := List.getElem?_zip_eq_some.1 hx
      have hk := hin k c hc
      have hr := C79_raises ce cs k c o hc ho
      obtain ⟨-, -, sv, wv, known⟩ := (run_all ce cs start [] (pinv_start ce) known_start).2.1 k c o hc ho
      rw [List.nil_append] at known
      have hw := fun f i => writer_in_order hin (k := k) (w := w) (f := f) (i := i)
      generalize (cs.zip (run ce start cs).1).take k = H at *
      rw [Option.toList_some]
      have quiet : pyWrites w [(c, o)] = [] → PyTold (H ++ [(c, o)]) w := by
        intro hq
        have he : pyWrites w (H ++ [(c, o)]) = pyWrites w H := by rw [pyWrites_append, hq, List.append_nil]
        rcases ih with h | ⟨f, i, d, m, ms, pts, h1, h2, h3, h4, h5, h6, h7⟩
        · exact .inl (he.trans h)
        · refine .inr ⟨f, i, d, m, ms, pts, List.mem_append_left _ h1, h2.mono _, he.trans h3, h4, h5, h6, fun p hp => ?_⟩
          obtain ⟨d', m', r, h⟩ := h7 p hp
          exact ⟨d', m', r, List.mem_append_left _ h⟩
      by_cases hq : pyWrites w [(c, o)] = []
      · exact quiet hq
      · cases c with
        | writeInt w' d m t v =>
          cases o with
          | ok r =>
            by_cases hww : w' = w
            · subst hww
              obtain ⟨h1, h2, h3, h4⟩ := hk
              have hnr : ¬ RaiseReason H (.writeInt w' d m t v) := fun h => by cases hr.2 h
              have hcint : isCInt t ∧ isCInt v := by
                by_cases h : isCInt t ∧ isCInt v
                · exact h
                · exact absurd (.inr (.inr (.inr h))) hnr
              have he : pyWrites w' (H ++ [(.writeInt w' d m t v, .ok r)])
                  = pyWrites w' H ++ pointsTo (beforeNul d) (beforeNul m) (cPoints [(t, v)]) := by
                rw [pyWrites_append, pyWrites, if_pos rfl]; rfl
              right
              rcases ih with h | ⟨f, i, d0, m0, ms, pts, g1, g2, g3, g4, g5, g6, g7⟩
              · by_cases hex : ∃ f i, (.newWriter f i, .ok w') ∈ H
                · obtain ⟨f, i, hf⟩ := hex
                  obtain ⟨d0, m0, ms, hms⟩ := hw f i hf
                  obtain ⟨e1, e2⟩ := h1 f i d0 m0 ms hf hms
                  refine ⟨f, i, d0, m0, ms, [(t, v)], List.mem_append_left _ hf, hms.mono _, ?_, ?_, ?_, ?_, ?_⟩
                  · rw [he, h, e1, e2]; rfl
                  · intro p hp; rw [List.mem_singleton.1 hp]; exact ⟨h2, hcint.1⟩
                  · exact List.pairwise_singleton _ _
                  · simp
                  · intro p hp; rw [List.mem_singleton.1 hp]; exact ⟨d, m, r, by simp⟩
                · exact absurd (.inl (fun f i h => hex ⟨f, i, h⟩)) hnr
              · obtain ⟨e1, e2⟩ := h1 f i d0 m0 ms g1 g2
                refine ⟨f, i, d0, m0, ms, pts ++ [(t, v)], List.mem_append_left _ g1, g2.mono _, ?_, ?_, ?_, ?_, ?_⟩
                · rw [he, g3, e1, e2, cPoints, cPoints, cPoints, List.map_append, pointsTo, pointsTo, pointsTo, List.map_append]
                · intro p hp
                  rcases List.mem_append.1 hp with hp | hp
                  · exact g4 p hp
                  · rw [List.mem_singleton.1 hp]; exact ⟨h2, hcint.1⟩
                · rw [List.pairwise_append]
                  refine ⟨g5, List.pairwise_singleton _ _, fun p hp q hq => ?_⟩
                  rw [List.mem_singleton.1 hq]
                  obtain ⟨d', m', r', hh⟩ := g7 p hp
                  exact h3 d' m' p.1 p.2 r' hh
                · rw [g3, pointsTo, List.length_map, cPoints, List.length_map] at h4
                  rw [List.length_append, List.length_singleton]
                  omega
                · intro p hp
                  rcases List.mem_append.1 hp with hp | hp
                  · obtain ⟨d', m', r', hh⟩ := g7 p hp
                    exact ⟨d', m', r', List.mem_append_left _ hh⟩
                  · rw [List.mem_singleton.1 hp]; exact ⟨d, m, r, by simp⟩
            · exact absurd (by rw [pyWrites, if_neg hww, pyWrites]) hq
          | raises => exact absurd rfl hq
          | abort => exact absurd rfl hq
          | ub => exact absurd rfl hq
        | newSchema _ _ _ _ _ => exact absurd rfl hq
        | freeSchema _ => exact absurd rfl hq
        | newWriter _ _ => exact absurd rfl hq
        | close _ => exact absurd rfl hq
        | delSchema _ => exact absurd rfl hq
        | delWriter _ => exact absurd rfl hq

end

/-! ## C85 -/

/-- C85, and the same for the sessions of the writer objects that are open. -/
theorem orderly_python {ce : CEnv} {unsnap : Bytes → Option Bytes} (hev : EnvOk ce.env unsnap) (hB : ∀ n ≤ 1, ce.env.bloomSize n ≤ 256)
    {cs : List PyOp} (hin : ∀ k c, cs[k]? = some c → StepInOrder ce ((cs.zip (run ce start cs).1).take k) c) :
    ((run ce start cs).1.length = cs.length ∧ ∀ o ∈ (run ce start cs).1, o = .raises ∨ ∃ n, o = .ok n)
    ∧ (∀ k r, (.close k, .ok r) ∈ cs.zip (run ce start cs).1 →
      ∃ f i d m ms file, (.newWriter f i, .ok k) ∈ cs.zip (run ce start cs).1 ∧ MadeSchema (cs.zip (run ce start cs).1) i d m ms
        ∧ (beforeNul f, file) ∈ (run ce start cs).2.mem.files
        ∧ ∀ d' m', readSeries unsnap file d' m'
          = some (series ((pyWrites k (cs.zip (run ce start cs).1)).flatMap Op.recs) d' m'))
    ∧ ∀ k f i d m ms, (.newWriter f i, .ok k) ∈ cs.zip (run ce start cs).1 → MadeSchema (cs.zip (run ce start cs).1) i d m ms →
      ∃ s, session ce.env [(beforeNul d, [(beforeNul m, ms)])] (pyWrites k (cs.zip (run ce start cs).1)) = some s
        ∧ ∀ d' m', readSeries unsnap s.file d' m'
          = some (series ((pyWrites k (cs.zip (run ce start cs).1)).flatMap Op.recs) d' m') := by
  have hpts : ∀ n sv wv, Known sv wv ((cs.zip (run ce start cs).1).take n) → ∀ k f i d m ms,
      (.newWriter f i, .ok k) ∈ (cs.zip (run ce start cs).1).take n → MadeSchema ((cs.zip (run ce start cs).1).take n) i d m ms →
      ∃ pts, pyWrites k ((cs.zip (run ce start cs).1).take n) = pointsTo (beforeNul d) (beforeNul m) (cPoints pts)
        ∧ (∀ p ∈ pts, 0 ≤ p.1 ∧ isCInt p.1) ∧ pts.Pairwise (fun p q => p.1 < q.1) ∧ pts.length ≤ 100000000
        ∧ ∀ p ∈ pts, ∃ d' m' r, (.writeInt k d' m' p.1 p.2, .ok r) ∈ (cs.zip (run ce start cs).1).take n := by
    intro n sv wv known k f i d m ms h1 h2
    rcases py_told_all hin k n with h | ⟨f', i', d', m', ms', pts, g1, g2, g3, g4, g5, g6, g7⟩
    · exact ⟨[], h, by simp, List.Pairwise.nil, by decide, by simp⟩
    · obtain ⟨rfl, rfl⟩ := known.wone _ _ _ _ _ h1 g1
      obtain ⟨rfl, rfl, rfl⟩ := known.made h2 g2
      exact ⟨pts, g3, g4, g5, g6, g7⟩
  have hsession : ∀ n sv wv, Known sv wv ((cs.zip (run ce start cs).1).take n) → ∀ k f i d m ms,
      (.newWriter f i, .ok k) ∈ (cs.zip (run ce start cs).1).take n → MadeSchema ((cs.zip (run ce start cs).1).take n) i d m ms →
      ∃ s, session ce.env [(beforeNul d, [(beforeNul m, ms)])] (pyWrites k ((cs.zip (run ce start cs).1).take n)) = some s
        ∧ ∀ d' m', readSeries unsnap s.file d' m'
          = some (series ((pyWrites k ((cs.zip (run ce start cs).1).take n)).flatMap Op.recs) d' m') := by
    intro n sv wv known k f i d m ms h1 h2
    obtain ⟨g1, -, g2, g3⟩ := made_in_order hin h2
    obtain ⟨pts, p1, p2, p3, p4, -⟩ := hpts n sv wv known k f i d m ms h1 h2
    obtain ⟨hix, hnm⟩ := single_indexable (ms := ms) g2 g3
    obtain ⟨s, hs, -, hr⟩ := C81_small hev hix (points_orderly g1 (cPoints_nonneg p2) (cPoints_increasing p2 p3))
      (by rw [points_handed, cPoints, List.length_map]; exact p4) (by simp) (by simp [Schema.size]) hnm
      (fun n hn => hB n (by simpa [Schema.size] using hn))
    exact ⟨s, by rw [p1]; exact hs, by rw [p1]; exact hr⟩
  have hno : ∀ n c, cs[n]? = some c → ∀ o, (run ce start cs).1[n]? = some o → ¬ PyAbortReason ce ((cs.zip (run ce start cs).1).take n) c := by
    intro n c hc o ho
    have hk := hin n c hc
    obtain ⟨-, -, sv, wv, known⟩ := (run_all ce cs start [] (pinv_start ce) known_start).2.1 n c o hc ho
    rw [List.nil_append] at known
    cases c with
    | newSchema d m x y z =>
      obtain ⟨⟨h1, h2⟩, -, rfl, hy, hz⟩ := hk
      rintro ⟨-, -, -, h | h | h | h | h⟩
      · rw [h1] at h; cases h
      · rw [h2] at h; cases h
      · cases h
      · rcases hy with rfl | rfl <;> cases h
      · rcases hz with rfl | rfl <;> cases h
    | newWriter f i =>
      rintro ⟨-, h | h | ⟨d, m, ms, e, -, h⟩⟩
      · rw [hk.1] at h; cases h
      · rw [hk.2] at h; cases h
      · obtain ⟨w, hw⟩ := new_total ce.env [(beforeNul d, [(beforeNul m, ms)])]
        rw [hw] at h
        cases h
    | writeInt k d m t v =>
      obtain ⟨a1, a2, a3, a4⟩ := hk
      rintro ⟨hnr, h⟩
      have hcint : isCInt t ∧ isCInt v := by
        by_cases h : isCInt t ∧ isCInt v
        · exact h
        · exact absurd (.inr (.inr (.inr h))) hnr
      have hex : ∃ f i, (.newWriter f i, .ok k) ∈ (cs.zip (run ce start cs).1).take n := by
        by_cases hex : ∃ f i, (.newWriter f i, .ok k) ∈ (cs.zip (run ce start cs).1).take n
        · exact hex
        · exact absurd (.inl (fun f i h => hex ⟨f, i, h⟩)) hnr
      obtain ⟨f, i, b1⟩ := hex
      obtain ⟨d0, m0, ms, b2⟩ := writer_in_order hin b1
      obtain ⟨e1, e2⟩ := a1 f i d0 m0 ms b1 b2
      obtain ⟨k1, ⟨u1, u2⟩, k2, k3⟩ := made_in_order hin b2
      rcases h with h | h | ⟨f', i', d', m', ms', writer, c1, c2, ⟨w0, c3, c4⟩, c5⟩
      · rw [e1, u1] at h; cases h
      · rw [e2, u2] at h; cases h
      · obtain ⟨rfl, rfl⟩ := known.wone _ _ _ _ _ b1 c1
        obtain ⟨rfl, rfl, rfl⟩ := known.made b2 c2
        subst c4
        refine c5 (write_of_run ?_)
        obtain ⟨pts, p1, p2, p3, p4, p5⟩ := hpts n sv wv known k f i d0 m0 ms b1 b2
        obtain ⟨hix, hnm⟩ := single_indexable (ms := ms) k2 k3
        have he : pyWrites k ((cs.zip (run ce start cs).1).take n) ++ [.write (beforeNul d) (beforeNul m) (BitVec.ofInt 64 t) (.INT (BitVec.ofInt 32 v))]
            = pointsTo (beforeNul d0) (beforeNul m0) (cPoints (pts ++ [(t, v)])) := by
          rw [p1, e1, e2, cPoints, cPoints, pointsTo, pointsTo, List.map_append, List.map_append]; rfl
        rw [p1, pointsTo, List.length_map, cPoints, List.length_map] at a4
        rw [he]
        have hsz : Schema.size [(beforeNul d0, [(beforeNul m0, ms)])] = 1 := rfl
        have q2 : ∀ p ∈ pts ++ [(t, v)], 0 ≤ p.1 ∧ isCInt p.1 := by
          intro p hp
          rcases List.mem_append.1 hp with hp | hp
          · exact p2 p hp
          · rw [List.mem_singleton.1 hp]; exact ⟨a2, hcint.1⟩
        have q3 : (pts ++ [(t, v)]).Pairwise (fun p q => p.1 < q.1) := by
          rw [List.pairwise_append]
          refine ⟨p3, List.pairwise_singleton _ _, fun p hp q hq => ?_⟩
          rw [List.mem_singleton.1 hq]
          obtain ⟨d', m', r', hh⟩ := p5 p hp
          exact a3 d' m' p.1 p.2 r' hh
        refine (orderly_session hev hix.wf (points_orderly k1 (cPoints_nonneg q2) (cPoints_increasing q2 q3)) c3 (L := 100000001)
          (by rw [hsz]; decide) (handed_bursts _ ?_) (fun n hn => by rw [hsz] at hn; have := hB n hn; omega)).1
        rw [points_handed, cPoints, List.length_map, List.length_append, List.length_singleton]
        omega
    | close k =>
      rintro ⟨-, f, i, d, m, ms, h1, h2, h3⟩
      obtain ⟨s, hs, -⟩ := hsession n sv wv known k f i d m ms h1 h2
      rw [hs] at h3
      cases h3
    | freeSchema _ => exact id
    | delSchema _ => exact id
    | delWriter _ => exact id
  have hab : PyOutcome.abort ∉ (run ce start cs).1 := by
    intro hm
    obtain ⟨n, ho⟩ := List.getElem?_of_mem hm
    have hn : n < cs.length := Nat.lt_of_lt_of_le (List.getElem?_eq_some_iff.1 ho).1 (run_length_le ce cs start)
    have hc : cs[n]? = some cs[n] := List.getElem?_eq_getElem hn
    exact hno n _ hc _ ho ((C79_aborts ce cs n _ _ hc ho).1 rfl)
  obtain ⟨hlen, -, known⟩ := (run_all ce cs start [] (pinv_start ce) known_start).2.2 hab
  rw [List.nil_append] at known
  have hfile : ∀ k f i d m ms, (.newWriter f i, .ok k) ∈ cs.zip (run ce start cs).1 → MadeSchema (cs.zip (run ce start cs).1) i d m ms →
      ∃ s, session ce.env [(beforeNul d, [(beforeNul m, ms)])] (pyWrites k (cs.zip (run ce start cs).1)) = some s
        ∧ ∀ d' m', readSeries unsnap s.file d' m'
          = some (series ((pyWrites k (cs.zip (run ce start cs).1)).flatMap Op.recs) d' m') := by
    intro k f i d m ms h1 h2
    have ht : (cs.zip (run ce start cs).1).take (cs.zip (run ce start cs).1).length = cs.zip (run ce start cs).1 := List.take_length
    have := hsession _ _ _ (by rw [ht]; exact known) k f i d m ms (by rw [ht]; exact h1) (by rw [ht]; exact h2)
    rwa [ht] at this
  refine ⟨⟨hlen, ?_⟩, ?_, hfile⟩
  · intro o ho
    cases o with
    | ok n => exact .inr ⟨n, rfl⟩
    | raises => exact .inl rfl
    | abort => exact absurd ho hab
    | ub => exact absurd ho (C79_no_ub ce cs)
  · intro k r hc
    obtain ⟨f, i, d, m, ms, s, h1, h2, h3, -, h5⟩ := C79_file ce cs k r hc
    obtain ⟨s', hs', hr⟩ := hfile k f i d m ms h1 h2
    rw [h3, Option.some.injEq] at hs'
    subst hs'
    exact ⟨f, i, d, m, ms, s.file, h1, h2, h5, hr⟩

/-- **C85**: a Python program that hands over its points in order, with any number of schema and writer objects at the same time, does
all its steps, each of which returns or raises an exception (for a reason of C79); the file of every writer object that it closed contains
exactly the points that the writer object took. -/
theorem C85_orderly {ce : CEnv} {unsnap : Bytes → Option Bytes} (hev : EnvOk ce.env unsnap) (hB : ∀ n ≤ 1, ce.env.bloomSize n ≤ 256)
    {cs : List PyOp} (hin : ∀ k c, cs[k]? = some c → StepInOrder ce ((cs.zip (run ce start cs).1).take k) c) :
    ((run ce start cs).1.length = cs.length ∧ ∀ o ∈ (run ce start cs).1, o = .raises ∨ ∃ n, o = .ok n)
    ∧ ∀ k r, (.close k, .ok r) ∈ cs.zip (run ce start cs).1 →
      ∃ f i d m ms file, (.newWriter f i, .ok k) ∈ cs.zip (run ce start cs).1 ∧ MadeSchema (cs.zip (run ce start cs).1) i d m ms
        ∧ (beforeNul f, file) ∈ (run ce start cs).2.mem.files
        ∧ ∀ d' m', readSeries unsnap file d' m'
          = some (series ((pyWrites k (cs.zip (run ce start cs).1)).flatMap Op.recs) d' m') :=
  ⟨(orderly_python hev hB hin).1, (orderly_python hev hB hin).2.1⟩

/-! ## Cases -/

/-- How the steps of `Demo.pyprogram` end. -/
def Demo.pyoutcomes : List PyOutcome :=
  [.ok 0, .ok 0, .ok 1, .ok 0, .ok 0, .raises, .ok 0, .ok 0, .raises, .ok 0, .ok 0, .raises, .raises, .ok 0, .ok 0, .ok 0, .ok 1]

theorem Demo.pyprogram_outcomes : (run Demo.cenv start Demo.pyprogram).1 = Demo.pyoutcomes := by decide +kernel

/-- Two writer objects of one schema object, interleaved, with exceptions (`Demo.pyprogram`). -/
theorem Demo.pyprogram_in_order (k : Nat) (c : PyOp) (hc : Demo.pyprogram[k]? = some c) :
    StepInOrder Demo.cenv ((Demo.pyprogram.zip (run Demo.cenv start Demo.pyprogram).1).take k) c := by
  rw [Demo.pyprogram_outcomes]
  have hk : k < 17 := by
    rcases Nat.lt_or_ge k 17 with h | h
    · exact h
    · rw [List.getElem?_eq_none (by exact h)] at hc
      cases hc
  have names : ∀ k w f i d0 m0 ms, (.newWriter f i, .ok w) ∈ (Demo.pyprogram.zip Demo.pyoutcomes).take k →
      MadeSchema ((Demo.pyprogram.zip Demo.pyoutcomes).take k) i d0 m0 ms →
      beforeNul (str "d1") = beforeNul d0 ∧ beforeNul (str "s1") = beforeNul m0 := by
    intro k w f i d0 m0 ms h1 h2
    have h1 := List.mem_of_mem_take h1
    obtain ⟨x, y, z, h2, -⟩ := h2
    have h2 := List.mem_of_mem_take h2
    simp only [Demo.pyprogram, Demo.pyoutcomes, List.zip_cons_cons, List.zip_nil_right, List.mem_cons, List.not_mem_nil, or_false, Prod.mk.injEq,
      PyOp.newWriter.injEq, PyOutcome.ok.injEq, reduceCtorEq, false_and, and_false, false_or] at h1
    have hi : i = 0 := by
      rcases h1 with h | h
      · exact h.1.2
      · exact h.1.2
    subst hi
    simp only [Demo.pyprogram, Demo.pyoutcomes, List.zip_cons_cons, List.zip_nil_right, List.mem_cons, List.not_mem_nil, or_false, Prod.mk.injEq,
      PyOp.newSchema.injEq, PyOutcome.ok.injEq, reduceCtorEq, false_and, and_false] at h2
    obtain ⟨⟨rfl, rfl, -⟩, -⟩ := h2
    exact ⟨rfl, rfl⟩
  have hcase : k = 0 ∨ k = 1 ∨ k = 2 ∨ k = 3 ∨ k = 4 ∨ k = 5 ∨ k = 6 ∨ k = 7 ∨ k = 8 ∨ k = 9 ∨ k = 10 ∨ k = 11 ∨ k = 12 ∨ k = 13 ∨ k = 14 ∨ k = 15 ∨ k = 16 := by omega
  rcases hcase with rfl | rfl | rfl | rfl | rfl | rfl | rfl | rfl | rfl | rfl | rfl | rfl | rfl | rfl | rfl | rfl | rfl <;> obtain rfl := Option.some.inj hc
  all_goals first
    | exact True.intro
    | exact ⟨by decide +kernel, by decide +kernel, rfl, .inr rfl, .inl rfl⟩
    | exact ⟨by decide +kernel, by decide +kernel⟩
    | (refine ⟨fun f i d0 m0 ms => names _ _ f i d0 m0 ms, by decide, ?_, by decide +kernel⟩
       intro d' m' t' v' r h
       simp only [Demo.pyprogram, Demo.pyoutcomes, List.zip_cons_cons, List.take_succ_cons, List.take_zero, List.mem_cons, List.not_mem_nil,
         or_false, Prod.mk.injEq, PyOp.writeInt.injEq, PyOutcome.ok.injEq, reduceCtorEq, false_and, and_false, false_or] at h
       try omega)

/-- All 17 steps are done, and the file has the two points that the first writer object took. -/
example : (run Demo.cenv start Demo.pyprogram).1.length = 17
    ∧ ∃ file, (str "a.tsfile", file) ∈ (run Demo.cenv start Demo.pyprogram).2.mem.files
      ∧ readSeries some file (str "d1") (str "s1") = some [(10, .INT 7), (11, .INT 8)] := by
  obtain ⟨h1, h2⟩ := C85_orderly (ce := Demo.cenv) Demo.envOk (by decide +kernel) (cs := Demo.pyprogram) Demo.pyprogram_in_order
  refine ⟨h1.1, ?_⟩
  obtain ⟨f, i, d, m, ms, file, h3, -, h4, h5⟩ := h2 0 0 (by decide +kernel)
  have h6 := h5 (str "d1") (str "s1")
  have h7 : f = str "a.tsfile" := by
    rw [Demo.pyprogram_outcomes] at h3
    simp only [Demo.pyprogram, Demo.pyoutcomes, List.zip_cons_cons, List.zip_nil_right, List.mem_cons, List.not_mem_nil, or_false, Prod.mk.injEq,
      PyOp.newWriter.injEq, PyOutcome.ok.injEq, reduceCtorEq, false_and, and_false, false_or] at h3
    exact h3.1.1
  subst h7
  refine ⟨file, h4, h6.trans ?_⟩
  decide +kernel

end TsFile
