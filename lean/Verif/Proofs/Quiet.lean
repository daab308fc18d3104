import Verif.Proofs.Size
/-! # When the writer flushes -/

namespace TsFile
open Spec

/-- A call does not make the output grow while the waiting points, with those of the call, and the series need at most
128 MB, at 22 bytes for a point and 120 bytes for a series. -/
theorem step_quiet {env : Env} {unsnap : Bytes → Option Bytes} (hsn : SnappyOk env unsnap) {schema : Schema}
    {w : Writer} {a : AState} {groups : List GGroup} (h : Sim env unsnap schema w a groups) (op : Op)
    (hnp : (w.step env op).2 ≠ .panic) 
    (hlen : 22 * (a.pending.length + op.recs.length) + 120 * schema.size ≤ 2 ^ 27) :
    (w.step env op).1.io.out.bytes = w.io.out.bytes := by
  obtain ⟨hle, ⟨hr, w1, hs, hst, _⟩ | ⟨e, w1, hr, hs, hst⟩ | ⟨hr, hst⟩⟩ := sim_exec hsn h op
  · have h1 := hs.mem_le
    have h2 : w1.memSize.toNat = w1.memN := by rw [w1.memN_eq, u32_toNat _ (by omega)]
    have h3 : w1.io.out.bytes = w.io.out.bytes := by rw [hs.file.bytes, h.file.bytes]
    rw [hst, Writer.afterOk] at hnp ⊢
    cases hck : w1.checkMemorySize env with
    | none => rw [hck] at hnp; simp at hnp
    | some w2 =>
      suffices hio : w2.io = w1.io by
        simp only
        rw [hio]
        exact h3
      clear hnp hst
      rw [Writer.checkMemorySize] at hck
      split at hck
      · simp only at hck
        split at hck
        · simp at hck
        · rw [if_neg (by rw [chunkGroupSizeThreshold]; omega)] at hck
          simp only [Option.some.injEq] at hck
          rw [← hck]
      · simp only [Option.some.injEq] at hck
        rw [← hck]
  · rw [hst]
    change w1.io.out.bytes = w.io.out.bytes
    rw [hs.file.bytes, h.file.bytes]
  · exact absurd hst hnp

/-- The calls that make the output grow are few. -/
theorem run_few {env : Env} {unsnap : Bytes → Option Bytes} (hsn : SnappyOk env unsnap) {schema : Schema}
    (hwf : schema.WF) (ops : List Op) {w : Writer} {a : AState} {groups : List GGroup}
    (h : Sim env unsnap schema w a groups) (n : Nat) (hn : a.pending.length ≤ n)
    (hlen : burstsBelow (2 ^ 32) n (ops.zip ((w.grown env ops).map (fun n => decide (0 < n)))))
    (hnp : .panic ∉ (w.run env ops).2) :
    ((w.grown env ops).filter (fun n => decide (0 < n))).length * (6100806 - 6 * schema.size)
      ≤ n + (ops.map (fun op => op.recs.length)).sum := by
  induction ops generalizing w a groups n with
  | nil => simp [Writer.grown]
  | cons op ops ih =>
    simp only [Writer.grown, List.map_cons, List.zip_cons_cons, burstsBelow] at hlen
    simp only [Writer.run, List.mem_cons, not_or] at hnp
    obtain ⟨new1, hres, _, hs1, hl1⟩ := sim_step hsn hwf h op (by omega) (fun hc => hnp.1 hc.symm)
    have hg := grows_iff h.file hs1.file
    rw [hg.2] at hlen
    have hi := ih hs1 (if decide (new1 ≠ []) then 0 else n + op.recs.length)
      (by split at hl1 <;> simp_all; omega) hlen.2 hnp.2
    simp only [Writer.grown, List.filter_cons, hg.2, List.map_cons, List.sum_cons]
    by_cases hnew : new1 = []
    · simp only [hnew, ne_eq, not_true_eq_false, decide_false, Bool.false_eq_true, ↓reduceIte] at hi ⊢
      omega
    · simp only [hnew, ne_eq, not_false_eq_true, decide_true, ↓reduceIte, List.length_cons] at hi ⊢
      have hbig : 6100806 ≤ a.pending.length + op.recs.length + 6 * schema.size := by
        by_contra hc
        have hq := step_quiet hsn h op (fun hc => hnp.1 hc.symm) (by omega)
        have h2 := hg.2
        rw [hq, Nat.sub_self] at h2
        simp [hnew] at h2
      rw [Nat.succ_mul]
      omega

/-- A run stores no more points than it is given. -/
theorem run_points (schema : Schema) (l : List (Op × Bool)) (a : AState) :
    (a.run schema l).1.stored.length + (a.run schema l).1.pending.length
      ≤ a.stored.length + a.pending.length + (l.map (fun e => e.1.recs.length)).sum := by
  induction l generalizing a with
  | nil => simp [AState.run]
  | cons e l ih =>
    obtain ⟨op, fl⟩ := e
    have h1 := ih (a.step schema op fl).1
    have h2 : (a.exec schema op).1.stored.length + (a.exec schema op).1.pending.length
        ≤ a.stored.length + a.pending.length + op.recs.length := by
      obtain ⟨hst, ⟨_, hp, _⟩ | ⟨_, _, hp⟩⟩ := exec_cases schema a op
      · rw [hst, hp, List.length_append]; omega
      · rw [hst]
        cases op with
        | write d m t v => simp only at hp; rw [hp]; omega
        | writeMany d t vs =>
          obtain ⟨k, _, hp⟩ := hp
          rw [hp, List.length_append]
          simp only [Op.recs, List.length_map, List.length_take]
          omega
    have h3 : ∀ b : AState, b.flush.stored.length + b.flush.pending.length = b.stored.length + b.pending.length := by
      intro b
      rw [AState.flush]
      split <;> simp
    have h4 : (a.step schema op fl).1.stored.length + (a.step schema op fl).1.pending.length
        = (a.exec schema op).1.stored.length + (a.exec schema op).1.pending.length := by
      simp only [AState.step]
      split
      · exact h3 _
      · rfl
    simp only [AState.run, List.map_cons, List.sum_cons]
    omega

theorem stored_length_le (schema : Schema) (ops : List Op) (grown : List Nat) :
    (storedBy schema ops grown).length ≤ (ops.map (fun op => op.recs.length)).sum := by
  have h1 := run_points schema (ops.zip (grown.map (fun n => decide (0 < n)))) AState.init
  have h2 : ∀ b : AState, b.flush.stored.length ≤ b.stored.length + b.pending.length := by
    intro b
    rw [AState.flush]
    split <;> simp
  have h3 := h2 (AState.init.run schema (ops.zip (grown.map (fun n => decide (0 < n))))).1
  have h4 : ∀ (a : List Op) (b : List Bool), ((a.zip b).map (fun e => e.1.recs.length)).sum
      ≤ (a.map (fun op => op.recs.length)).sum := by
    intro a
    induction a with
    | nil => simp
    | cons x a ih =>
      intro b
      cases b with
      | nil => simp
      | cons y b => simp only [List.zip_cons_cons, List.map_cons, List.sum_cons]; have := ih b; omega
  have h5 := h4 ops (grown.map (fun n => decide (0 < n)))
  have h6 : AState.init.stored.length + AState.init.pending.length = 0 := rfl
  rw [storedBy]
  omega

end TsFile
