import Verif.Props.Size
import Verif.Proofs.Limits
import Verif.Proofs.Smooth
/-! # Histories of any length: C70, C71 -/

namespace TsFile
open Spec

/-! ## C70 -/

theorem new_next {env : Env} {schema : Schema} {out : Sink} {w0 : Writer} (h : Writer.new env schema out = .ok w0) :
    w0.recordCountForNextMemCheck = 100 := by
  rw [Writer.new] at h
  split at h
  · simp at h
  · simp only [Except.ok.injEq] at h
    subst h
    rfl

/-- **C70**, partial. However long the history is, no more than 2^27 points wait in memory after a call, and the memory
estimate is at most 22 bytes for each of them and 120 bytes for each series. Missing: series that are compressed or not encoded
as PLAIN (false: `C70_compressed_wrong`), and histories in which a call fails (false: `C70_memory_wrong`). -/
theorem C70_waiting_partial {env : Env} {unsnap : Bytes → Option Bytes} (hsn : SnappyOk env unsnap) {schema : Schema}
    (hwf : schema.WF) (hpl : schema.Plain) {K : Nat} (hK : 22 * (2 ^ 27 + K) + 120 * schema.size < 2 ^ 32) {ops : List Op}
    {w0 : Writer} (hnew : Writer.new env schema ⟨[], none⟩ = .ok w0) (hops : ∀ op ∈ ops, op.recs.length ≤ K)
    (hok : ∀ r ∈ (w0.run env ops).2, r = .ok ()) :
    Reached env schema ops w0 (w0.run env ops).1
    ∧ (abstractly env schema ops w0).pending.length ≤ 2 ^ 27
    ∧ (w0.run env ops).1.memSize.toNat ≤ 22 * 2 ^ 27 + 120 * schema.size := by
  have hnp : .panic ∉ (w0.run env ops).2 := fun hc => by have := hok _ hc; simp at this
  have hsim := sim_new unsnap hwf hnew
  have hn : w0.recordCountForNextMemCheck.toNat ≤ 2 ^ 27 := by rw [new_next hnew]; decide
  obtain ⟨hb, hw⟩ := plain_bursts hsn hwf hpl hK ops hsim hops hok rfl (by simp [AState.init]) hn
  have hr : Reached env schema ops w0 (w0.run env ops).1 :=
    ⟨hnew, rfl, hnp, burstsBelow_mono (by omega) _ _ hb⟩
  obtain ⟨groups, hs, _⟩ := hr.sim hsn hwf
  refine ⟨hr, hw, ?_⟩
  have h1 := hs.mem_le
  have h2 : (abstractly env schema ops w0).pending.length ≤ 2 ^ 27 := hw
  rw [Writer.memN_eq, u32_toNat _ (by omega)]
  omega

/-- **C70** is violated: the points that a failing `write_many` keeps are not counted, so there is no check and no flush
because of them, and the memory grows with each such call. For each `n` there is a history of `n` calls after which the memory
estimate is at least `8 n` bytes (up to 1.5 GB, twelve times the threshold) and nothing has been written. -/
theorem C70_memory_wrong {env : Env} {unsnap : Bytes → Option Bytes} (hsn : SnappyOk env unsnap) (d m x : Bytes)
    (hx : x ≠ m) (n : Nat) (hn : n ≤ 190000000) :
    ∃ (ops : List Op) (w0 : Writer), ops.length = n
      ∧ Writer.new env [(d, [(m, ⟨.INT64, .PLAIN, .UNCOMPRESSED⟩)])] ⟨[], none⟩ = .ok w0
      ∧ (∀ r ∈ (w0.run env ops).2, r = .err (.illegalState (some "Unknown measurement id")))
      ∧ (w0.run env ops).1.io.out.bytes = [0x54, 0x73, 0x46, 0x69, 0x6c, 0x65, 0x03]
      ∧ 8 * n ≤ (w0.run env ops).1.memSize.toNat := by
  obtain ⟨w0, hnew⟩ : ∃ w0, Writer.new env (wideSchema d m) ⟨[], none⟩ = .ok w0 := ⟨_, rfl⟩
  have hsim := sim_new unsnap (wide_wf d m) hnew
  obtain ⟨h1, a', h2, h3, h4⟩ := fail_run hsn hx n hsim 0 (by omega) (by simp [AState.init]) (by simp [AState.init])
  refine ⟨failOps d m x 0 n, w0, by simp [failOps], hnew, h1, ?_, ?_⟩
  · rw [h2.file.bytes]; rfl
  · have h5 := h2.mem_ge (d := d) (m := m) (ms := [(m, wide)]) (by simp [wideSchema, look]) (by simp [look])
    have h6 := h2.mem_le
    have h7 : (series AState.init.pending d m).length = 0 := rfl
    have h8 : AState.init.pending.length = 0 := rfl
    have h9 : (wideSchema d m).size = 1 := rfl
    rw [Writer.memN_eq, u32_toNat _ (by omega)]
    omega

theorem run_ok_append {env : Env} {ops ops' : List Op} {w : Writer} (h : ∀ r ∈ (w.run env ops).2, r = .ok ())
    (h' : ∀ r ∈ ((w.run env ops).1.run env ops').2, r = .ok ()) : ∀ r ∈ (w.run env (ops ++ ops')).2, r = .ok () := by
  rw [(run_append env ops ops' w).2.1]
  intro r hr
  rcases List.mem_append.1 hr with hr | hr
  · exact h r hr
  · exact h' r hr

/-- **C70** is violated also when every call succeeds: a check puts the next one off in proportion to the memory that the points
have taken so far. If these compress well, the next check comes hundreds of millions of points later, and if the points from then
on do not compress, they are all kept in memory. Here the memory estimate reaches 1.5 GB, eleven times the threshold, and nothing
has been written. -/
theorem C70_compressed_wrong {env : Env} {unsnap : Bytes → Option Bytes} (hsn : SnappyOk env unsnap) (d a b : Bytes)
    (hab : a ≠ b) :
    ∃ (ops : List Op) (w0 : Writer), (∀ op ∈ ops, ∃ m t, op = .write d m t (.LONG 0))
      ∧ Writer.new env [(d, [(a, ⟨.INT64, .TS2DIFF, .UNCOMPRESSED⟩), (b, ⟨.INT64, .PLAIN, .UNCOMPRESSED⟩)])] ⟨[], none⟩ = .ok w0
      ∧ (∀ r ∈ (w0.run env ops).2, r = .ok ())
      ∧ (w0.run env ops).1.io.out.bytes = [0x54, 0x73, 0x46, 0x69, 0x6c, 0x65, 0x03]
      ∧ 8 * 190000000 ≤ (w0.run env ops).1.memSize.toNat := by
  obtain ⟨w0, hnew⟩ : ∃ w0, Writer.new env (twoSchema d a b) ⟨[], none⟩ = .ok w0 := ⟨_, rfl⟩
  have hT : chunkGroupSizeThreshold = 134217728 := rfl
  have hn0 : w0.recordCountForNextMemCheck.toNat = 100 := by rw [new_next hnew]; rfl
  -- a hundred points of the second series
  obtain ⟨r1, n1, s1, m1, t1⟩ := run_b hsn hab 99 (sim_new unsnap (two_wf hab) hnew) (Two.init d a b) (by omega)
  generalize h1 : (w0.run env (wideOps d b 0 99)).1 = w1 at *
  obtain ⟨r2, s2, m2, t2, l2, u2⟩ := check_b hsn hab m1 t1 (by rw [n1]; omega) 2440 (by omega) (by omega) (by rw [n1, hn0, hT]; omega)
  rw [n1, hn0, hT] at l2 u2
  generalize h2 : (w1.step env (.write d b (BitVec.ofNat 64 (0 + 99)) (.LONG 0))).1 = w2 at *
  obtain ⟨c1, hc1⟩ : ∃ c1, w2.recordCountForNextMemCheck.toNat = c1 := ⟨_, rfl⟩
  rw [hc1] at l2 u2
  -- more of them, and then many points of the first series
  obtain ⟨r3, n3, s3, m3, t3⟩ := run_b hsn hab (c1 / 200 - 100) m2 t2 (by omega)
  generalize h3 : (w2.run env (wideOps d b (0 + 99 + 1) (c1 / 200 - 100))).1 = w3 at *
  obtain ⟨r4, n4, s4, m4, t4⟩ := run_a hsn hab (c1 - c1 / 200 - 1) m3 t3 (by rw [n3]; omega)
  generalize h4 : (w3.run env (wideOps d a 0 (c1 - c1 / 200 - 1))).1 = w4 at *
  rw [n3] at n4
  obtain ⟨r5, s5, m5, t5, l5, u5⟩ := check_b hsn hab m4 t4 (by rw [n4]; omega) (3 * c1 / 5 + c1 / 100 + 2400) (by omega) (by omega) (by
    rw [n4, hc1, hT]
    apply Nat.div_lt_of_lt_mul
    omega)
  rw [n4, hc1, hT] at l5 u5
  generalize h5 : (w4.step env (.write d b (BitVec.ofNat 64 (0 + 99 + 1 + (c1 / 200 - 100))) (.LONG 0))).1 = w5 at *
  -- the next check is far away
  have hfar : 208000000 ≤ w5.recordCountForNextMemCheck.toNat := by
    refine Nat.le_trans ?_ l5
    rw [Nat.le_div_iff_mul_le (by omega)]
    omega
  obtain ⟨r6, n6, s6, m6, t6⟩ := run_b hsn hab (190000000 - (0 + 99 + 1 + (c1 / 200 - 100) + 1)) m5 t5 (by omega)
  have hall : ∀ op ∈ wideOps d b 0 99 ++ [Op.write d b (BitVec.ofNat 64 (0 + 99)) (.LONG 0)]
      ++ wideOps d b (0 + 99 + 1) (c1 / 200 - 100) ++ wideOps d a 0 (c1 - c1 / 200 - 1)
      ++ [Op.write d b (BitVec.ofNat 64 (0 + 99 + 1 + (c1 / 200 - 100))) (.LONG 0)]
      ++ wideOps d b (0 + 99 + 1 + (c1 / 200 - 100) + 1) (190000000 - (0 + 99 + 1 + (c1 / 200 - 100) + 1)),
      ∃ m t, op = .write d m t (.LONG 0) := by
    have hw : ∀ m t n, ∀ op ∈ wideOps d m t n, ∃ m t, op = .write d m t (.LONG 0) := by
      intro m t n op ho
      obtain ⟨i, _, rfl⟩ := List.mem_map.1 ho
      exact ⟨_, _, rfl⟩
    intro op ho
    simp only [List.mem_append, List.mem_singleton] at ho
    rcases ho with ((((ho | rfl) | ho) | ho) | rfl) | ho
    · exact hw _ _ _ _ ho
    · exact ⟨_, _, rfl⟩
    · exact hw _ _ _ _ ho
    · exact hw _ _ _ _ ho
    · exact ⟨_, _, rfl⟩
    · exact hw _ _ _ _ ho
  have e1 : (w0.run env (wideOps d b 0 99 ++ [Op.write d b (BitVec.ofNat 64 (0 + 99)) (.LONG 0)])).1 = w2 := by
    rw [(run_append env _ _ _).1, h1]; exact h2
  have e2 := (run_append env (wideOps d b 0 99 ++ [Op.write d b (BitVec.ofNat 64 (0 + 99)) (.LONG 0)])
    (wideOps d b (0 + 99 + 1) (c1 / 200 - 100)) w0).1
  rw [e1, h3] at e2
  have e3 := (run_append env _ (wideOps d a 0 (c1 - c1 / 200 - 1)) w0).1.trans (congrArg (fun w => (Writer.run env w _).1) e2)
  rw [h4] at e3
  have e4 := (run_append env _ [Op.write d b (BitVec.ofNat 64 (0 + 99 + 1 + (c1 / 200 - 100))) (.LONG 0)] w0).1.trans
    (congrArg (fun w => (Writer.run env w _).1) e3)
  have e5 : (w4.run env [Op.write d b (BitVec.ofNat 64 (0 + 99 + 1 + (c1 / 200 - 100))) (.LONG 0)]).1 = w5 := h5
  rw [e5] at e4
  have e6 := (run_append env _ (wideOps d b (0 + 99 + 1 + (c1 / 200 - 100) + 1) (190000000 - (0 + 99 + 1 + (c1 / 200 - 100) + 1))) w0).1.trans
    (congrArg (fun w => (Writer.run env w _).1) e4)
  refine ⟨_, w0, hall, hnew, ?_, ?_, ?_⟩
  · refine run_ok_append (run_ok_append (run_ok_append (run_ok_append (run_ok_append r1 ?_) ?_) ?_) ?_) ?_
    · rw [h1]; intro r hr; simp only [Writer.run, List.mem_singleton] at hr; rw [hr]; exact r2
    · rw [e1]; exact r3
    · rw [e2]; exact r4
    · rw [e3]; intro r hr; simp only [Writer.run, List.mem_singleton] at hr; rw [hr]; exact r5
    · rw [e4]; exact r6
  · rw [e6, m6.file.bytes]; rfl
  · have h7 := m6.two_le hab t6
    rw [e6, Writer.memN_eq, u32_toNat _ (by omega)]
    omega

/-! ## C71 -/

/-- **C71.** The bytes that a call adds to the output do not depend on the length of the history, but only on the number `L` of
points between two flushes: `22` bytes for each point, and `N + 7` bytes for each device and `N + 167` bytes for each series. -/
theorem C71_call {env : Env} {unsnap : Bytes → Option Bytes} (he : EnvOk env unsnap) {schema : Schema} (hwf : schema.WF)
    {ops : List Op} {s : Session} (hs : session env schema ops = some s) {L : Nat} (hL : L ≤ 2 ^ 32)
    (hb : burstsBelow L 0 (ops.zip (s.grown.map (fun n => decide (0 < n))))) {N : Nat} (hN : schema.NamesBelow N) :
    ∀ n ∈ s.grown, n ≤ schema.length * (7 + N) + 22 * L + (167 + N) * schema.size :=
  (session_limits he hwf hs hL hb hN).1

/-- **C71.** What closing adds: the last block, and the index of all blocks. -/
theorem C71_closing {env : Env} {unsnap : Bytes → Option Bytes} (he : EnvOk env unsnap) {schema : Schema} (hwf : schema.WF)
    {ops : List Op} {s : Session} (hs : session env schema ops = some s) {L : Nat} (hL : L ≤ 2 ^ 32)
    (hb : burstsBelow L 0 (ops.zip (s.grown.map (fun n => decide (0 < n))))) {N : Nat} (hN : schema.NamesBelow N) :
    s.closing ≤ schema.length * (7 + N) + 22 * L + (167 + N) * schema.size + 53
      + (189 + 3 * N) * ((1 + growths s.grown) * schema.size)
      + bloomBits env (pathsOf (storedBy schema ops s.grown)).length / 8 :=
  (session_limits he hwf hs hL hb hN).2

/-- **C71.** So, whether a session stays within the limits of the format depends on the number `L` of points between two
flushes, and on the size of the index; `F` bounds the number of flushes. -/
theorem C71_within {env : Env} {unsnap : Bytes → Option Bytes} (he : EnvOk env unsnap) {schema : Schema}
    (hwf : schema.WF) {ops : List Op} {s : Session} (hs : session env schema ops = some s) {N F B L : Nat}
    (hL : burstsBelow L 0 (ops.zip (s.grown.map (fun n => decide (0 < n)))))
    (hN : schema.NamesBelow N) (hF : handed ops < F * (6100806 - 6 * schema.size))
    (hB : ∀ n ≤ schema.size, env.bloomSize n ≤ B)
    (hcall : schema.length * (7 + N) + 22 * L + (167 + N) * schema.size + 53 + (189 + 3 * N) * (F * schema.size)
      + max B 256 / 8 < 2 ^ 32)
    (hfile : 60 + F * schema.length * (7 + N) + 22 * handed ops + (356 + 4 * N) * (F * schema.size) + max B 256 / 8
      < 2 ^ 64) :
    s.Within ops := by
  have hb := burstsBelow_mono (l2 := 2 ^ 32) (by omega) _ _ hL
  obtain ⟨h1, h2, h6⟩ := session_length he hwf hs hb hN
  obtain ⟨w0, hr, hg⟩ := session_reached hs hb
  have h3 := C66_rare he.snappy hwf hr
  rw [← hg] at h3
  have h4 : 1 + growths s.grown ≤ F := by
    by_contra hc
    have : F * (6100806 - 6 * schema.size) ≤ growths s.grown * (6100806 - 6 * schema.size) :=
      Nat.mul_le_mul_right _ (by omega)
    omega
  have h5 : (storedBy schema ops s.grown).length ≤ handed ops := stored_length_le schema ops s.grown
  have h7 : bloomBits env (pathsOf (storedBy schema ops s.grown)).length / 8 ≤ max B 256 / 8 := by
    apply Nat.div_le_div_right
    have := hB _ h6
    rw [bloomBits]
    omega
  have h8 : (1 + growths s.grown) * schema.length * (7 + N) ≤ F * schema.length * (7 + N) :=
    Nat.mul_le_mul_right _ (Nat.mul_le_mul_right _ h4)
  have h9 : (356 + 4 * N) * ((1 + growths s.grown) * schema.size) ≤ (356 + 4 * N) * (F * schema.size) :=
    Nat.mul_le_mul_left _ (Nat.mul_le_mul_right _ h4)
  have h10 : (189 + 3 * N) * ((1 + growths s.grown) * schema.size) ≤ (189 + 3 * N) * (F * schema.size) :=
    Nat.mul_le_mul_left _ (Nat.mul_le_mul_right _ h4)
  have h11 := C71_call he hwf hs (by omega) hL hN
  have h12 := C71_closing he hwf hs (by omega) hL hN
  refine ⟨hb, fun n hn => ?_, by omega, ?_⟩
  · have := h11 n hn
    omega
  · rw [growths] at h8 h9
    omega

/-- **C71**, with numbers: up to ten billion points, a thousand devices and a thousand series with PLAIN encoding and without
compression, names and paths of up to a hundred bytes, calls that succeed, of up to a million points each. -/
theorem C71_ten_billion {env : Env} {unsnap : Bytes → Option Bytes} (he : EnvOk env unsnap) {schema : Schema}
    (hwf : schema.WF) (hpl : schema.Plain) {ops : List Op} {s : Session} (hs : session env schema ops = some s)
    (hok : ∀ r ∈ s.results, r = .ok ()) (hops : ∀ op ∈ ops, op.recs.length ≤ 1000000)
    (hP : handed ops ≤ 10000000000) (hd : schema.length ≤ 1000) (hm : schema.size ≤ 1000) (hN : schema.NamesBelow 100)
    (hB : ∀ n ≤ schema.size, env.bloomSize n ≤ 8 * n + 1) : s.Within ops := by
  have hb : burstsBelow (2 ^ 27 + 1000000 + 1) 0 (ops.zip (s.grown.map (fun n => decide (0 < n)))) := by
    rw [session] at hs
    cases hnew : Writer.new env schema ⟨[], none⟩ with
    | error e => rw [hnew] at hs; simp at hs
    | ok w =>
      rw [hnew] at hs
      simp only at hs
      split at hs
      · simp at hs
      · next hnp =>
        split at hs
        · simp at hs
        · simp only [Option.some.injEq] at hs
          subst hs
          exact (plain_bursts he.snappy hwf hpl (K := 1000000) (by omega) ops (sim_new unsnap hwf hnew) hops hok rfl
            (by simp [AState.init]) (by rw [new_next hnew]; decide)).1
  refine C71_within he hwf hs (F := 1641) (B := 8001) hb hN (by omega) ?_ ?_ ?_
  · intro n hn
    have := hB n hn
    omega
  · rw [show max 8001 256 / 8 = 1000 by decide]
    omega
  · rw [show max 8001 256 / 8 = 1000 by decide]
    omega

theorem accepted_all (ops : List Op) (rs : List (Res Unit)) (hl : rs.length = ops.length) (hok : ∀ r ∈ rs, r = .ok ()) :
    accepted ops rs = ops.flatMap Op.recs := by
  induction ops generalizing rs with
  | nil => cases rs <;> rfl
  | cons op ops ih =>
    cases rs with
    | nil => simp at hl
    | cons r rs =>
      rw [accepted, hok r (by simp), if_pos rfl, ih rs (by simpa using hl) (fun r hr => hok r (by simp [hr])),
        List.flatMap_cons]

/-- **C01**, partial, for ten billion points: reading a closed file through its index gives exactly the points of the calls, with
conditions on the inputs and on the answers of the calls only. Missing: as in `C01_index_read_back_partial`. -/
theorem C01_ten_billion_partial {env : Env} {unsnap : Bytes → Option Bytes} (he : EnvOk env unsnap) {schema : Schema}
    (hsch : schema.Indexable) (hpl : schema.Plain) {ops : List Op} {s : Session} (hs : session env schema ops = some s)
    (hok : ∀ r ∈ s.results, r = .ok ()) (hops : ∀ op ∈ ops, op.recs.length ≤ 1000000)
    (hP : handed ops ≤ 10000000000) (hd : schema.length ≤ 1000) (hm : schema.size ≤ 1000) (hN : schema.NamesBelow 100)
    (hB : ∀ n ≤ schema.size, env.bloomSize n ≤ 8 * n + 1) (d m : Bytes) :
    readSeries unsnap s.file d m = some (series (ops.flatMap Op.recs) d m) := by
  have hw := C71_ten_billion he hsch.wf hpl hs hok hops hP hd hm hN hB
  have hl : s.results.length = ops.length := by
    rw [session] at hs
    cases hnew : Writer.new env schema ⟨[], none⟩ with
    | error e => rw [hnew] at hs; simp at hs
    | ok w =>
      rw [hnew] at hs
      simp only at hs
      split at hs
      · simp at hs
      · split at hs
        · simp at hs
        · simp only [Option.some.injEq] at hs
          subst hs
          exact (run_length env ops w).1
  rw [C01_accepted_read_back_partial he hsch hs hw (fun _ _ _ r hr => hok r (List.of_mem_zip hr).2), accepted_all _ _ hl hok]

/-! ## a session that meets the hypotheses -/

namespace Demo

def plainSchema : Schema :=
  [(str "root.sg.d2", [(str "s1", ⟨.INT64, .PLAIN, .UNCOMPRESSED⟩), (str "s2", ⟨.FLOAT, .PLAIN, .UNCOMPRESSED⟩)]),
   (str "root.sg.d1", [(str "s1", ⟨.INT32, .PLAIN, .UNCOMPRESSED⟩)])]

def plainOps : List Op :=
  [.write (str "root.sg.d1") (str "s1") 10 (.INT 7),
   .writeMany (str "root.sg.d2") 6 [(str "s1", .LONG 9000000000), (str "s2", .FLOAT 0x40490fdb)],
   .writeMany (str "root.sg.d2") 7 [],
   .write (str "root.sg.d1") (str "s1") 12 (.INT (-1))]

def plainResult : Session := (session env plainSchema plainOps).getD ⟨[], [], 0, []⟩

theorem plain_eq : session env plainSchema plainOps = some plainResult := by
  have : (session env plainSchema plainOps).isSome = true := by decide +kernel
  rw [plainResult]
  cases h : session env plainSchema plainOps with
  | none => rw [h] at this; simp at this
  | some s => rfl

theorem plainIndexable : plainSchema.Indexable :=
  ⟨⟨⟨by decide +kernel, by decide +kernel⟩, by decide +kernel, by decide +kernel⟩, by decide +kernel, by decide +kernel⟩

theorem plainPlain : plainSchema.Plain := by unfold Schema.Plain; decide +kernel

theorem plainNames : plainSchema.NamesBelow 100 := ⟨by decide +kernel, by decide +kernel⟩

end Demo

example : readSeries some Demo.plainResult.file (str "root.sg.d1") (str "s1") = some [(10, .INT 7), (12, .INT (-1))] := by
  rw [C01_ten_billion_partial Demo.envOk Demo.plainIndexable Demo.plainPlain Demo.plain_eq (by decide +kernel)
    (by decide +kernel) (by decide +kernel) (by decide +kernel) (by decide +kernel) Demo.plainNames (by decide +kernel)]
  decide +kernel

example (w0 : Writer) (hnew : Writer.new Demo.env Demo.plainSchema ⟨[], none⟩ = .ok w0)
    (hok : ∀ r ∈ (w0.run Demo.env Demo.plainOps).2, r = .ok ()) :
    (abstractly Demo.env Demo.plainSchema Demo.plainOps w0).pending.length ≤ 2 ^ 27 :=
  (C70_waiting_partial Demo.envOk.snappy Demo.plainIndexable.wf Demo.plainPlain (K := 1000) (by decide +kernel) hnew
    (by decide +kernel) hok).2.1

example : ∃ (ops : List Op) (w0 : Writer), ops.length = 190000000
    ∧ Writer.new Demo.env [(str "root.d", [(str "a", ⟨.INT64, .PLAIN, .UNCOMPRESSED⟩)])] ⟨[], none⟩ = .ok w0
    ∧ (∀ r ∈ (w0.run Demo.env ops).2, r = .err (.illegalState (some "Unknown measurement id")))
    ∧ (w0.run Demo.env ops).1.io.out.bytes = [0x54, 0x73, 0x46, 0x69, 0x6c, 0x65, 0x03]
    ∧ 8 * 190000000 ≤ (w0.run Demo.env ops).1.memSize.toNat :=
  C70_memory_wrong Demo.envOk.snappy _ _ (str "x") (by decide +kernel) _ (Nat.le_refl _)

example : ∃ (ops : List Op) (w0 : Writer), (∀ op ∈ ops, ∃ m t, op = .write (str "root.d") m t (.LONG 0))
    ∧ Writer.new Demo.env [(str "root.d", [(str "a", ⟨.INT64, .TS2DIFF, .UNCOMPRESSED⟩), (str "b", ⟨.INT64, .PLAIN, .UNCOMPRESSED⟩)])]
      ⟨[], none⟩ = .ok w0
    ∧ (∀ r ∈ (w0.run Demo.env ops).2, r = .ok ())
    ∧ (w0.run Demo.env ops).1.io.out.bytes = [0x54, 0x73, 0x46, 0x69, 0x6c, 0x65, 0x03]
    ∧ 8 * 190000000 ≤ (w0.run Demo.env ops).1.memSize.toNat :=
  C70_compressed_wrong Demo.envOk.snappy _ _ _ (by decide +kernel)

/-- A history whose last call flushes, with the bound on what the calls write: it meets the hypotheses of `C41_all_flushed` and
`C72_during_call`. -/
theorem Demo.flushing : ∃ w0 ops op w, Reached Demo.env (wideSchema (str "root.d") (str "a")) (ops ++ [op]) w0 w
    ∧ (w0.run Demo.env ops).1.io.out.bytes.length < w.io.out.bytes.length
    ∧ ∀ n ∈ w0.grown Demo.env (ops ++ [op]), n < 2 ^ 32 := by
  obtain ⟨w0, ops, op, w, h1, h2, h3⟩ := flush_happens Demo.envOk.snappy (str "root.d") (str "a")
  refine ⟨w0, ops, op, w, h1, h2, fun n hn => ?_⟩
  have hwf := wide_wf (str "root.d") (str "a")
  have := (run_growth Demo.envOk.snappy hwf (ops ++ [op]) (sim_new some hwf h1.new) (L := 23000000) (by omega) 0 (by simp [AState.init])
    h3 h1.fine (N := 100) ⟨by decide +kernel, by decide +kernel⟩).1 n hn
  have e : (wideSchema (str "root.d") (str "a")).length = 1 ∧ (wideSchema (str "root.d") (str "a")).size = 1 := by decide
  rw [e.1, e.2] at this
  omega

theorem Demo.flushNamed : (wideSchema (str "root.d") (str "a")).Named :=
  ⟨⟨by decide +kernel, by decide +kernel⟩, by decide +kernel, by decide +kernel⟩

example : ∃ w0 ops op w, Reached Demo.env (wideSchema (str "root.d") (str "a")) (ops ++ [op]) w0 w
    ∧ (w0.run Demo.env ops).1.io.out.bytes.length < w.io.out.bytes.length
    ∧ ∀ d m, waiting Demo.env (wideSchema (str "root.d") (str "a")) (ops ++ [op]) w0 d m = [] := by
  obtain ⟨w0, ops, op, w, h1, h2, h3⟩ := Demo.flushing
  exact ⟨w0, ops, op, w, h1, h2, (C41_all_flushed Demo.envOk.snappy Demo.flushNamed h1 h2 h3).1⟩

-- the calls and the closing of the demo
example : ∀ n ∈ Demo.result.grown, n ≤ 2 * 24 + 22 * 10 + 184 * 4 := by
  have := C71_call Demo.envOk Demo.indexable.wf Demo.session_eq (L := 10) (by omega) (by decide +kernel) (N := 17)
    ⟨by decide +kernel, by decide +kernel⟩
  exact this

example : Demo.result.closing ≤ 2 * 24 + 22 * 10 + 184 * 4 + 53 + 240 * 4 + 256 / 8 := by
  refine Nat.le_trans (C71_closing Demo.envOk Demo.indexable.wf Demo.session_eq (L := 10) (by omega) (by decide +kernel) (N := 17)
    ⟨by decide +kernel, by decide +kernel⟩) ?_
  decide +kernel

example : Demo.plainResult.Within Demo.plainOps :=
  C71_ten_billion Demo.envOk Demo.plainIndexable.wf Demo.plainPlain Demo.plain_eq (by decide +kernel)
    (by decide +kernel) (by decide +kernel) (by decide +kernel) (by decide +kernel) Demo.plainNames (by decide +kernel)

-- with the demo of two devices and a mixed schema
example : Demo.result.Within Demo.ops := by
  refine C71_within Demo.envOk Demo.indexable.wf Demo.session_eq (F := 1) (B := 33) (L := 10) ?_ Demo.names ?_ ?_ ?_ ?_
  all_goals decide +kernel

end TsFile
