import Verif.Props.ReadBack
import Verif.Props.Flush
import Verif.Proofs.Quiet
/-! # When the writer flushes and how long the file gets: C66, C67 -/

namespace TsFile
open Spec

/-- **C66.** The writer does not flush early: as long as the waiting points together with those of the call, at 22 bytes each,
and the series of the schema, at 120 bytes each, need no more than 128 MB, the call writes nothing to the output. -/
theorem C66_not_early {env : Env} {unsnap : Bytes → Option Bytes} (hsn : SnappyOk env unsnap) {schema : Schema}
    (hwf : schema.WF) {ops : List Op} {w0 w : Writer} (h : Reached env schema ops w0 w) {op : Op}
    (hnp : (w.step env op).2 ≠ .panic)
    (hlen : 22 * ((abstractly env schema ops w0).pending.length + op.recs.length) + 120 * schema.size ≤ 2 ^ 27) :
    (w.step env op).1.io.out.bytes = w.io.out.bytes := by
  obtain ⟨groups, hs, _⟩ := h.sim hsn hwf
  exact step_quiet hsn hs op hnp hlen

/-- **C66.** Flushes are rare: between two flushes (and before the first), more than six million points, less six for each
series, are handed over. -/
theorem C66_rare {env : Env} {unsnap : Bytes → Option Bytes} (hsn : SnappyOk env unsnap) {schema : Schema}
    (hwf : schema.WF) {ops : List Op} {w0 w : Writer} (h : Reached env schema ops w0 w) :
    growths (w0.grown env ops) * (6100806 - 6 * schema.size) ≤ handed ops := by
  have := run_few hsn hwf ops (sim_new unsnap hwf h.new) 0 (by simp [AState.init]) h.bursts h.fine
  rw [Nat.zero_add] at this
  exact this

theorem bursts_handed {limit : Nat} (ops : List Op) (fl : List Bool) (h : handed ops < limit) :
    burstsBelow limit 0 (ops.zip fl) := by
  have h4 : ∀ (a : List Op) (b : List Bool), ((a.zip b).map (fun e => e.1.recs.length)).sum
      ≤ (a.map (fun op => op.recs.length)).sum := by
    intro a
    induction a with
    | nil => simp
    | cons x a ih =>
      intro b
      cases b with
      | nil => simp
      | cons y b => simp only [List.zip_cons_cons, List.map_cons, List.sum_cons]; have := ih b; omega
  have := h4 ops fl
  rw [handed] at h
  exact bursts_total _ _ (by omega)

/-- **C66**, for a short history: nothing but the seven bytes of the head of the file is written before `close`. -/
theorem C66_short {env : Env} {unsnap : Bytes → Option Bytes} (hsn : SnappyOk env unsnap) {schema : Schema}
    (hwf : schema.WF) {ops : List Op} {w0 : Writer} (hnew : Writer.new env schema ⟨[], none⟩ = .ok w0)
    (hnp : .panic ∉ (w0.run env ops).2) (hlen : handed ops + 6 * schema.size ≤ 6100805) :
    (w0.run env ops).1.io.out.bytes = [0x54, 0x73, 0x46, 0x69, 0x6c, 0x65, 0x03] := by
  have hb : burstsBelow (2 ^ 32) 0 (ops.zip ((w0.grown env ops).map (fun n => decide (0 < n)))) :=
    bursts_handed _ _ (by omega)
  have h1 := C66_rare hsn hwf ⟨hnew, rfl, hnp, hb⟩
  have h2 : growths (w0.grown env ops) = 0 := by
    by_contra hne
    have : 1 * (6100806 - 6 * schema.size) ≤ growths (w0.grown env ops) * (6100806 - 6 * schema.size) :=
      Nat.mul_le_mul_right _ (by omega)
    omega
  have h3 := (sim_new unsnap hwf hnew).file.bytes
  have h4 := grown_sum env ops w0
  have h5 : (w0.grown env ops).sum = 0 := by
    rw [growths, List.length_eq_zero_iff, List.filter_eq_nil_iff] at h2
    generalize w0.grown env ops = l at h2
    induction l with
    | nil => rfl
    | cons a l ih =>
      have := h2 a (by simp)
      rw [List.sum_cons, ih (fun x hx => h2 x (by simp [hx]))]
      simpa using this
  have h6 := (Grows.run env ops w0).pre
  have h7 := h6.eq_of_length (by omega)
  rw [← h7, h3]
  rfl

/-- **C67.** The size of a closed file: with names and paths of at most `N` bytes, 60 bytes, 22 bytes for each stored
point, `N + 7` bytes for each device and `4 N + 356` bytes for each series, for each flush (the last one is made by `close`), and
the Bloom filter. -/
theorem C67_size {env : Env} {unsnap : Bytes → Option Bytes} (he : EnvOk env unsnap) {schema : Schema}
    (hwf : schema.WF) {ops : List Op} {s : Session} (hs : session env schema ops = some s)
    (hb : burstsBelow (2 ^ 32) 0 (ops.zip (s.grown.map (fun n => decide (0 < n))))) {N : Nat} (hN : schema.NamesBelow N) :
    s.file.length ≤ 60 + (1 + growths s.grown) * schema.length * (7 + N)
      + 22 * (storedBy schema ops s.grown).length + (356 + 4 * N) * ((1 + growths s.grown) * schema.size)
      + bloomBits env (pathsOf (storedBy schema ops s.grown)).length / 8 :=
  (session_length he hwf hs hb hN).1

theorem session_reached {env : Env} {schema : Schema} {ops : List Op} {s : Session} (hs : session env schema ops = some s)
    (hb : burstsBelow (2 ^ 32) 0 (ops.zip (s.grown.map (fun n => decide (0 < n))))) :
    ∃ w0, Reached env schema ops w0 (w0.run env ops).1 ∧ s.grown = w0.grown env ops := by
  rw [session] at hs
  cases hnew : Writer.new env schema ⟨[], none⟩ with
  | error e => rw [hnew] at hs; simp at hs
  | ok w =>
    rw [hnew] at hs
    simp only at hs
    split at hs
    · simp at hs
    · next hnp =>
      split at hs
      · simp at hs
      · simp only [Option.some.injEq] at hs
        subst hs
        exact ⟨w, ⟨hnew, rfl, hnp, hb⟩, rfl⟩

/-- **C67**, in terms of the inputs alone: if the bound computed from the number of points handed over, the number of devices and
series, the lengths of the names and the size of the Bloom filter is below 4 GB, then the session stays within the limits of
the format. (`F` bounds the number of flushes.) -/
theorem C67_within {env : Env} {unsnap : Bytes → Option Bytes} (he : EnvOk env unsnap) {schema : Schema}
    (hwf : schema.WF) {ops : List Op} {s : Session} (hs : session env schema ops = some s) {N F B : Nat}
    (hN : schema.NamesBelow N) (hF : handed ops < F * (6100806 - 6 * schema.size))
    (hB : ∀ n ≤ schema.size, env.bloomSize n ≤ B)
    (hfit : 60 + F * schema.length * (7 + N) + 22 * handed ops + (356 + 4 * N) * (F * schema.size) + max B 256 / 8
      < 2 ^ 32) :
    s.Within ops := by
  have hP : handed ops < 2 ^ 32 := by omega
  have hb : burstsBelow (2 ^ 32) 0 (ops.zip (s.grown.map (fun n => decide (0 < n)))) := bursts_handed _ _ hP
  obtain ⟨h1, h2, h6⟩ := session_length he hwf hs hb hN
  obtain ⟨w0, hr, hg⟩ := session_reached hs hb
  have h3 := C66_rare he.snappy hwf hr
  rw [← hg] at h3
  have h4 : 1 + growths s.grown ≤ F := by
    by_contra hc
    have : F * (6100806 - 6 * schema.size) ≤ growths s.grown * (6100806 - 6 * schema.size) := Nat.mul_le_mul_right _ (by omega)
    omega
  have h5 := stored_length_le schema ops s.grown
  have h7 : bloomBits env (pathsOf (storedBy schema ops s.grown)).length / 8 ≤ max B 256 / 8 := by
    apply Nat.div_le_div_right
    have := hB _ h6
    rw [bloomBits]
    omega
  have h8 : (1 + growths s.grown) * schema.length * (7 + N) ≤ F * schema.length * (7 + N) :=
    Nat.mul_le_mul_right _ (Nat.mul_le_mul_right _ h4)
  have h9 : (356 + 4 * N) * ((1 + growths s.grown) * schema.size) ≤ (356 + 4 * N) * (F * schema.size) :=
    Nat.mul_le_mul_left _ (Nat.mul_le_mul_right _ h4)
  have h10 : s.file.length < 2 ^ 32 := by
    have h5' : (storedBy schema ops s.grown).length ≤ handed ops := h5
    rw [growths] at h8 h9
    omega
  refine ⟨hb, fun n hn => ?_, by omega, by omega⟩
  have := le_sum_of_mem (fun x : Nat => x) hn
  simp only [List.map_id'] at this
  omega

/-- **C67**, with numbers: up to a hundred million points, a thousand devices, a hundred thousand series, names and paths of up to a
hundred bytes and a Bloom filter of at most eight bits for each path (the formula of the code gives less than 6.3). -/
theorem C67_hundred_million {env : Env} {unsnap : Bytes → Option Bytes} (he : EnvOk env unsnap) {schema : Schema}
    (hwf : schema.WF) {ops : List Op} {s : Session} (hs : session env schema ops = some s)
    (hP : handed ops ≤ 100000000) (hd : schema.length ≤ 1000) (hm : schema.size ≤ 100000) (hN : schema.NamesBelow 100)
    (hB : ∀ n ≤ schema.size, env.bloomSize n ≤ 8 * n + 1) : s.Within ops := by
  refine C67_within he hwf hs (F := 19) (B := 800001) hN (by omega) ?_ ?_
  · intro n hn
    have := hB n hn
    omega
  · rw [show max 800001 256 / 8 = 100000 by decide]
    omega

/-- **C01**, partial, in terms of the inputs alone: reading a closed file through its index gives exactly the stored points, for
up to a hundred million points. Missing: as in `C01_index_read_back_partial`, and larger histories (which that theorem covers). -/
theorem C01_hundred_million_partial {env : Env} {unsnap : Bytes → Option Bytes} (he : EnvOk env unsnap) {schema : Schema}
    (hsch : schema.Indexable) {ops : List Op} {s : Session} (hs : session env schema ops = some s)
    (hP : handed ops ≤ 100000000) (hd : schema.length ≤ 1000) (hm : schema.size ≤ 100000) (hN : schema.NamesBelow 100)
    (hB : ∀ n ≤ schema.size, env.bloomSize n ≤ 8 * n + 1) (d m : Bytes) :
    readSeries unsnap s.file d m = some (series (storedBy schema ops s.grown) d m) :=
  (C01_index_read_back_partial he hsch hs (C67_hundred_million he hsch.wf hs hP hd hm hN hB)).2 d m

theorem Demo.names : schema.NamesBelow 100 := ⟨by decide +kernel, by decide +kernel⟩

theorem Demo.bloomSmall : ∀ n ≤ schema.size, env.bloomSize n ≤ 8 * n + 1 := by decide +kernel

-- the demo: two devices, four series, seven calls; the file has 501 bytes, the bound is 1946
example : Demo.result.Within Demo.ops :=
  C67_hundred_million Demo.envOk Demo.indexable.wf Demo.session_eq (by decide +kernel) (by decide +kernel)
    (by decide +kernel) Demo.names Demo.bloomSmall

example : readSeries some Demo.result.file (str "root.sg.d2") (str "s2") = some [(6, .FLOAT 0x40490fdb)] := by
  rw [C01_hundred_million_partial Demo.envOk Demo.indexable Demo.session_eq (by decide +kernel) (by decide +kernel)
    (by decide +kernel) Demo.names Demo.bloomSmall]
  decide +kernel

-- with paths of at most 17 bytes
example : Demo.result.file.length ≤ 1946 := by
  refine Nat.le_trans (C67_size Demo.envOk Demo.indexable.wf Demo.session_eq ?_ (N := 17) ⟨?_, ?_⟩) ?_
  all_goals decide +kernel

-- the same with the general bounds, for at most one block
example : Demo.result.Within Demo.ops := by
  refine C67_within Demo.envOk Demo.indexable.wf Demo.session_eq (N := 17) (F := 1) (B := 33) ⟨?_, ?_⟩ ?_ ?_ ?_
  all_goals decide +kernel

example : growths (Demo.w0.grown Demo.env Demo.ops) * (6100806 - 6 * Demo.schema.size) ≤ handed Demo.ops :=
  C66_rare Demo.envOk.snappy Demo.indexable.wf Demo.reached

example : ((Demo.w0.run Demo.env Demo.ops).1.step Demo.env (.write (str "root.sg.d1") (str "s1") 13 (.INT 1))).1.io.out.bytes
    = (Demo.w0.run Demo.env Demo.ops).1.io.out.bytes :=
  C66_not_early Demo.envOk.snappy Demo.indexable.wf Demo.reached (by decide +kernel) (by decide +kernel)

example : (Demo.w0.run Demo.env Demo.ops).1.io.out.bytes = [0x54, 0x73, 0x46, 0x69, 0x6c, 0x65, 0x03] :=
  C66_short Demo.envOk.snappy Demo.indexable.wf Demo.reached.new Demo.reached.fine (by decide +kernel)

end TsFile
