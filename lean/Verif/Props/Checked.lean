import Verif.Proofs.CheckedClose
import Verif.Proofs.Coarse
import Verif.Proofs.Murmur
import Verif.Props.Write
import Verif.Props.Flush
/-! # Builds with overflow checks: C55 -/

namespace TsFile
open Spec

/-! ## The delta encoders -/

/-- **C55**, for INT64 values: in a build with overflow checks encoding panics exactly if the differences do not fit; otherwise
the bytes are those of a release build. -/
theorem C55_long_partial (vs : List W64) :
    (Ts2Diff.encodeC longToBytes Ts2Diff.new vs = none ↔ ¬ BlocksFit 64 vs)
    ∧ ∀ b, Ts2Diff.encodeC longToBytes Ts2Diff.new vs = some b → Ts2Diff.encode longToBytes Ts2Diff.new vs = some b :=
  encodeC_iff longToBytes packOk_long rfl (by omega) vs curRep_new

/-- **C55**, for INT32 values. -/
theorem C55_int_partial (vs : List W32) :
    (Ts2Diff.encodeC intToBytes Ts2Diff.new vs = none ↔ ¬ BlocksFit 32 vs)
    ∧ ∀ b, Ts2Diff.encodeC intToBytes Ts2Diff.new vs = some b → Ts2Diff.encode intToBytes Ts2Diff.new vs = some b :=
  encodeC_iff intToBytes packOk_int rfl (by omega) vs curRep_new

-- both cases happen, the second one in the difference of two differences
example : Ts2Diff.encodeC intToBytes Ts2Diff.new [0#32, 2000000000#32, 1#32] = none := by decide +kernel
example : (Ts2Diff.encodeC intToBytes Ts2Diff.new [0#32, 1000000000#32, 1#32]).isSome = true := by decide +kernel
example : Ts2Diff.encodeC intToBytes Ts2Diff.new [-2000000000#32, 2000000000#32] = none := by decide +kernel

theorem times_fit {ts : List W64} (h0 : ∀ t ∈ ts, 0 ≤ t.toInt) (hinc : ts.Pairwise (fun a b => a.toInt < b.toInt)) :
    BlocksFit 64 ts := by
  intro i
  have hsub : List.Sublist ((ts.drop (129 * i)).take 129) ts := (List.take_sublist _ _).trans (List.drop_sublist _ _)
  exact times_run_fit (fun t ht => h0 t (hsub.subset ht)) (hinc.sublist hsub)

/-- **C55**, for timestamps: the timestamps that wait to be written never overflow the encoder, in every reached state and for
every series. Since they are increasing, the same holds for the part of them that goes to one page. -/
theorem C55_times {env : Env} {schema : Schema} {ops : List Op} {w0 w : Writer} (_h : Reached env schema ops w0 w) (d m : Bytes)
    {ts : List W64} (hts : ts <:+: (series (abstractly env schema ops w0).pending d m).map Prod.fst) :
    ∃ b, Ts2Diff.encodeC longToBytes Ts2Diff.new ts = some b ∧ Ts2Diff.encode longToBytes Ts2Diff.new ts = some b := by
  have hinc := (abstractly_inv env schema ops w0).inc d m
  have h0 : ∀ t ∈ ts, 0 ≤ t.toInt := by
    intro t ht
    obtain ⟨p, hp, rfl⟩ := List.mem_map.1 (hts.subset ht)
    exact hinc.1 p hp
  have h1 : ts.Pairwise (fun a b => a.toInt < b.toInt) :=
    List.Pairwise.sublist hts.sublist ((List.pairwise_map (R := fun a b : W64 => a.toInt < b.toInt)).2 hinc.2)
  obtain ⟨e1, e2⟩ := C55_long_partial ts
  cases he : Ts2Diff.encodeC longToBytes Ts2Diff.new ts with
  | none => exact absurd (times_fit h0 h1) (e1.1 he)
  | some b => exact ⟨b, rfl, e2 b he⟩

example := C55_times Demo.reached (str "root.sg.d1") (str "s1") (List.infix_refl _)
example : (series (abstractly Demo.env Demo.schema Demo.ops Demo.w0).pending (str "root.sg.d1") (str "s1")).length = 2 := by
  decide +kernel

/-- Values of a quarter of the range never overflow. -/
theorem C55_small_values_partial {w : Nat} (hw : 3 ≤ w) (vs : List (BitVec w))
    (h : ∀ v ∈ vs, -2 ^ (w - 3) ≤ v.toInt ∧ v.toInt < 2 ^ (w - 3)) : BlocksFit w vs := by
  intro i
  have h' : ∀ v ∈ (vs.drop (129 * i)).take 129, -2 ^ (w - 3) ≤ v.toInt ∧ v.toInt < 2 ^ (w - 3) :=
    fun v hv => h v (List.mem_of_mem_drop (List.mem_of_mem_take hv))
  generalize (vs.drop (129 * i)).take 129 = b at h'
  have hp : (2 : Int) ^ (w - 1) = 4 * 2 ^ (w - 3) := by
    rw [show w - 1 = w - 3 + 2 by omega, Int.pow_add]
    omega
  have key : ∀ x ∈ diffs (b.map BitVec.toInt), -(2 * 2 ^ (w - 3)) < x ∧ x < 2 * 2 ^ (w - 3) := by
    intro x hx
    obtain ⟨i, a, c, ha, hc, rfl⟩ := mem_diffs hx
    simp only [List.getElem?_map, Option.map_eq_some_iff] at ha hc
    obtain ⟨u, hu, rfl⟩ := ha
    obtain ⟨v, hv, rfl⟩ := hc
    have h1 := h' u (List.mem_of_getElem? hu)
    have h2 := h' v (List.mem_of_getElem? hv)
    omega
  refine ⟨fun x hx => ?_, fun x hx y hy => ?_⟩
  · have := key x hx
    rw [InRange, hp]
    omega
  · have := key x hx
    have := key y hy
    rw [InRange, hp]
    omega

/-! ## The hash -/

/-- Multiplication by `c1` overflows except for the factors -1, 0 and 1. -/
theorem mulC_c1 (k : W64) (h : k.toNat % 256 ≠ 0 ∧ k.toNat % 256 ≠ 1 ∧ k.toNat % 256 ≠ 255) : mulC k Murmur128.c1 = none := by
  rw [mulC, if_pos]
  have hc : Murmur128.c1.toInt = -8663945395140668459 := by decide
  rw [BitVec.smulOverflow, hc]
  simp only [Bool.or_eq_true, decide_eq_true_eq]
  have hk := BitVec.toInt_eq_toNat_cond k
  have hlt := k.isLt
  split at hk <;> omega

theorem getBlock_zero (key : Bytes) (hlen : 16 ≤ key.length) :
    ∃ k, Murmur128.getBlock key 0 0 = some k ∧ ∀ b, key.head? = some b → k.toNat % 256 = b.toNat := by
  have h := Murmur128.getBlock_eq [] (key.take 8) (key.drop 8) 0 rfl (by simp; omega)
  rw [List.nil_append, List.take_append_drop] at h
  refine ⟨_, h, fun b hb => ?_⟩
  cases key with
  | nil => simp at hb
  | cons b0 key =>
    simp only [List.head?_cons, Option.some.injEq] at hb
    subst hb
    rw [List.take_succ_cons, Murmur3.le64, List.foldr_cons, BitVec.toNat_or, BitVec.toNat_shiftLeft]
    have hb := b0.toNat_lt
    rw [BitVec.toNat_ofNat, Nat.mod_eq_of_lt (a := b0.toNat) (by omega)]
    generalize (List.foldr _ _ _ : BitVec 64).toNat = x
    rw [show (256 : Nat) = 2 ^ 8 from rfl, Nat.or_mod_two_pow, Nat.mod_eq_of_lt (a := b0.toNat) (by omega)]
    have : x <<< 8 % 2 ^ 64 % 2 ^ 8 = 0 := by rw [Nat.shiftLeft_eq]; omega
    rw [this]
    simp

/-- In a build with overflow checks the hash of a path of 16 bytes or more panics for every seed, unless the path starts with one
of the bytes 0, 1, 255 (which do not occur in text). -/
theorem hashC_long (path : Bytes) (hlen : 16 ≤ path.length) (b : UInt8) (hb : path.head? = some b)
    (h : b ≠ 0 ∧ b ≠ 1 ∧ b ≠ 255) (seed : W32) : Murmur128.hashC path seed = none := by
  obtain ⟨k, hk, hmod⟩ := getBlock_zero path hlen
  have hbn : b.toNat ≠ 0 ∧ b.toNat ≠ 1 ∧ b.toNat ≠ 255 := by
    refine ⟨fun e => h.1 ?_, fun e => h.2.1 ?_, fun e => h.2.2 ?_⟩ <;> exact UInt8.toNat_inj.1 e
  have hmul := mulC_c1 k (by rw [hmod b hb]; exact hbn)
  have hbody : ∀ n h1 h2, Murmur128.bodyC path (n + 1) 0 h1 h2 = none := by
    intro n h1 h2
    rw [Murmur128.bodyC]
    simp only [Nat.zero_mul, hk, Option.bind_eq_bind, Option.bind_some, hmul]
    cases Murmur128.getBlock path 0 (0 + 1) <;> simp
  rw [Murmur128.hashC, Murmur128.innerHashC]
  obtain ⟨n, hn⟩ : ∃ n, path.length / 16 = n + 1 := ⟨path.length / 16 - 1, by omega⟩
  simp only [hn, hbody, Option.bind_eq_bind, Option.bind_none, Option.map_none]

/-- Where the checks do not panic they change nothing. -/
theorem C55_hash_partial {path : Bytes} {seed h : W32} (hh : Murmur128.hashC path seed = some h) :
    Murmur128.hash path seed = some h :=
  hashC_some hh

example : Murmur128.hashC (str "d1.s1") 5 = Murmur128.hash (str "d1.s1") 5 := by decide +kernel
example : Murmur128.hashC (str "root.sg.d1.sensor") 5 = none := by decide +kernel

-- the paths in the tests of the repository are short and do not overflow
example : (BloomFilter.buildC Demo.env [str "root.sg.d1.s1", str "root.sg.d1.s2"]).isSome = true := by decide +kernel

theorem addAllC_none {paths : List Bytes} {p : Bytes} (hp : p ∈ paths) {f : BloomFilter} (hf : f.func ≠ [])
    (hash : ∀ seed, Murmur128.hashC p seed = none) : BloomFilter.addAllC paths f = none := by
  induction paths generalizing f with
  | nil => simp at hp
  | cons q ps ih =>
    rw [BloomFilter.addAllC]
    simp only [Option.bind_eq_bind]
    rcases List.mem_cons.1 hp with rfl | hp
    · cases hs : f.func with
      | nil => exact absurd hs hf
      | cons seed seeds =>
        rw [BloomFilter.addLoopC, hashFunctionC, hash seed]
        rfl
    · cases BloomFilter.addLoopC f.size q f.func f.bitSet with
      | none => rfl
      | some b => exact ih hp hf

/-- **C55** is violated for every history: if a series whose path has 16 bytes or more (and starts with a printable character) has
a point in the file or waiting, `close` panics in a build with overflow checks. -/
theorem C55_close_wrong {env : Env} {unsnap : Bytes → Option Bytes} (hsn : SnappyOk env unsnap) (hk : 0 < env.bloomHashes)
    {schema : Schema} (hwf : schema.WF) {ops : List Op} {w0 w : Writer} (h : Reached env schema ops w0 w)
    {d m : Bytes} (hne : series (storedBy schema ops (w0.grown env ops)) d m ≠ [])
    (hlen : 16 ≤ (d ++ str "." ++ m).length) {b : UInt8} (hb : (d ++ str "." ++ m).head? = some b)
    (hchar : b ≠ 0 ∧ b ≠ 1 ∧ b ≠ 255) : w.closeC env = none := by
  obtain ⟨groups, hs, hl⟩ := h.sim hsn hwf
  obtain ⟨w2, new2, hf, hs2, _⟩ := sim_flush hsn hwf hs hl
  obtain ⟨hsorted, hget⟩ := chunkMetadataMap_rep hs2.file
  have hmem : (d ++ str "." ++ m) ∈ w2.io.chunkMetadataMap.map Prod.fst := by
    rw [← BMap.get?_isSome_iff, hget, optAppend_isSome]
    have hpts := hs2.stored d m
    rw [← show _ = series (storedBy schema ops (w0.grown env ops)) d m from hpts, filePts_eq_locs env] at hne
    obtain ⟨l, hl⟩ : ∃ l, l ∈ locsOf env (groups ++ new2) d m := by
      apply List.exists_mem_of_ne_nil
      intro h
      rw [h] at hne
      exact hne rfl
    obtain ⟨h1, h2⟩ := locsOf_mem hl
    exact ⟨_, h1, by simp only [h2]; exact decide_eq_true rfl⟩
  have hbuild : BloomFilter.buildC env (w2.io.chunkMetadataMap.map Prod.fst) = none := by
    rw [BloomFilter.buildC, addAllC_none hmem ?_ (hashC_long _ hlen b hb hchar)]
    simp only [BloomFilter.emptyFilter, BloomFilter.new]
    intro h0
    have := congrArg List.length h0
    rw [List.length_take] at this
    simp only [bloomSeeds, bloomMaxHashes, List.length_cons, List.length_nil] at this
    omega
  rw [Writer.closeC]
  cases hfc : w.flushAllChunkGroupsC env with
  | none => rfl
  | some r =>
    obtain ⟨w3, e⟩ := r
    have h3 := Writer.flushAllC_some hfc
    rw [hf, Option.some.injEq, Prod.mk.injEq] at h3
    obtain ⟨rfl, _⟩ := h3
    simp only [IoWriter.endFileC, hbuild, ite_self]

namespace Demo

/-- A device with a longer name. -/
def longSchema : Schema := [(str "root.sg.machine1", [(str "s1", ⟨.INT32, .PLAIN, .UNCOMPRESSED⟩)])]
def longOps : List Op := [.write (str "root.sg.machine1") (str "s1") 1 (.INT 7)]
def longW0 : Writer :=
  match Writer.new env longSchema { bytes := [], cap := none } with
  | .ok w => w
  | .error _ => ⟨⟨⟨[], none⟩, none, [], none, [], []⟩, [], 0, 0, [], []⟩

theorem longReached : Reached env longSchema longOps longW0 (longW0.run env longOps).1 :=
  ⟨by decide +kernel, rfl, by decide +kernel, by decide +kernel⟩

example : (longW0.run env longOps).1.closeC env = none :=
  C55_close_wrong envOk.snappy (by decide) ⟨by decide +kernel, by decide +kernel⟩ longReached (d := str "root.sg.machine1")
    (m := str "s1") (by decide +kernel) (by decide +kernel) (b := 0x72) (by decide +kernel) (by decide)

-- the same call in a release build
example : ((longW0.run env longOps).1.close env).isSome = true := by decide +kernel

end Demo

/-! ## All calls of a session -/

/-- **C55**, in general: if no call of a session panics in a build with overflow checks, the results of the calls and the state
of the writer are those of a release build; the same holds for `close`, so the files are equal. No other condition. -/
theorem C55_same_partial {env : Env} {w0 : Writer} {ops : List Op} (hc : .panic ∉ (w0.runC env ops).2) :
    (w0.runC env ops).2 = (w0.run env ops).2
    ∧ ∀ w', (w0.runC env ops).1.closeC env = some w' → (w0.run env ops).1.close env = some w' := by
  rw [Writer.runC_same _ hc]
  exact ⟨rfl, fun w' h => Writer.closeC_some h⟩

/-- **C55**, for the calls: if the values have the types of their series, the values handed over for a series with delta encoding
differ by less than a quarter of the range of the type, and fewer than `L` points wait at any time, then the checks never fail: the
results and the states are those of a release build. -/
theorem C55_calls_partial {env : Env} {unsnap : Bytes → Option Bytes} (hsn : SnappyOk env unsnap) {schema : Schema}
    (hwf : schema.WF) {ops : List Op} {w0 : Writer} (hnew : Writer.new env schema ⟨[], none⟩ = .ok w0)
    {L : Nat} (hL : 22 * L + 120 * schema.size ≤ 2 ^ 32) (hlen : burstsBelow L 0 (ops.zip ((w0.grown env ops).map (fun n => decide (0 < n)))))
    (htyp : ∀ op ∈ ops, op.recs ≠ [] ∧ Op.Typed schema op) (hnear : Near schema (ops.flatMap Op.recs)) :
    w0.runC env ops = w0.run env ops :=
  runC_fine hsn hwf ops (sim_new unsnap hwf hnew) AState.inv_init 0 (by simp [AState.init]) hL hlen htyp hnear
    (by simp [AState.init]) (fun _ hop _ hr => List.mem_flatMap.2 ⟨_, hop, hr⟩)

theorem Demo.closeValues : Near Demo.schema (Demo.ops.flatMap Op.recs) := by
  have : ∀ r ∈ Demo.ops.flatMap Op.recs, ∀ r' ∈ Demo.ops.flatMap Op.recs, r.device = r'.device → r.measurement = r'.measurement →
      near r.value r'.value := by decide +kernel
  exact fun r hr r' hr' h1 h2 _ => this r hr r' hr' h1 h2

example : Demo.w0.runC Demo.env Demo.ops = Demo.w0.run Demo.env Demo.ops :=
  C55_calls_partial Demo.envOk.snappy Demo.indexable.wf Demo.reached.new (L := 190000000) (by decide +kernel) (by decide +kernel) Demo.typed
    Demo.closeValues

example : (Demo.w0.runC Demo.env Demo.ops).2 = (Demo.w0.run Demo.env Demo.ops).2 :=
  (C55_same_partial (by decide +kernel)).1

/-- **C55**, for `close`: if the values handed over are near each other, no path has 2³² points or more, and the hashes of the paths
do not overflow, `close` does the same with and without the checks. -/
theorem C55_close_partial {env : Env} {unsnap : Bytes → Option Bytes} (hsn : SnappyOk env unsnap) {schema : Schema} (hwf : schema.WF)
    {ops : List Op} {w0 w : Writer} (h : Reached env schema ops w0 w) (hnear : Near schema (ops.flatMap Op.recs))
    (hcnt : ∀ p, ((storedBy schema ops (w0.grown env ops)).filter (fun r => decide (r.device ++ [0x2e] ++ r.measurement = p))).length < 2 ^ 32)
    (hhash : ∀ p ∈ pathsOf (storedBy schema ops (w0.grown env ops)), ∀ seed ∈ bloomSeeds,
      ∃ h, Murmur128.hashC p seed = some h ∧ h ≠ BitVec.intMin 32) :
    w.closeC env = w.close env := by
  obtain ⟨groups, hs, hl⟩ := h.sim hsn hwf
  refine hs.closeC hsn hwf hl (allFit_of (abstractly_inv env schema ops w0) (fun r hr => ?_) hnear hl) hcnt hhash
  rcases run_pending_sub schema _ _ r hr with h | ⟨e, he, h⟩
  · simp [AState.init] at h
  · exact List.mem_flatMap.2 ⟨e.1, (List.of_mem_zip he).1, h⟩

namespace Demo

/-- Series whose paths have hashes that do not overflow. -/
def shortSchema : Schema := [(str "root.sg.d1", [(str "s1", ⟨.INT32, .TS2DIFF, .UNCOMPRESSED⟩), (str "s2", ⟨.INT64, .TS2DIFF, .SNAPPY⟩)])]
def shortOps : List Op := [.write (str "root.sg.d1") (str "s1") 1 (.INT 7), .writeMany (str "root.sg.d1") 2 [(str "s1", .INT 1000000000), (str "s2", .LONG 5)]]
def shortW0 : Writer :=
  match Writer.new env shortSchema { bytes := [], cap := none } with
  | .ok w => w
  | .error _ => ⟨⟨⟨[], none⟩, none, [], none, [], []⟩, [], 0, 0, [], []⟩

theorem shortReached : Reached env shortSchema shortOps shortW0 (shortW0.run env shortOps).1 :=
  ⟨by decide +kernel, rfl, by decide +kernel, by decide +kernel⟩

example : (shortW0.run env shortOps).1.closeC env = (shortW0.run env shortOps).1.close env := by
  have h1 : (storedBy shortSchema shortOps (shortW0.grown env shortOps)).length < 2 ^ 32 := by decide +kernel
  have h2 : ((storedBy shortSchema shortOps (shortW0.grown env shortOps)).map (fun r => r.device ++ [0x2e] ++ r.measurement)).all
      (fun p => bloomSeeds.all (fun seed => (Murmur128.hashC p seed).any (fun h => decide (h ≠ BitVec.intMin 32)))) = true := by
    decide +kernel
  rw [List.all_eq_true] at h2
  have h3 : ∀ r ∈ shortOps.flatMap Op.recs, ∀ r' ∈ shortOps.flatMap Op.recs, r.device = r'.device → r.measurement = r'.measurement →
      near r.value r'.value := by decide +kernel
  refine C55_close_partial envOk.snappy ⟨by decide +kernel, by decide +kernel⟩ shortReached (fun r hr r' hr' e1 e2 _ => h3 r hr r' hr' e1 e2)
    (fun p => Nat.lt_of_le_of_lt (List.length_filter_le _ _) h1) (fun p hp seed hs => ?_)
  have := List.all_eq_true.1 (h2 p (List.mem_dedup.1 hp)) seed hs
  cases hx : Murmur128.hashC p seed with
  | none => rw [hx] at this; cases this
  | some x => rw [hx] at this; exact ⟨x, rfl, by simpa using this⟩

-- short paths can overflow, too
example : Murmur128.hashC (str "root.sg.d2.s1") 5 = none := by decide +kernel

end Demo

end TsFile
