import Verif.Props.Programs
import Verif.Props.Python
/-! # Property C82, continued: the program in `rust.py` -/

namespace TsFile
open Spec Programs Py
open CApi (CEnv)

/-! ## Lemmas -/

/-- The number that a step returns. -/
def stepValue (p : PyState) : PyOp → Nat
  | .newSchema .. => p.schemas.length
  | .newWriter .. => p.writers.length
  | _ => 0

theorem step_value (ce : CEnv) (p : PyState) (c : PyOp) (n : Nat) (h : (Py.step ce p c).1 = .ok n) : n = stepValue p c := by
  have hafter : ∀ (p : PyState) (r : CApi.Outcome × CApi.State) (k : CApi.Addr → PyState → PyOutcome × PyState) (n x : Nat),
      (after p r k).1 = .ok n → (∀ a q, q.schemas = p.schemas → q.writers = p.writers → (k a q).1 = .ok n → n = x) → n = x := by
    intro p r k n x h1 h2
    obtain ⟨o, mem⟩ := r
    cases o with
    | ok a => exact h2 a { p with mem := mem } rfl rfl h1
    | abort => simp [after] at h1
    | ub => simp [after] at h1
  cases c with
  | newSchema d m x y z =>
    simp only [Py.step, Py.newSchema] at h
    split at h
    · refine hafter _ _ _ _ _ h ?_
      intro a q h1 h2 h3
      simp only [PyOutcome.ok.injEq] at h3
      rw [← h3, h1, stepValue]
    · simp at h
  | freeSchema i =>
    simp only [Py.step, Py.freeSchema] at h
    split at h
    · simp at h
    · split at h
      · split at h
        · simp at h
        · refine hafter _ _ _ _ _ h ?_
          intro a q h1 h2 h3
          simp only [PyOutcome.ok.injEq] at h3
          exact h3.symm
      · simp at h
  | newWriter f i =>
    simp only [Py.step, Py.newWriter] at h
    split at h
    · simp at h
    · split at h
      · split at h
        · simp at h
        · refine hafter _ _ _ _ _ h ?_
          intro a q h1 h2 h3
          refine hafter _ _ _ _ _ h3 ?_
          intro a' q' h1' h2' h3'
          refine hafter _ _ _ _ _ h3' ?_
          intro a'' q'' h1'' h2'' h3''
          simp only [PyOutcome.ok.injEq] at h3''
          rw [← h3'', h2'', h2', h2, stepValue]
      · simp at h
  | writeInt w d m t v =>
    simp only [Py.step, Py.writeInt] at h
    split at h
    · simp at h
    · split at h
      · split at h
        · split at h
          · refine hafter _ _ _ _ _ h ?_
            intro a q h1 h2 h3
            simp only [PyOutcome.ok.injEq] at h3
            exact h3.symm
          · simp at h
        · simp at h
      · simp at h
  | close w =>
    simp only [Py.step, Py.close] at h
    split at h
    · simp at h
    · split at h
      · split at h
        · simp at h
        · refine hafter _ _ _ _ _ h ?_
          intro a q h1 h2 h3
          simp only [PyOutcome.ok.injEq] at h3
          exact h3.symm
      · simp at h
  | delSchema i =>
    simp only [Py.step, Py.delSchema] at h
    split at h
    · simp at h
    · split at h
      · simp only [PyOutcome.ok.injEq] at h
        exact h.symm
      · simp at h
  | delWriter w =>
    simp only [Py.step, Py.delWriter] at h
    split at h
    · simp at h
    · split at h
      · simp only [PyOutcome.ok.injEq] at h
        exact h.symm
      · simp at h

theorem newSchema_writers (ce : CEnv) (p : PyState) (d m : Bytes) (x y z : Int) :
    (Py.step ce p (.newSchema d m x y z)).2.writers = p.writers := by
  simp only [Py.step, Py.newSchema]
  split
  · generalize CApi.step ce _ _ = r
    obtain ⟨o, mem⟩ := r
    cases o <;> rfl
  · rfl

/-- A program goes on as long as its steps return. -/
theorem run_next (ce : CEnv) (cs : List PyOp) (p : PyState) (k : Nat) (hk : k < cs.length)
    (h : ∀ j < k, ∃ n, (Py.run ce p cs).1[j]? = some (.ok n)) : ∃ o, (Py.run ce p cs).1[k]? = some o := by
  induction cs generalizing p k with
  | nil => simp at hk
  | cons c cs ih =>
    have hr : (Py.run ce p (c :: cs)).1 = match Py.step ce p c with
        | (.abort, _) => [.abort]
        | (.ub, _) => [.ub]
        | (o, p') => o :: (Py.run ce p' cs).1 := by
      rw [Py.run]
      rcases Py.step ce p c with ⟨o, q⟩
      cases o <;> rfl
    rcases hs : Py.step ce p c with ⟨o, q⟩
    rw [hs] at hr
    cases k with
    | zero => cases o <;> (simp only at hr; rw [hr]; exact ⟨_, rfl⟩)
    | succ k =>
      obtain ⟨n, h0⟩ := h 0 (by omega)
      cases o with
      | ok n' =>
        simp only at hr
        rw [hr]
        refine ih q k (by simpa using hk) (fun j hj => ?_)
        obtain ⟨n, hn⟩ := h (j + 1) (by omega)
        rw [hr] at hn
        exact ⟨n, hn⟩
      | raises => simp only at hr; rw [hr] at h0; simp at h0
      | abort => simp only at hr; rw [hr] at h0; simp at h0
      | ub => simp only at hr; rw [hr] at h0; simp at h0

theorem pyWrites_writes (d m : Bytes) (pts : List (Int × Int)) :
    pyWrites 0 (pts.map (fun p => (PyOp.writeInt 0 d m p.1 p.2, PyOutcome.ok 0)))
      = pts.map (fun p => Op.write (beforeNul d) (beforeNul m) (BitVec.ofInt 64 p.1) (.INT (BitVec.ofInt 32 p.2))) := by
  induction pts with
  | nil => rfl
  | cons p pts ih => simp [pyWrites, ih]

/-- The points of the program as points of the file. -/
def pyPoints (pts : List (Int × Int)) : List (W64 × IoTDBValue) :=
  pts.map (fun p => (BitVec.ofInt 64 p.1, .INT (BitVec.ofInt 32 p.2)))

theorem py_orderly {d m : Bytes} {e : TSEncoding} {c : CompressionType} {pts : List (Int × Int)}
    (hp : ∀ p ∈ pts, 0 ≤ p.1 ∧ p.1 < 2147483648) (hi : pts.Pairwise (fun p q => p.1 < q.1)) :
    Orderly [(d, [(m, ⟨.INT32, e, c⟩)])] (pts.map (fun p => Op.write d m (BitVec.ofInt 64 p.1) (.INT (BitVec.ofInt 32 p.2)))) := by
  have ht : ∀ p ∈ pts, (BitVec.ofInt 64 p.1).toInt = p.1 := by
    intro p h
    have := hp p h
    rw [BitVec.toInt_ofInt, Int.bmod_def]
    omega
  refine ⟨?_, ?_, increasing_of ?_ ?_⟩
  · intro op h
    obtain ⟨p, _, rfl⟩ := List.mem_map.1 h
    simp [Op.recs]
  · intro r h
    obtain ⟨op, h1, h2⟩ := List.mem_flatMap.1 h
    obtain ⟨p, _, rfl⟩ := List.mem_map.1 h1
    simp only [Op.recs, List.mem_singleton] at h2
    subst h2
    exact ⟨[(m, ⟨.INT32, e, c⟩)], ⟨.INT32, e, c⟩, by simp [look], by simp [look], rfl, rfl⟩
  · intro r h
    obtain ⟨op, h1, h2⟩ := List.mem_flatMap.1 h
    obtain ⟨p, h3, rfl⟩ := List.mem_map.1 h1
    simp only [Op.recs, List.mem_singleton] at h2
    subst h2
    simp only
    rw [ht p h3]
    exact (hp p h3).1
  · rw [List.flatMap_map]
    simp only [Op.recs]
    rw [← List.map_eq_flatMap, List.pairwise_map]
    refine hi.imp_of_mem ?_
    intro a b ha hb hab _ _
    simp only
    rw [ht a ha, ht b hb]
    exact hab

theorem py_series (d m : Bytes) (pts : List (Int × Int)) :
    series ((pts.map (fun p => Op.write d m (BitVec.ofInt 64 p.1) (.INT (BitVec.ofInt 32 p.2)))).flatMap Op.recs) d m = pyPoints pts := by
  rw [List.flatMap_map]
  simp only [Op.recs]
  rw [← List.map_eq_flatMap, series, List.filter_map, List.map_map, pyPoints]
  simp [Function.comp_def]

/-- The two first steps and some of the points, with what they return. -/
def pyBegun (f d m : Bytes) (y z : Int) (pts : List (Int × Int)) : List (PyOp × PyOutcome) :=
  [(.newSchema d m 1 y z, .ok 0), (.newWriter f 0, .ok 0)] ++ pts.map (fun p => (.writeInt 0 d m p.1 p.2, .ok 0))

theorem pyBegun_writes (f d m : Bytes) (y z : Int) (pts : List (Int × Int)) :
    pyWrites 0 (pyBegun f d m y z pts)
      = pts.map (fun p => Op.write (beforeNul d) (beforeNul m) (BitVec.ofInt 64 p.1) (.INT (BitVec.ofInt 32 p.2))) := by
  rw [← pyWrites_writes]
  rfl

theorem made_unique {H : List (PyOp × PyOutcome)} {d m : Bytes} {y z : Int}
    (hH : ∀ d' m' x' y' z' o, (PyOp.newSchema d' m' x' y' z', o) ∈ H → PyOp.newSchema d' m' x' y' z' = .newSchema d m 1 y z)
    {i : Nat} {d' m' : Bytes} {ms : MeasurementSchema} {e : TSEncoding} {c : CompressionType}
    (he : TSEncoding.tryFrom (UInt8.ofNat (y % 256).toNat) = some e)
    (hc : CompressionType.tryFrom (UInt8.ofNat (z % 256).toNat) = some c)
    (h : MadeSchema H i d' m' ms) : d' = d ∧ m' = m ∧ ms = ⟨.INT32, e, c⟩ := by
  obtain ⟨x', y', z', h1, h2, h3, h4⟩ := h
  have hmem := hH _ _ _ _ _ _ h1
  simp only [PyOp.newSchema.injEq] at hmem
  obtain ⟨rfl, rfl, rfl, rfl, rfl⟩ := hmem
  rw [he] at h3
  rw [hc] at h4
  obtain ⟨dt, en, co⟩ := ms
  simp only [Option.some.injEq] at h3 h4
  have h2' : TSDataType.tryFrom (UInt8.ofNat ((1 : Int) % 256).toNat) = some .INT32 := by decide
  rw [h2'] at h2
  simp only [Option.some.injEq] at h2
  subst h2 h3 h4
  exact ⟨rfl, rfl, rfl⟩

theorem run_cons (ce : CEnv) (p : PyState) (c : PyOp) (cs : List PyOp) :
    (Py.run ce p (c :: cs)).1[0]? = some (Py.step ce p c).1
    ∧ ∀ k o, (Py.run ce p (c :: cs)).1[k + 1]? = some o → (Py.run ce (Py.step ce p c).2 cs).1[k]? = some o := by
  rw [Py.run]
  rcases Py.step ce p c with ⟨o, q⟩
  cases o <;> simp

/-- A step that makes no object returns nothing. -/
theorem run_value (ce : CEnv) (cs : List PyOp) (p : PyState) (k : Nat) (c : PyOp) (n : Nat) (hc : cs[k]? = some c)
    (h : (Py.run ce p cs).1[k]? = some (.ok n)) : ∃ q, n = stepValue q c := by
  induction cs generalizing p k with
  | nil => simp at hc
  | cons c' cs ih =>
    cases k with
    | zero =>
      simp only [List.getElem?_cons_zero, Option.some.injEq] at hc
      subst hc
      rw [(run_cons ce p c' cs).1, Option.some.injEq] at h
      exact ⟨p, step_value ce p c' n h⟩
    | succ k => exact ih _ _ hc ((run_cons ce p c' cs).2 k _ h)

theorem pyProgram_taken (f d m : Bytes) (y z : Int) (pts : List (Int × Int)) (j : Nat) (hj : j ≤ pts.length) :
    ((pyProgram f d m y z pts).take (j + 2)).map (fun c => (c, PyOutcome.ok 0)) = pyBegun f d m y z (pts.take j) := by
  simp only [pyProgram, pyBegun, List.cons_append, List.nil_append, List.take_succ_cons, List.map_cons]
  rw [List.take_append_of_le_length (by simpa using hj), ← List.map_take, List.map_map]
  rfl

theorem pyBegun_other {f d m : Bytes} {y z : Int} {pts : List (Int × Int)} {o : PyOutcome} :
    (∀ i, (PyOp.delSchema i, o) ∉ pyBegun f d m y z pts) ∧ (∀ i, (PyOp.freeSchema i, o) ∉ pyBegun f d m y z pts)
    ∧ (∀ i, (PyOp.delWriter i, o) ∉ pyBegun f d m y z pts) ∧ ∀ i, (PyOp.close i, o) ∉ pyBegun f d m y z pts := by
  refine ⟨fun i h => ?_, fun i h => ?_, fun i h => ?_, fun i h => ?_⟩ <;>
  · simp only [pyBegun, List.cons_append, List.nil_append, List.mem_cons, List.mem_map, Prod.mk.injEq] at h
    rcases h with h | h | ⟨_, _, h, _⟩
    · cases h.1
    · cases h.1
    · cases h

theorem run_length_le (ce : CEnv) (cs : List PyOp) (p : PyState) : (Py.run ce p cs).1.length ≤ cs.length := by
  induction cs generalizing p with
  | nil => exact Nat.le_refl _
  | cons c cs ih =>
    rw [Py.run]
    rcases Py.step ce p c with ⟨o, q⟩
    cases o with
    | ok n => exact Nat.succ_le_succ (ih q)
    | raises => exact Nat.succ_le_succ (ih q)
    | abort => simp
    | ub => simp

theorem pyBegun_schema {f d m : Bytes} {y z : Int} {pts : List (Int × Int)} {d' m' : Bytes} {x' y' z' : Int} {o : PyOutcome}
    (h : (PyOp.newSchema d' m' x' y' z', o) ∈ pyBegun f d m y z pts) : PyOp.newSchema d' m' x' y' z' = .newSchema d m 1 y z := by
  simp only [pyBegun, List.cons_append, List.nil_append, List.mem_cons, List.mem_map, Prod.mk.injEq] at h
  rcases h with h | h | ⟨_, _, h, _⟩
  · exact h.1
  · cases h.1
  · cases h

theorem write_of_run {env : Env} {w : Writer} {ops : List Op} {d m : Bytes} {t : W64} {v : IoTDBValue}
    (h : (w.run env (ops ++ [.write d m t v])).2 = List.replicate (ops ++ [Op.write d m t v]).length (.ok ())) :
    ((w.run env ops).1.write env d m t v).2 = .ok () := by
  have := (run_append env ops [.write d m t v] w).2.1
  rw [this] at h
  have h2 : ((w.run env ops).1.run env [.write d m t v]).2 = [.ok ()] := by
    have h3 : ∀ x ∈ ((w.run env ops).1.run env [.write d m t v]).2, x = .ok () := by
      intro x hx
      have : x ∈ List.replicate (ops ++ [Op.write d m t v]).length (Res.ok ()) := by
        rw [← h]; exact List.mem_append_right _ hx
      exact (List.mem_replicate.1 this).2
    simp only [Writer.run] at h3 ⊢
    rw [h3 _ List.mem_cons_self]
  simpa [Writer.run, Writer.step] using h2

/-! ## C82 -/

/-- **C82**, Python programs with the two `with` statements of the program in `rust.py`, for any names, encoding, compression and
points (up to a hundred million, with increasing timestamps of 32 bits): every step returns, and the file contains exactly the
points. -/
theorem C82_python {ce : CEnv} {unsnap : Bytes → Option Bytes} (hev : EnvOk ce.env unsnap)
    (hB : ∀ n ≤ 1, ce.env.bloomSize n ≤ 256) {f d m : Bytes} {y z : Int} {e : TSEncoding} {c : CompressionType}
    (hy : isCInt y ∧ TSEncoding.tryFrom (UInt8.ofNat (y % 256).toNat) = some e)
    (hz : isCInt z ∧ CompressionType.tryFrom (UInt8.ofNat (z % 256).toNat) = some c)
    (hf : ce.utf8 (beforeNul f) = true ∧ ce.canCreate (beforeNul f) = true) (hd : ce.utf8 (beforeNul d) = true)
    (hm : ce.utf8 (beforeNul m) = true) (hlen : (beforeNul d).length + 1 + (beforeNul m).length ≤ 100) (hdot : NoDot (beforeNul m))
    {pts : List (Int × Int)} (hp : ∀ p ∈ pts, (0 ≤ p.1 ∧ p.1 < 2147483648) ∧ isCInt p.2)
    (hi : pts.Pairwise (fun p q => p.1 < q.1)) (hn : pts.length ≤ 100000000) :
    (run ce start (pyProgram f d m y z pts)).1 = List.replicate (pts.length + 4) (.ok 0)
    ∧ ∃ file, (beforeNul f, file) ∈ (run ce start (pyProgram f d m y z pts)).2.mem.files
      ∧ readSeries unsnap file (beforeNul d) (beforeNul m) = some (pyPoints pts) := by
  -- the session of the Rust interface
  have hpre : ∀ k, Orderly [(beforeNul d, [(beforeNul m, ⟨.INT32, e, c⟩)])] ((pts.take k).map (fun p => Op.write (beforeNul d) (beforeNul m)
      (BitVec.ofInt 64 p.1) (.INT (BitVec.ofInt 32 p.2)))) := fun k =>
    py_orderly (fun p h => (hp p (List.mem_of_mem_take h)).1) (hi.sublist (List.take_sublist _ _))
  have hsz : Schema.size [(beforeNul d, [(beforeNul m, ⟨.INT32, e, c⟩)])] = 1 := rfl
  have hix : Schema.Indexable [(beforeNul d, [(beforeNul m, ⟨.INT32, e, c⟩)])] := by
    refine ⟨⟨⟨by simp, by simp⟩, ?_, ?_⟩, ?_, ?_⟩
    · intro x hx; rw [List.mem_singleton] at hx; subst hx; simp only; omega
    · intro x hx y hy
      rw [List.mem_singleton] at hx; subst hx
      rw [List.mem_singleton] at hy; subst hy
      simp only; omega
    · intro x hx y hy
      rw [List.mem_singleton] at hx; subst hx
      rw [List.mem_singleton] at hy; subst hy
      exact hdot
    · intro x hx; rw [List.mem_singleton] at hx; subst hx; simp
  have hnm : Schema.NamesBelow [(beforeNul d, [(beforeNul m, ⟨.INT32, e, c⟩)])] 100 := by
    refine ⟨?_, ?_⟩
    · intro x hx; rw [List.mem_singleton] at hx; subst hx; simp only; omega
    · intro x hx y hy
      rw [List.mem_singleton] at hx; subst hx
      rw [List.mem_singleton] at hy; subst hy
      simp only; omega
  have hhanded : ∀ k, handed ((pts.take k).map (fun p => Op.write (beforeNul d) (beforeNul m) (BitVec.ofInt 64 p.1)
      (.INT (BitVec.ofInt 32 p.2)))) ≤ 100000000 := by
    intro k
    simp only [handed, List.map_map, Function.comp_def, Op.recs, List.length_singleton, List.map_const', List.sum_replicate_nat,
      List.length_take]
    omega
  obtain ⟨s, hs, -, hread⟩ := C81_small hev hix (hpre pts.length) (hhanded _) (by simp) (by rw [hsz]; decide) hnm
    (fun k hk => hB k (by rw [hsz] at hk; omega))
  rw [List.take_length] at hs hread
  obtain ⟨w0, hw0⟩ : ∃ w, Writer.new ce.env [(beforeNul d, [(beforeNul m, ⟨.INT32, e, c⟩)])] ⟨[], none⟩ = .ok w := new_total _ _
  have hruns : ∀ k, (w0.run ce.env ((pts.take k).map (fun p => Op.write (beforeNul d) (beforeNul m) (BitVec.ofInt 64 p.1)
      (.INT (BitVec.ofInt 32 p.2))))).2 = List.replicate ((pts.take k).map (fun p => Op.write (beforeNul d) (beforeNul m)
      (BitVec.ofInt 64 p.1) (.INT (BitVec.ofInt 32 p.2)))).length (.ok ()) := by
    intro k
    have h1 := hhanded k
    exact (orderly_session hev hix.wf (hpre k) hw0 (L := 100000001) (by rw [hsz]; decide) (handed_bursts _ (by omega))
      (fun k hk => by rw [hsz] at hk; have := hB k hk; omega)).1
  -- the steps
  generalize hos : (run ce start (pyProgram f d m y z pts)).1 = os
  have hclen : (pyProgram f d m y z pts).length = pts.length + 4 := by simp [pyProgram]
  have hindex : ∀ j (hj : j < pts.length), (pyProgram f d m y z pts)[j + 2]? = some (.writeInt 0 d m pts[j].1 pts[j].2) := by
    intro j hj
    simp [pyProgram, List.getElem?_append, hj]
  have hclose : (pyProgram f d m y z pts)[pts.length + 2]? = some (.close 0) := by
    simp [pyProgram]
  have hfree : (pyProgram f d m y z pts)[pts.length + 3]? = some (.freeSchema 0) := by
    simp [pyProgram]
  have hcases : ∀ k, k < pts.length + 4 → k = 0 ∨ k = 1 ∨ (∃ j, j < pts.length ∧ k = j + 2) ∨ k = pts.length + 2 ∨ k = pts.length + 3 := by
    intro k hk
    rcases Nat.lt_or_ge k 2 with h | h
    · omega
    · rcases Nat.lt_or_ge k (pts.length + 2) with h' | h'
      · exact .inr (.inr (.inl ⟨k - 2, by omega, by omega⟩))
      · omega
  have hstep : ∀ k, k < pts.length + 4 → ∀ o, os[k]? = some o → (∀ j < k, os[j]? = some (.ok 0)) → ∃ n, o = .ok n := by
    intro k hk o ho hbefore
    obtain ⟨c', hck⟩ : ∃ c', (pyProgram f d m y z pts)[k]? = some c' := ⟨_, List.getElem?_eq_getElem (by omega)⟩
    have hr := C79_raises ce (pyProgram f d m y z pts) k _ o hck (by rw [hos]; exact ho)
    have ha := C79_aborts ce (pyProgram f d m y z pts) k _ o hck (by rw [hos]; exact ho)
    have hu : o ≠ .ub := fun h => C79_no_ub ce (pyProgram f d m y z pts) (by rw [hos, ← h]; exact List.mem_of_getElem? ho)
    have hH : ((pyProgram f d m y z pts).zip (run ce start (pyProgram f d m y z pts)).1).take k
        = ((pyProgram f d m y z pts).take k).map (fun c => (c, .ok 0)) := by
      rw [hos]
      apply List.ext_getElem?
      intro j
      by_cases hj : j < k
      · obtain ⟨cj, hcj⟩ : ∃ c', (pyProgram f d m y z pts)[j]? = some c' := ⟨_, List.getElem?_eq_getElem (by omega)⟩
        rw [List.getElem?_take_of_lt hj, List.getElem?_zip_eq_some (z := (cj, .ok 0)) |>.2 ⟨hcj, hbefore j hj⟩,
          List.getElem?_map, List.getElem?_take_of_lt hj, hcj]
        rfl
      · rw [List.getElem?_eq_none (by simp; omega), List.getElem?_eq_none (by simp; omega)]
    rw [hH] at hr ha
    suffices hsuff : ¬ RaiseReason (((pyProgram f d m y z pts).take k).map (fun c => (c, .ok 0))) c'
        ∧ ¬ PyAbortReason ce (((pyProgram f d m y z pts).take k).map (fun c => (c, .ok 0))) c' by
      cases o with
      | ok n => exact ⟨n, rfl⟩
      | raises => exact absurd (hr.1 rfl) hsuff.1
      | abort => exact absurd (ha.1 rfl) hsuff.2
      | ub => exact absurd rfl hu
    rcases hcases k hk with rfl | rfl | ⟨j, hj, rfl⟩ | rfl | rfl
    · have : c' = .newSchema d m 1 y z := by simpa [pyProgram] using hck.symm
      subst this
      refine ⟨?_, ?_⟩
      · simp only [RaiseReason, not_not]
        exact ⟨⟨by decide, by decide⟩, hy.1, hz.1⟩
      · rintro ⟨-, -, -, h⟩
        rw [hd, hm, hy.2, hz.2] at h
        have : TSDataType.tryFrom (UInt8.ofNat ((1 : Int) % 256).toNat) ≠ none := by decide
        rcases h with h | h | h | h | h
        · cases h
        · cases h
        · exact this h
        · cases h
        · cases h
    · have : c' = .newWriter f 0 := by simpa [pyProgram] using hck.symm
      subst this
      have h1 : (List.take 1 (pyProgram f d m y z pts)).map (fun c => (c, PyOutcome.ok 0)) = [(.newSchema d m 1 y z, .ok 0)] := rfl
      rw [h1]
      refine ⟨?_, ?_⟩
      · rintro (h | h | h)
        · exact h d m 1 y z (by simp)
        · simp at h
        · simp at h
      · rintro ⟨-, h⟩
        rw [hf.1, hf.2] at h
        simp only [Bool.true_eq_false, false_or] at h
        obtain ⟨d', m', ms, e', h3, h4⟩ := h
        obtain ⟨rfl, rfl, rfl⟩ := made_unique (d := d) (m := m) (y := y) (z := z) (by
          intro d' m' x' y' z' o h
          simp only [List.mem_singleton, Prod.mk.injEq] at h
          exact h.1) hy.2 hz.2 h3
        rw [hw0] at h4
        cases h4
    · rw [hindex j hj, Option.some.injEq] at hck
      subst hck
      rw [pyProgram_taken f d m y z pts j (by omega)]
      have hpj := hp pts[j] (List.getElem_mem hj)
      refine ⟨?_, ?_⟩
      · rintro (h | h | h | h)
        · exact h f 0 (by simp [pyBegun])
        · exact pyBegun_other.2.2.1 _ h
        · exact pyBegun_other.2.2.2 _ h
        · exact h ⟨⟨by omega, by omega⟩, hpj.2⟩
      · rintro ⟨-, h⟩
        rw [hd, hm] at h
        simp only [Bool.true_eq_false, false_or] at h
        obtain ⟨f', i', d', m', ms, writer, -, h3, ⟨w0', h4, h5⟩, h6⟩ := h
        obtain ⟨rfl, rfl, rfl⟩ := made_unique (fun _ _ _ _ _ _ => pyBegun_schema) hy.2 hz.2 h3
        rw [hw0, Except.ok.injEq] at h4
        subst h4
        rw [pyBegun_writes] at h5
        subst h5
        refine h6 (write_of_run ?_)
        have h7 := hruns (j + 1)
        rw [List.take_add_one, List.getElem?_eq_getElem hj, List.map_append] at h7
        exact h7
    · rw [hclose, Option.some.injEq] at hck
      subst hck
      rw [pyProgram_taken f d m y z pts pts.length (by omega), List.take_length]
      refine ⟨?_, ?_⟩
      · rintro (h | h | h)
        · exact h f 0 (by simp [pyBegun])
        · exact pyBegun_other.2.2.1 _ h
        · exact pyBegun_other.2.2.2 _ h
      · rintro ⟨-, f', i', d', m', ms, -, h3, h4⟩
        obtain ⟨rfl, rfl, rfl⟩ := made_unique (fun _ _ _ _ _ _ => pyBegun_schema) hy.2 hz.2 h3
        rw [pyBegun_writes, hs] at h4
        cases h4
    · rw [hfree, Option.some.injEq] at hck
      subst hck
      refine ⟨?_, fun h => h⟩
      have h1 : ((pyProgram f d m y z pts).take (pts.length + 3)).map (fun c => (c, PyOutcome.ok 0))
          = pyBegun f d m y z pts ++ [(.close 0, .ok 0)] := by
        rw [List.take_add_one, hclose, List.map_append, pyProgram_taken f d m y z pts pts.length (by omega), List.take_length]
        rfl
      rw [h1]
      rintro (h | h | h)
      · exact h d m 1 y z (by simp [pyBegun])
      · rcases List.mem_append.1 h with h | h
        · exact pyBegun_other.1 _ h
        · simp at h
      · rcases List.mem_append.1 h with h | h
        · exact pyBegun_other.2.1 _ h
        · simp at h
  have hzero : ∀ k, k < pts.length + 4 → ∀ n, os[k]? = some (.ok n) → n = 0 := by
    intro k hk n hn
    subst hos
    rcases hcases k hk with rfl | rfl | ⟨j, hj, rfl⟩ | rfl | rfl
    · simp only [pyProgram, List.cons_append, List.nil_append] at hn
      rw [(run_cons ce start _ _).1, Option.some.injEq] at hn
      exact step_value ce start _ n hn
    · simp only [pyProgram, List.cons_append, List.nil_append] at hn
      have h1 := (run_cons ce start _ _).2 0 _ hn
      rw [(run_cons ce _ _ _).1, Option.some.injEq] at h1
      have h2 := step_value ce _ _ n h1
      rw [stepValue, newSchema_writers] at h2
      exact h2
    · obtain ⟨_, h⟩ := run_value ce _ _ _ _ n (hindex j hj) hn; exact h
    · obtain ⟨_, h⟩ := run_value ce _ _ _ _ n hclose hn; exact h
    · obtain ⟨_, h⟩ := run_value ce _ _ _ _ n hfree hn; exact h
  have hall : ∀ k, k ≤ pts.length + 4 → ∀ j < k, os[j]? = some (.ok 0) := by
    intro k
    induction k with
    | zero => intro _ j hj; omega
    | succ k ih =>
      intro hk j hj
      have ihk := ih (by omega)
      rcases Nat.lt_or_ge j k with h | h
      · exact ihk j h
      · have hjk : j = k := by omega
        subst hjk
        obtain ⟨o, ho⟩ := run_next ce (pyProgram f d m y z pts) start j (by omega) (fun i hi => ⟨0, by rw [hos]; exact ihk i hi⟩)
        rw [hos] at ho
        obtain ⟨n, rfl⟩ := hstep j (by omega) o ho ihk
        rw [ho, hzero j (by omega) n ho]
  have hlen' : os.length ≤ pts.length + 4 := by
    rw [← hclen, ← hos]
    exact run_length_le ce _ _
  have hoseq : os = List.replicate (pts.length + 4) (.ok 0) := by
    apply List.ext_getElem?
    intro k
    rcases Nat.lt_or_ge k (pts.length + 4) with h | h
    · rw [hall (pts.length + 4) (Nat.le_refl _) k h, List.getElem?_replicate_of_lt h]
    · rw [List.getElem?_eq_none (by omega), List.getElem?_eq_none (by simpa using h)]
  refine ⟨hoseq, ?_⟩
  have hzip : (pyProgram f d m y z pts).zip (run ce start (pyProgram f d m y z pts)).1
      = pyBegun f d m y z pts ++ [(.close 0, .ok 0), (.freeSchema 0, .ok 0)] := by
    have hz : ∀ cs : List PyOp, cs.zip (List.replicate cs.length (PyOutcome.ok 0)) = cs.map (fun c => (c, .ok 0)) := by
      intro cs
      induction cs with
      | nil => rfl
      | cons c cs ih => rw [List.length_cons, List.replicate_succ, List.zip_cons_cons, ih]; rfl
    rw [hos, hoseq, ← hclen, hz]
    simp [pyProgram, pyBegun, Function.comp_def]
  obtain ⟨f', i', d', m', ms, s', h1, h2, h3, -, h5⟩ := C79_file ce (pyProgram f d m y z pts) 0 0 (by rw [hzip]; simp)
  rw [hzip] at h1 h2 h3
  have hf' : f' = f := by
    simp only [pyBegun, List.cons_append, List.nil_append, List.mem_cons, List.mem_append, List.mem_map, Prod.mk.injEq] at h1
    rcases h1 with h | h | ⟨_, _, h, _⟩ | h | h | h
    · cases h.1
    · have := h.1; simp only [PyOp.newWriter.injEq] at this; exact this.1
    · cases h
    · cases h.1
    · cases h.1
    · cases h
  obtain ⟨rfl, rfl, rfl⟩ := made_unique (d := d) (m := m) (y := y) (z := z) (by
    intro d' m' x' y' z' o h
    rcases List.mem_append.1 h with h | h
    · exact pyBegun_schema h
    · simp at h) hy.2 hz.2 h2
  subst hf'
  have h6 : pyWrites 0 (pyBegun f' d' m' y z pts ++ [(.close 0, .ok 0), (.freeSchema 0, .ok 0)])
      = pyWrites 0 (pyBegun f' d' m' y z pts) := by
    rw [show [(PyOp.close 0, PyOutcome.ok 0), (.freeSchema 0, .ok 0)] = [(.close 0, .ok 0)] ++ [(.freeSchema 0, .ok 0)] from rfl,
      ← List.append_assoc, pyWrites_append, pyWrites_append]
    simp [pyWrites]
  rw [h6, pyBegun_writes, hs, Option.some.injEq] at h3
  subst h3
  exact ⟨s.file, h5, by rw [hread, py_series]⟩

example : ∃ file, (str "a", file) ∈ (run Demo.cenv start (pyProgram (str "a") (str "d") (str "s") 4 257 [(3, -7), (9, 2147483647)])).2.mem.files
    ∧ readSeries some file (str "d") (str "s") = some [(3, .INT (-7)), (9, .INT 2147483647)] :=
  (C82_python (ce := Demo.cenv) Demo.envOk (by decide +kernel) (f := str "a") (d := str "d") (m := str "s") (y := 4) (z := 257)
    (e := .TS2DIFF) (c := .SNAPPY) ⟨⟨by decide, by decide⟩, by decide⟩ ⟨⟨by decide, by decide⟩, by decide⟩ (by decide +kernel)
    (by decide +kernel) (by decide +kernel) (by decide +kernel) (by decide +kernel) (pts := [(3, -7), (9, 2147483647)])
    (by unfold isCInt; decide) (by decide) (by decide)).2

/-- The file after the program of `rust.py` with `n` points: the points `(0, 0)` to `(n - 1, n - 1)`. -/
theorem C82_python_main {ce : CEnv} {unsnap : Bytes → Option Bytes} (hev : EnvOk ce.env unsnap)
    (hB : ∀ n ≤ 1, ce.env.bloomSize n ≤ 256) (hf : ce.canCreate (str "test.tsfile") = true)
    (hu : ce.utf8 (str "test.tsfile") = true ∧ ce.utf8 (str "d1") = true ∧ ce.utf8 (str "s1") = true) {n : Nat} (hn : n ≤ 100000000) :
    (run ce start (pyMain n)).1 = List.replicate (n + 4) (.ok 0)
    ∧ ∃ file, (str "test.tsfile", file) ∈ (run ce start (pyMain n)).2.mem.files
      ∧ readSeries unsnap file (str "d1") (str "s1")
        = some ((List.range n).map (fun i => (BitVec.ofNat 64 i, .INT (BitVec.ofNat 32 i)))) := by
  have h1 : beforeNul (str "test.tsfile") = str "test.tsfile" := by decide +kernel
  have h2 : beforeNul (str "d1") = str "d1" := by decide +kernel
  have h3 : beforeNul (str "s1") = str "s1" := by decide +kernel
  have h := C82_python hev hB (f := str "test.tsfile") (d := str "d1") (m := str "s1") (y := 0) (z := 0) (e := .PLAIN)
    (c := .UNCOMPRESSED) ⟨⟨by decide, by decide⟩, by decide⟩ ⟨⟨by decide, by decide⟩, by decide⟩ (by rw [h1]; exact ⟨hu.1, hf⟩)
    (by rw [h2]; exact hu.2.1) (by rw [h3]; exact hu.2.2) (by rw [h2, h3]; decide +kernel) (by rw [h3]; decide +kernel)
    (pts := (List.range n).map (fun i => (Int.ofNat i, Int.ofNat i))) (by
      intro p hp
      obtain ⟨i, hi, rfl⟩ := List.mem_map.1 hp
      have := List.mem_range.1 hi
      simp only [Int.ofNat_eq_natCast, isCInt]
      omega) (by
      rw [List.pairwise_map]
      refine List.pairwise_lt_range.imp ?_
      intro a b h
      simpa using h) (by simpa using hn)
  rw [h1, h2, h3, List.length_map, List.length_range] at h
  refine ⟨h.1, ?_⟩
  obtain ⟨file, h4, h5⟩ := h.2
  refine ⟨file, h4, ?_⟩
  rw [h5, pyPoints, List.map_map]
  rfl

/-- The number of points of `rust.py`. -/
example : (run Demo.cenv start (pyMain 10000001)).1 = List.replicate 10000005 (.ok 0) :=
  (C82_python_main (ce := Demo.cenv) Demo.envOk (by decide +kernel) rfl (by decide +kernel) (by decide)).1

end TsFile
