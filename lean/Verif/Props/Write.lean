import Verif.Proofs.Memory
import Verif.Proofs.Coarse
import Verif.Props.Example
/-! # Accepting and rejecting points: C03, C04, C05, C06, C15, C41, C42, C43 -/

namespace TsFile
open Spec

/-- `w` is the writer after the history `ops`, begun with the fresh writer `w0` on an output without limit.
No call panicked, and at no time 2^32 points were waiting. -/
structure Reached (env : Env) (schema : Schema) (ops : List Op) (w0 w : Writer) : Prop where
  new : Writer.new env schema { bytes := [], cap := none } = .ok w0
  run : (w0.run env ops).1 = w
  fine : .panic ∉ (w0.run env ops).2
  bursts : burstsBelow (2 ^ 32) 0 (ops.zip ((w0.grown env ops).map (fun n => decide (0 < n))))

/-- The abstract writer after the history; a call is followed by a flush iff it made the output grow. -/
def abstractly (env : Env) (schema : Schema) (ops : List Op) (w0 : Writer) : AState :=
  (AState.init.run schema (ops.zip ((w0.grown env ops).map (fun n => decide (0 < n))))).1

theorem Reached.sim {env : Env} {unsnap : Bytes → Option Bytes} (hsn : SnappyOk env unsnap) {schema : Schema}
    (hwf : schema.WF) {ops : List Op} {w0 w : Writer} (h : Reached env schema ops w0 w) :
    ∃ groups, Sim env unsnap schema w (abstractly env schema ops w0) groups
      ∧ (abstractly env schema ops w0).pending.length < 2 ^ 32 := by
  obtain ⟨new, _, h2, h3, _⟩ := sim_run hsn hwf ops (sim_new unsnap hwf h.new) 0 (by simp [AState.init]) h.bursts h.fine
  rw [h.run] at h2
  refine ⟨[] ++ new, h2, ?_⟩
  by_cases ho : ops = []
  · subst ho; simp [abstractly, AState.run, AState.init]
  · exact h3 ho

/-- The points of a series that are waiting to be written to the file. -/
def waiting (env : Env) (schema : Schema) (ops : List Op) (w0 : Writer) (d m : Bytes) : List (W64 × IoTDBValue) :=
  series (abstractly env schema ops w0).pending d m

theorem abstractly_inv (env : Env) (schema : Schema) (ops : List Op) (w0 : Writer) :
    (abstractly env schema ops w0).Inv := AState.Inv.run _ AState.inv_init

/-- The fresh writer of the demo. -/
def Demo.w0 : Writer :=
  match Writer.new Demo.env Demo.schema { bytes := [], cap := none } with
  | .ok w => w
  | .error _ => ⟨⟨⟨[], none⟩, none, [], none, [], []⟩, [], 0, 0, [], []⟩

theorem Demo.reached : Reached Demo.env Demo.schema Demo.ops Demo.w0 (Demo.w0.run Demo.env Demo.ops).1 :=
  ⟨by decide +kernel, rfl, by decide +kernel, by decide +kernel⟩

/-! ## C03 -/

/-- A point with the time `t` may follow the points that wait: `t` is not negative and later than all of them. -/
def InOrder (waiting : List (W64 × IoTDBValue)) (t : W64) : Prop :=
  0 ≤ t.toInt ∧ ∀ p ∈ waiting, p.1.toInt < t.toInt

/-- What `write` must answer. `waiting` are the points of the series
accepted since the last flush. -/
inductive Answer (schema : Schema) (waiting : List (W64 × IoTDBValue)) (d m : Bytes) (t : W64) (v : IoTDBValue) :
    Res Unit → Prop
  /-- the device is unknown -/
  | noDevice : look d schema = none →
      Answer schema waiting d m t v (.err (.illegalState (some "No Group Writer found")))
  /-- the timestamp is negative or not after all those waiting -/
  | outOfOrder {ms} : look d schema = some ms → ¬ InOrder waiting t →
      Answer schema waiting d m t v (.err .outOfOrderData)
  /-- the measurement is unknown -/
  | noMeasurement {ms} : look d schema = some ms → InOrder waiting t →
      look m ms = none → Answer schema waiting d m t v (.err (.illegalState (some "Unknown measurement id")))
  /-- the value has another type, or the type has no such encoding: the program aborts -/
  | abort {ms s} : look d schema = some ms → InOrder waiting t →
      look m ms = some s → ¬ (fits s.dataType v = true ∧ encodable s.dataType s.encoding = true) →
      Answer schema waiting d m t v .panic
  /-- accepted -/
  | accept {ms s} : look d schema = some ms → InOrder waiting t →
      look m ms = some s → fits s.dataType v = true → encodable s.dataType s.encoding = true →
      Answer schema waiting d m t v (.ok ())

/-- **C03.** The answer of `write` is the one of the table `Answer`, whatever happened before, as long as the
memory estimate of the writer, a 32 bit number, does not wrap: it is at most 22 bytes for each waiting point and 120 bytes for
each series. (The cases of the table exclude each other, so this determines the
answer.) -/
theorem C03_write_decision {env : Env} {unsnap : Bytes → Option Bytes} (hsn : SnappyOk env unsnap) {schema : Schema}
    (hwf : schema.WF) {ops : List Op} {w0 w : Writer} (h : Reached env schema ops w0 w)
    (hlen : 22 * ((abstractly env schema ops w0).pending.length + 1) + 120 * schema.size < 2 ^ 32)
    (d m : Bytes) (t : W64) (v : IoTDBValue) :
    Answer schema (waiting env schema ops w0 d m) d m t v (w.write env d m t v).2 := by
  obtain ⟨groups, hs, _⟩ := h.sim hsn hwf
  have hinv := abstractly_inv env schema ops w0
  have hres := step_result hsn hwf hs (.write d m t v) (by simp [Op.recs]) (by simpa [Op.recs] using hlen)
  rw [Writer.step] at hres
  rw [hres, AState.exec]
  cases hl : look d schema with
  | none => exact .noDevice hl
  | some ms =>
    have hlast := increasing_le_last (hinv.inc d m) t
    rw [← hinv.last] at hlast
    simp only [AState.put]
    by_cases ho : t.toInt ≤ ((abstractly env schema ops w0).last d m).toInt
    · rw [if_pos ho]
      exact .outOfOrder hl (fun hc => by have := hlast.2 hc; omega)
    · have ho' : InOrder (waiting env schema ops w0 d m) t := hlast.1 (by omega)
      rw [if_neg ho]
      cases hm : look m ms with
      | none => exact .noMeasurement hl ho' hm
      | some s =>
        simp only
        by_cases hf : fits s.dataType v = true ∧ encodable s.dataType s.encoding = true
        · rw [if_pos (by simp [hf])]
          exact .accept hl ho' hm hf.1 hf.2
        · rw [if_neg (by simpa using hf)]
          exact .abort hl ho' hm hf

/-- **C03**, the other direction: the table determines the answer. -/
theorem C03_answer_unique {schema : Schema} {wt : List (W64 × IoTDBValue)} {d m : Bytes} {t : W64} {v : IoTDBValue}
    {r r' : Res Unit} (h : Answer schema wt d m t v r) (h' : Answer schema wt d m t v r') : r = r' := by
  cases h <;> cases h' <;> simp_all

-- in the demo two points of a series are waiting, so 12 is refused and 13 accepted; one state, four answers
example : Answer Demo.schema (waiting Demo.env Demo.schema Demo.ops Demo.w0 (str "root.sg.d1") (str "s1"))
    (str "root.sg.d1") (str "s1") 12 (.INT 5)
    ((Demo.w0.run Demo.env Demo.ops).1.write Demo.env (str "root.sg.d1") (str "s1") 12 (.INT 5)).2 :=
  C03_write_decision Demo.envOk.snappy Demo.indexable.wf Demo.reached (by decide +kernel) _ _ _ _

example : waiting Demo.env Demo.schema Demo.ops Demo.w0 (str "root.sg.d1") (str "s1") = [(10, .INT 7), (12, .INT (-1))] := by
  decide +kernel

example :
    let w := (Demo.w0.run Demo.env Demo.ops).1
    (w.write Demo.env (str "root.sg.d1") (str "s1") 12 (.INT 5)).2 = .err .outOfOrderData
    ∧ (w.write Demo.env (str "root.sg.d1") (str "s1") 13 (.INT 5)).2 = .ok ()
    ∧ (w.write Demo.env (str "root.sg.d1") (str "s9") 13 (.INT 5)).2 = .err (.illegalState (some "Unknown measurement id"))
    ∧ (w.write Demo.env (str "root.sg.d1") (str "s1") 13 (.LONG 5)).2 = .panic := by decide +kernel

/-- The points of the successful calls since the last call that made the output grow. -/
def sinceFlush : List Rec → List ((Op × Res Unit) × Bool) → List Rec
  | acc, [] => acc
  | acc, ((op, r), grew) :: l =>
    sinceFlush (if grew then [] else acc ++ (if r = .ok () then op.recs else [])) l

theorem run_sinceFlush (schema : Schema) (l : List (Op × Bool)) (a : AState) (hc : a.counted = a.pending.length)
    (hok : ∀ d t vs r, (Op.writeMany d t vs, r) ∈ (l.map Prod.fst).zip (a.run schema l).2 → r = .ok ()) :
    (a.run schema l).1.pending
      = sinceFlush a.pending (((l.map Prod.fst).zip (a.run schema l).2).zip (l.map Prod.snd)) := by
  induction l generalizing a with
  | nil => simp [AState.run, sinceFlush]
  | cons e l ih =>
    obtain ⟨op, fl⟩ := e
    simp only [AState.run, List.map_cons, List.zip_cons_cons, sinceFlush] at hok ⊢
    obtain ⟨_, h2⟩ := exec_cases schema a op
    have hstep : (a.step schema op fl).2 = (a.exec schema op).2 := rfl
    have hmid : (a.exec schema op).1.counted = (a.exec schema op).1.pending.length
        ∧ (a.exec schema op).1.pending = a.pending ++ (if (a.step schema op fl).2 = .ok () then op.recs else []) := by
      rw [hstep]
      rcases h2 with ⟨h3, h4, h5⟩ | ⟨h3, h4, h5⟩
      · rw [if_pos h3, h4, h5, hc]; simp
      · rw [if_neg h3, h4, hc]
        cases op with
        | write d m t v => rw [h5]; simp
        | writeMany d t vs => exact absurd (hok d t vs _ (List.mem_cons_self ..)) h3
    have hst : (a.step schema op fl).1.pending
          = (if fl then [] else a.pending ++ (if (a.step schema op fl).2 = .ok () then op.recs else []))
        ∧ (a.step schema op fl).1.counted = (a.step schema op fl).1.pending.length := by
      cases fl with
      | false => exact ⟨hmid.2, hmid.1⟩
      | true =>
        obtain ⟨_, f2, f3⟩ := flush_all (a.exec schema op).1
          (fun h0 => List.length_eq_zero_iff.1 (by rw [← hmid.1]; exact h0))
        simp only [AState.step, if_true]
        rw [f2, f3]
        simp
    rw [ih _ hst.2 (fun d t vs r hr => hok d t vs r (List.mem_cons_of_mem _ hr)), hst.1]

/-- **C03**, what "waiting" means: without failing `write_many` calls it is the points of the successful calls
since the last call that made the output grow. -/
theorem C03_waiting {env : Env} {unsnap : Bytes → Option Bytes} (hsn : SnappyOk env unsnap) {schema : Schema}
    (hwf : schema.WF) {ops : List Op} {w0 w : Writer} (h : Reached env schema ops w0 w)
    (hmany : ∀ d t vs r, (Op.writeMany d t vs, r) ∈ ops.zip (w0.run env ops).2 → r = .ok ()) (d m : Bytes) :
    waiting env schema ops w0 d m
      = series (sinceFlush [] ((ops.zip (w0.run env ops).2).zip ((w0.grown env ops).map (fun n => decide (0 < n))))) d m := by
  obtain ⟨new, h1, _⟩ := sim_run hsn hwf ops (sim_new unsnap hwf h.new) 0 (by simp [AState.init]) h.bursts h.fine
  have hlen := (run_length env ops w0).2
  have hmap : (ops.zip ((w0.grown env ops).map (fun n => decide (0 < n)))).map Prod.fst = ops := by
    rw [List.map_fst_zip]; simp [hlen]
  have hmap2 : (ops.zip ((w0.grown env ops).map (fun n => decide (0 < n)))).map Prod.snd
      = (w0.grown env ops).map (fun n => decide (0 < n)) := by
    rw [List.map_snd_zip]; simp [hlen]
  have := run_sinceFlush schema (ops.zip ((w0.grown env ops).map (fun n => decide (0 < n)))) AState.init rfl
    (by rw [h1, hmap]; exact hmany)
  rw [h1, hmap, hmap2] at this
  rw [waiting, abstractly, this]
  rfl

-- in the demo nothing was flushed, and the only `write_many` returned `Ok`
example : waiting Demo.env Demo.schema Demo.ops Demo.w0 (str "root.sg.d2") (str "s1")
    = series (sinceFlush [] ((Demo.ops.zip (Demo.w0.run Demo.env Demo.ops).2).zip
        ((Demo.w0.grown Demo.env Demo.ops).map (fun n => decide (0 < n))))) (str "root.sg.d2") (str "s1") :=
  C03_waiting Demo.envOk.snappy Demo.indexable.wf Demo.reached
    (have : ∀ p ∈ Demo.ops.zip (Demo.w0.run Demo.env Demo.ops).2,
        (match p.1 with | .writeMany .. => decide (p.2 = .ok ()) | _ => true) = true := by decide +kernel
     fun _ _ _ _ h => of_decide_eq_true (this _ h)) _ _

/-! ## C04 -/

theorem run_append (env : Env) (ops ops' : List Op) (w : Writer) :
    (w.run env (ops ++ ops')).1 = ((w.run env ops).1.run env ops').1
    ∧ (w.run env (ops ++ ops')).2 = (w.run env ops).2 ++ ((w.run env ops).1.run env ops').2
    ∧ w.grown env (ops ++ ops') = w.grown env ops ++ (w.run env ops).1.grown env ops' := by
  induction ops generalizing w with
  | nil => simp [Writer.run, Writer.grown]
  | cons op ops ih => simp [Writer.run, Writer.grown, ih]

/-- **C04.** A `write` that returns an error leaves no trace: the output is the same as before, every later
call gives the same result and the same growth of the output as if the rejected call had not been made, and so does
`close`. For every output, limited or not, and every history before and after. -/
theorem C04_rejected_no_trace {env : Env} {schema : Schema} {out : Sink} {w0 : Writer}
    (hnew : Writer.new env schema out = .ok w0) (before later : List Op) {d m : Bytes} {t : W64} {v : IoTDBValue}
    {e : TsFileError} (hrej : ((w0.run env before).1.write env d m t v).2 = .err e) :
    let with_ := w0.run env (before ++ [.write d m t v] ++ later)
    let without := w0.run env (before ++ later)
    with_.2 = (without.2.take before.length) ++ [.err e] ++ without.2.drop before.length
    ∧ with_.1.io.out = without.1.io.out
    ∧ (with_.1.close env).map (fun w => w.io.out) = (without.1.close env).map (fun w => w.io.out) := by
  have hs : BMap.Sorted w0.groupWriters := by
    rw [Writer.new] at hnew
    split at hnew
    · simp at hnew
    · simp only [Except.ok.injEq] at hnew
      subst hnew
      exact BMap.sorted_ofList _
  have hs1 := run_sorted (env := env) before hs
  have hw := WEq.rejected hs1 hrej
  obtain ⟨h1, h2, _⟩ := hw.run (env := env) later
  have h3 := h2.close (env := env)
  have hlen : (w0.run env before).2.length = before.length := (run_length env before w0).1
  simp only [List.append_assoc]
  rw [(run_append env before _ w0).1, (run_append env before _ w0).2.1, (run_append env before later w0).1,
    (run_append env before later w0).2.1]
  simp only [List.cons_append, List.nil_append, Writer.run, Writer.step, hrej]
  refine ⟨?_, h2.io ▸ rfl, ?_⟩
  · rw [← hlen, List.take_left, List.drop_left, h1]
  · generalize Writer.close env _ = r1 at h3 ⊢
    generalize Writer.close env _ = r2 at h3 ⊢
    cases h3 with
    | none => rfl
    | some h => simp [h.io]

-- a point that is too old, refused on a full disk (with room for 60 bytes), leaves no trace
example :
    let disk : Sink := ⟨[], some 60⟩
    ∃ w0, Writer.new Demo.env Demo.schema disk = .ok w0
      ∧ ((w0.run Demo.env (Demo.ops.take 2)).1.write Demo.env (str "root.sg.d1") (str "s1") 10 (.INT 8)).2 = .err .outOfOrderData
      ∧ ((w0.run Demo.env (Demo.ops.take 2 ++ [.write (str "root.sg.d1") (str "s1") 10 (.INT 8)] ++ Demo.ops.drop 3)).1.close
          Demo.env).map (fun w => w.io.out)
        = ((w0.run Demo.env (Demo.ops.take 2 ++ Demo.ops.drop 3)).1.close Demo.env).map (fun w => w.io.out) := by
  have hr : (match Writer.new Demo.env Demo.schema ⟨[], some 60⟩ with
      | .ok w0 => decide (((w0.run Demo.env (Demo.ops.take 2)).1.write Demo.env (str "root.sg.d1") (str "s1") 10 (.INT 8)).2
          = .err .outOfOrderData)
      | .error _ => false) = true := by decide +kernel
  dsimp only
  cases h : Writer.new Demo.env Demo.schema ⟨[], some 60⟩ with
  | error e => rw [h] at hr; simp at hr
  | ok w0 =>
    rw [h] at hr
    have hr := of_decide_eq_true hr
    exact ⟨w0, rfl, hr, (C04_rejected_no_trace h _ _ hr).2.2⟩

/-- **C04**, for whole sessions: without the rejected call the file is the same. -/
theorem C04_session {env : Env} {schema : Schema} {before later : List Op} {d m : Bytes} {t : W64} {v : IoTDBValue}
    {e : TsFileError} {s : Session} (hs : session env schema (before ++ [.write d m t v] ++ later) = some s)
    (hrej : s.results[before.length]? = some (.err e)) :
    ∃ s', session env schema (before ++ later) = some s' ∧ s'.file = s.file
      ∧ s.results = s'.results.take before.length ++ [.err e] ++ s'.results.drop before.length := by
  rw [session] at hs
  cases hnew : Writer.new env schema ⟨[], none⟩ with
  | error e => rw [hnew] at hs; simp at hs
  | ok w0 =>
    rw [hnew] at hs
    simp only at hs
    split at hs
    · simp at hs
    · next hnp =>
      split at hs
      · simp at hs
      · next w' hcl =>
        simp only [Option.some.injEq] at hs
        subst hs
        simp only at hrej
        have hlen : (w0.run env before).2.length = before.length := (run_length env before w0).1
        have hr : ((w0.run env before).1.write env d m t v).2 = .err e := by
          rw [List.append_assoc, (run_append env before _ w0).2.1, List.getElem?_append_right (by omega)] at hrej
          simpa [hlen, Writer.run, Writer.step] using hrej
        obtain ⟨h1, _, h3⟩ := C04_rejected_no_trace hnew before later hr
        rw [hcl] at h3
        rw [session, hnew]
        simp only
        rw [if_neg]
        · cases hc : (w0.run env (before ++ later)).1.close env with
          | none => rw [hc] at h3; simp at h3
          | some w'' =>
            rw [hc] at h3
            simp only [Option.map_some, Option.some.injEq] at h3
            refine ⟨_, rfl, ?_, h1⟩
            simp [h3]
        · intro hc
          apply hnp
          rw [h1]
          rw [← List.take_append_drop before.length (w0.run env (before ++ later)).2] at hc
          rcases List.mem_append.1 hc with hc | hc <;> simp [hc]

-- the third call of the demo is rejected
example : ∃ s', session Demo.env Demo.schema (Demo.ops.take 2 ++ Demo.ops.drop 3) = some s'
    ∧ s'.file = Demo.result.file :=
  have h : session Demo.env Demo.schema
      (Demo.ops.take 2 ++ [.write (str "root.sg.d1") (str "s1") 10 (.INT 8)] ++ Demo.ops.drop 3) = some Demo.result :=
    Demo.session_eq
  have hr : Demo.result.results[2]? = some (.err .outOfOrderData) := by decide +kernel
  let ⟨s', h1, h2, _⟩ := C04_session h hr
  ⟨s', h1, h2⟩

/-! ## C05 -/

/-- **C05**, what holds (1): a `write_many` that returns `Ok` is the same as the writes one after the other. -/
theorem C05_like_writes_partial (schema : Schema) (d : Bytes) (t : W64) (vs : List (Bytes × IoTDBValue)) (a : AState)
    (hok : (a.exec schema (.writeMany d t vs)).2 = .ok ()) :
    a.run schema (vs.map (fun p => (Op.write d p.1 t p.2, false)))
      = ((a.exec schema (.writeMany d t vs)).1, List.replicate vs.length (.ok ())) :=
  exec_writeMany_eq schema d t vs a hok

example : (AState.init.run Demo.schema
      ([(str "s1", .LONG 4), (str "s2", .FLOAT 0)].map (fun p => (Op.write (str "root.sg.d2") p.1 6 p.2, false)))).2
    = [.ok (), .ok ()] :=
  congrArg Prod.snd (C05_like_writes_partial Demo.schema (str "root.sg.d2") 6 [(str "s1", .LONG 4), (str "s2", .FLOAT 0)] AState.init
    (by decide +kernel))

/-- The points of the successful calls are among the stored points. -/
theorem stored_accepted {env : Env} {unsnap : Bytes → Option Bytes} (he : EnvOk env unsnap) {schema : Schema}
    (hsch : schema.Named) {ops : List Op} {s : Session} (hs : session env schema ops = some s)
    (hw : s.Within ops) (d m : Bytes) :
    (series (accepted ops s.results) d m).Sublist (series (storedBy schema ops s.grown) d m) := by
  obtain ⟨c⟩ := session_outlined he hsch hs hw
  have hlen : s.grown.length = ops.length := session_grown_length hs
  have hmap : (ops.zip (s.grown.map (fun n => decide (0 < n)))).map Prod.fst = ops := by
    rw [List.map_fst_zip]; simp [hlen]
  have := run_accepted_sublist schema (ops.zip (s.grown.map (fun n => decide (0 < n)))) AState.init []
    (by simp) (by simp)
  rw [c.results, hmap, List.nil_append] at this
  rw [storedBy]
  exact (this.filter _).map _

/-- **C05**, what holds (2): every point of a call that returned `Ok` is read back from the file, in order; this
includes histories with failing calls. Missing: nothing of a `write_many` that failed should be in the file. That is
false, see `C05_not_atomic`. -/
theorem C05_ok_stored_partial {env : Env} {unsnap : Bytes → Option Bytes} (he : EnvOk env unsnap) {schema : Schema}
    (hsch : schema.Indexable) {ops : List Op} {s : Session} (hs : session env schema ops = some s)
    (hw : s.Within ops) (d m : Bytes) :
    ∃ pts, readSeries unsnap s.file d m = some pts ∧ (series (accepted ops s.results) d m).Sublist pts := by
  obtain ⟨c⟩ := session_closed he hsch hs hw
  exact ⟨_, by rw [c.layout.readSeries hsch he.order c.ok c.fits, c.pts], stored_accepted he hsch.toNamed hs hw d m⟩

-- of the seven calls of the demo three fail
example : ∃ pts, readSeries some Demo.result.file (str "root.sg.d1") (str "s1") = some pts
    ∧ (series (accepted Demo.ops Demo.result.results) (str "root.sg.d1") (str "s1")).Sublist pts :=
  C05_ok_stored_partial Demo.envOk Demo.indexable Demo.session_eq Demo.within _ _

/-- Two measurements. -/
def manySchema : Schema := [(str "root.d", [(str "a", ⟨.INT32, .PLAIN, .UNCOMPRESSED⟩), (str "b", ⟨.INT32, .PLAIN, .UNCOMPRESSED⟩)])]

/-- **C05** is violated: a `write_many` fails, because its second point is out of order, and its first point is in
the file. -/
theorem C05_not_atomic :
    ((session Demo.env manySchema
        [.write (str "root.d") (str "b") 5 (.INT 1), .writeMany (str "root.d") 3 [(str "a", .INT 2), (str "b", .INT 3)]]).map
      (fun s => (s.results, readSeries some s.file (str "root.d") (str "a"))))
    = some ([.ok (), .err .outOfOrderData], some [(3, .INT 2)]) := by decide +kernel

/-- **C05** is violated in the other direction too: the first point of the failing call is taken (a second attempt is
refused as out of order), but it is not in the file. -/
theorem C05_lost :
    ((session Demo.env manySchema
        [.writeMany (str "root.d") 3 [(str "a", .INT 2), (str "x", .INT 3)], .write (str "root.d") (str "a") 3 (.INT 2)]).map
      (fun s => (s.results, readSeries some s.file (str "root.d") (str "a"))))
    = some ([.err (.illegalState (some "Unknown measurement id")), .err .outOfOrderData], some []) := by decide +kernel

/-! ## C06 -/

/-- The stored points of a series are a sequence of bursts. -/
theorem stored_bursts {env : Env} {schema : Schema} {ops : List Op} {s : Session} (hs : session env schema ops = some s) (d m : Bytes) :
    ∃ bs : List (List Point), series (storedBy schema ops s.grown) d m = bs.flatten
      ∧ (∀ b ∈ bs, Increasing b) ∧ bs.length ≤ (s.grown.filter (fun n => decide (0 < n))).length + 1 := by
  have hlen : s.grown.length = ops.length := session_grown_length hs
  obtain ⟨bs, h1, h2, h3⟩ := run_bursts schema
    (ops.zip (s.grown.map (fun n => decide (0 < n)))) AState.init AState.inv_init
  have hinv := AState.Inv.run (schema := schema) (ops.zip (s.grown.map (fun n => decide (0 < n)))) AState.inv_init
  have hcount : ((ops.zip (s.grown.map (fun n => decide (0 < n)))).filter Prod.snd).length
      = (s.grown.filter (fun n => decide (0 < n))).length := by
    have h4 : ((ops.zip (s.grown.map (fun n => decide (0 < n)))).map Prod.snd).filter (fun b => b)
        = (s.grown.map (fun n => decide (0 < n))).filter (fun b => b) := by
      rw [List.map_snd_zip]; simp [hlen]
    have h5 := congrArg List.length h4
    rw [List.filter_map, List.filter_map, List.length_map, List.length_map] at h5
    exact h5
  rw [hcount] at h3
  have key : ∀ l : List (List Rec), series l.flatten d m = (l.map (fun b => series b d m)).flatten := by
    intro l
    induction l with
    | nil => rfl
    | cons b l ih => rw [List.flatten_cons, series_append, ih]; rfl
  rw [storedBy]
  generalize (AState.init.run schema (ops.zip (s.grown.map (fun n => decide (0 < n))))).1 = a at h1 hinv ⊢
  by_cases h0 : a.counted = 0
  · rw [AState.flush, if_pos h0, h1]
    refine ⟨bs.map (fun b => series b d m), ?_, ?_, by simp; omega⟩
    · simp only [AState.init, List.nil_append]; rw [key]
    · intro b hb
      obtain ⟨b', hb', rfl⟩ := List.mem_map.1 hb
      exact h2 b' hb' d m
  · rw [AState.flush, if_neg h0, h1]
    refine ⟨(bs ++ [a.pending]).map (fun b => series b d m), ?_, ?_, by simp; omega⟩
    · rw [← key]; simp [AState.init]
    · intro b hb
      obtain ⟨b', hb', rfl⟩ := List.mem_map.1 hb
      rcases List.mem_append.1 hb' with hb' | hb'
      · exact h2 b' hb' d m
      · rw [List.mem_singleton.1 hb']; exact hinv.inc d m

/-- **C06**, what holds: the points of a series in the file are a sequence of bursts, each with increasing non-negative
timestamps; there are at most one more bursts than calls that made the output grow. Missing: increasing timestamps
across the bursts. That is false, see `C06_restart` . -/
theorem C06_bursts_partial {env : Env} {unsnap : Bytes → Option Bytes} (he : EnvOk env unsnap) {schema : Schema}
    (hsch : schema.Indexable) {ops : List Op} {s : Session} (hs : session env schema ops = some s)
    (hw : s.Within ops) (d m : Bytes) :
    ∃ bs : List (List Point), readSeries unsnap s.file d m = some bs.flatten
      ∧ (∀ b ∈ bs, Increasing b) ∧ bs.length ≤ (s.grown.filter (fun n => decide (0 < n))).length + 1 := by
  obtain ⟨c⟩ := session_closed he hsch hs hw
  obtain ⟨bs, h1, h2⟩ := stored_bursts hs d m
  exact ⟨bs, by rw [c.layout.readSeries hsch he.order c.ok c.fits, c.pts, h1], h2⟩

example : ∃ bs : List (List Point), readSeries some Demo.result.file (str "root.sg.d1") (str "s1") = some bs.flatten
    ∧ (∀ b ∈ bs, Increasing b) ∧ bs.length ≤ (Demo.result.grown.filter (fun n => decide (0 < n))).length + 1 :=
  C06_bursts_partial Demo.envOk Demo.indexable Demo.session_eq Demo.within _ _

/-- **C06** for histories in which no call made the output grow (no automatic flush). -/
theorem C06_increasing_partial {env : Env} {unsnap : Bytes → Option Bytes} (he : EnvOk env unsnap) {schema : Schema}
    (hsch : schema.Indexable) {ops : List Op} {s : Session} (hs : session env schema ops = some s)
    (hw : s.Within ops) (hno : ∀ n ∈ s.grown, n = 0) (d m : Bytes) :
    ∃ pts, readSeries unsnap s.file d m = some pts ∧ Increasing pts := by
  obtain ⟨bs, h1, h2, h3⟩ := C06_bursts_partial he hsch hs hw d m
  refine ⟨_, h1, ?_⟩
  have : (s.grown.filter (fun n => decide (0 < n))) = [] := by
    rw [List.filter_eq_nil_iff]
    intro n hn
    simp [hno n hn]
  rw [this] at h3
  match bs, h3 with
  | [], _ => exact ⟨by simp, .nil⟩
  | [b], _ => simpa using h2 b (by simp)

example : ∃ pts, readSeries some Demo.result.file (str "root.sg.d1") (str "s1") = some pts ∧ Increasing pts :=
  C06_increasing_partial Demo.envOk Demo.indexable Demo.session_eq Demo.within (by decide +kernel) _ _

end TsFile
