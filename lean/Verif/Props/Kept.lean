import Verif.Props.Many
import Verif.Props.Limits
import Verif.Props.Producers
import Verif.Props.Device
/-! # Points of calls that fail, and points after a flush

A `write_many` that fails keeps the points before the one that was refused, and after a flush the times of a series may begin again.
This is so for every history. -/

namespace TsFile
open Spec

namespace Kept

/-- The point was taken: it is in the file, or waits for the next flush. -/
def Taken (r : Rec) (a : AState) : Prop := r ∈ a.stored ∨ r ∈ a.pending

/-- The point is in the file, or will be after the next flush. -/
def Bound (r : Rec) (a : AState) : Prop := r ∈ a.stored ∨ (r ∈ a.pending ∧ a.counted ≠ 0)

theorem Taken.flush {r : Rec} {a : AState} (h : Taken r a) : Taken r a.flush := by
  rw [AState.flush]
  split
  · exact h
  · rcases h with h | h
    · exact .inl (List.mem_append_left _ h)
    · exact .inl (List.mem_append_right _ h)

theorem Bound.flush {r : Rec} {a : AState} (h : Bound r a) : r ∈ a.flush.stored := by
  rw [AState.flush]
  split
  · rcases h with h | h
    · exact h
    · rename_i h0
      exact absurd h0 h.2
  · rcases h with h | h
    · exact List.mem_append_left _ h
    · exact List.mem_append_right _ h.1

/-- A point of a known device changes neither what is stored nor the number of counted points, and only adds to what waits. -/
theorem put_keeps (a : AState) (ms : List (Bytes × MeasurementSchema)) (d m : Bytes) (t : W64) (v : IoTDBValue) :
    (a.put ms d m t v).1.stored = a.stored ∧ (a.put ms d m t v).1.counted = a.counted
      ∧ ∀ r ∈ a.pending, r ∈ (a.put ms d m t v).1.pending := by
  rw [AState.put]
  split
  · exact ⟨rfl, rfl, fun _ h => h⟩
  · split
    · exact ⟨rfl, rfl, fun _ h => h⟩
    · split
      · exact ⟨rfl, rfl, fun _ h => List.mem_append_left _ h⟩
      · exact ⟨rfl, rfl, fun _ h => h⟩

theorem putMany_keeps (ms : List (Bytes × MeasurementSchema)) (d : Bytes) (t : W64) (l : List (Bytes × IoTDBValue)) (a : AState) :
    (AState.putMany ms d t l a).1.stored = a.stored ∧ (AState.putMany ms d t l a).1.counted = a.counted
      ∧ ∀ r ∈ a.pending, r ∈ (AState.putMany ms d t l a).1.pending := by
  induction l generalizing a with
  | nil => exact ⟨rfl, rfl, fun _ h => h⟩
  | cons p l ih =>
    obtain ⟨m, v⟩ := p
    obtain ⟨h1, h2, h3⟩ := put_keeps a ms d m t v
    rw [AState.putMany]
    split
    · rename_i a' h
      rw [h] at h1 h2 h3
      obtain ⟨h4, h5, h6⟩ := ih a'
      exact ⟨h4.trans h1, h5.trans h2, fun r hr => h6 r (h3 r hr)⟩
    · exact ⟨h1, h2, h3⟩

theorem exec_keeps (schema : Schema) (a : AState) (op : Op) :
    (a.exec schema op).1.stored = a.stored ∧ a.counted ≤ (a.exec schema op).1.counted
      ∧ (∀ r ∈ a.pending, r ∈ (a.exec schema op).1.pending)
      ∧ ((a.exec schema op).2 = .ok () → op.recs ≠ [] → (a.exec schema op).1.counted ≠ 0) := by
  cases op with
  | write d m t v =>
    rw [AState.exec]
    cases look d schema with
    | none => exact ⟨rfl, Nat.le_refl _, fun _ h => h, fun h => by cases h⟩
    | some ms =>
      obtain ⟨h1, h2, h3⟩ := put_keeps a ms d m t v
      dsimp only
      split
      · rename_i a' h
        rw [h] at h1 h2 h3
        exact ⟨h1, by dsimp only at h2 ⊢; omega, h3, fun _ _ => by dsimp only; omega⟩
      · rename_i hx
        refine ⟨h1, by omega, h3, fun h => ?_⟩
        exact (hx (a.put ms d m t v).1 (Prod.ext rfl h)).elim
  | writeMany d t vs =>
    rw [AState.exec]
    cases look d schema with
    | none => exact ⟨rfl, Nat.le_refl _, fun _ h => h, fun h => by cases h⟩
    | some ms =>
      obtain ⟨h1, h2, h3⟩ := putMany_keeps ms d t vs a
      dsimp only
      split
      · rename_i a' h
        rw [h] at h1 h2 h3
        refine ⟨h1, by dsimp only at h2 ⊢; omega, h3, fun _ hne => ?_⟩
        have : vs ≠ [] := fun e => hne (by rw [e]; rfl)
        have := List.length_pos_iff.2 this
        dsimp only
        omega
      · rename_i hx
        refine ⟨h1, by omega, h3, fun h => ?_⟩
        exact (hx (AState.putMany ms d t vs a).1 (Prod.ext rfl h)).elim

theorem Taken.step {schema : Schema} {r : Rec} {a : AState} (h : Taken r a) (op : Op) (b : Bool) :
    Taken r (a.step schema op b).1 := by
  obtain ⟨h1, _, h3, _⟩ := exec_keeps schema a op
  have : Taken r (a.exec schema op).1 := by
    rcases h with h | h
    · exact .inl (by rw [h1]; exact h)
    · exact .inr (h3 r h)
  rw [AState.step]
  cases b
  · exact this
  · exact this.flush

theorem Bound.step {schema : Schema} {r : Rec} {a : AState} (h : Bound r a) (op : Op) (b : Bool) :
    Bound r (a.step schema op b).1 := by
  obtain ⟨h1, h2, h3, _⟩ := exec_keeps schema a op
  have : Bound r (a.exec schema op).1 := by
    rcases h with h | h
    · exact .inl (by rw [h1]; exact h)
    · exact .inr ⟨h3 r h.1, by omega⟩
  rw [AState.step]
  cases b
  · exact this
  · exact .inl this.flush

theorem Taken.bound {schema : Schema} {r : Rec} {a : AState} (h : Taken r a) {op : Op} {b : Bool} (hne : op.recs ≠ [])
    (hok : (a.step schema op b).2 = .ok ()) : Bound r (a.step schema op b).1 := by
  obtain ⟨h1, _, h3, h4⟩ := exec_keeps schema a op
  have : Bound r (a.exec schema op).1 := by
    rcases h with h | h
    · exact .inl (by rw [h1]; exact h)
    · exact .inr ⟨h3 r h, h4 hok hne⟩
  rw [AState.step]
  cases b
  · exact this
  · exact .inl this.flush

theorem Taken.run {schema : Schema} {r : Rec} (l : List (Op × Bool)) {a : AState} (h : Taken r a) : Taken r (a.run schema l).1 := by
  induction l generalizing a with
  | nil => exact h
  | cons x l ih => exact ih (h.step x.1 x.2)

theorem Bound.run {schema : Schema} {r : Rec} (l : List (Op × Bool)) {a : AState} (h : Bound r a) : Bound r (a.run schema l).1 := by
  induction l generalizing a with
  | nil => exact h
  | cons x l ih => exact ih (h.step x.1 x.2)

/-- Times below `t` in series `d`, `m`. -/
def Below (d m : Bytes) (t : W64) (a : AState) : Prop := (a.last d m).toInt < t.toInt

theorem Below.put {d m d' m' : Bytes} {t t' : W64} {a : AState} (h : Below d m t a) (ms : List (Bytes × MeasurementSchema))
    (v : IoTDBValue) (ht : d' = d → m' = m → t'.toInt < t.toInt) : Below d m t (a.put ms d' m' t' v).1 := by
  rw [AState.put]
  split
  · exact h
  · split
    · exact h
    · split
      · rw [Below]
        dsimp only
        split
        · rename_i e
          exact ht e.1.symm e.2.symm
        · exact h
      · exact h

theorem Below.putMany {d m d' : Bytes} {t t' : W64} {a : AState} (h : Below d m t a) (ms : List (Bytes × MeasurementSchema))
    (l : List (Bytes × IoTDBValue)) (ht : ∀ p ∈ l, d' = d → p.1 = m → t'.toInt < t.toInt) :
    Below d m t (AState.putMany ms d' t' l a).1 := by
  induction l generalizing a with
  | nil => exact h
  | cons p l ih =>
    obtain ⟨m', v⟩ := p
    have h1 := h.put ms (d' := d') (m' := m') (t' := t') v (ht (m', v) (List.mem_cons_self ..))
    rw [AState.putMany]
    split
    · rename_i a' e
      rw [e] at h1
      exact ih h1 (fun p hp => ht p (List.mem_cons_of_mem _ hp))
    · exact h1

theorem Below.flush {d m : Bytes} {t : W64} {a : AState} (h : Below d m t a) (h0 : 0 ≤ t.toInt) : Below d m t a.flush := by
  rw [AState.flush]
  split
  · exact h
  · rw [Below]
    have : (-1 : W64).toInt = -1 := by decide
    dsimp only
    omega

theorem Below.step {d m : Bytes} {t : W64} {a : AState} (h : Below d m t a) (h0 : 0 ≤ t.toInt) (schema : Schema) (op : Op) (b : Bool)
    (ht : ∀ r ∈ op.recs, r.device = d → r.measurement = m → r.timestamp.toInt < t.toInt) :
    Below d m t (a.step schema op b).1 := by
  have : Below d m t (a.exec schema op).1 := by
    cases op with
    | write d' m' t' v =>
      rw [AState.exec]
      cases look d' schema with
      | none => exact h
      | some ms =>
        have h1 := h.put ms (d' := d') (m' := m') (t' := t') v (ht ⟨d', m', t', v⟩ (by simp [Op.recs]))
        dsimp only
        split
        · rename_i a' e
          rw [e] at h1
          exact h1
        · exact h1
    | writeMany d' t' vs =>
      rw [AState.exec]
      cases look d' schema with
      | none => exact h
      | some ms =>
        have h1 := h.putMany ms (d' := d') (t' := t') vs
          (fun p hp => ht ⟨d', p.1, t', p.2⟩ (List.mem_map.2 ⟨p, hp, rfl⟩))
        dsimp only
        split
        · rename_i a' e
          rw [e] at h1
          exact h1
        · exact h1
  rw [AState.step]
  cases b
  · exact this
  · exact this.flush h0

theorem Below.run {d m : Bytes} {t : W64} (h0 : 0 ≤ t.toInt) (schema : Schema) (l : List (Op × Bool)) {a : AState} (h : Below d m t a)
    (ht : ∀ r ∈ (l.map Prod.fst).flatMap Op.recs, r.device = d → r.measurement = m → r.timestamp.toInt < t.toInt) :
    Below d m t (a.run schema l).1 := by
  induction l generalizing a with
  | nil => exact h
  | cons x l ih =>
    rw [List.map_cons, List.flatMap_cons] at ht
    exact ih (h.step h0 schema x.1 x.2 (fun r hr => ht r (List.mem_append_left _ hr)))
      (fun r hr => ht r (List.mem_append_right _ hr))

/-- The first point of a `write_many` is taken if it can be, whatever becomes of the others. -/
theorem taken_first {schema : Schema} {d m : Bytes} {t : W64} {a : AState} (h : Below d m t a) {ms : List (Bytes × MeasurementSchema)}
    {sc : MeasurementSchema} (hd : look d schema = some ms) (hm : look m ms = some sc) {v : IoTDBValue}
    (hfit : fits sc.dataType v = true) (henc : encodable sc.dataType sc.encoding = true) (rest : List (Bytes × IoTDBValue)) (b : Bool) :
    Taken ⟨d, m, t, v⟩ (a.step schema (.writeMany d t ((m, v) :: rest)) b).1 := by
  have hput : ∃ a', a.put ms d m t v = (a', .ok ()) ∧ ⟨d, m, t, v⟩ ∈ a'.pending := by
    rw [AState.put, if_neg (by rw [Below] at h; omega), hm]
    dsimp only
    rw [if_pos (by rw [hfit, henc]; rfl)]
    exact ⟨_, rfl, by simp⟩
  obtain ⟨a', h1, h2⟩ := hput
  have h3 := (putMany_keeps ms d t rest a').2.2 _ h2
  have : Taken ⟨d, m, t, v⟩ (a.exec schema (.writeMany d t ((m, v) :: rest))).1 := by
    rw [AState.exec, hd]
    dsimp only
    rw [AState.putMany, h1]
    dsimp only
    split
    · rename_i a'' e
      rw [e] at h3
      exact .inr h3
    · exact .inr h3
  rw [AState.step]
  cases b
  · exact this
  · exact this.flush

end Kept

/-- **C05** is violated by every history of this kind: a `write_many` that fails has a first point that is later than all points
handed over for its series before, of the type of the series, and some call after it succeeds. A scan of the closed file finds
this point of the call that failed. -/
theorem C05_kept_wrong {env : Env} {unsnap : Bytes → Option Bytes} (he : EnvOk env unsnap) {schema : Schema} (hsch : schema.Named)
    {before between after : List Op} {d m : Bytes} {t : W64} {v : IoTDBValue} {rest : List (Bytes × IoTDBValue)} {op : Op} {s : Session}
    (hs : session env schema (before ++ .writeMany d t ((m, v) :: rest) :: (between ++ op :: after)) = some s)
    (hw : s.Within (before ++ .writeMany d t ((m, v) :: rest) :: (between ++ op :: after)))
    {ms : List (Bytes × MeasurementSchema)} {sc : MeasurementSchema} (hd : look d schema = some ms) (hm : look m ms = some sc)
    (hfit : fits sc.dataType v = true) (henc : encodable sc.dataType sc.encoding = true) (h0 : 0 ≤ t.toInt)
    (hlate : ∀ r ∈ before.flatMap Op.recs, r.device = d → r.measurement = m → r.timestamp.toInt < t.toInt)
    {e : TsFileError} (_hfails : s.results[before.length]? = some (.err e))
    (hok : s.results[before.length + 1 + between.length]? = some (.ok ())) (hne : op.recs ≠ []) :
    ∃ items stop, scan unsnap s.file = some (items, stop) ∧ (t, v) ∈ scanPoints d m none items := by
  obtain ⟨c⟩ := session_outlined he hsch hs hw
  obtain ⟨items, footer, _, h1, _, h2⟩ := C02_scan he hsch hs hw
  refine ⟨items, _, h1, ?_⟩
  rw [h2]
  have hres := c.results
  have hlen : s.grown.length = _ := session_grown_length hs
  have hmap : ((before ++ .writeMany d t ((m, v) :: rest) :: (between ++ op :: after)).zip
      (s.grown.map (fun n => decide (0 < n)))).map Prod.fst
      = before ++ .writeMany d t ((m, v) :: rest) :: (between ++ op :: after) := by
    rw [List.map_fst_zip]; simp [hlen]
  rw [storedBy]
  generalize (before ++ .writeMany d t ((m, v) :: rest) :: (between ++ op :: after)).zip
      (s.grown.map (fun n => decide (0 < n))) = z at hres hmap
  obtain ⟨z1, z', rfl, e1, e2⟩ := List.map_eq_append_iff.1 hmap
  obtain ⟨x, z'', rfl, e3, e4⟩ := List.map_eq_cons_iff.1 e2
  obtain ⟨z2, z3, rfl, e5, e6⟩ := List.map_eq_append_iff.1 e4
  obtain ⟨y, z4, rfl, e7, e8⟩ := List.map_eq_cons_iff.1 e6
  obtain ⟨x1, xb⟩ := x
  obtain ⟨y1, yb⟩ := y
  simp only at e3 e7
  subst e3 e7
  have hb : Kept.Below d m t (AState.init.run schema z1).1 := by
    refine Kept.Below.run h0 schema z1 ?_ (by rw [e1]; exact hlate)
    have : (-1 : W64).toInt = -1 := by decide
    rw [Kept.Below, AState.init]
    dsimp only
    omega
  have ht := (Kept.taken_first hb hd hm hfit henc rest xb).run (schema := schema) z2
  rw [arun_append_pair, AState.run, arun_append_pair, AState.run] at hres
  rw [(arun_append schema _ _ _).1, AState.run]
  dsimp only
  rw [(arun_append schema _ _ _).1, AState.run]
  dsimp only at hres ⊢
  have l1 : (AState.init.run schema z1).2.length = before.length := by rw [Spec.run_length, ← e1, List.length_map]
  rw [← hres] at hok
  have hok' := hok
  rw [List.getElem?_append_right (by omega), show before.length + 1 + between.length - (AState.init.run schema z1).2.length
    = between.length + 1 by omega, List.getElem?_cons_succ, List.getElem?_append_right (by
      rw [Spec.run_length, ← e5, List.length_map]; exact Nat.le_refl _)] at hok'
  rw [Spec.run_length, ← e5, List.length_map, Nat.sub_self, List.getElem?_cons_zero] at hok'
  have hbound := (ht.bound hne (Option.some.inj hok')).run (schema := schema) z4
  exact List.mem_map.2 ⟨_, List.mem_filter.2 ⟨hbound.flush, by simp⟩, rfl⟩

/-- A history as in `C05_kept_wrong`: the second measurement of the call does not exist, and a point of another series follows. -/
def Demo.keptOps : List Op :=
  [.write (str "root.d") (str "a") 2 (.INT 1), .writeMany (str "root.d") 3 [(str "a", .INT 2), (str "x", .INT 3)],
    .write (str "root.d") (str "b") 3 (.INT 4)]

theorem Demo.kept_named : manySchema.Named := ⟨⟨by decide +kernel, by decide +kernel⟩, by decide +kernel, by decide +kernel⟩

example : ∃ s items stop, session Demo.env manySchema Demo.keptOps = some s
    ∧ s.results = [.ok (), .err (.illegalState (some "Unknown measurement id")), .ok ()]
    ∧ scan some s.file = some (items, stop) ∧ (3, .INT 2) ∈ scanPoints (str "root.d") (str "a") none items := by
  have h0 : (session Demo.env manySchema Demo.keptOps).any (fun s => decide
      (s.results = [.ok (), .err (.illegalState (some "Unknown measurement id")), .ok ()]
        ∧ s.grown = [0, 0, 0] ∧ s.closing < 1000 ∧ s.file.length < 1000)) = true := by decide +kernel
  cases h : session Demo.env manySchema Demo.keptOps with
  | none => rw [h] at h0; cases h0
  | some s =>
    rw [h] at h0
    simp only [Option.any_some, decide_eq_true_eq] at h0
    obtain ⟨r, g, c, l⟩ := h0
    have hw : s.Within Demo.keptOps := ⟨by rw [g]; decide +kernel, by rw [g]; decide +kernel, by omega, by omega⟩
    obtain ⟨items, stop, h1, h2⟩ := C05_kept_wrong (before := [.write (str "root.d") (str "a") 2 (.INT 1)]) (between := [])
      (after := []) (d := str "root.d") (m := str "a") (t := 3) (v := .INT 2) (rest := [(str "x", .INT 3)])
      (op := .write (str "root.d") (str "b") 3 (.INT 4)) Demo.envOk Demo.kept_named h hw (by rfl) (by rfl) rfl rfl (by decide)
      (by decide +kernel) (by rw [r]; rfl) (by rw [r]; rfl) (by simp [Op.recs])
    exact ⟨s, items, stop, rfl, r, h1, h2⟩

/-- **C05** is violated in the other direction too, for every series of every schema: a `write_many` has a good point and one of a
measurement that does not exist. It fails. The good point, handed over once more, is refused as out of order, and yet no point at all
is stored when the writer is closed. -/
theorem C05_lost_wrong {env : Env} {unsnap : Bytes → Option Bytes} (hsn : SnappyOk env unsnap) {schema : Schema} (hwf : schema.WF)
    (hsize : schema.size ≤ 1000000) {w : Writer} (hn : Writer.new env schema ⟨[], none⟩ = .ok w) {d m x : Bytes}
    {ms : List (Bytes × MeasurementSchema)} {sc : MeasurementSchema} (hd : look d schema = some ms) (hm : look m ms = some sc)
    (hx : look x ms = none) (henc : encodable sc.dataType sc.encoding = true) {t : W64} (h0 : 0 ≤ t.toInt) {v v' : IoTDBValue}
    (hv : fits sc.dataType v = true) :
    (w.run env [.writeMany d t [(m, v), (x, v')], .write d m t v]).2
      = [.err (.illegalState (some "Unknown measurement id")), .err .outOfOrderData]
    ∧ storedBy schema [.writeMany d t [(m, v), (x, v')], .write d m t v]
        (w.grown env [.writeMany d t [(m, v), (x, v')], .write d m t v]) = [] := by
  have hq := quiet_writer hsn hwf hn (ops := [.writeMany d t [(m, v), (x, v')], .write d m t v]) (by
    intro op hop
    have key : ∀ r : Rec, r = ⟨d, m, t, v⟩ ∨ r = ⟨d, x, t, v'⟩ → ∀ ms' s', look r.device schema = some ms' →
        look r.measurement ms' = some s' → fits s'.dataType r.value = true ∧ encodable s'.dataType s'.encoding = true := by
      rintro r (rfl | rfl) ms' s' h1 h2
      · rw [hd] at h1; cases h1
        rw [hm] at h2; cases h2
        exact ⟨hv, henc⟩
      · rw [hd] at h1; cases h1
        rw [hx] at h2; cases h2
    rcases List.mem_cons.1 hop with rfl | hop
    · exact ⟨by simp [Op.recs], fun r hr => key r (by simpa [Op.recs] using hr)⟩
    · rw [List.mem_singleton.1 hop]
      exact ⟨by simp [Op.recs], fun r hr => key r (.inl (by simpa [Op.recs] using hr))⟩) (by simp [handed, Op.recs]; omega)
  have hneg : (-1 : W64).toInt = -1 := by decide
  have n1 : ¬ t.toInt ≤ -1 := by omega
  have hxm : x ≠ m := by rintro rfl; rw [hx] at hm; cases hm
  obtain ⟨_, h1, h2⟩ := hq
  rw [h1, h2, Producers.storedQuiet]
  constructor
  · simp [Producers.quiet, AState.run, AState.step, AState.exec, hd, AState.putMany, AState.put, AState.init, hneg, n1, hm, hv, henc, hx, hxm]
  · simp [Producers.quiet, AState.run, AState.step, AState.exec, hd, AState.putMany, AState.put, AState.init, hneg, n1, hm, hv, henc, hx, hxm,
      AState.flush]

/-- A series as in `C05_lost_wrong`. -/
example := C05_lost_wrong Demo.envOk.snappy Demo.indexable.wf (by decide) Demo.reached.new (d := str "root.sg.d1") (m := str "s1")
  (x := str "unknown") (by rfl) (by rfl) (by rfl) rfl (t := 1) (by decide) (v := .INT 10) (v' := .INT 20) rfl

/-- **C06** is violated after every call that made the output grow, in every history: the points of this call are in the output,
and the next point of any series is accepted with any time that is not negative, also an earlier one. -/
theorem C06_any_time_wrong {env : Env} {unsnap : Bytes → Option Bytes} (hsn : SnappyOk env unsnap) {schema : Schema}
    (hsch : schema.Named) (hsize : schema.size ≤ 30000000) {ops : List Op} {op : Op} {w0 w : Writer}
    (h : Reached env schema (ops ++ [op]) w0 w)
    (hgrow : (w0.run env ops).1.io.out.bytes.length < w.io.out.bytes.length)
    (hcalls : ∀ n ∈ w0.grown env (ops ++ [op]), n < 2 ^ 32)
    {d m : Bytes} {ms : List (Bytes × MeasurementSchema)} {sc : MeasurementSchema} (hd : look d schema = some ms)
    (hm : look m ms = some sc) {t : W64} {v : IoTDBValue} (hfit : fits sc.dataType v = true)
    (henc : encodable sc.dataType sc.encoding = true) (h0 : 0 ≤ t.toInt) :
    (w.write env d m t v).2 = .ok ()
    ∧ ∃ items, scan unsnap (w.io.out.bytes ++ [2]) = some (items, w.io.out.bytes.length)
      ∧ ∀ p ∈ series op.recs d m, p ∈ scanPoints d m none items := by
  obtain ⟨h1, items, h2, h3⟩ := C41_all_flushed hsn hsch h hgrow hcalls
  refine ⟨?_, items, h2, fun p hp => ?_⟩
  · have hpend : (abstractly env schema (ops ++ [op]) w0).pending = [] := by
      cases hx : (abstractly env schema (ops ++ [op]) w0).pending with
      | nil => rfl
      | cons r l =>
        have := h1 r.device r.measurement
        rw [waiting, hx, series, List.filter_cons_of_pos (by simp)] at this
        cases this
    have ha := C03_write_decision hsn hsch.wf h (by rw [hpend]; simp only [List.length_nil]; omega) d m t v
    rw [h1] at ha
    have hin : InOrder [] t := ⟨h0, by simp⟩
    generalize (w.write env d m t v).2 = r at ha
    cases ha with
    | noDevice e => rw [hd] at e; cases e
    | outOfOrder _ e => exact absurd hin e
    | noMeasurement e _ e' => rw [hd] at e; cases e; rw [hm] at e'; cases e'
    | abort e _ e' e'' => rw [hd] at e; cases e; rw [hm] at e'; cases e'; exact absurd ⟨hfit, henc⟩ e''
    | accept => rfl
  · rw [h3]
    obtain ⟨r, hr, rfl⟩ := List.mem_map.1 hp
    obtain ⟨hr1, hr2⟩ := List.mem_filter.1 hr
    exact List.mem_map.2 ⟨r, List.mem_filter.2 ⟨List.mem_append_right _ hr1, hr2⟩, rfl⟩

/-- There is a history as in `C06_any_time_wrong`; afterwards a point with time 0 is accepted. -/
example : ∃ w0 ops op w, Reached Demo.env (wideSchema (str "root.d") (str "a")) (ops ++ [op]) w0 w
    ∧ (w0.run Demo.env ops).1.io.out.bytes.length < w.io.out.bytes.length
    ∧ (w.write Demo.env (str "root.d") (str "a") 0 (.LONG 0)).2 = .ok () := by
  obtain ⟨w0, ops, op, w, h1, h2, h3⟩ := Demo.flushing
  exact ⟨w0, ops, op, w, h1, h2, (C06_any_time_wrong Demo.envOk.snappy Demo.flushNamed (by decide) h1 h2 h3 (by rfl) (by rfl) rfl rfl
    (by decide)).1⟩

end TsFile
