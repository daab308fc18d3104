import Verif.Props.Write
import Verif.Props.ReadBack
/-! # `write_many` compared with single writes: C05 -/

namespace TsFile
open Spec

/-- The single writes that correspond to a `write_many`. -/
def oneByOne (d : Bytes) (t : W64) (vs : List (Bytes × IoTDBValue)) : List Op := vs.map (fun p => .write d p.1 t p.2)

theorem put_ok {ms : List (Bytes × MeasurementSchema)} {d m : Bytes} {t : W64} {v : IoTDBValue} {a : AState} :
    (a.put ms d m t v).2 = .ok () ↔ (a.last d m).toInt < t.toInt
      ∧ ∃ s, look m ms = some s ∧ (fits s.dataType v && encodable s.dataType s.encoding) = true := by
  rw [AState.put]
  split
  · next h => exact ⟨fun h => by simp at h, fun h' => by omega⟩
  · next h =>
    cases hm : look m ms with
    | none => simp
    | some s =>
      simp only [Option.some.injEq, exists_eq_left']
      split
      · next hf => exact ⟨fun _ => ⟨by omega, hf⟩, fun _ => rfl⟩
      · next hf => exact ⟨fun h => by simp at h, fun h => absurd h.2 hf⟩

theorem put_last {ms : List (Bytes × MeasurementSchema)} {d m : Bytes} {t : W64} {v : IoTDBValue} {a : AState}
    (h : (a.put ms d m t v).2 = .ok ()) (m' : Bytes) :
    (a.put ms d m t v).1.last d m' = if m' = m then t else a.last d m' := by
  obtain ⟨h1, s, h2, h3⟩ := put_ok.1 h
  rw [AState.put, if_neg (by omega), h2]
  simp only
  rw [if_pos h3]
  simp

/-- What a sequence of points needs to be accepted depends on the last timestamps only, and fewer restrictions are better. -/
theorem putMany_mono {ms : List (Bytes × MeasurementSchema)} {d : Bytes} {t : W64} (vs : List (Bytes × IoTDBValue)) {a b : AState}
    (hab : ∀ m, (b.last d m).toInt ≤ (a.last d m).toInt) (h : (AState.putMany ms d t vs a).2 = .ok ()) :
    (AState.putMany ms d t vs b).2 = .ok () := by
  induction vs generalizing a b with
  | nil => rfl
  | cons e vs ih =>
    obtain ⟨m, v⟩ := e
    rw [AState.putMany] at h ⊢
    have ha : (a.put ms d m t v).2 = .ok () := by
      rcases hp : a.put ms d m t v with ⟨a', r⟩
      rw [hp] at h
      cases r with
      | ok u => rfl
      | err e => simp at h
      | panic => simp at h
    have hb : (b.put ms d m t v).2 = .ok () := by
      obtain ⟨h1, h2⟩ := put_ok.1 ha
      exact put_ok.2 ⟨by have := hab m; omega, h2⟩
    have la := put_last ha
    have lb := put_last hb
    rcases hpa : a.put ms d m t v with ⟨a', r⟩
    rcases hpb : b.put ms d m t v with ⟨b', r'⟩
    rw [hpa] at ha la h
    rw [hpb] at hb lb
    simp only at ha hb la lb
    subst ha hb
    refine ih (fun m' => ?_) h
    rw [la, lb]
    split
    · omega
    · exact hab m'

/-- If the points are accepted together, they are accepted one by one, whenever a flush happens in between. -/
theorem run_oneByOne {schema : Schema} {ms : List (Bytes × MeasurementSchema)} {d : Bytes} {t : W64} (hl : look d schema = some ms)
    (vs : List (Bytes × IoTDBValue)) (flags : List Bool) (hf : flags.length = vs.length) {a : AState}
    (hlow : ∀ m, -1 ≤ (a.last d m).toInt) (h : (AState.putMany ms d t vs a).2 = .ok ()) :
    (a.run schema ((oneByOne d t vs).zip flags)).2 = List.replicate vs.length (.ok ()) := by
  induction vs generalizing a flags with
  | nil => simp [oneByOne, AState.run]
  | cons e vs ih =>
    obtain ⟨m, v⟩ := e
    cases flags with
    | nil => simp at hf
    | cons f flags =>
      rw [AState.putMany] at h
      have ha : (a.put ms d m t v).2 = .ok () := by
        rcases hp : a.put ms d m t v with ⟨a', r⟩
        rw [hp] at h
        cases r with
        | ok u => rfl
        | err e => simp at h
        | panic => simp at h
      have la := put_last ha
      have hpos : -1 < t.toInt := by
        have := (put_ok.1 ha).1
        have := hlow m
        omega
      rcases hpa : a.put ms d m t v with ⟨a', r⟩
      rw [hpa] at ha la h
      simp only at ha la
      subst ha
      simp only at h
      have hlow' : ∀ m', -1 ≤ (a'.last d m').toInt := by
        intro m'
        rw [la]
        split
        · omega
        · exact hlow m'
      simp only [oneByOne, List.map_cons, List.zip_cons_cons, AState.run, List.length_cons, List.replicate_succ]
      have hx : a.exec schema (.write d m t v) = ({ a' with counted := a'.counted + 1 }, .ok ()) := by
        rw [AState.exec, hl]
        simp only
        rw [hpa]
      rw [AState.step, hx]
      simp only
      congr 1
      refine ih flags (by simpa using hf) ?_ (putMany_mono vs ?_ h)
      all_goals
        intro m'
        split
        · rw [AState.flush, if_neg (by simp)]
          simp only
          have : (-1 : W64).toInt = -1 := by decide
          have := hlow' m'
          omega
        · first
            | exact hlow' m'
            | exact Int.le_refl _

theorem arun_append_pair (schema : Schema) (l l' : List (Op × Bool)) (a : AState) :
    (a.run schema (l ++ l')).2 = (a.run schema l).2 ++ ((a.run schema l).1.run schema l').2 := by
  induction l generalizing a with
  | nil => rfl
  | cons e l ih => obtain ⟨op, f⟩ := e; simp [AState.run, ih]

theorem accepted_append' (ops ops' : List Op) (rs rs' : List (Res Unit)) (h : rs.length = ops.length) :
    accepted (ops ++ ops') (rs ++ rs') = accepted ops rs ++ accepted ops' rs' := by
  induction ops generalizing rs with
  | nil =>
    cases rs with
    | nil => rfl
    | cons r rs => simp at h
  | cons op ops ih =>
    cases rs with
    | nil => simp at h
    | cons r rs => simp [accepted, ih rs (by simpa using h)]

theorem accepted_oneByOne (d : Bytes) (t : W64) (vs : List (Bytes × IoTDBValue)) :
    accepted (oneByOne d t vs) (List.replicate vs.length (.ok ())) = (Op.writeMany d t vs).recs := by
  induction vs with
  | nil => rfl
  | cons e vs ih =>
    simp only [oneByOne, List.map_cons, List.length_cons, List.replicate_succ, accepted, if_true]
    rw [oneByOne] at ih
    rw [ih]
    rfl

/-- The results and growths of a session, seen from the fresh writer. -/
theorem session_run {env : Env} {schema : Schema} {ops : List Op} {s : Session} (hs : session env schema ops = some s) :
    ∃ w, Writer.new env schema ⟨[], none⟩ = .ok w ∧ s.results = (w.run env ops).2 ∧ s.grown = w.grown env ops := by
  rw [session] at hs
  cases hnew : Writer.new env schema ⟨[], none⟩ with
  | error e => rw [hnew] at hs; simp at hs
  | ok w =>
    rw [hnew] at hs
    simp only at hs
    split at hs
    · simp at hs
    · split at hs
      · simp at hs
      · simp only [Option.some.injEq] at hs
        subst hs
        exact ⟨w, rfl, rfl, rfl⟩

/-- **C05**, what holds (3): if a `write_many` at the end of a history returns `Ok`, then all the single writes of its points,
made instead of it, return `Ok`, and a scan finds the same points in both files; also if a flush happens between the single
writes. (Missing: a `write_many` that fails, see `C05_not_atomic`.) -/
theorem C05_same_as_writes_partial {env : Env} {unsnap : Bytes → Option Bytes} (he : EnvOk env unsnap) {schema : Schema}
    (hsch : schema.Named) {before : List Op} {d : Bytes} {t : W64} {vs : List (Bytes × IoTDBValue)} {s s' : Session}
    (hs : session env schema (before ++ [.writeMany d t vs]) = some s) (hw : s.Within (before ++ [.writeMany d t vs]))
    (hs' : session env schema (before ++ vs.map (fun p => .write d p.1 t p.2)) = some s')
    (hw' : s'.Within (before ++ vs.map (fun p => .write d p.1 t p.2)))
    (hok : s.results[before.length]? = some (.ok ()))
    (hmany : ∀ d t vs r, (Op.writeMany d t vs, r) ∈ before.zip s.results → r = .ok ()) :
    s'.results = s.results.take before.length ++ List.replicate vs.length (.ok ())
    ∧ ∃ items stop items' stop', scan unsnap s.file = some (items, stop) ∧ scan unsnap s'.file = some (items', stop')
      ∧ ∀ d m, scanPoints d m none items = scanPoints d m none items' := by
  change session env schema (before ++ oneByOne d t vs) = some s' at hs'
  change s'.Within (before ++ oneByOne d t vs) at hw'
  obtain ⟨c⟩ := session_outlined he hsch hs hw
  obtain ⟨c'⟩ := session_outlined he hsch hs' hw'
  obtain ⟨w, hn, hr, hg⟩ := session_run hs
  obtain ⟨w', hn', hr', hg'⟩ := session_run hs'
  rw [hn] at hn'
  cases hn'
  have e1 := run_append env before [.writeMany d t vs] w
  have e2 := run_append env before (oneByOne d t vs) w
  have l1 : (w.run env before).2.length = before.length := (run_length env before w).1
  have l2 : (w.grown env before).length = before.length := (run_length env before w).2
  have l3 : ((w.run env before).1.grown env (oneByOne d t vs)).length = vs.length := by
    rw [(run_length env _ _).2]; simp [oneByOne]
  have hpre : s.results.take before.length = (w.run env before).2 := by
    rw [hr, e1.2.1, ← l1, List.take_left]
  -- the abstract writer
  have r1 := c.results
  have r2 := c'.results
  rw [hg, e1.2.2, List.map_append, List.zip_append (by simp [l2]), arun_append_pair] at r1
  rw [hg', e2.2.2, List.map_append, List.zip_append (by simp [l2]), arun_append_pair] at r2
  have hinv := AState.Inv.run (schema := schema) (before.zip ((w.grown env before).map (fun n => decide (0 < n)))) AState.inv_init
  rw [hr, e1.2.1] at r1
  rw [hr', e2.2.1] at r2
  have lrun : (AState.init.run schema (before.zip ((w.grown env before).map (fun n => decide (0 < n))))).2.length = before.length := by
    rw [Spec.run_length]; simp [l2]
  obtain ⟨_, r1b⟩ := List.append_inj r1 (by rw [lrun, l1])
  obtain ⟨_, r2b⟩ := List.append_inj r2 (by rw [lrun, l1])
  generalize (AState.init.run schema (before.zip ((w.grown env before).map (fun n => decide (0 < n))))).1 = a at hinv r1b r2b
  have hlast : ((w.run env before).1.run env [.writeMany d t vs]).2 = [.ok ()] := by
    rw [hr, e1.2.1, List.getElem?_append_right (by omega), l1, Nat.sub_self] at hok
    have hl : ((w.run env before).1.run env [.writeMany d t vs]).2.length = 1 := (run_length env _ _).1
    match hx : ((w.run env before).1.run env [.writeMany d t vs]).2, hl with
    | [x], _ => rw [hx] at hok; simpa using hok
  rw [hlast] at r1b
  have hexec : (a.exec schema (.writeMany d t vs)).2 = .ok () := by
    simpa [AState.run, Writer.grown, AState.step] using r1b
  have hlow : ∀ m, -1 ≤ (a.last d m).toInt := by
    intro m
    rw [hinv.last]
    cases hgl : (series a.pending d m).getLast? with
    | none => decide
    | some p =>
      have := (hinv.inc d m).1 p (List.mem_of_getLast? hgl)
      simp only [Option.map_some, Option.getD_some]
      omega
  cases hl : look d schema with
  | none => rw [AState.exec, hl] at hexec; simp at hexec
  | some ms =>
    have hput : (AState.putMany ms d t vs a).2 = .ok () := by
      rw [AState.exec, hl] at hexec
      simp only at hexec
      rcases hp : AState.putMany ms d t vs a with ⟨a', r⟩
      rw [hp] at hexec
      cases r with
      | ok u => rfl
      | err e => simp at hexec
      | panic => simp at hexec
    have hall := run_oneByOne hl vs (((w.run env before).1.grown env (oneByOne d t vs)).map (fun n => decide (0 < n)))
      (by simp [l3]) hlow hput
    rw [hall] at r2b
    have hres : s.results = (w.run env before).2 ++ [.ok ()] := by rw [hr, e1.2.1, hlast]
    have hres' : s'.results = (w.run env before).2 ++ List.replicate vs.length (.ok ()) := by rw [hr', e2.2.1, ← r2b]
    have hb : ∀ d t vs r, (Op.writeMany d t vs, r) ∈ before.zip (w.run env before).2 → r = .ok () := by
      intro d' t' vs' r' hm
      refine hmany d' t' vs' r' ?_
      rw [hres]
      have := List.zip_append (l₁ := before) (r₁ := []) (l₂ := (w.run env before).2) (r₂ := [.ok ()]) (by rw [l1])
      simp only [List.append_nil, List.zip_nil_left] at this
      rw [this]
      exact hm
    refine ⟨by rw [hpre, hres'], ?_⟩
    obtain ⟨i, p, h1, h2⟩ := C02_scan_accepted he hsch hs hw (by
      intro d' t' vs' r' hm
      rw [hres, List.zip_append (by rw [l1])] at hm
      rcases List.mem_append.1 hm with hm | hm
      · exact hb _ _ _ _ hm
      · simp at hm; exact hm.2)
    obtain ⟨i', p', h1', h2'⟩ := C02_scan_accepted he hsch hs' hw' (by
      intro d' t' vs' r' hm
      rw [hres', List.zip_append (by rw [l1])] at hm
      rcases List.mem_append.1 hm with hm | hm
      · exact hb _ _ _ _ hm
      · exact List.eq_of_mem_replicate (List.of_mem_zip hm).2)
    refine ⟨i, p, i', p', h1, h1', fun d' m' => ?_⟩
    rw [h2, h2', hres, hres', accepted_append' _ _ _ _ l1, accepted_append' _ _ _ _ l1, accepted_oneByOne]
    simp [accepted]

/-! A history of one write and a `write_many` of two points meets the hypotheses. -/

def Demo.manyOps : List Op :=
  [.write (str "root.d") (str "a") 1 (.INT 1)] ++ [.writeMany (str "root.d") 3 [(str "a", .INT 2), (str "b", .INT 3)]]

def Demo.singleOps : List Op :=
  [.write (str "root.d") (str "a") 1 (.INT 1)]
    ++ [(str "a", .INT 2), (str "b", .INT 3)].map (fun p => .write (str "root.d") p.1 3 p.2)

def Demo.manySession : Session := (session Demo.env manySchema Demo.manyOps).getD ⟨[], [], 0, []⟩

def Demo.singleSession : Session := (session Demo.env manySchema Demo.singleOps).getD ⟨[], [], 0, []⟩

theorem getD_eq {α : Type} {o : Option α} {x : α} (h : o.isSome = true) : o = some (o.getD x) := by
  cases o with
  | none => simp at h
  | some a => rfl

example : Demo.singleSession.results = [.ok (), .ok (), .ok ()]
    ∧ ∃ items stop items' stop', scan some Demo.manySession.file = some (items, stop)
      ∧ scan some Demo.singleSession.file = some (items', stop')
      ∧ ∀ d m, scanPoints d m none items = scanPoints d m none items' := by
  have h := C05_same_as_writes_partial Demo.envOk (schema := manySchema)
    ⟨⟨by decide +kernel, by decide +kernel⟩, by decide +kernel, by decide +kernel⟩
    (getD_eq (by decide +kernel) : session Demo.env manySchema Demo.manyOps = some Demo.manySession)
    ⟨by decide +kernel, by decide +kernel, by decide +kernel, by decide +kernel⟩
    (getD_eq (by decide +kernel) : session Demo.env manySchema Demo.singleOps = some Demo.singleSession)
    ⟨by decide +kernel, by decide +kernel, by decide +kernel, by decide +kernel⟩
    (by decide +kernel) (by
      intro d t vs r hm
      have := (List.of_mem_zip hm).1
      simp at this)
  exact ⟨h.1.trans (by decide +kernel), h.2⟩

end TsFile
