import Verif.Proofs.Writer
/-! # Facts about the abstract machine -/

namespace TsFile.Spec

theorem accepted_cons (op : Op) (ops : List Op) (r : Res Unit) (rs : List (Res Unit)) :
    accepted (op :: ops) (r :: rs) = (if r = .ok () then op.recs else []) ++ accepted ops rs := rfl

theorem flush_all (a : AState) (h : a.counted = 0 → a.pending = []) :
    a.flush.stored = a.stored ++ a.pending ∧ a.flush.pending = [] ∧ a.flush.counted = 0 := by
  rw [AState.flush]
  split
  · next h0 => simp [h h0, h0]
  · exact ⟨rfl, rfl, rfl⟩

/-- What `put` does. -/
theorem put_cases (a : AState) (ms : List (Bytes × MeasurementSchema)) (d m : Bytes) (t : W64) (v : IoTDBValue) :
    ((a.put ms d m t v).2 = .ok () ∧ a.put ms d m t v = ({ a with
        pending := a.pending ++ [⟨d, m, t, v⟩],
        last := fun d' m' => if d' = d ∧ m' = m then t else a.last d' m' }, .ok ()))
    ∨ ((a.put ms d m t v).2 ≠ .ok () ∧ (a.put ms d m t v).1 = a) := by
  rw [AState.put]
  split
  · right; simp
  · split
    · right; simp
    · split
      · left; simp
      · right; simp

theorem exec_bursts (schema : Schema) (a : AState) (op : Op) : (a.exec schema op).1.bursts = a.bursts := by
  cases op with
  | write d m t v =>
    rw [AState.exec]
    cases look d schema with
    | none => rfl
    | some ms =>
      have h := put_bursts a ms d m t v
      dsimp only
      rcases hp : a.put ms d m t v with ⟨a', r⟩
      rw [hp] at h
      cases r <;> exact h
  | writeMany d t vs =>
    rw [AState.exec]
    cases look d schema with
    | none => rfl
    | some ms =>
      have h := putMany_bursts ms d t vs a
      dsimp only
      rcases hp : AState.putMany ms d t vs a with ⟨a', r⟩
      rw [hp] at h
      cases r <;> exact h

/-- A run makes at most as many flushes as there are calls followed by one. -/
theorem run_flushes (schema : Schema) (l : List (Op × Bool)) (a : AState) :
    (a.run schema l).1.flushes ≤ a.flushes + (l.filter Prod.snd).length := by
  induction l generalizing a with
  | nil => exact Nat.le_refl _
  | cons e l ih =>
    obtain ⟨op, fl⟩ := e
    have hx : (a.exec schema op).1.flushes = a.flushes := congrArg List.length (exec_bursts schema a op)
    have hi := ih (a.step schema op fl).1
    rw [AState.run]
    dsimp only
    rw [AState.step] at hi
    cases fl with
    | false =>
      rw [List.filter_cons_of_neg (by simp)]
      simp only [Bool.false_eq_true, if_false] at hi
      rw [hx] at hi
      exact hi
    | true =>
      rw [List.filter_cons_of_pos rfl, List.length_cons]
      simp only [if_true] at hi
      have hf : (a.exec schema op).1.flush.flushes ≤ a.flushes + 1 := by
        rw [AState.flush]
        split
        · rw [hx]; exact Nat.le_succ _
        · rw [← hx]; simp [AState.flushes]
      rw [AState.step]
      simp only [if_true]
      omega

/-- What `putMany` does: a prefix of the points is taken, all of them iff it succeeds. -/
theorem putMany_cases (ms : List (Bytes × MeasurementSchema)) (d : Bytes) (t : W64)
    (vs : List (Bytes × IoTDBValue)) (a : AState) :
    ∃ k, (AState.putMany ms d t vs a).1.pending = a.pending ++ (Op.writeMany d t (vs.take k)).recs
      ∧ (AState.putMany ms d t vs a).1.stored = a.stored
      ∧ (AState.putMany ms d t vs a).1.counted = a.counted
      ∧ (if (AState.putMany ms d t vs a).2 = .ok () then k = vs.length else k < vs.length) := by
  induction vs generalizing a with
  | nil => exact ⟨0, by simp [AState.putMany, Op.recs], rfl, rfl, by simp [AState.putMany]⟩
  | cons e vs ih =>
    obtain ⟨m, v⟩ := e
    rw [AState.putMany]
    rcases put_cases a ms d m t v with ⟨_, h⟩ | ⟨h1, h2⟩
    · rw [h]
      simp only
      obtain ⟨k, i1, i2, i3, i4⟩ := ih { a with
        pending := a.pending ++ [⟨d, m, t, v⟩],
        last := fun d' m' => if d' = d ∧ m' = m then t else a.last d' m' }
      refine ⟨k + 1, ?_, i2, i3, ?_⟩
      · rw [i1]; simp [Op.recs]
      · split at i4 <;> simp_all
    · cases hp : a.put ms d m t v with
      | mk a' r' =>
        rw [hp] at h1 h2
        simp only at h1 h2
        subst h2
        cases r' with
        | ok u => exact absurd rfl h1
        | err e => exact ⟨0, by simp [Op.recs], rfl, rfl, by simp⟩
        | panic => exact ⟨0, by simp [Op.recs], rfl, rfl, by simp⟩

/-- What a call does. -/
theorem exec_cases (schema : Schema) (a : AState) (op : Op) :
    (a.exec schema op).1.stored = a.stored ∧
    (((a.exec schema op).2 = .ok () ∧ (a.exec schema op).1.pending = a.pending ++ op.recs
        ∧ (a.exec schema op).1.counted = a.counted + op.recs.length)
    ∨ ((a.exec schema op).2 ≠ .ok () ∧ (a.exec schema op).1.counted = a.counted ∧
        match op with
        | .write .. => (a.exec schema op).1.pending = a.pending
        | .writeMany d t vs => ∃ k, k ≤ vs.length ∧
            (a.exec schema op).1.pending = a.pending ++ (Op.writeMany d t (vs.take k)).recs)) := by
  cases op with
  | write d m t v =>
    rw [AState.exec]
    cases look d schema with
    | none => exact ⟨rfl, Or.inr ⟨by simp, rfl, rfl⟩⟩
    | some ms =>
      simp only
      rcases put_cases a ms d m t v with ⟨_, h⟩ | ⟨h1, h2⟩
      · rw [h]; exact ⟨rfl, Or.inl ⟨rfl, rfl, rfl⟩⟩
      · cases hp : a.put ms d m t v with
        | mk a' r' =>
          rw [hp] at h1 h2
          simp only at h1 h2
          subst h2
          cases r' with
          | ok u => exact absurd rfl h1
          | err e => exact ⟨rfl, Or.inr ⟨by simp, rfl, rfl⟩⟩
          | panic => exact ⟨rfl, Or.inr ⟨by simp, rfl, rfl⟩⟩
  | writeMany d t vs =>
    rw [AState.exec]
    cases look d schema with
    | none => exact ⟨rfl, Or.inr ⟨by simp, rfl, 0, by simp, by simp [Op.recs]⟩⟩
    | some ms =>
      simp only
      obtain ⟨k, h1, h2, h3, h4⟩ := putMany_cases ms d t vs a
      cases hp : AState.putMany ms d t vs a with
      | mk a' r' =>
        rw [hp] at h1 h2 h3 h4
        simp only at h1 h2 h3 h4
        cases r' with
        | ok u =>
          simp only [if_pos] at h4
          subst h4
          refine ⟨h2, Or.inl ⟨rfl, ?_, ?_⟩⟩
          · simpa [Op.recs] using h1
          · simp [h3, Op.recs]
        | err e =>
          simp at h4
          exact ⟨h2, Or.inr ⟨by simp, h3, k, by omega, h1⟩⟩
        | panic =>
          simp at h4
          exact ⟨h2, Or.inr ⟨by simp, h3, k, by omega, h1⟩⟩

/-- If no `write_many` fails, the points in the file and the waiting ones are those of the successful
calls. -/
theorem run_accepted (schema : Schema) (l : List (Op × Bool)) (a : AState) (hc : a.counted = a.pending.length)
    (hok : ∀ d t vs r, (Op.writeMany d t vs, r) ∈ (l.map Prod.fst).zip (a.run schema l).2 → r = .ok ()) :
    (a.run schema l).1.stored ++ (a.run schema l).1.pending
        = a.stored ++ a.pending ++ accepted (l.map Prod.fst) (a.run schema l).2
      ∧ (a.run schema l).1.counted = (a.run schema l).1.pending.length := by
  induction l generalizing a with
  | nil => simp [AState.run, accepted, hc]
  | cons e l ih =>
    obtain ⟨op, fl⟩ := e
    simp only [AState.run, List.map_cons, List.zip_cons_cons, accepted_cons] at hok ⊢
    obtain ⟨h1, h2⟩ := exec_cases schema a op
    have hstep : (a.step schema op fl).2 = (a.exec schema op).2 := rfl
    have hmid : (a.exec schema op).1.counted = (a.exec schema op).1.pending.length
        ∧ (a.exec schema op).1.pending = a.pending ++ (if (a.step schema op fl).2 = .ok () then op.recs else []) := by
      rw [hstep]
      rcases h2 with ⟨h3, h4, h5⟩ | ⟨h3, h4, h5⟩
      · rw [if_pos h3, h4, h5, hc]; simp
      · rw [if_neg h3, h4, hc]
        cases op with
        | write d m t v => rw [h5]; simp
        | writeMany d t vs => exact absurd (hok d t vs _ (List.mem_cons_self ..)) h3
    have hst : (a.step schema op fl).1.stored ++ (a.step schema op fl).1.pending
        = (a.exec schema op).1.stored ++ (a.exec schema op).1.pending
        ∧ (a.step schema op fl).1.counted = (a.step schema op fl).1.pending.length := by
      rw [AState.step]
      cases fl with
      | false => exact ⟨rfl, hmid.1⟩
      | true =>
        obtain ⟨f1, f2, f3⟩ := flush_all (a.exec schema op).1
          (fun h0 => List.length_eq_zero_iff.1 (by rw [← hmid.1]; exact h0))
        simp only [if_true]
        rw [f1, f2, f3]
        simp
    obtain ⟨i1, i2⟩ := ih (a.step schema op fl).1 hst.2
      (fun d t vs r hr => hok d t vs r (List.mem_cons_of_mem _ hr))
    refine ⟨?_, i2⟩
    rw [i1, hst.1, h1, hmid.2]
    simp

theorem run_length (schema : Schema) (l : List (Op × Bool)) (a : AState) :
    (a.run schema l).2.length = l.length := by
  induction l generalizing a with
  | nil => rfl
  | cons e l ih => obtain ⟨op, fl⟩ := e; simp [AState.run, ih]

/-! ## The order of timestamps -/

theorem mseries_append (l l' : List Rec) (d m : Bytes) : series (l ++ l') d m = series l d m ++ series l' d m := by
  simp [series]

theorem mseries_single (r : Rec) (d m : Bytes) :
    series [r] d m = if r.device = d ∧ r.measurement = m then [(r.timestamp, r.value)] else [] := by
  simp only [series, List.filter_cons, List.filter_nil]
  split <;> simp_all

/-- What `last` means, and the order of the waiting points. -/
structure AState.Inv (a : AState) : Prop where
  last : ∀ d m, a.last d m = ((series a.pending d m).getLast?.map Prod.fst).getD (-1)
  inc : ∀ d m, Increasing (series a.pending d m)

theorem AState.inv_init : AState.init.Inv :=
  ⟨fun _ _ => rfl, fun _ _ => ⟨by simp [AState.init, series], by simp [AState.init, series]⟩⟩

/-- In increasing points the last timestamp is the greatest. -/
theorem increasing_le_last {l : List (W64 × IoTDBValue)} (h : Increasing l) (t : W64) :
    (((l.getLast?.map Prod.fst).getD (-1)).toInt < t.toInt) ↔ (0 ≤ t.toInt ∧ ∀ p ∈ l, p.1.toInt < t.toInt) := by
  rcases List.eq_nil_or_concat l with rfl | ⟨l', x, rfl⟩
  · simp only [List.getLast?_nil, Option.map_none, Option.getD_none, List.not_mem_nil, false_imp_iff, implies_true,
      and_true]
    have : (-1 : W64).toInt = -1 := by decide
    omega
  · simp only [List.concat_eq_append] at h ⊢
    simp only [List.getLast?_append, List.getLast?_singleton, Option.some_or, Option.map_some, Option.getD_some]
    constructor
    · intro hx
      have h0 := h.1 x (by simp)
      refine ⟨by omega, fun p hp => ?_⟩
      rcases List.mem_append.1 hp with hp | hp
      · have := (List.pairwise_append.1 h.2).2.2 p hp x (by simp)
        omega
      · simp at hp; subst hp; exact hx
    · intro hx
      exact hx.2 x (by simp)

theorem AState.Inv.put {a : AState} (h : a.Inv) (ms : List (Bytes × MeasurementSchema)) (d m : Bytes) (t : W64)
    (v : IoTDBValue) : (a.put ms d m t v).1.Inv := by
  rw [AState.put]
  split
  · exact h
  · next hlt =>
    split
    · exact h
    · split
      · constructor
        · intro d' m'
          simp only [mseries_append, mseries_single]
          by_cases he : d = d' ∧ m = m'
          · obtain ⟨rfl, rfl⟩ := he
            simp
          · have he' : ¬ (d' = d ∧ m' = m) := fun e => he ⟨e.1.symm, e.2.symm⟩
            rw [if_neg he, if_neg he', List.append_nil]
            exact h.last d' m'
        · intro d' m'
          simp only [mseries_append, mseries_single]
          by_cases he : d = d' ∧ m = m'
          · obtain ⟨rfl, rfl⟩ := he
            rw [if_pos ⟨rfl, rfl⟩]
            rw [h.last, Int.not_le, increasing_le_last (h.inc d m)] at hlt
            refine ⟨?_, ?_⟩
            · intro p hp
              rcases List.mem_append.1 hp with hp | hp
              · exact (h.inc d m).1 p hp
              · simp at hp; subst hp; exact hlt.1
            · rw [List.pairwise_append]
              refine ⟨(h.inc d m).2, by simp, ?_⟩
              intro p hp q hq
              simp at hq
              subst hq
              exact hlt.2 p hp
          · rw [if_neg he, List.append_nil]
            exact h.inc d' m'
      · exact h

theorem AState.Inv.putMany {ms : List (Bytes × MeasurementSchema)} {d : Bytes} {t : W64}
    (vs : List (Bytes × IoTDBValue)) {a : AState} (h : a.Inv) : (AState.putMany ms d t vs a).1.Inv := by
  induction vs generalizing a with
  | nil => exact h
  | cons e vs ih =>
    obtain ⟨m, v⟩ := e
    have h1 := h.put ms d m t v
    rw [AState.putMany]
    cases hp : a.put ms d m t v with
    | mk a' r =>
      rw [hp] at h1
      cases r with
      | ok u => exact ih h1
      | err e => exact h1
      | panic => exact h1

theorem AState.Inv.exec {a : AState} (h : a.Inv) (schema : Schema) (op : Op) : (a.exec schema op).1.Inv := by
  cases op with
  | write d m t v =>
    rw [AState.exec]
    cases hl : look d schema with
    | none => exact h
    | some ms =>
      have h1 := h.put ms d m t v
      simp only
      cases hp : a.put ms d m t v with
      | mk a' r =>
        rw [hp] at h1
        cases r with
        | ok u => exact ⟨h1.last, h1.inc⟩
        | err e => exact h1
        | panic => exact h1
  | writeMany d t vs =>
    rw [AState.exec]
    cases hl : look d schema with
    | none => exact h
    | some ms =>
      have h1 := h.putMany (ms := ms) (d := d) (t := t) vs
      simp only
      cases hp : AState.putMany ms d t vs a with
      | mk a' r =>
        rw [hp] at h1
        cases r with
        | ok u => exact ⟨h1.last, h1.inc⟩
        | err e => exact h1
        | panic => exact h1

theorem AState.Inv.flush {a : AState} (h : a.Inv) : a.flush.Inv := by
  rw [AState.flush]
  split
  · exact h
  · exact ⟨fun _ _ => rfl, fun _ _ => ⟨by simp [series], by simp [series]⟩⟩

theorem AState.Inv.step {a : AState} (h : a.Inv) (schema : Schema) (op : Op) (fl : Bool) :
    (a.step schema op fl).1.Inv := by
  simp only [AState.step]
  split
  · exact (h.exec schema op).flush
  · exact h.exec schema op

theorem AState.Inv.run {schema : Schema} (l : List (Op × Bool)) {a : AState} (h : a.Inv) :
    (a.run schema l).1.Inv := by
  induction l generalizing a with
  | nil => exact h
  | cons e l ih => obtain ⟨op, fl⟩ := e; exact ih (h.step schema op fl)

/-- The stored points are a sequence of bursts, one for each flush; in each of them the timestamps of every
series increase. -/
theorem run_bursts (schema : Schema) (l : List (Op × Bool)) (a : AState) (h : a.Inv) :
    ∃ bs : List (List Rec), (a.run schema l).1.stored = a.stored ++ bs.flatten
      ∧ (∀ b ∈ bs, ∀ d m, Increasing (series b d m))
      ∧ bs.length ≤ (l.filter Prod.snd).length := by
  induction l generalizing a with
  | nil => exact ⟨[], by simp [AState.run], by simp, by simp⟩
  | cons e l ih =>
    obtain ⟨op, fl⟩ := e
    obtain ⟨bs, h1, h2, h3⟩ := ih _ (h.step schema op fl)
    have hst : (a.exec schema op).1.stored = a.stored := (exec_cases schema a op).1
    simp only [AState.run]
    rw [h1]
    cases fl with
    | false =>
      refine ⟨bs, by simp [AState.step, hst], h2, by simpa using h3⟩
    | true =>
      simp only [AState.step, if_true, AState.flush]
      by_cases h0 : (a.exec schema op).1.counted = 0
      · rw [if_pos h0]
        exact ⟨bs, by rw [hst], h2, by simp; omega⟩
      · rw [if_neg h0]
        refine ⟨(a.exec schema op).1.pending :: bs, by simp [hst], ?_, by simp; omega⟩
        intro b hb
        rcases List.mem_cons.1 hb with rfl | hb
        · exact (h.exec schema op).inc
        · exact h2 b hb

/-- What the calls reported as done is stored or waiting; what waits is counted. -/
theorem run_accepted_sublist (schema : Schema) (l : List (Op × Bool)) (a : AState) (acc : List Rec)
    (h1 : acc.Sublist (a.stored ++ a.pending)) (h2 : a.counted = 0 → acc.Sublist a.stored) :
    (acc ++ accepted (l.map Prod.fst) (a.run schema l).2).Sublist (a.run schema l).1.flush.stored := by
  induction l generalizing a acc with
  | nil =>
    simp only [List.map_nil, AState.run, accepted, List.append_nil]
    by_cases h0 : a.counted = 0
    · rw [AState.flush, if_pos h0]; exact h2 h0
    · rw [AState.flush, if_neg h0]; exact h1
  | cons e l ih =>
    obtain ⟨op, fl⟩ := e
    simp only [List.map_cons, AState.run, accepted_cons]
    rw [← List.append_assoc]
    have key : (acc ++ if (a.exec schema op).2 = .ok () then op.recs else []).Sublist
          ((a.exec schema op).1.stored ++ (a.exec schema op).1.pending)
        ∧ ((a.exec schema op).1.counted = 0 →
            (acc ++ if (a.exec schema op).2 = .ok () then op.recs else []).Sublist (a.exec schema op).1.stored) := by
      obtain ⟨hst, ⟨hr, hp, hc⟩ | ⟨hr, hc, hp⟩⟩ := exec_cases schema a op
      · rw [if_pos hr, hst, hp, hc, ← List.append_assoc]
        refine ⟨h1.append_right _, fun h0 => ?_⟩
        have hr0 : op.recs = [] := List.length_eq_zero_iff.1 (by omega)
        rw [hr0, List.append_nil]
        exact h2 (by omega)
      · rw [if_neg hr, hst, hc, List.append_nil]
        refine ⟨?_, h2⟩
        have hpre : ∃ x, (a.exec schema op).1.pending = a.pending ++ x := by
          cases op with
          | write d m t v => exact ⟨[], by rw [hp]; simp⟩
          | writeMany d t vs => obtain ⟨k, _, hk⟩ := hp; exact ⟨_, hk⟩
        obtain ⟨x, hx⟩ := hpre
        rw [hx, ← List.append_assoc]
        exact h1.trans (List.sublist_append_left _ _)
    have hres : (a.step schema op fl).2 = (a.exec schema op).2 := rfl
    rw [hres]
    generalize hx : (acc ++ if (a.exec schema op).2 = .ok () then op.recs else []) = acc' at key ⊢
    generalize hy : (a.exec schema op).1 = a1 at key
    have hstep : (a.step schema op fl).1 = if fl then a1.flush else a1 := by rw [← hy]; rfl
    rw [hstep]
    cases fl with
    | false => exact ih a1 acc' key.1 key.2
    | true =>
      rw [if_pos rfl]
      by_cases h0 : a1.counted = 0
      · rw [AState.flush, if_pos h0]; exact ih a1 acc' key.1 key.2
      · rw [AState.flush, if_neg h0]
        exact ih _ acc' (by simpa using key.1) (fun _ => key.1)

/-- Several points at once are the same as one after the other. -/
theorem exec_writeMany_eq (schema : Schema) (d : Bytes) (t : W64) (vs : List (Bytes × IoTDBValue)) (a : AState)
    (hok : (a.exec schema (.writeMany d t vs)).2 = .ok ()) :
    a.run schema (vs.map (fun p => (Op.write d p.1 t p.2, false)))
      = ((a.exec schema (.writeMany d t vs)).1, List.replicate vs.length (.ok ())) := by
  cases hl : look d schema with
  | none => rw [AState.exec, hl] at hok; simp at hok
  | some ms =>
    have hput : ∀ (vs : List (Bytes × IoTDBValue)) (a : AState) (c : Nat),
        (AState.putMany ms d t vs { a with counted := c }) = ({ (AState.putMany ms d t vs a).1 with counted := c },
          (AState.putMany ms d t vs a).2) := by
      intro vs
      induction vs with
      | nil => intro a c; rfl
      | cons e vs ih =>
        intro a c
        obtain ⟨m, v⟩ := e
        have h1 : ({ a with counted := c } : AState).put ms d m t v
            = ({ (a.put ms d m t v).1 with counted := c }, (a.put ms d m t v).2) := by
          simp only [AState.put]
          split
          · rfl
          · split
            · rfl
            · split <;> rfl
        rw [AState.putMany, AState.putMany, h1]
        cases hp : a.put ms d m t v with
        | mk a' r =>
          cases r with
          | ok u => exact ih a' c
          | err e => rfl
          | panic => rfl
    have main : ∀ (vs : List (Bytes × IoTDBValue)) (a : AState), (AState.putMany ms d t vs a).2 = .ok () →
        a.run schema (vs.map (fun p => (Op.write d p.1 t p.2, false)))
          = ({ (AState.putMany ms d t vs a).1 with
                counted := a.counted + vs.length }, List.replicate vs.length (.ok ())) := by
      intro vs
      induction vs with
      | nil => intro a _; rfl
      | cons e vs ih =>
        intro a h
        obtain ⟨m, v⟩ := e
        rw [AState.putMany] at h ⊢
        have hcnt := (put_cases a ms d m t v)
        cases hp : a.put ms d m t v with
        | mk a' r =>
          rw [hp] at h hcnt
          cases r with
          | err e => simp at h
          | panic => simp at h
          | ok u =>
            have hc : a'.counted = a.counted := by
              rcases hcnt with ⟨_, h2⟩ | ⟨h2, _⟩
              · simp only [Prod.mk.injEq] at h2
                rw [h2.1]
              · exact absurd rfl h2
            simp only at h ⊢
            have hi := ih { a' with counted := a'.counted + 1 } (by rw [hput]; exact h)
            simp only [List.map_cons, AState.run, AState.step, AState.exec, hl, hp, Bool.false_eq_true, if_false]
            rw [hi, hput]
            simp only [hc, List.length_cons, List.replicate_succ, Prod.mk.injEq, and_true]
            congr 1
            omega
    have hpm : (AState.putMany ms d t vs a).2 = .ok () := by
      rw [AState.exec, hl] at hok
      simp only at hok
      cases hp : AState.putMany ms d t vs a with
      | mk a' r =>
        rw [hp] at hok
        cases r with
        | ok u => rfl
        | err e => simp at hok
        | panic => simp at hok
    rw [main vs a hpm, AState.exec, hl]
    obtain ⟨k, _, _, h3, _⟩ := putMany_cases ms d t vs a
    cases hp : AState.putMany ms d t vs a with
    | mk a' r =>
      rw [hp] at hpm h3
      simp only at hpm h3
      subst hpm
      simp only [hp, h3]

end TsFile.Spec
