import Verif.Spec.Producers
import Verif.Spec.Orderly
import Verif.Proofs.Machine
import Mathlib.Tactic.Basic
/-! # Producers that share a writer: each of them sees the machine as if it were alone -/

namespace TsFile.Producers
open Spec

/-- Accept a point. -/
def addOne (a : AState) (r : Rec) : AState :=
  { a with pending := a.pending ++ [r],
           last := fun d m => if d = r.device ∧ m = r.measurement then r.timestamp else a.last d m }

/-- Accept points. -/
def add (a : AState) (l : List Rec) : AState := l.foldl addOne a

theorem add_pending (l : List Rec) : ∀ a, (add a l).pending = a.pending ++ l := by
  induction l with
  | nil => intro a; simp [add]
  | cons r l ih => intro a; rw [show add a (r :: l) = add (addOne a r) l from rfl, ih]; simp [addOne]

theorem add_rest (l : List Rec) : ∀ a, (add a l).counted = a.counted ∧ (add a l).stored = a.stored := by
  induction l with
  | nil => intro a; exact ⟨rfl, rfl⟩
  | cons r l ih => intro a; exact ih (addOne a r)

theorem add_last_same (l : List Rec) {d m : Bytes} : ∀ {a a' : AState}, a.last d m = a'.last d m →
    (add a l).last d m = (add a' l).last d m := by
  induction l with
  | nil => intro a a' h; exact h
  | cons r l ih =>
    intro a a' h
    refine ih (a := addOne a r) (a' := addOne a' r) ?_
    simp only [addOne]
    rw [h]

theorem add_last_other (l : List Rec) {d m : Bytes} (hl : ∀ r ∈ l, ¬ (d = r.device ∧ m = r.measurement)) : ∀ {a : AState},
    (add a l).last d m = a.last d m := by
  induction l with
  | nil => intro a; rfl
  | cons r l ih =>
    intro a
    rw [show add a (r :: l) = add (addOne a r) l from rfl, ih (fun r' h => hl r' (List.mem_cons_of_mem _ h))]
    simp only [addOne]
    exact if_neg (hl r (List.mem_cons_self ..))

theorem put_same {ms : List (Bytes × MeasurementSchema)} {d m : Bytes} {t : W64} {v : IoTDBValue} {a a' : AState}
    (h : a.last d m = a'.last d m) : ∃ l : List Rec, (∀ r ∈ l, r = ⟨d, m, t, v⟩) ∧ (a.put ms d m t v).1 = add a l
      ∧ (a'.put ms d m t v).1 = add a' l ∧ (a.put ms d m t v).2 = (a'.put ms d m t v).2 := by
  rw [AState.put, AState.put, ← h]
  by_cases h1 : t.toInt ≤ (a.last d m).toInt
  · rw [if_pos h1, if_pos h1]
    exact ⟨[], by simp, rfl, rfl, rfl⟩
  · rw [if_neg h1, if_neg h1]
    cases look m ms with
    | none => exact ⟨[], by simp, rfl, rfl, rfl⟩
    | some s =>
      dsimp only
      by_cases h2 : (fits s.dataType v && encodable s.dataType s.encoding) = true
      · rw [if_pos h2, if_pos h2]
        exact ⟨[⟨d, m, t, v⟩], by simp, rfl, rfl, rfl⟩
      · rw [if_neg h2, if_neg h2]
        exact ⟨[], by simp, rfl, rfl, rfl⟩

theorem add_append (a : AState) (l k : List Rec) : add (add a l) k = add a (l ++ k) := by
  rw [add, add, add, List.foldl_append]

theorem putMany_same {ms : List (Bytes × MeasurementSchema)} {d : Bytes} {t : W64} (vs : List (Bytes × IoTDBValue)) :
    ∀ {a a' : AState}, (∀ p ∈ vs, a.last d p.1 = a'.last d p.1) →
    ∃ l : List Rec, (∀ r ∈ l, ∃ p ∈ vs, r = ⟨d, p.1, t, p.2⟩) ∧ (AState.putMany ms d t vs a).1 = add a l
      ∧ (AState.putMany ms d t vs a').1 = add a' l ∧ (AState.putMany ms d t vs a).2 = (AState.putMany ms d t vs a').2 := by
  induction vs with
  | nil => intro a a' _; exact ⟨[], by simp, rfl, rfl, rfl⟩
  | cons p vs ih =>
    intro a a' h
    obtain ⟨m, v⟩ := p
    obtain ⟨l, h1, h2, h3, h4⟩ := put_same (ms := ms) (t := t) (v := v) (h (m, v) (List.mem_cons_self ..))
    rw [AState.putMany, AState.putMany]
    rcases hr : a.put ms d m t v with ⟨b, r⟩
    rcases hr' : a'.put ms d m t v with ⟨b', r'⟩
    rw [hr] at h2 h4
    rw [hr'] at h3 h4
    obtain rfl : b = add a l := h2
    obtain rfl : b' = add a' l := h3
    obtain rfl : r = r' := h4
    have hl : ∀ r ∈ l, ∃ p ∈ (m, v) :: vs, r = ⟨d, p.1, t, p.2⟩ := fun r hr => ⟨_, List.mem_cons_self .., h1 r hr⟩
    cases r with
    | ok _ =>
      obtain ⟨k, g1, g2, g3, g4⟩ := ih (a := add a l) (a' := add a' l)
        (fun p hp => add_last_same l (h p (List.mem_cons_of_mem _ hp)))
      refine ⟨l ++ k, ?_, ?_, ?_, g4⟩
      · intro r hr
        rcases List.mem_append.1 hr with hr | hr
        · exact hl r hr
        · obtain ⟨p, hp, e⟩ := g1 r hr
          exact ⟨p, List.mem_cons_of_mem _ hp, e⟩
      · rw [← add_append]; exact g2
      · rw [← add_append]; exact g3
    | err _ => exact ⟨l, hl, rfl, rfl, rfl⟩
    | panic => exact ⟨l, hl, rfl, rfl, rfl⟩

/-- The same call in two states that agree about its series: the same answer, the same points accepted. -/
theorem exec_same {schema : Schema} {op : Op} {a a' : AState}
    (h : ∀ r ∈ op.recs, a.last r.device r.measurement = a'.last r.device r.measurement) :
    ∃ (l : List Rec) (n : Nat), (∀ r ∈ l, r ∈ op.recs) ∧ (a.exec schema op).1 = { add a l with counted := a.counted + n }
      ∧ (a'.exec schema op).1 = { add a' l with counted := a'.counted + n } ∧ (a.exec schema op).2 = (a'.exec schema op).2 := by
  cases op with
  | write d m t v =>
    rw [AState.exec, AState.exec]
    cases look d schema with
    | none => exact ⟨[], 0, by simp, rfl, rfl, rfl⟩
    | some ms =>
      dsimp only
      obtain ⟨l, h1, h2, h3, h4⟩ := put_same (ms := ms) (t := t) (v := v) (h ⟨d, m, t, v⟩ (List.mem_singleton.2 rfl))
      rcases hr : a.put ms d m t v with ⟨b, r⟩
      rcases hr' : a'.put ms d m t v with ⟨b', r'⟩
      rw [hr] at h2 h4
      rw [hr'] at h3 h4
      obtain rfl : b = add a l := h2
      obtain rfl : b' = add a' l := h3
      obtain rfl : r = r' := h4
      have hl : ∀ r ∈ l, r ∈ (Op.write d m t v).recs := fun r hr => List.mem_singleton.2 (h1 r hr)
      cases r with
      | ok _ =>
        refine ⟨l, 1, hl, ?_, ?_, rfl⟩ <;> dsimp only <;> rw [(add_rest l _).1]
      | err _ =>
        refine ⟨l, 0, hl, ?_, ?_, rfl⟩ <;> dsimp only <;> rw [Nat.add_zero, ← (add_rest l _).1]
      | panic =>
        refine ⟨l, 0, hl, ?_, ?_, rfl⟩ <;> dsimp only <;> rw [Nat.add_zero, ← (add_rest l _).1]
  | writeMany d t vs =>
    rw [AState.exec, AState.exec]
    cases look d schema with
    | none => exact ⟨[], 0, by simp, rfl, rfl, rfl⟩
    | some ms =>
      dsimp only
      obtain ⟨l, h1, h2, h3, h4⟩ := putMany_same (ms := ms) (d := d) (t := t) vs (a := a) (a' := a')
        (fun p hp => h ⟨d, p.1, t, p.2⟩ (List.mem_map.2 ⟨p, hp, rfl⟩))
      rcases hr : AState.putMany ms d t vs a with ⟨b, r⟩
      rcases hr' : AState.putMany ms d t vs a' with ⟨b', r'⟩
      rw [hr] at h2 h4
      rw [hr'] at h3 h4
      obtain rfl : b = add a l := h2
      obtain rfl : b' = add a' l := h3
      obtain rfl : r = r' := h4
      have hl : ∀ r ∈ l, r ∈ (Op.writeMany d t vs).recs := fun r hr => by
        obtain ⟨p, hp, e⟩ := h1 r hr
        exact List.mem_map.2 ⟨p, hp, e.symm⟩
      cases r with
      | ok _ =>
        refine ⟨l, vs.length, hl, ?_, ?_, rfl⟩ <;> dsimp only <;> rw [(add_rest l _).1]
      | err _ =>
        refine ⟨l, 0, hl, ?_, ?_, rfl⟩ <;> dsimp only <;> rw [Nat.add_zero, ← (add_rest l _).1]
      | panic =>
        refine ⟨l, 0, hl, ?_, ?_, rfl⟩ <;> dsimp only <;> rw [Nat.add_zero, ← (add_rest l _).1]

/-- A run without a flush. -/
def quiet (schema : Schema) (a : AState) (ops : List Op) : AState × List (Res Unit) := a.run schema (ops.map (fun op => (op, false)))

theorem quiet_cons (schema : Schema) (a : AState) (op : Op) (ops : List Op) :
    quiet schema a (op :: ops) = ((quiet schema (a.exec schema op).1 ops).1, (a.exec schema op).2 :: (quiet schema (a.exec schema op).1 ops).2) := rfl

/-- The state of the shared machine, and the states of a machine for each producer: they agree about the series of each producer. -/
structure Rel (owner : Bytes → Bytes → Nat) (a : AState) (A : Nat → AState) : Prop where
  last : ∀ d m, a.last d m = (A (owner d m)).last d m
  pending : ∀ d m, series a.pending d m = series (A (owner d m)).pending d m
  counted : a.counted = 0 ↔ ∀ i, (A i).counted = 0
  stored : a.stored = []

theorem series_append (l k : List Rec) (d m : Bytes) : series (l ++ k) d m = series l d m ++ series k d m := by
  simp [series]

theorem series_none {l : List Rec} {d m : Bytes} (h : ∀ r ∈ l, ¬ (r.device = d ∧ r.measurement = m)) : series l d m = [] := by
  rw [series, List.filter_eq_nil_iff.2 (fun r hr => by simpa using h r hr)]
  rfl

theorem rel_step {schema : Schema} {owner : Bytes → Bytes → Nat} {a : AState} {A : Nat → AState} (h : Rel owner a A) {i : Nat} {op : Op}
    (ho : ∀ r ∈ op.recs, owner r.device r.measurement = i) :
    Rel owner (a.exec schema op).1 (fun j => if i = j then ((A j).exec schema op).1 else A j)
    ∧ (a.exec schema op).2 = ((A i).exec schema op).2 := by
  obtain ⟨l, n, h1, h2, h3, h4⟩ := exec_same (schema := schema) (op := op) (a := a) (a' := A i)
    (fun r hr => by rw [h.last, ho r hr])
  have hl : ∀ r ∈ l, owner r.device r.measurement = i := fun r hr => ho r (h1 r hr)
  refine ⟨⟨fun d m => ?_, fun d m => ?_, ?_, ?_⟩, h4⟩
  · by_cases he : i = owner d m
    · subst he
      rw [if_pos rfl, h2, h3]
      exact add_last_same l (h.last d m)
    · rw [if_neg he, h2]
      refine (add_last_other l ?_).trans (h.last d m)
      rintro r hr ⟨rfl, rfl⟩
      exact he (hl r hr).symm
  · by_cases he : i = owner d m
    · subst he
      rw [if_pos rfl, h2, h3]
      show series (add a l).pending d m = series (add _ l).pending d m
      rw [add_pending, add_pending, series_append, series_append, h.pending]
    · rw [if_neg he, h2]
      show series (add a l).pending d m = _
      rw [add_pending, series_append, series_none (l := l), List.append_nil, h.pending]
      rintro r hr ⟨rfl, rfl⟩
      exact he (hl r hr).symm
  · rw [h2]
    show a.counted + n = 0 ↔ _
    constructor
    · intro hc j
      obtain ⟨c1, c2⟩ := Nat.add_eq_zero_iff.1 hc
      have := h.counted.1 c1 j
      split
      · rename_i hj
        subst hj
        rw [h3]
        show (A i).counted + n = 0
        rw [this, c2]
      · exact this
    · intro hc
      have hi := hc i
      rw [if_pos rfl, h3] at hi
      obtain ⟨c1, c2⟩ := Nat.add_eq_zero_iff.1 (show (A i).counted + n = 0 from hi)
      rw [c2, Nat.add_zero]
      refine h.counted.2 (fun j => ?_)
      by_cases hj : i = j
      · rw [← hj]; exact c1
      · have := hc j
        rw [if_neg hj] at this
        exact this
  · rw [h2]
    exact (add_rest l a).2.trans h.stored

theorem callsOf_cons (i j : Nat) (op : Op) (t : Turns) :
    callsOf j ((i, op) :: t) = if i = j then op :: callsOf j t else callsOf j t := by
  rw [callsOf, List.filter_cons]
  by_cases hj : i = j
  · simp [hj, callsOf]
  · simp [hj, callsOf]

theorem rel_run {schema : Schema} {owner : Bytes → Bytes → Nat} (t : Turns) : ∀ {a : AState} {A : Nat → AState}, Rel owner a A → OneOwner owner t →
    Rel owner (quiet schema a (allCalls t)).1 (fun i => (quiet schema (A i) (callsOf i t)).1)
    ∧ ∀ i, answersOf i t (quiet schema a (allCalls t)).2 = (quiet schema (A i) (callsOf i t)).2 := by
  induction t with
  | nil => intro a A h _; exact ⟨h, fun _ => rfl⟩
  | cons e t ih =>
    intro a A h ho
    obtain ⟨i, op⟩ := e
    obtain ⟨h1, h2⟩ := rel_step (schema := schema) h (ho (i, op) (List.mem_cons_self ..))
    obtain ⟨g1, g2⟩ := ih h1 (fun e he => ho e (List.mem_cons_of_mem _ he))
    have hcons := fun j => callsOf_cons i j op t
    have hA : ∀ j, (quiet schema (A j) (callsOf j ((i, op) :: t))).1
        = (quiet schema (if i = j then ((A j).exec schema op).1 else A j) (callsOf j t)).1 := by
      intro j
      rw [hcons]
      by_cases hj : i = j
      · rw [if_pos hj, if_pos hj, quiet_cons]
      · rw [if_neg hj, if_neg hj]
    refine ⟨?_, fun j => ?_⟩
    · rw [show (fun j => (quiet schema (A j) (callsOf j ((i, op) :: t))).1) = _ from funext hA]
      exact g1
    · rw [show allCalls ((i, op) :: t) = op :: allCalls t from rfl, quiet_cons, hcons]
      dsimp only [answersOf]
      rw [g2 j]
      by_cases hj : i = j
      · subst hj
        rw [if_pos rfl, if_pos rfl, if_pos rfl, quiet_cons, h2]
      · rw [if_neg hj, if_neg hj, if_neg hj]

theorem rel_init (owner : Bytes → Bytes → Nat) : Rel owner AState.init (fun _ => AState.init) :=
  ⟨fun _ _ => rfl, fun _ _ => rfl, by simp [AState.init], rfl⟩

/-- What is stored in the end. -/
def storedQuiet (schema : Schema) (ops : List Op) : List Rec := (quiet schema AState.init ops).1.flush.stored

theorem flush_stored {a : AState} (h : a.stored = []) : a.flush.stored = if a.counted = 0 then [] else a.pending := by
  rw [AState.flush]
  split
  · exact h
  · simp [h]

/-- Two schedules of the same producers store the same points of each series. -/
theorem stored_same {schema : Schema} {owner : Bytes → Bytes → Nat} {t t' : Turns} (ho : OneOwner owner t) (ho' : OneOwner owner t')
    (hsame : ∀ i, callsOf i t = callsOf i t') (d m : Bytes) :
    series (storedQuiet schema (allCalls t)) d m = series (storedQuiet schema (allCalls t')) d m := by
  have h := (rel_run (schema := schema) t (rel_init owner) ho).1
  have h' := (rel_run (schema := schema) t' (rel_init owner) ho').1
  simp only [← hsame] at h'
  have hc := h.counted.trans h'.counted.symm
  rw [storedQuiet, storedQuiet, flush_stored h.stored, flush_stored h'.stored]
  by_cases h0 : (quiet schema AState.init (allCalls t)).1.counted = 0
  · rw [if_pos h0, if_pos (hc.1 h0)]
  · rw [if_neg h0, if_neg (fun k => h0 (hc.2 k)), h.pending, h'.pending]

/-! ## Schedules -/

theorem callsOf_sublist (i : Nat) (t : Turns) : (callsOf i t).Sublist (allCalls t) := List.filter_sublist.map _

/-- A series is in the calls of its owner. -/
theorem series_owner {owner : Bytes → Bytes → Nat} (d m : Bytes) (t : Turns) (ho : OneOwner owner t) :
    series ((allCalls t).flatMap Op.recs) d m = series ((callsOf (owner d m) t).flatMap Op.recs) d m := by
  induction t with
  | nil => rfl
  | cons e t ih =>
    obtain ⟨i, op⟩ := e
    have ih := ih (fun e he => ho e (List.mem_cons_of_mem _ he))
    rw [show allCalls ((i, op) :: t) = op :: allCalls t from rfl, List.flatMap_cons, series_append, ih, callsOf_cons]
    by_cases hi : i = owner d m
    · rw [if_pos hi, List.flatMap_cons, series_append]
    · rw [if_neg hi, series_none (l := op.recs), List.nil_append]
      rintro r hr ⟨rfl, rfl⟩
      exact hi (ho (i, op) (List.mem_cons_self ..) r hr).symm

theorem mem_callsOf {i : Nat} {op : Op} {t : Turns} (h : (i, op) ∈ t) : op ∈ callsOf i t :=
  List.mem_map.2 ⟨(i, op), List.mem_filter.2 ⟨h, by simp⟩, rfl⟩

theorem mem_allCalls {op : Op} {t : Turns} (h : op ∈ allCalls t) : ∃ i, (i, op) ∈ t := by
  obtain ⟨e, he, rfl⟩ := List.mem_map.1 h
  exact ⟨e.1, he⟩

/-- Two schedules of the same producers have the same calls, in another order. -/
theorem turns_perm : ∀ {t t' : Turns}, (∀ i, callsOf i t = callsOf i t') → t.Perm t' := by
  intro t
  induction t with
  | nil =>
    intro t' h
    cases t' with
    | nil => exact .nil
    | cons e t' =>
      have := h e.1
      rw [callsOf_cons, if_pos rfl] at this
      cases this
  | cons e t ih =>
    intro t' h
    obtain ⟨i, op⟩ := e
    have hi := h i
    rw [callsOf_cons, if_pos rfl] at hi
    obtain ⟨u, v, rfl, hu⟩ : ∃ u v, t' = u ++ (i, op) :: v ∧ callsOf i u = [] := by
      clear h ih
      induction t' with
      | nil => cases hi
      | cons e' t' ih' =>
        obtain ⟨j, op'⟩ := e'
        rw [callsOf_cons] at hi
        by_cases hj : j = i
        · subst hj
          rw [if_pos rfl] at hi
          obtain ⟨rfl, -⟩ := List.cons.inj hi
          exact ⟨[], t', rfl, rfl⟩
        · rw [if_neg hj] at hi
          obtain ⟨u, v, rfl, hu⟩ := ih' hi
          exact ⟨(j, op') :: u, v, rfl, by rw [callsOf_cons, if_neg hj]; exact hu⟩
    have happ : ∀ j (x y : Turns), callsOf j (x ++ y) = callsOf j x ++ callsOf j y := by
      intro j x y
      simp [callsOf]
    refine ((ih (t' := u ++ v) (fun j => ?_)).cons (i, op)).trans List.perm_middle.symm
    have hj := h j
    rw [callsOf_cons, happ, callsOf_cons] at hj
    rw [happ]
    by_cases he : i = j
    · subst he
      rw [if_pos rfl, if_pos rfl, hu] at hj
      rw [hu]
      exact (List.cons.inj hj).2
    · rw [if_neg he, if_neg he] at hj
      exact hj

/-- Orderly producers make an orderly history. -/
theorem orderly_turns {schema : Schema} {owner : Bytes → Bytes → Nat} {t : Turns} (ho : OneOwner owner t)
    (h : ∀ i, Orderly schema (callsOf i t)) : Orderly schema (allCalls t) := by
  refine ⟨fun op hop => ?_, fun r hr => ?_, fun d m => ?_⟩
  · obtain ⟨i, hi⟩ := mem_allCalls hop
    exact (h i).calls op (mem_callsOf hi)
  · obtain ⟨op, hop, hr⟩ := List.mem_flatMap.1 hr
    obtain ⟨i, hi⟩ := mem_allCalls hop
    exact (h i).known r (List.mem_flatMap.2 ⟨op, mem_callsOf hi, hr⟩)
  · rw [series_owner d m t ho]
    exact (h _).increasing d m

end TsFile.Producers
