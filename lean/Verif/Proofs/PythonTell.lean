import Verif.Proofs.PythonStep
import Verif.Proofs.CAbort
/-! # The Python classes: how each step ends -/

namespace TsFile.Py
open Spec CApi

variable {ce : CEnv} {p : PyState} {H : List (PyOp × PyOutcome)}

/-- Which objects were made, are no longer referred to, and were freed or closed. -/
structure KV (v : List (Bool × Bool)) (made gone ended : Nat → Prop) : Prop where
  made : ∀ i, made i ↔ i < v.length
  gone : ∀ i, gone i ↔ ∃ b, v[i]? = some (false, b)
  ended : ∀ i, ended i ↔ ∃ b, v[i]? = some (b, true)

variable {v : List (Bool × Bool)} {mk go en mk' go' en' : Nat → Prop}

theorem KV.congr (h : KV v mk go en) (h1 : ∀ i, mk' i ↔ mk i) (h2 : ∀ i, go' i ↔ go i) (h3 : ∀ i, en' i ↔ en i) :
    KV v mk' go' en' :=
  ⟨fun i => (h1 i).trans (h.made i), fun i => (h2 i).trans (h.gone i), fun i => (h3 i).trans (h.ended i)⟩

theorem KV.push (h : KV v mk go en) : KV (v ++ [(true, false)]) (fun i => mk i ∨ i = v.length) go en := by
  have key : ∀ (i : Nat) (x : Bool × Bool), x ≠ (true, false) → ((v ++ [(true, false)])[i]? = some x ↔ v[i]? = some x) := by
    intro i x hx
    rw [List.getElem?_append]
    split
    · exact Iff.rfl
    · next hi =>
      rw [List.getElem?_eq_none (Nat.not_lt.1 hi)]
      constructor
      · intro he
        have := List.mem_of_getElem? he
        simp only [List.mem_singleton] at this
        exact absurd this hx
      · intro he; cases he
  refine ⟨?_, ?_, ?_⟩
  · intro i
    rw [h.made, List.length_append]
    simp only [List.length_cons, List.length_nil]
    omega
  · intro i
    rw [h.gone]
    exact exists_congr fun b => (key i _ (by simp)).symm
  · intro i
    rw [h.ended]
    exact exists_congr fun b => (key i _ (by simp)).symm

theorem KV.finish (h : KV v mk go en) {i : Nat} {b c : Bool} (hi : v[i]? = some (b, c)) :
    KV (v.set i (b, true)) mk go (fun j => en j ∨ j = i) := by
  have hlt := (List.getElem?_eq_some_iff.1 hi).1
  refine ⟨fun j => (h.made j).trans (by rw [List.length_set]), ?_, ?_⟩
  · intro j
    rw [h.gone, List.getElem?_set]
    by_cases hj : i = j
    · subst hj
      rw [if_pos rfl, if_pos hlt, hi]
      simp
    · rw [if_neg hj]
  · intro j
    rw [h.ended, List.getElem?_set]
    by_cases hj : i = j
    · subst hj
      rw [if_pos rfl, if_pos hlt]
      simp
    · rw [if_neg hj]
      exact ⟨fun hh => hh.resolve_right (fun e => hj e.symm), Or.inl⟩

theorem KV.leave (h : KV v mk go en) {i : Nat} {b c : Bool} (hi : v[i]? = some (b, c)) :
    KV (v.set i (false, c)) mk (fun j => go j ∨ j = i) en := by
  have hlt := (List.getElem?_eq_some_iff.1 hi).1
  refine ⟨fun j => (h.made j).trans (by rw [List.length_set]), ?_, ?_⟩
  · intro j
    rw [h.gone, List.getElem?_set]
    by_cases hj : i = j
    · subst hj
      rw [if_pos rfl, if_pos hlt]
      simp
    · rw [if_neg hj]
      exact ⟨fun hh => hh.resolve_right (fun e => hj e.symm), Or.inl⟩
  · intro j
    rw [h.ended, List.getElem?_set]
    by_cases hj : i = j
    · subst hj
      rw [if_pos rfl, if_pos hlt, hi]
      simp
    · rw [if_neg hj]

/-- An object that cannot be used. -/
theorem KV.unusable (h : KV v mk go en) (i : Nat) : (¬ mk i ∨ go i ∨ en i) ↔ v[i]? ≠ some (true, false) := by
  rw [h.made, h.gone, h.ended]
  cases hv : v[i]? with
  | none => simp [List.getElem?_eq_none_iff.1 hv]
  | some x =>
    have hlt := (List.getElem?_eq_some_iff.1 hv).1
    obtain ⟨a, b⟩ := x
    cases a <;> cases b <;> simp [hlt]

theorem KV.unheld (h : KV v mk go en) (i : Nat) : (¬ mk i ∨ go i) ↔ ∀ b, v[i]? ≠ some (true, b) := by
  rw [h.made, h.gone]
  cases hv : v[i]? with
  | none => simp [List.getElem?_eq_none_iff.1 hv]
  | some x =>
    have hlt := (List.getElem?_eq_some_iff.1 hv).1
    obtain ⟨a, b⟩ := x
    cases a <;> simp [hlt]

/-! ## The history -/

def sview (p : PyState) : List (Bool × Bool) := p.schemas.map fun s => (s.held, s.inst.isNone)

def wview (p : PyState) : List (Bool × Bool) := p.writers.map fun o => (o.held, o.inst.isNone)

/-- What the history says about the objects. -/
structure Known (sv wv : List (Bool × Bool)) (H : List (PyOp × PyOutcome)) : Prop where
  s : KV sv (fun i => ∃ d m x y z, (.newSchema d m x y z, .ok i) ∈ H) (fun i => (.delSchema i, .ok 0) ∈ H)
    (fun i => (.freeSchema i, .ok 0) ∈ H)
  w : KV wv (fun k => ∃ f i, (.newWriter f i, .ok k) ∈ H) (fun k => (.delWriter k, .ok 0) ∈ H) (fun k => (.close k, .ok 0) ∈ H)
  sone : ∀ i d m x y z d' m' x' y' z', (.newSchema d m x y z, .ok i) ∈ H → (.newSchema d' m' x' y' z', .ok i) ∈ H →
    d = d' ∧ m = m' ∧ x = x' ∧ y = y' ∧ z = z'
  wone : ∀ k f i f' i', (.newWriter f i, .ok k) ∈ H → (.newWriter f' i', .ok k) ∈ H → f = f' ∧ i = i'

theorem known_start : Known (sview start) (wview start) [] := by
  refine ⟨⟨?_, ?_, ?_⟩, ⟨?_, ?_, ?_⟩, ?_, ?_⟩ <;> simp [sview, wview, start]

variable {sv wv : List (Bool × Bool)}

/-- A step that makes, frees, closes and leaves nothing. -/
theorem Known.note (h : Known sv wv H) (c : PyOp) (o : PyOutcome)
    (ho : o = .raises ∨ ∃ k d m t v, c = .writeInt k d m t v) : Known sv wv (H ++ [(c, o)]) := by
  rcases ho with rfl | ⟨k, d, m, t, v, rfl⟩
  · refine ⟨h.s.congr ?_ ?_ ?_, h.w.congr ?_ ?_ ?_, ?_, ?_⟩
    any_goals (intro i; simp)
    · intro d m x y z d' m' x' y' z' h1 h2; exact h.sone i d m x y z d' m' x' y' z' h1 h2
    · intro f j f' j' h1 h2; exact h.wone i f j f' j' h1 h2
  · refine ⟨h.s.congr ?_ ?_ ?_, h.w.congr ?_ ?_ ?_, ?_, ?_⟩
    any_goals (intro i; simp)
    · intro d m x y z d' m' x' y' z' h1 h2; exact h.sone i d m x y z d' m' x' y' z' h1 h2
    · intro f j f' j' h1 h2; exact h.wone i f j f' j' h1 h2

theorem Known.newSchema (h : Known sv wv H) (d m : Bytes) (x y z : Int) :
    Known (sv ++ [(true, false)]) wv (H ++ [(.newSchema d m x y z, .ok sv.length)]) := by
  have hno : ∀ d m x y z, (PyOp.newSchema d m x y z, PyOutcome.ok sv.length) ∉ H := by
    intro d m x y z hm
    exact Nat.lt_irrefl _ ((h.s.made _).1 ⟨d, m, x, y, z, hm⟩)
  refine ⟨h.s.push.congr ?_ ?_ ?_, h.w.congr ?_ ?_ ?_, ?_, ?_⟩
  · intro i
    constructor
    · rintro ⟨d', m', x', y', z', hm⟩
      rcases List.mem_append.1 hm with hm | hm
      · exact Or.inl ⟨d', m', x', y', z', hm⟩
      · simp only [List.mem_singleton, Prod.mk.injEq, PyOutcome.ok.injEq] at hm
        exact Or.inr hm.2
    · rintro (⟨d', m', x', y', z', hm⟩ | rfl)
      · exact ⟨d', m', x', y', z', List.mem_append_left _ hm⟩
      · exact ⟨d, m, x, y, z, List.mem_append_right _ (List.mem_singleton.2 rfl)⟩
  any_goals (intro i; simp; done)
  · intro i d1 m1 x1 y1 z1 d2 m2 x2 y2 z2 h1 h2
    rcases List.mem_append.1 h1 with h1 | h1 <;> rcases List.mem_append.1 h2 with h2 | h2
    · exact h.sone i _ _ _ _ _ _ _ _ _ _ h1 h2
    · simp only [List.mem_singleton, Prod.mk.injEq, PyOutcome.ok.injEq] at h2
      rw [h2.2] at h1
      exact absurd h1 (hno _ _ _ _ _)
    · simp only [List.mem_singleton, Prod.mk.injEq, PyOutcome.ok.injEq] at h1
      rw [h1.2] at h2
      exact absurd h2 (hno _ _ _ _ _)
    · simp only [List.mem_singleton, Prod.mk.injEq, PyOutcome.ok.injEq, PyOp.newSchema.injEq] at h1 h2
      obtain ⟨⟨rfl, rfl, rfl, rfl, rfl⟩, -⟩ := h1
      obtain ⟨⟨rfl, rfl, rfl, rfl, rfl⟩, -⟩ := h2
      exact ⟨rfl, rfl, rfl, rfl, rfl⟩
  · intro k f i f' i' h1 h2
    refine h.wone k f i f' i' ?_ ?_
    · simpa using h1
    · simpa using h2

theorem Known.newWriter (h : Known sv wv H) (f : Bytes) (i : Nat) :
    Known sv (wv ++ [(true, false)]) (H ++ [(.newWriter f i, .ok wv.length)]) := by
  have hno : ∀ f i, (PyOp.newWriter f i, PyOutcome.ok wv.length) ∉ H := by
    intro f i hm
    exact Nat.lt_irrefl _ ((h.w.made _).1 ⟨f, i, hm⟩)
  refine ⟨h.s.congr ?_ ?_ ?_, h.w.push.congr ?_ ?_ ?_, ?_, ?_⟩
  any_goals (intro i; simp; done)
  · intro k
    constructor
    · rintro ⟨f', i', hm⟩
      rcases List.mem_append.1 hm with hm | hm
      · exact Or.inl ⟨f', i', hm⟩
      · simp only [List.mem_singleton, Prod.mk.injEq, PyOutcome.ok.injEq] at hm
        exact Or.inr hm.2
    · rintro (⟨f', i', hm⟩ | rfl)
      · exact ⟨f', i', List.mem_append_left _ hm⟩
      · exact ⟨f, i, List.mem_append_right _ (List.mem_singleton.2 rfl)⟩
  · intro j d m x y z d' m' x' y' z' h1 h2
    refine h.sone j d m x y z d' m' x' y' z' ?_ ?_
    · simpa using h1
    · simpa using h2
  · intro k f1 i1 f2 i2 h1 h2
    rcases List.mem_append.1 h1 with h1 | h1 <;> rcases List.mem_append.1 h2 with h2 | h2
    · exact h.wone k _ _ _ _ h1 h2
    · simp only [List.mem_singleton, Prod.mk.injEq, PyOutcome.ok.injEq] at h2
      rw [h2.2] at h1
      exact absurd h1 (hno _ _)
    · simp only [List.mem_singleton, Prod.mk.injEq, PyOutcome.ok.injEq] at h1
      rw [h1.2] at h2
      exact absurd h2 (hno _ _)
    · simp only [List.mem_singleton, Prod.mk.injEq, PyOutcome.ok.injEq, PyOp.newWriter.injEq] at h1 h2
      obtain ⟨⟨rfl, rfl⟩, -⟩ := h1
      obtain ⟨⟨rfl, rfl⟩, -⟩ := h2
      exact ⟨rfl, rfl⟩

/-- A step that makes nothing keeps the two uniqueness statements. -/
theorem Known.ones (h : Known sv wv H) {c : PyOp} {o : PyOutcome} (h1 : ∀ d m x y z, c ≠ .newSchema d m x y z)
    (h2 : ∀ f i, c ≠ .newWriter f i) :
    (∀ i d m x y z d' m' x' y' z', (.newSchema d m x y z, .ok i) ∈ H ++ [(c, o)] → (.newSchema d' m' x' y' z', .ok i) ∈ H ++ [(c, o)] →
      d = d' ∧ m = m' ∧ x = x' ∧ y = y' ∧ z = z')
    ∧ (∀ k f i f' i', (.newWriter f i, .ok k) ∈ H ++ [(c, o)] → (.newWriter f' i', .ok k) ∈ H ++ [(c, o)] → f = f' ∧ i = i') := by
  have e1 : ∀ d m x y z r, (PyOp.newSchema d m x y z, r) ∈ H ++ [(c, o)] → (PyOp.newSchema d m x y z, r) ∈ H := by
    intro d m x y z r hm
    rcases List.mem_append.1 hm with hm | hm
    · exact hm
    · simp only [List.mem_singleton, Prod.mk.injEq] at hm
      exact absurd hm.1.symm (h1 _ _ _ _ _)
  have e2 : ∀ f i r, (PyOp.newWriter f i, r) ∈ H ++ [(c, o)] → (PyOp.newWriter f i, r) ∈ H := by
    intro f i r hm
    rcases List.mem_append.1 hm with hm | hm
    · exact hm
    · simp only [List.mem_singleton, Prod.mk.injEq] at hm
      exact absurd hm.1.symm (h2 _ _)
  exact ⟨fun i _ _ _ _ _ _ _ _ _ _ a b => h.sone i _ _ _ _ _ _ _ _ _ _ (e1 _ _ _ _ _ _ a) (e1 _ _ _ _ _ _ b),
    fun k _ _ _ _ a b => h.wone k _ _ _ _ (e2 _ _ _ a) (e2 _ _ _ b)⟩

theorem Known.freeSchema (h : Known sv wv H) {i : Nat} {b c : Bool} (hi : sv[i]? = some (b, c)) :
    Known (sv.set i (b, true)) wv (H ++ [(.freeSchema i, .ok 0)]) := by
  have o := h.ones (c := .freeSchema i) (o := .ok 0) (by simp) (by simp)
  refine ⟨(h.s.finish hi).congr ?_ ?_ ?_, h.w.congr ?_ ?_ ?_, o.1, o.2⟩
  all_goals (intro j; simp)

theorem Known.delSchema (h : Known sv wv H) {i : Nat} {b c : Bool} (hi : sv[i]? = some (b, c)) :
    Known (sv.set i (false, c)) wv (H ++ [(.delSchema i, .ok 0)]) := by
  have o := h.ones (c := .delSchema i) (o := .ok 0) (by simp) (by simp)
  refine ⟨(h.s.leave hi).congr ?_ ?_ ?_, h.w.congr ?_ ?_ ?_, o.1, o.2⟩
  all_goals (intro j; simp)

theorem Known.close (h : Known sv wv H) {i : Nat} {b c : Bool} (hi : wv[i]? = some (b, c)) :
    Known sv (wv.set i (b, true)) (H ++ [(.close i, .ok 0)]) := by
  have o := h.ones (c := .close i) (o := .ok 0) (by simp) (by simp)
  refine ⟨h.s.congr ?_ ?_ ?_, (h.w.finish hi).congr ?_ ?_ ?_, o.1, o.2⟩
  all_goals (intro j; simp)

theorem Known.delWriter (h : Known sv wv H) {i : Nat} {b c : Bool} (hi : wv[i]? = some (b, c)) :
    Known sv (wv.set i (false, c)) (H ++ [(.delWriter i, .ok 0)]) := by
  have o := h.ones (c := .delWriter i) (o := .ok 0) (by simp) (by simp)
  refine ⟨h.s.congr ?_ ?_ ?_, (h.w.leave hi).congr ?_ ?_ ?_, o.1, o.2⟩
  all_goals (intro j; simp)

/-! ## One step -/

/-- How a step ends, and what is known afterwards. -/
structure Told (ce : CEnv) (H : List (PyOp × PyOutcome)) (c : PyOp) (r : PyOutcome × PyState) : Prop where
  raises : r.1 = .raises ↔ RaiseReason H c
  abort : r.1 = .abort ↔ PyAbortReason ce H c
  known : r.1 ≠ .abort → Known (sview r.2) (wview r.2) (H ++ [(c, r.1)])

theorem told_abort {c : PyOp} {q : PyState} (h1 : ¬ RaiseReason H c) (h2 : PyAbortReason ce H c) : Told ce H c (.abort, q) :=
  ⟨⟨fun h => (by cases h), fun h => absurd h h1⟩, ⟨fun _ => h2, fun _ => rfl⟩, fun h => absurd rfl h⟩

theorem told_raises {c : PyOp} {q : PyState} (h1 : RaiseReason H c) (h2 : ¬ PyAbortReason ce H c)
    (h3 : Known (sview q) (wview q) H) : Told ce H c (.raises, q) :=
  ⟨⟨fun _ => h1, fun _ => rfl⟩, ⟨fun h => (by cases h), fun h => absurd h h2⟩, fun _ => h3.note _ _ (Or.inl rfl)⟩

theorem told_ok {c : PyOp} {q : PyState} {n : Nat} (h1 : ¬ RaiseReason H c) (h2 : ¬ PyAbortReason ce H c)
    (h3 : Known (sview q) (wview q) (H ++ [(c, .ok n)])) : Told ce H c (.ok n, q) :=
  ⟨⟨fun h => (by cases h), fun h => absurd h h1⟩, ⟨fun h => (by cases h), fun h => absurd h h2⟩, fun _ => h3⟩

theorem Known.made (h : Known sv wv H) {i : Nat} {d m d' m' : Bytes} {ms ms' : MeasurementSchema} (h1 : MadeSchema H i d m ms)
    (h2 : MadeSchema H i d' m' ms') : d = d' ∧ m = m' ∧ ms = ms' := by
  obtain ⟨x, y, z, a1, a2, a3, a4⟩ := h1
  obtain ⟨x', y', z', b1, b2, b3, b4⟩ := h2
  obtain ⟨rfl, rfl, rfl, rfl, rfl⟩ := h.sone _ _ _ _ _ _ _ _ _ _ _ a1 b1
  rw [a2] at b2; rw [a3] at b3; rw [a4] at b4
  cases ms; cases ms'
  cases b2; cases b3; cases b4
  exact ⟨rfl, rfl, rfl⟩

theorem sview_get {i : Nat} {s : SchemaObj} (hs : p.schemas[i]? = some s) : (sview p)[i]? = some (s.held, s.inst.isNone) := by
  rw [sview, List.getElem?_map, hs]; rfl

theorem sview_none {i : Nat} (hs : p.schemas[i]? = none) : (sview p)[i]? = none := by
  rw [sview, List.getElem?_map, hs]; rfl

theorem wview_get {i : Nat} {o : WriterObj} (ho : p.writers[i]? = some o) : (wview p)[i]? = some (o.held, o.inst.isNone) := by
  rw [wview, List.getElem?_map, ho]; rfl

theorem wview_none {i : Nat} (ho : p.writers[i]? = none) : (wview p)[i]? = none := by
  rw [wview, List.getElem?_map, ho]; rfl

theorem sview_same {i : Nat} {s s' : SchemaObj} {q : PyState} (hs : p.schemas[i]? = some s) (h1 : s'.held = s.held) (h2 : s'.inst = s.inst)
    (hq : q.schemas = p.schemas.set i s') : sview q = sview p := by
  rw [sview, hq, List.map_set, sview, h1, h2]
  apply List.ext_getElem?
  intro j
  rw [List.getElem?_set]
  by_cases hj : i = j
  · subst hj
    have hlt := (List.getElem?_eq_some_iff.1 hs).1
    rw [if_pos rfl, List.length_map, if_pos hlt, List.getElem?_map, hs]
    rfl
  · rw [if_neg hj]

theorem sview_set (p : PyState) (mem : State) (ws : List WriterObj) (i : Nat) (s : SchemaObj) :
    sview ⟨mem, p.schemas.set i s, ws⟩ = (sview p).set i (s.held, s.inst.isNone) := List.map_set

theorem wview_set (p : PyState) (mem : State) (ss : List SchemaObj) (k : Nat) (o : WriterObj) :
    wview ⟨mem, ss, p.writers.set k o⟩ = (wview p).set k (o.held, o.inst.isNone) := List.map_set

/-- The reasons to raise an exception, from the objects. -/
theorem Known.schema_reason (h : Known (sview p) (wview p) H) (i : Nat) :
    ((∀ d m x y z, (PyOp.newSchema d m x y z, PyOutcome.ok i) ∉ H) ∨ (.delSchema i, .ok 0) ∈ H ∨ (.freeSchema i, .ok 0) ∈ H)
      ↔ (sview p)[i]? ≠ some (true, false) := by
  rw [← h.s.unusable i]
  simp only [not_exists]

theorem Known.writer_reason (h : Known (sview p) (wview p) H) (k : Nat) :
    ((∀ f i, (PyOp.newWriter f i, PyOutcome.ok k) ∉ H) ∨ (.delWriter k, .ok 0) ∈ H ∨ (.close k, .ok 0) ∈ H)
      ↔ (wview p)[k]? ≠ some (true, false) := by
  rw [← h.w.unusable k]
  simp only [not_exists]

theorem told_newSchema (h : PInv ce p H) (hk : Known (sview p) (wview p) H) (d m : Bytes) (x y z : Int) :
    Told ce H (.newSchema d m x y z) (newSchema ce p d m x y z) := by
  unfold newSchema
  cases hx : cInt x with
  | none => exact told_raises (fun hh => cInt_none hx hh.1) (fun hh => cInt_none hx hh.1) hk
  | some x' =>
    cases hy : cInt y with
    | none => exact told_raises (fun hh => cInt_none hy hh.2.1) (fun hh => cInt_none hy hh.2.1) hk
    | some y' =>
      cases hz : cInt z with
      | none => exact told_raises (fun hh => cInt_none hz hh.2.2) (fun hh => cInt_none hz hh.2.2.1) hk
      | some z' =>
        obtain ⟨hx1, rfl⟩ := cInt_some hx
        obtain ⟨hy1, rfl⟩ := cInt_some hy
        obtain ⟨hz1, rfl⟩ := cInt_some hz
        dsimp only
        have g1 := get_ok (ce := ce) h.next (h := []) (fun e he => by cases he) d
        generalize get ce p.mem [] d = r1 at g1 ⊢
        have hn1 : 0 < r1.1.next := Nat.lt_of_lt_of_le h.next g1.keeps.next
        have g2 := get_ok (ce := ce) hn1 g1.ok m
        generalize get ce r1.1 r1.2.1 m = r2 at g2 ⊢
        obtain ⟨a1, a2, a3⟩ := g2.ok _ (g2.old _ g1.mem)
        obtain ⟨b1, b2, b3⟩ := g2.ok _ g2.mem
        dsimp only at a1 a2 a3 b1 b2 b3
        have hnr : ¬ RaiseReason H (.newSchema d m x y z) := fun hh => hh ⟨hx1, hy1, hz1⟩
        have e : CApi.step ce r2.1 (.schemaSimple r1.2.2 r2.2.2 (low (BitVec.ofInt 32 x)) (low (BitVec.ofInt 32 y)) (low (BitVec.ofInt 32 z)))
            = schemaSimple ce r2.1 r1.2.2 r2.2.2 (low (BitVec.ofInt 32 x)) (low (BitVec.ofInt 32 y)) (low (BitVec.ofInt 32 z)) := rfl
        rw [e, schemaSimple, cstr_of a1 a3]
        dsimp only
        rw [cstr_of b1 b3]
        dsimp only
        rw [low_ofInt, low_ofInt, low_ofInt, cText_eq, cText_eq]
        cases hu1 : ce.utf8 (beforeNul d) with
        | false => exact told_abort hnr ⟨hx1, hy1, hz1, Or.inl hu1⟩
        | true =>
          cases hu2 : ce.utf8 (beforeNul m) with
          | false => exact told_abort hnr ⟨hx1, hy1, hz1, Or.inr (Or.inl hu2)⟩
          | true =>
            rw [if_pos (by rfl)]
            cases hdt : TSDataType.tryFrom (UInt8.ofNat (x % 256).toNat) with
            | none => exact told_abort hnr ⟨hx1, hy1, hz1, Or.inr (Or.inr (Or.inl hdt))⟩
            | some dt =>
              cases hen : TSEncoding.tryFrom (UInt8.ofNat (y % 256).toNat) with
              | none => exact told_abort hnr ⟨hx1, hy1, hz1, Or.inr (Or.inr (Or.inr (Or.inl hen)))⟩
              | some en =>
                cases hco : CompressionType.tryFrom (UInt8.ofNat (z % 256).toNat) with
                | none => exact told_abort hnr ⟨hx1, hy1, hz1, Or.inr (Or.inr (Or.inr (Or.inr hco)))⟩
                | some co =>
                  refine told_ok hnr ?_ ?_
                  · rintro ⟨-, -, -, hh | hh | hh | hh | hh⟩
                    · rw [hu1] at hh; cases hh
                    · rw [hu2] at hh; cases hh
                    · rw [hdt] at hh; cases hh
                    · rw [hen] at hh; cases hh
                    · rw [hco] at hh; cases hh
                  · have := hk.newSchema d m x y z
                    rw [show (sview p).length = p.schemas.length from List.length_map _] at this
                    simpa [sview, wview] using this

theorem told_freeSchema (h : PInv ce p H) (hk : Known (sview p) (wview p) H) (i : Nat) :
    Told ce H (.freeSchema i) (freeSchema ce p i) := by
  unfold freeSchema
  have R := hk.schema_reason i
  cases hs : p.schemas[i]? with
  | none => exact told_raises (R.2 (by rw [sview_none hs]; simp)) id hk
  | some s =>
    have V := sview_get hs
    dsimp only
    cases hh : s.held with
    | false => exact told_raises (R.2 (by rw [V, hh]; simp)) id hk
    | true =>
      rw [if_pos rfl]
      cases hi : s.inst with
      | none => exact told_raises (R.2 (by rw [V, hi]; simp)) id hk
      | some a =>
        dsimp only
        obtain ⟨h0, _⟩ := h.schLt i s a hs hi
        obtain ⟨box, d, m, h1, _⟩ := h.sch i s a hs hi hh
        have e : CApi.step ce p.mem (.schemaFree a) = (.ok 0, { p.mem with schemas := release a p.mem.schemas }) := by
          show schemaFree p.mem a = _
          rw [schemaFree, if_neg (Nat.ne_of_gt h0), h1]
        rw [e, after]
        refine told_ok (fun hr => R.1 hr (by rw [V, hh, hi]; rfl)) id ?_
        rw [hh, hi] at V
        rw [sview_set]
        exact hk.freeSchema V

theorem told_newWriter (h : PInv ce p H) (hk : Known (sview p) (wview p) H) (f : Bytes) (i : Nat) :
    Told ce H (.newWriter f i) (newWriter ce p f i) := by
  unfold newWriter
  have R := hk.schema_reason i
  have raise : RaiseReason H (.newWriter f i) → Told ce H (.newWriter f i) (.raises, p) := fun hr =>
    told_raises hr (fun ha => ha.1 hr) hk
  cases hs : p.schemas[i]? with
  | none => exact raise (R.2 (by rw [sview_none hs]; simp))
  | some s =>
    have V := sview_get hs
    dsimp only
    cases hh : s.held with
    | false => exact raise (R.2 (by rw [V, hh]; simp))
    | true =>
      rw [if_pos rfl]
      cases hi : s.inst with
      | none => exact raise (R.2 (by rw [V, hi]; simp))
      | some a =>
        dsimp only
        have hnr : ¬ RaiseReason H (.newWriter f i) := fun hr => R.1 hr (by rw [V, hh, hi]; rfl)
        obtain ⟨h0, hlt⟩ := h.schLt i s a hs hi
        obtain ⟨box, d, m, h1, h2, h3, h4⟩ := h.sch i s a hs hi hh
        obtain ⟨d1, d2, d3⟩ := h.hold i s hs _ h2
        obtain ⟨m1, m2, m3⟩ := h.hold i s hs _ h3
        dsimp only at d1 d2 d3 m1 m2 m3
        rw [show CApi.step ce p.mem (.newString (cText f))
          = (.ok p.mem.next, { p.mem with strings := (p.mem.next, cText f) :: p.mem.strings, next := p.mem.next + 1 }) from rfl, after]
        dsimp only
        have e : ∀ st : State, CApi.step ce st (.fileWriterNew p.mem.next a) = fileWriterNew ce st p.mem.next a := fun _ => rfl
        rw [e, fileWriterNew, cstr_of (s := cText f) h.next (by rw [find_cons, if_pos rfl])]
        dsimp only
        rw [h1]
        dsimp only
        rw [find_cons, if_neg (Nat.ne_of_gt d2), d3, find_cons, if_neg (Nat.ne_of_gt m2), m3]
        dsimp only
        rw [cText_eq f, cText_eq d, cText_eq m]
        cases hu1 : ce.utf8 (beforeNul f) with
        | false => exact told_abort hnr ⟨hnr, Or.inl hu1⟩
        | true =>
          cases hu2 : ce.canCreate (beforeNul f) with
          | false => exact told_abort hnr ⟨hnr, Or.inr (Or.inl hu2)⟩
          | true =>
            rw [if_pos (by rfl)]
            rw [show Schema.simple (beforeNul d) (beforeNul m) box.dataType box.encoding box.compression
              = [(beforeNul d, [(beforeNul m, ⟨box.dataType, box.encoding, box.compression⟩)])] from rfl]
            cases hw : Writer.new ce.env [(beforeNul d, [(beforeNul m, ⟨box.dataType, box.encoding, box.compression⟩)])] { bytes := [], cap := none } with
            | error e => exact told_abort hnr ⟨hnr, Or.inr (Or.inr ⟨d, m, _, e, h4, hw⟩)⟩
            | ok w =>
              rw [after]
              dsimp only
              rw [CApi.step]
              dsimp only
              rw [find_cons, if_pos rfl]
              dsimp only
              rw [after]
              dsimp only
              refine told_ok hnr ?_ ?_
              · rintro ⟨-, hh | hh | ⟨d', m', ms', e', g1, g2⟩⟩
                · rw [hu1] at hh; cases hh
                · rw [hu2] at hh; cases hh
                · obtain ⟨rfl, rfl, rfl⟩ := hk.made h4 g1
                  rw [hw] at g2
                  cases g2
              · have := hk.newWriter f i
                rw [show (wview p).length = p.writers.length from List.length_map _] at this
                simpa [sview, wview] using this

theorem told_writeInt (h : PInv ce p H) (hk : Known (sview p) (wview p) H) (k : Nat) (d m : Bytes) (t v : Int) :
    Told ce H (.writeInt k d m t v) (writeInt ce p k d m t v) := by
  unfold writeInt
  have R := hk.writer_reason k
  have R' : RaiseReason H (.writeInt k d m t v) ↔ (wview p)[k]? ≠ some (true, false) ∨ ¬ (isCInt t ∧ isCInt v) := by
    rw [← R]
    show (_ ∨ _ ∨ _ ∨ _) ↔ _
    simp only [or_assoc]
  have raise : ∀ q, sview q = sview p → wview q = wview p → RaiseReason H (.writeInt k d m t v) →
      Told ce H (.writeInt k d m t v) (.raises, q) := fun q h1 h2 hr =>
    told_raises hr (fun ha => ha.1 hr) (by rw [h1, h2]; exact hk)
  cases ho : p.writers[k]? with
  | none => exact raise _ rfl rfl (R'.2 (Or.inl (by rw [wview_none ho]; simp)))
  | some o =>
    have V := wview_get ho
    dsimp only
    cases hh : o.held with
    | false => exact raise _ rfl rfl (R'.2 (Or.inl (by rw [V, hh]; simp)))
    | true =>
      rw [if_pos rfl]
      cases hi : o.inst with
      | none => exact raise _ rfl rfl (R'.2 (Or.inl (by rw [V, hi]; simp)))
      | some a =>
        obtain ⟨s, b, hs, hb, hbor, hrun⟩ := h.wri k o a ho hi hh
        rw [hs]
        dsimp only
        have g1 := get_ok (ce := ce) h.next (h.hold _ s hs) d
        generalize get ce p.mem s.holder d = r1 at g1 ⊢
        have hn1 : 0 < r1.1.next := Nat.lt_of_lt_of_le h.next g1.keeps.next
        have g2 := get_ok (ce := ce) hn1 g1.ok m
        generalize get ce r1.1 r1.2.1 m = r2 at g2 ⊢
        have hall := g1.keeps.trans g2.keeps
        have hsv : ∀ mem ws, sview ⟨mem, p.schemas.set o.schema { s with holder := r2.2.1 }, ws⟩ = sview p := fun _ _ =>
          sview_same (s' := { s with holder := r2.2.1 }) hs rfl rfl rfl
        cases ht : cInt t with
        | none => exact raise _ (hsv _ _) rfl (R'.2 (Or.inr (fun hc => cInt_none ht hc.1)))
        | some t' =>
          cases hv : cInt v with
          | none => exact raise _ (hsv _ _) rfl (R'.2 (Or.inr (fun hc => cInt_none hv hc.2)))
          | some v' =>
            obtain ⟨ht1, rfl⟩ := cInt_some ht
            obtain ⟨hv1, rfl⟩ := cInt_some hv
            dsimp only
            have hnr : ¬ RaiseReason H (.writeInt k d m t v) := by
              rw [R', V, hh, hi]
              rintro (hc | hc)
              · exact hc rfl
              · exact hc ⟨ht1, hv1⟩
            obtain ⟨a1, a2, a3⟩ := g2.ok _ (g2.old _ g1.mem)
            obtain ⟨b1, b2, b3⟩ := g2.ok _ g2.mem
            dsimp only at a1 a2 a3 b1 b2 b3
            have hb' : find a r2.1.writers = some b := by rw [hall.writers _ (h.wriLt k o a ho hi).2]; exact hb
            have hbor' : ∀ x ∈ b.borrowed, ∃ t, (t, x) ∈ r2.2.1 := by
              intro x hx
              obtain ⟨y, hy⟩ := hbor x hx
              exact ⟨y, g2.old _ (g1.old _ hy)⟩
            rw [signExtend_ofInt ht1]
            have e : ∀ t' v', CApi.step ce r2.1 (.fileWriterWriteInt32 a r1.2.2 r2.2.2 t' v')
                = fileWriterWriteInt32 ce r2.1 a r1.2.2 r2.2.2 t' v' := fun _ _ => rfl
            rw [e, fileWriterWriteInt32, if_neg (Nat.ne_of_gt (h.wriLt k o a ho hi).1), cstr_of a1 a3]
            dsimp only
            rw [cstr_of b1 b3]
            dsimp only
            rw [hb']
            dsimp only
            rw [cText_eq d, cText_eq m]
            cases hu1 : ce.utf8 (beforeNul d) with
            | false => exact told_abort hnr ⟨hnr, Or.inl hu1⟩
            | true =>
              cases hu2 : ce.utf8 (beforeNul m) with
              | false => exact told_abort hnr ⟨hnr, Or.inr (Or.inl hu2)⟩
              | true =>
                rw [if_pos (by rfl), if_pos (by
                  rw [List.all_eq_true]
                  intro x hx
                  obtain ⟨y, hy⟩ := hbor' x hx
                  rw [(g2.ok _ hy).2.2]
                  rfl)]
                obtain ⟨f, d0, m0, ms, w0, c1, c2, c3, c4, c5, c6⟩ := hrun
                rw [cText_eq, cText_eq] at c4
                rcases hw : b.writer.write ce.env (beforeNul d) (beforeNul m) (BitVec.ofInt 64 t) (.INT (BitVec.ofInt 32 v)) with ⟨w', res⟩
                have bad : res ≠ .ok () → PyAbortReason ce H (.writeInt k d m t v) := fun hres =>
                  ⟨hnr, Or.inr (Or.inr ⟨f, _, d0, m0, ms, b.writer, c1, c2, ⟨w0, c4, c5.symm⟩, by rw [hw]; exact hres⟩)⟩
                cases res with
                | ok u =>
                  rw [after]
                  refine told_ok hnr ?_ ?_
                  · rintro ⟨-, hc | hc | ⟨f', i', d', m', ms', wr, e1, e2, ⟨w1, e3, e4⟩, e5⟩⟩
                    · rw [hu1] at hc; cases hc
                    · rw [hu2] at hc; cases hc
                    · obtain ⟨rfl, rfl⟩ := hk.wone _ _ _ _ _ c1 e1
                      obtain ⟨rfl, rfl, rfl⟩ := hk.made c2 e2
                      rw [c4] at e3
                      obtain rfl := Except.ok.inj e3
                      rw [c5] at e4
                      rw [e4, hw] at e5
                      exact e5 rfl
                  · rw [hsv]
                    exact hk.note _ _ (Or.inr ⟨_, _, _, _, _, rfl⟩)
                | err e => exact told_abort hnr (bad (by simp))
                | panic => exact told_abort hnr (bad (by simp))

theorem told_close (h : PInv ce p H) (hk : Known (sview p) (wview p) H) (k : Nat) : Told ce H (.close k) (close ce p k) := by
  unfold close
  have R := hk.writer_reason k
  have raise : RaiseReason H (.close k) → Told ce H (.close k) (.raises, p) := fun hr =>
    told_raises hr (fun ha => ha.1 hr) hk
  cases ho : p.writers[k]? with
  | none => exact raise (R.2 (by rw [wview_none ho]; simp))
  | some o =>
    have V := wview_get ho
    dsimp only
    cases hh : o.held with
    | false => exact raise (R.2 (by rw [V, hh]; simp))
    | true =>
      rw [if_pos rfl]
      cases hi : o.inst with
      | none => exact raise (R.2 (by rw [V, hi]; simp))
      | some a =>
        have hnr : ¬ RaiseReason H (.close k) := fun hr => R.1 hr (by rw [V, hh, hi]; rfl)
        obtain ⟨s, b, hs, hb, hbor, hrun⟩ := h.wri k o a ho hi hh
        obtain ⟨f, d0, m0, ms, w0, c1, c2, c3, c4, c5, c6⟩ := hrun
        rw [cText_eq, cText_eq] at c4
        have key := session_none c4 c6
        rw [c5] at key
        dsimp only
        rw [show CApi.step ce p.mem (.fileWriterClose a) = fileWriterClose ce p.mem a from rfl, fileWriterClose,
          if_neg (Nat.ne_of_gt (h.wriLt k o a ho hi).1), hb]
        dsimp only
        rw [if_pos (by
          rw [List.all_eq_true]
          intro x hx
          obtain ⟨y, hy⟩ := hbor x hx
          rw [(h.hold _ s hs _ hy).2.2]
          rfl)]
        cases hw : b.writer.close ce.env with
        | none => exact told_abort hnr ⟨hnr, f, _, d0, m0, ms, c1, c2, key.2 hw⟩
        | some w' =>
          dsimp only
          rw [after]
          refine told_ok hnr ?_ ?_
          · rintro ⟨-, f', i', d', m', ms', e1, e2, e3⟩
            obtain ⟨rfl, rfl⟩ := hk.wone _ _ _ _ _ c1 e1
            obtain ⟨rfl, rfl, rfl⟩ := hk.made c2 e2
            rw [key.1 e3] at hw
            cases hw
          · rw [hh, hi] at V
            rw [wview_set]
            exact hk.close V

theorem reclaim_sview (p : PyState) (i : Nat) : sview (reclaim p i) = sview p := by
  unfold reclaim
  split
  · rfl
  · cases hs : p.schemas[i]? with
    | none => rfl
    | some s => exact sview_same (s' := { s with holder := [] }) hs rfl rfl rfl

theorem reclaim_wview (p : PyState) (i : Nat) : wview (reclaim p i) = wview p := by
  unfold reclaim
  split
  · rfl
  · cases hs : p.schemas[i]? with
    | none => rfl
    | some s => rfl

theorem told_delSchema (hk : Known (sview p) (wview p) H) (i : Nat) : Told ce H (.delSchema i) (delSchema p i) := by
  unfold delSchema
  have R : RaiseReason H (.delSchema i) ↔ ∀ b, (sview p)[i]? ≠ some (true, b) := by
    rw [← hk.s.unheld i]
    show (_ ∨ _) ↔ _
    simp only [not_exists]
  cases hs : p.schemas[i]? with
  | none => exact told_raises (R.2 (by rw [sview_none hs]; simp)) id hk
  | some s =>
    have V := sview_get hs
    dsimp only
    cases hh : s.held with
    | false => exact told_raises (R.2 (by rw [V, hh]; simp)) id hk
    | true =>
      rw [if_pos rfl]
      refine told_ok (fun hr => R.1 hr _ (by rw [V, hh])) id ?_
      rw [reclaim_sview, reclaim_wview]
      rw [sview_set]
      exact hk.delSchema V

theorem told_delWriter (hk : Known (sview p) (wview p) H) (k : Nat) : Told ce H (.delWriter k) (delWriter p k) := by
  unfold delWriter
  have R : RaiseReason H (.delWriter k) ↔ ∀ b, (wview p)[k]? ≠ some (true, b) := by
    rw [← hk.w.unheld k]
    show (_ ∨ _) ↔ _
    simp only [not_exists]
  cases ho : p.writers[k]? with
  | none => exact told_raises (R.2 (by rw [wview_none ho]; simp)) id hk
  | some o =>
    have V := wview_get ho
    dsimp only
    cases hh : o.held with
    | false => exact told_raises (R.2 (by rw [V, hh]; simp)) id hk
    | true =>
      rw [if_pos rfl]
      refine told_ok (fun hr => R.1 hr _ (by rw [V, hh])) id ?_
      rw [reclaim_sview, reclaim_wview]
      rw [wview_set]
      exact hk.delWriter V

theorem told_step (h : PInv ce p H) (hk : Known (sview p) (wview p) H) (c : PyOp) : Told ce H c (step ce p c) := by
  cases c with
  | newSchema d m x y z => exact told_newSchema h hk d m x y z
  | freeSchema i => exact told_freeSchema h hk i
  | newWriter f i => exact told_newWriter h hk f i
  | writeInt k d m t v => exact told_writeInt h hk k d m t v
  | close k => exact told_close h hk k
  | delSchema i => exact told_delSchema hk i
  | delWriter k => exact told_delWriter hk k

/-! ## Whole programs -/

theorem run_step (ce : CEnv) (p : PyState) (c : PyOp) (cs : List PyOp) (h : (step ce p c).1 ≠ .ub) :
    run ce p (c :: cs) = if (step ce p c).1 = .abort then ([.abort], (step ce p c).2)
      else ((step ce p c).1 :: (run ce (step ce p c).2 cs).1, (run ce (step ce p c).2 cs).2) := by
  rw [run]
  rcases hs : step ce p c with ⟨o, q⟩
  rw [hs] at h
  cases o with
  | ok n => rfl
  | raises => rfl
  | abort => rfl
  | ub => exact absurd rfl h

theorem run_all (ce : CEnv) (cs : List PyOp) : ∀ (p : PyState) (H : List (PyOp × PyOutcome)), PInv ce p H → Known (sview p) (wview p) H →
    (.ub ∉ (run ce p cs).1)
    ∧ (∀ (k : Nat) (c : PyOp) (o : PyOutcome), cs[k]? = some c → (run ce p cs).1[k]? = some o →
      (o = .raises ↔ RaiseReason (H ++ (cs.zip (run ce p cs).1).take k) c)
      ∧ (o = .abort ↔ PyAbortReason ce (H ++ (cs.zip (run ce p cs).1).take k) c)
      ∧ ∃ sv wv, Known sv wv (H ++ (cs.zip (run ce p cs).1).take k))
    ∧ (.abort ∉ (run ce p cs).1 → (run ce p cs).1.length = cs.length ∧ PInv ce (run ce p cs).2 (H ++ cs.zip (run ce p cs).1)
      ∧ Known (sview (run ce p cs).2) (wview (run ce p cs).2) (H ++ cs.zip (run ce p cs).1)) := by
  induction cs with
  | nil =>
    intro p H h hk
    refine ⟨by simp [run], ?_, fun _ => ⟨rfl, by simpa [run] using h, by simpa [run] using hk⟩⟩
    intro k c o hc; cases hc
  | cons c0 cs ih =>
    intro p H h hk
    have hf := fine_step h c0
    have ht := told_step h hk c0
    rw [run_step ce p c0 cs hf.1]
    by_cases hab : (step ce p c0).1 = .abort
    · rw [if_pos hab]
      refine ⟨by simp, ?_, fun hh => absurd (List.mem_singleton.2 rfl) hh⟩
      intro k c o hc ho
      cases k with
      | zero =>
        obtain rfl := Option.some.inj hc
        obtain rfl := Option.some.inj ho
        rw [List.take_zero, List.append_nil]
        have h1 := ht.raises
        have h2 := ht.abort
        rw [hab] at h1 h2
        exact ⟨h1, h2, _, _, hk⟩
      | succ k => cases ho
    · rw [if_neg hab]
      obtain ⟨i1, i2, i3⟩ := ih _ _ (hf.2.1 hab) (ht.known hab)
      refine ⟨?_, ?_, ?_⟩
      · intro hm
        rcases List.mem_cons.1 hm with hm | hm
        · exact hf.1 hm.symm
        · exact i1 hm
      · intro k c o hc ho
        cases k with
        | zero =>
          obtain rfl := Option.some.inj hc
          obtain rfl := Option.some.inj ho
          rw [List.take_zero, List.append_nil]
          exact ⟨ht.raises, ht.abort, _, _, hk⟩
        | succ k =>
          have := i2 k c o hc ho
          dsimp only
          rw [List.zip_cons_cons, List.take_succ_cons, ← List.singleton_append, ← List.append_assoc]
          exact this
      · intro hm
        obtain ⟨j1, j2, j3⟩ := i3 (fun hh => hm (List.mem_cons_of_mem _ hh))
        refine ⟨by simp [j1], ?_⟩
        dsimp only
        rw [List.zip_cons_cons, ← List.singleton_append, ← List.append_assoc]
        exact ⟨j2, j3⟩

theorem PDone.end {files : List (Bytes × Bytes)} {k : Nat} (h : PDone ce files H k) (c : PyOp) : PDone ce files (H ++ [(c, .abort)]) k := by
  obtain ⟨f, i, d, m, ms, s, h1, h2, h3, h4, h5⟩ := h
  have : pyWrites k [(c, PyOutcome.abort)] = [] := by cases c <;> rfl
  exact ⟨f, i, d, m, ms, s, List.mem_append_left _ h1, h2.mono _, by rw [pyWrites_append, this, List.append_nil]; exact h3, h4, h5⟩

/-- The files of the writers that were closed, also after the process ended. -/
theorem run_closed (ce : CEnv) (cs : List PyOp) : ∀ (p : PyState) (H : List (PyOp × PyOutcome)), PInv ce p H →
    ∀ k r, (.close k, .ok r) ∈ H ++ cs.zip (run ce p cs).1 → PDone ce (run ce p cs).2.mem.files (H ++ cs.zip (run ce p cs).1) k := by
  induction cs with
  | nil =>
    intro p H h k r hm
    have e : H ++ ([] : List PyOp).zip (run ce p []).1 = H := List.append_nil H
    rw [e] at hm ⊢
    exact (h.closed k r hm).2
  | cons c cs ih =>
    intro p H h k r
    have hf := fine_step h c
    rw [run_step ce p c cs hf.1]
    by_cases hab : (step ce p c).1 = .abort
    · rw [if_pos hab]
      intro hm
      dsimp only at hm ⊢
      rw [List.zip_cons_cons, List.zip_nil_right] at hm ⊢
      rw [hf.2.2 hab]
      refine (h.closed k r ?_).2.end c
      rcases List.mem_append.1 hm with hm | hm
      · exact hm
      · simp only [List.mem_singleton, Prod.mk.injEq] at hm
        cases hm.2
    · rw [if_neg hab]
      dsimp only
      rw [List.zip_cons_cons, ← List.singleton_append, ← List.append_assoc]
      exact ih _ _ (hf.2.1 hab) k r

end TsFile.Py
