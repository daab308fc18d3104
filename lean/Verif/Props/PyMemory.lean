import Verif.Spec.PyMemory
import Verif.Props.PyProgram
/-! # Property C86: what the Python objects hold in the memory of the process -/

namespace TsFile.Py
open Spec CApi

/-! ## Lemmas -/

/-- The addresses of a table are different, and were handed out. -/
def Table {α : Type} (l : List (Addr × α)) (next : Addr) : Prop := (l.map Prod.fst).Nodup ∧ ∀ e ∈ l, e.1 < next

theorem Table.mono {α : Type} {l : List (Addr × α)} {n n' : Addr} (h : Table l n) (hn : n ≤ n') : Table l n' :=
  ⟨h.1, fun e he => Nat.lt_of_lt_of_le (h.2 e he) hn⟩

theorem Table.push {α : Type} {l : List (Addr × α)} {n : Addr} (h : Table l n) (x : α) : Table ((n, x) :: l) (n + 1) := by
  refine ⟨?_, ?_⟩
  · rw [List.map_cons, List.nodup_cons]
    refine ⟨fun hm => ?_, h.1⟩
    obtain ⟨e, he, h1⟩ := List.mem_map.1 hm
    have := h.2 e he
    rw [h1] at this
    exact Nat.lt_irrefl _ this
  · intro e he
    rcases List.mem_cons.1 he with rfl | he
    · exact Nat.lt_succ_self n
    · exact Nat.lt_succ_of_lt (h.2 e he)

theorem Table.release {α : Type} {l : List (Addr × α)} {n : Addr} (h : Table l n) (a : Addr) : Table (CApi.release a l) n :=
  ⟨by rw [map_release]; exact h.1.filter _, fun e he => h.2 e (List.mem_of_mem_filter he)⟩

theorem release_length {α : Type} {a : Addr} {x : α} {l : List (Addr × α)} (hn : (l.map Prod.fst).Nodup) (hf : find a l = some x) :
    (CApi.release a l).length + 1 = l.length := by
  induction l with
  | nil => cases hf
  | cons e l ih =>
    rw [List.map_cons, List.nodup_cons] at hn
    unfold CApi.release at ih ⊢
    by_cases he : e.1 = a
    · rw [List.filter_cons_of_neg (by simp [he]), List.length_cons, List.filter_eq_self.2]
      intro e' he'
      have : e'.1 ≠ a := fun h => hn.1 (he ▸ h ▸ List.mem_map_of_mem he')
      simpa using this
    · rw [List.filter_cons_of_pos (by simp [he]), List.length_cons, List.length_cons, ih hn.2 (by rwa [find, if_neg he] at hf)]

/-- The schemas and writers of the library are neat, and their numbers are given. -/
structure Tables (m : State) (a b : Nat) : Prop where
  schemas : Table m.schemas m.next
  writers : Table m.writers m.next
  nschemas : m.schemas.length = a
  nwriters : m.writers.length = b

theorem Tables.strings {m : State} {a b : Nat} (h : Tables m a b) (l : List (Addr × Bytes)) (n : Addr) (hn : m.next ≤ n) :
    Tables { m with strings := l, next := n } a b := ⟨h.schemas.mono hn, h.writers.mono hn, h.nschemas, h.nwriters⟩

variable {ce : CEnv} {p : PyState} {H : List (PyOp × PyOutcome)}

theorem get_tables {m : State} {a b : Nat} (h : Tables m a b) (hd : Holder) (s : Bytes) : Tables (get ce m hd s).1 a b := by
  unfold get
  cases lookup s hd with
  | some x => exact h
  | none => exact h.strings _ _ (Nat.le_succ _)

theorem cstr_error {m : State} {x : Addr} {o : Outcome} (h : cstr m x = .error o) (r : Addr) : o ≠ .ok r := by
  rintro rfl
  unfold cstr at h
  split at h
  · cases h
  · split at h <;> cases h

/-- What a step of the library does to the tables. -/
theorem simple_tables {m m' : State} {a b : Nat} (h : Tables m a b) {x y : Addr} {t e c : UInt8} {r : Addr}
    (hs : CApi.step ce m (.schemaSimple x y t e c) = (.ok r, m')) : Tables m' (a + 1) b ∧ m'.strings = m.strings := by
  simp only [CApi.step, CApi.schemaSimple] at hs
  cases h1 : cstr m x with
  | error o => rw [h1] at hs; simp only [Prod.mk.injEq] at hs; exact absurd hs.1 (cstr_error h1 _)
  | ok d =>
    rw [h1] at hs
    cases h2 : cstr m y with
    | error o => rw [h2] at hs; simp only [Prod.mk.injEq] at hs; exact absurd hs.1 (cstr_error h2 _)
    | ok d' =>
      rw [h2] at hs
      simp only at hs
      split at hs
      · split at hs
        · simp only [Prod.mk.injEq] at hs
          rw [← hs.2]
          exact ⟨⟨h.schemas.push _, h.writers.mono (Nat.le_succ _), by simp [h.nschemas], h.nwriters⟩, rfl⟩
        · simp at hs
      · simp at hs

theorem free_tables {m m' : State} {a b : Nat} (h : Tables m (a + 1) b) {x r : Addr} (hx : x ≠ 0)
    (hs : CApi.step ce m (.schemaFree x) = (.ok r, m')) : Tables m' a b ∧ m'.strings = m.strings := by
  simp only [CApi.step, CApi.schemaFree, if_neg hx] at hs
  cases h1 : find x m.schemas with
  | none => rw [h1] at hs; simp at hs
  | some s =>
    rw [h1] at hs
    simp only [Prod.mk.injEq] at hs
    rw [← hs.2]
    have := release_length h.schemas.1 h1
    have h2 := h.nschemas
    exact ⟨⟨h.schemas.release x, h.writers, by dsimp only; omega, h.nwriters⟩, rfl⟩

theorem free_positive {m m' : State} {a b : Nat} (h : Tables m a b) {x r : Addr} (hx : x ≠ 0)
    (hs : CApi.step ce m (.schemaFree x) = (.ok r, m')) : ∃ n, a = n + 1 := by
  simp only [CApi.step, CApi.schemaFree, if_neg hx] at hs
  cases h1 : find x m.schemas with
  | none => rw [h1] at hs; simp at hs
  | some s =>
    have := release_length h.schemas.1 h1
    have h2 := h.nschemas
    exact ⟨a - 1, by omega⟩

theorem new_tables {m m' : State} {a b : Nat} (h : Tables m a b) {x y r : Addr}
    (hs : CApi.step ce m (.fileWriterNew x y) = (.ok r, m')) : Tables m' a (b + 1) ∧ m'.strings = m.strings := by
  simp only [CApi.step, CApi.fileWriterNew] at hs
  cases h1 : cstr m x with
  | error o => rw [h1] at hs; simp only [Prod.mk.injEq] at hs; exact absurd hs.1 (cstr_error h1 _)
  | ok d =>
    rw [h1] at hs
    simp only at hs
    split at hs
    · simp at hs
    · split at hs
      · split at hs
        · split at hs
          · simp at hs
          · simp only [Prod.mk.injEq] at hs
            rw [← hs.2]
            exact ⟨⟨h.schemas.mono (Nat.le_succ _), h.writers.push _, h.nschemas, by simp [h.nwriters]⟩, rfl⟩
        · simp at hs
      · simp at hs

theorem write_tables {m m' : State} {a b : Nat} (h : Tables m a b) {x y z : Addr} {t : W64} {v : W32} {r : Addr}
    (hs : CApi.step ce m (.fileWriterWriteInt32 x y z t v) = (.ok r, m')) : Tables m' a b ∧ m'.strings = m.strings := by
  simp only [CApi.step, CApi.fileWriterWriteInt32] at hs
  split at hs
  · simp at hs
  · cases h1 : cstr m y with
    | error o => rw [h1] at hs; simp only [Prod.mk.injEq] at hs; exact absurd hs.1 (cstr_error h1 _)
    | ok d =>
      rw [h1] at hs
      cases h2 : cstr m z with
      | error o => rw [h2] at hs; simp only [Prod.mk.injEq] at hs; exact absurd hs.1 (cstr_error h2 _)
      | ok d' =>
        rw [h2] at hs
        cases h3 : find x m.writers with
        | none => rw [h3] at hs; simp at hs
        | some bx =>
          rw [h3] at hs
          simp only at hs
          split at hs
          · split at hs
            · split at hs
              · simp only [Prod.mk.injEq] at hs
                rw [← hs.2]
                have hl := release_length h.writers.1 h3
                have hw := h.nwriters
                refine ⟨⟨h.schemas, ⟨?_, ?_⟩, h.nschemas, ?_⟩, rfl⟩
                · dsimp only
                  rw [List.singleton_append, List.map_cons, List.nodup_cons]
                  refine ⟨?_, (h.writers.release x).1⟩
                  rw [map_release]
                  simp
                · intro e he
                  dsimp only at he
                  rw [List.singleton_append, List.mem_cons] at he
                  rcases he with rfl | he
                  · obtain ⟨e', he', hx⟩ := List.mem_map.1 (find_mem h3)
                    have := h.writers.2 e' he'
                    rw [hx] at this
                    exact this
                  · exact h.writers.2 e (List.mem_of_mem_filter he)
                · dsimp only
                  rw [List.singleton_append, List.length_cons]
                  omega
              · simp at hs
            · simp at hs
          · simp at hs

theorem close_tables {m m' : State} {a b : Nat} (h : Tables m a b) {x r : Addr} (hx : x ≠ 0)
    (hs : CApi.step ce m (.fileWriterClose x) = (.ok r, m')) : ∃ n, b = n + 1 ∧ Tables m' a n ∧ m'.strings = m.strings := by
  simp only [CApi.step, CApi.fileWriterClose, if_neg hx] at hs
  cases h1 : find x m.writers with
  | none => rw [h1] at hs; simp at hs
  | some bx =>
    rw [h1] at hs
    simp only at hs
    have hl := release_length h.writers.1 h1
    have hw := h.nwriters
    split at hs
    · split at hs
      · simp at hs
      · simp only [Prod.mk.injEq] at hs
        rw [← hs.2]
        exact ⟨b - 1, by omega, ⟨h.schemas, h.writers.release x, h.nschemas, by dsimp only; omega⟩, rfl⟩
    · simp at hs

theorem made_append (H : List (PyOp × PyOutcome)) (x : PyOp × PyOutcome) :
    schemasMade (H ++ [x]) = schemasMade H + schemasMade [x] ∧ schemasFreed (H ++ [x]) = schemasFreed H + schemasFreed [x]
    ∧ writersMade (H ++ [x]) = writersMade H + writersMade [x] ∧ writersClosed (H ++ [x]) = writersClosed H + writersClosed [x] := by
  induction H with
  | nil => simp [schemasMade, schemasFreed, writersMade, writersClosed]
  | cons y H ih =>
    rw [List.cons_append]
    obtain ⟨i1, i2, i3, i4⟩ := ih
    obtain ⟨c, o⟩ := y
    refine ⟨?_, ?_, ?_, ?_⟩
    · cases c <;> cases o <;> simp only [schemasMade, i1] <;> omega
    · cases c <;> cases o <;> simp only [schemasFreed, i2] <;> omega
    · cases c <;> cases o <;> simp only [writersMade, i3] <;> omega
    · cases c <;> cases o <;> simp only [writersClosed, i4] <;> omega

theorem live_iff (p : PyState) (i : Nat) :
    p.live i = true ↔ (∃ s, p.schemas[i]? = some s ∧ s.held = true) ∨ ∃ o ∈ p.writers, o.held = true ∧ o.schema = i := by
  unfold PyState.live
  rw [Bool.or_eq_true, List.any_eq_true]
  cases p.schemas[i]? <;> simp

/-- Every string belongs to a schema object that something refers to; every schema and every writer of the library was made by an object
that was not freed or closed. -/
structure Tidy (p : PyState) (H : List (PyOp × PyOutcome)) : Prop where
  tables : ∃ a b, Tables p.mem a b ∧ a + schemasFreed H = schemasMade H ∧ b + writersClosed H = writersMade H
  strings : ∀ e ∈ p.mem.strings, ∃ i s, p.schemas[i]? = some s ∧ p.live i = true ∧ e.1 ∈ s.holder.map Prod.snd

theorem tidy_start : Tidy start [] := by
  refine ⟨⟨0, 0, ⟨⟨by simp [start, CApi.start], by simp [start, CApi.start]⟩, ⟨by simp [start, CApi.start], by simp [start, CApi.start]⟩, rfl, rfl⟩, rfl, rfl⟩, ?_⟩
  simp [start, CApi.start]

theorem get_strings (ce : CEnv) (m : State) (h : Holder) (s : Bytes) :
    (∀ e ∈ (get ce m h s).1.strings, e ∈ m.strings ∨ e.1 ∈ (get ce m h s).2.1.map Prod.snd)
    ∧ ∀ a ∈ h.map Prod.snd, a ∈ (get ce m h s).2.1.map Prod.snd := by
  unfold get
  cases lookup s h with
  | some a => exact ⟨fun e he => .inl he, fun _ h => h⟩
  | none =>
    simp only [CApi.step]
    refine ⟨fun e he => ?_, fun a ha => ?_⟩
    · rcases List.mem_cons.1 he with rfl | he
      · exact .inr (by simp)
      · exact .inl he
    · rw [List.map_cons]; exact List.mem_cons_of_mem _ ha

/-- A step that only raises an exception. -/
theorem Tidy.note (h : Tidy p H) (c : PyOp) : Tidy p (H ++ [(c, .raises)]) := by
  obtain ⟨⟨a, b, h1, h2, h3⟩, h4⟩ := h
  refine ⟨⟨a, b, h1, ?_, ?_⟩, h4⟩ <;> obtain ⟨e1, e2, e3, e4⟩ := made_append H (c, .raises)
  · rw [e1, e2]; cases c <;> simpa [schemasMade, schemasFreed] using h2
  · rw [e3, e4]; cases c <;> simpa [writersMade, writersClosed] using h3

theorem tidy_newSchema (h : Tidy p H) (d m : Bytes) (x y z : Int) (hok : ∀ q, newSchema ce p d m x y z ≠ (.abort, q) ∧ newSchema ce p d m x y z ≠ (.ub, q)) :
    Tidy (newSchema ce p d m x y z).2 (H ++ [(.newSchema d m x y z, (newSchema ce p d m x y z).1)]) := by
  unfold newSchema at hok ⊢
  split at hok
  next x' y' z' hx hy hz =>
    dsimp only at hok ⊢
    obtain ⟨⟨a, b, h1, h2, h3⟩, h4⟩ := h
    have t1 := get_tables (ce := ce) h1 [] d
    have t2 := get_tables (ce := ce) t1 (get ce p.mem [] d).2.1 m
    have s1 := get_strings ce p.mem [] d
    have s2 := get_strings ce (get ce p.mem [] d).1 (get ce p.mem [] d).2.1 m
    generalize get ce (get ce p.mem [] d).1 (get ce p.mem [] d).2.1 m = g2 at *
    generalize get ce p.mem [] d = g1 at *
    cases hr : CApi.step ce g2.1 (.schemaSimple g1.2.2 g2.2.2 (low x') (low y') (low z')) with
    | mk o m' =>
      rw [hr] at hok
      cases o with
      | ok r =>
        obtain ⟨t3, s3⟩ := simple_tables t2 hr
        simp only [after]
        obtain ⟨e1, e2, e3, e4⟩ := made_append H (.newSchema d m x y z, .ok p.schemas.length)
        refine ⟨⟨a + 1, b, t3, ?_, ?_⟩, ?_⟩
        · rw [e1, e2]; simp only [schemasMade, schemasFreed]; omega
        · rw [e3, e4]; simp only [writersMade, writersClosed]; omega
        · intro e he
          dsimp only at he ⊢
          rw [s3] at he
          have hnew : e.1 ∈ g2.2.1.map Prod.snd → ∃ i s, (p.schemas ++ [⟨g2.2.1, some r, true⟩])[i]? = some s
              ∧ PyState.live { mem := m', schemas := p.schemas ++ [⟨g2.2.1, some r, true⟩], writers := p.writers } i = true ∧ e.1 ∈ s.holder.map Prod.snd := by
            intro hh
            have hg : (p.schemas ++ [(⟨g2.2.1, some r, true⟩ : SchemaObj)])[p.schemas.length]? = some ⟨g2.2.1, some r, true⟩ := by simp
            exact ⟨p.schemas.length, _, hg, (live_iff _ _).2 (.inl ⟨_, hg, rfl⟩), hh⟩
          rcases s2.1 e he with he | he
          · rcases s1.1 e he with he | he
            · obtain ⟨i, s, g1, g2, g3⟩ := h4 e he
              have hi : i < p.schemas.length := (List.getElem?_eq_some_iff.1 g1).1
              refine ⟨i, s, by rw [List.getElem?_append_left hi]; exact g1, (live_iff _ _).2 ?_, g3⟩
              rcases (live_iff _ _).1 g2 with ⟨s', k1, k2⟩ | k
              · exact .inl ⟨s', by dsimp only; rw [List.getElem?_append_left hi]; exact k1, k2⟩
              · exact .inr k
            · exact hnew (s2.2 _ he)
          · exact hnew he
      | abort => exact absurd rfl (hok _).1
      | ub => exact absurd rfl (hok _).2
  next hx => exact h.note _

theorem tidy_freeSchema (hp : PInv ce p H) (h : Tidy p H) (i : Nat) (hok : ∀ q, freeSchema ce p i ≠ (.abort, q) ∧ freeSchema ce p i ≠ (.ub, q)) :
    Tidy (freeSchema ce p i).2 (H ++ [(.freeSchema i, (freeSchema ce p i).1)]) := by
  unfold freeSchema at hok ⊢
  cases hs : p.schemas[i]? with
  | none => exact h.note _
  | some s =>
    rw [hs] at hok
    dsimp only at hok ⊢
    by_cases hh : s.held = true
    · rw [if_pos hh] at hok ⊢
      cases hi : s.inst with
      | none => exact h.note _
      | some a =>
        rw [hi] at hok
        dsimp only at hok ⊢
        have ha : a ≠ 0 := Nat.ne_of_gt (hp.schLt i s a hs hi).1
        obtain ⟨⟨x, y, h1, h2, h3⟩, h4⟩ := h
        cases hr : CApi.step ce p.mem (.schemaFree a) with
        | mk o m' =>
          rw [hr] at hok
          cases o with
          | ok r =>
            obtain ⟨n, rfl⟩ := free_positive h1 ha hr
            obtain ⟨t3, s3⟩ := free_tables h1 ha hr
            simp only [after]
            obtain ⟨e1, e2, e3, e4⟩ := made_append H (.freeSchema i, .ok 0)
            refine ⟨⟨n, y, t3, ?_, ?_⟩, ?_⟩
            · rw [e1, e2]; simp only [schemasMade, schemasFreed]; omega
            · rw [e3, e4]; simp only [writersMade, writersClosed]; omega
            · intro e he
              dsimp only at he ⊢
              rw [s3] at he
              obtain ⟨j, t, g1, g2, g3⟩ := h4 e he
              have hsame : ∀ (j : Nat) (t : SchemaObj), p.schemas[j]? = some t → ∃ t' : SchemaObj, (p.schemas.set i { s with inst := none })[j]? = some t' ∧ t'.held = t.held ∧ t'.holder = t.holder := by
                intro j t ht
                by_cases hji : j = i
                · subst hji
                  rw [hs, Option.some.injEq] at ht
                  subst ht
                  exact ⟨_, getElem?_set_new hs, rfl, rfl⟩
                · exact ⟨t, getElem?_set_old ht hji, rfl, rfl⟩
              obtain ⟨t', k1, k2, k3⟩ := hsame j t g1
              refine ⟨j, t', k1, (live_iff _ _).2 ?_, by rw [k3]; exact g3⟩
              rcases (live_iff _ _).1 g2 with ⟨s', l1, l2⟩ | l
              · obtain ⟨t'', m1, m2, -⟩ := hsame j s' l1
                exact .inl ⟨t'', m1, m2.trans l2⟩
              · exact .inr l
          | abort => exact absurd rfl (hok _).1
          | ub => exact absurd rfl (hok _).2
    · rw [if_neg hh]
      exact h.note _

theorem tidy_newWriter (h : Tidy p H) (f : Bytes) (i : Nat) (hok : ∀ q, newWriter ce p f i ≠ (.abort, q) ∧ newWriter ce p f i ≠ (.ub, q)) :
    Tidy (newWriter ce p f i).2 (H ++ [(.newWriter f i, (newWriter ce p f i).1)]) := by
  unfold newWriter at hok ⊢
  cases hs : p.schemas[i]? with
  | none => exact h.note _
  | some s =>
    rw [hs] at hok
    dsimp only at hok ⊢
    by_cases hh : s.held = true
    · rw [if_pos hh] at hok ⊢
      cases hi : s.inst with
      | none => exact h.note _
      | some a =>
        rw [hi] at hok
        dsimp only at hok ⊢
        obtain ⟨⟨x, y, h1, h2, h3⟩, h4⟩ := h
        have hn : CApi.step ce p.mem (.newString (cText f)) = (.ok p.mem.next, { p.mem with strings := (p.mem.next, cText f) :: p.mem.strings, next := p.mem.next + 1 }) := rfl
        rw [hn] at hok ⊢
        simp only [after] at hok ⊢
        have t1 := h1.strings ((p.mem.next, cText f) :: p.mem.strings) (p.mem.next + 1) (Nat.le_succ _)
        cases hr : CApi.step ce { p.mem with strings := (p.mem.next, cText f) :: p.mem.strings, next := p.mem.next + 1 } (.fileWriterNew p.mem.next a) with
        | mk o m' =>
          rw [hr] at hok
          cases o with
          | ok r =>
            obtain ⟨t2, s2⟩ := new_tables t1 hr
            dsimp only at hok ⊢
            have hf : CApi.step ce m' (.freeString p.mem.next) = (.ok 0, { m' with strings := release p.mem.next m'.strings }) := by
              simp only [CApi.step]
              rw [s2]
              dsimp only
              rw [find_cons, if_pos rfl]
            rw [hf]
            dsimp only
            obtain ⟨e1, e2, e3, e4⟩ := made_append H (.newWriter f i, .ok p.writers.length)
            refine ⟨⟨x, y + 1, t2.strings _ _ (Nat.le_refl _), ?_, ?_⟩, ?_⟩
            · rw [e1, e2]; simp only [schemasMade, schemasFreed]; omega
            · rw [e3, e4]; simp only [writersMade, writersClosed]; omega
            · intro e he
              dsimp only at he ⊢
              rw [s2, release, List.mem_filter, List.mem_cons] at he
              have he' : e ∈ p.mem.strings := by
                rcases he.1 with h | h
                · have := he.2; rw [h] at this; simp at this
                · exact h
              obtain ⟨j, t, g1, g2, g3⟩ := h4 e he'
              refine ⟨j, t, g1, (live_iff _ _).2 ?_, g3⟩
              rcases (live_iff _ _).1 g2 with l | ⟨w, l1, l2⟩
              · exact .inl l
              · exact .inr ⟨w, List.mem_append_left _ l1, l2⟩
          | abort => exact absurd rfl (hok _).1
          | ub => exact absurd rfl (hok _).2
    · rw [if_neg hh]
      exact h.note _

theorem tidy_writeInt (h : Tidy p H) (k : Nat) (d m : Bytes) (t v : Int) (hok : ∀ q, writeInt ce p k d m t v ≠ (.abort, q) ∧ writeInt ce p k d m t v ≠ (.ub, q)) :
    Tidy (writeInt ce p k d m t v).2 (H ++ [(.writeInt k d m t v, (writeInt ce p k d m t v).1)]) := by
  unfold writeInt at hok ⊢
  cases hs : p.writers[k]? with
  | none => exact h.note _
  | some o =>
    rw [hs] at hok
    dsimp only at hok ⊢
    by_cases hh : o.held = true
    · rw [if_pos hh] at hok ⊢
      cases hi : o.inst with
      | none => exact h.note _
      | some a =>
        cases hsc : p.schemas[o.schema]? with
        | none => exact h.note _
        | some s =>
          rw [hi, hsc] at hok
          dsimp only at hok ⊢
          obtain ⟨⟨x, y, h1, h2, h3⟩, h4⟩ := h
          have t1 := get_tables (ce := ce) h1 s.holder d
          have t2 := get_tables (ce := ce) t1 (get ce p.mem s.holder d).2.1 m
          have s1 := get_strings ce p.mem s.holder d
          have s2 := get_strings ce (get ce p.mem s.holder d).1 (get ce p.mem s.holder d).2.1 m
          generalize get ce (get ce p.mem s.holder d).1 (get ce p.mem s.holder d).2.1 m = g2 at *
          generalize get ce p.mem s.holder d = g1 at *
          -- the strings afterwards
          have hstr : ∀ (m' : State), m'.strings = g2.1.strings → ∀ e ∈ m'.strings, ∃ i s', (p.schemas.set o.schema { s with holder := g2.2.1 })[i]? = some s'
              ∧ PyState.live { mem := m', schemas := p.schemas.set o.schema { s with holder := g2.2.1 }, writers := p.writers } i = true ∧ e.1 ∈ s'.holder.map Prod.snd := by
            intro m' hm' e he
            rw [hm'] at he
            have hset : (p.schemas.set o.schema { s with holder := g2.2.1 })[o.schema]? = some { s with holder := g2.2.1 } := getElem?_set_new hsc
            have hlive : PyState.live { mem := m', schemas := p.schemas.set o.schema { s with holder := g2.2.1 }, writers := p.writers } o.schema = true :=
              (live_iff _ _).2 (.inr ⟨o, List.mem_of_getElem? hs, hh, rfl⟩)
            rcases s2.1 e he with he | he
            · rcases s1.1 e he with he | he
              · obtain ⟨j, t, k1, k2, k3⟩ := h4 e he
                by_cases hj : j = o.schema
                · subst hj
                  rw [hsc, Option.some.injEq] at k1
                  subst k1
                  exact ⟨_, _, hset, hlive, s2.2 _ (s1.2 _ k3)⟩
                · refine ⟨j, t, getElem?_set_old k1 hj, (live_iff _ _).2 ?_, k3⟩
                  rcases (live_iff _ _).1 k2 with ⟨s', l1, l2⟩ | l
                  · exact .inl ⟨s', getElem?_set_old l1 hj, l2⟩
                  · exact .inr l
              · exact ⟨_, _, hset, hlive, s2.2 _ he⟩
            · exact ⟨_, _, hset, hlive, he⟩
          cases ht : cInt t with
          | none => exact Tidy.note ⟨⟨x, y, t2, h2, h3⟩, hstr g2.1 rfl⟩ _
          | some t' =>
            cases hv : cInt v with
            | none => exact Tidy.note ⟨⟨x, y, t2, h2, h3⟩, hstr g2.1 rfl⟩ _
            | some v' =>
              rw [ht, hv] at hok
              dsimp only at hok ⊢
              cases hr : CApi.step ce g2.1 (.fileWriterWriteInt32 a g1.2.2 g2.2.2 (t'.signExtend 64) v') with
              | mk r m' =>
                rw [hr] at hok
                cases r with
                | ok r =>
                  obtain ⟨t3, s3⟩ := write_tables t2 hr
                  simp only [after]
                  obtain ⟨e1, e2, e3, e4⟩ := made_append H (.writeInt k d m t v, .ok 0)
                  refine ⟨⟨x, y, t3, ?_, ?_⟩, hstr m' s3⟩
                  · rw [e1, e2]; simp only [schemasMade, schemasFreed]; omega
                  · rw [e3, e4]; simp only [writersMade, writersClosed]; omega
                | abort => exact absurd rfl (hok _).1
                | ub => exact absurd rfl (hok _).2
    · rw [if_neg hh]
      exact h.note _

theorem tidy_close (hp : PInv ce p H) (h : Tidy p H) (k : Nat) (hok : ∀ q, close ce p k ≠ (.abort, q) ∧ close ce p k ≠ (.ub, q)) :
    Tidy (close ce p k).2 (H ++ [(.close k, (close ce p k).1)]) := by
  unfold close at hok ⊢
  cases hs : p.writers[k]? with
  | none => exact h.note _
  | some o =>
    rw [hs] at hok
    dsimp only at hok ⊢
    by_cases hh : o.held = true
    · rw [if_pos hh] at hok ⊢
      cases hi : o.inst with
      | none => exact h.note _
      | some a =>
        rw [hi] at hok
        dsimp only at hok ⊢
        have ha : a ≠ 0 := Nat.ne_of_gt (hp.wriLt k o a hs hi).1
        obtain ⟨⟨x, y, h1, h2, h3⟩, h4⟩ := h
        cases hr : CApi.step ce p.mem (.fileWriterClose a) with
        | mk r m' =>
          rw [hr] at hok
          cases r with
          | ok r =>
            obtain ⟨n, rfl, t3, s3⟩ := close_tables h1 ha hr
            simp only [after]
            obtain ⟨e1, e2, e3, e4⟩ := made_append H (.close k, .ok 0)
            refine ⟨⟨x, n, t3, ?_, ?_⟩, ?_⟩
            · rw [e1, e2]; simp only [schemasMade, schemasFreed]; omega
            · rw [e3, e4]; simp only [writersMade, writersClosed]; omega
            · intro e he
              dsimp only at he ⊢
              rw [s3] at he
              obtain ⟨j, t, g1, g2, g3⟩ := h4 e he
              refine ⟨j, t, g1, (live_iff _ _).2 ?_, g3⟩
              rcases (live_iff _ _).1 g2 with l | ⟨w, l1, l2, l3⟩
              · exact .inl l
              · right
                obtain ⟨l, hl⟩ := List.getElem?_of_mem l1
                by_cases hlk : l = k
                · subst hlk
                  rw [hs, Option.some.injEq] at hl
                  subst hl
                  exact ⟨_, List.mem_of_getElem? (getElem?_set_new hs), l2, l3⟩
                · exact ⟨w, List.mem_of_getElem? (getElem?_set_old hl hlk), l2, l3⟩
          | abort => exact absurd rfl (hok _).1
          | ub => exact absurd rfl (hok _).2
    · rw [if_neg hh]
      exact h.note _

/-- Reclaiming the strings of a schema object to which nothing refers. -/
theorem tidy_reclaim {q : PyState} {i : Nat} {c : PyOp} (ht : ∃ a b, Tables q.mem a b ∧ a + schemasFreed H = schemasMade H ∧ b + writersClosed H = writersMade H)
    (hc : schemasMade [(c, .ok 0)] = 0 ∧ schemasFreed [(c, .ok 0)] = 0 ∧ writersMade [(c, .ok 0)] = 0 ∧ writersClosed [(c, .ok 0)] = 0)
    (hstr : ∀ e ∈ q.mem.strings, ∃ j s, q.schemas[j]? = some s ∧ (j ≠ i → q.live j = true) ∧ e.1 ∈ s.holder.map Prod.snd) :
    Tidy (reclaim q i) (H ++ [(c, .ok 0)]) := by
  obtain ⟨a, b, h1, h2, h3⟩ := ht
  obtain ⟨e1, e2, e3, e4⟩ := made_append H (c, .ok 0)
  obtain ⟨c1, c2, c3, c4⟩ := hc
  have hcounts : a + schemasFreed (H ++ [(c, .ok 0)]) = schemasMade (H ++ [(c, .ok 0)]) ∧ b + writersClosed (H ++ [(c, .ok 0)]) = writersMade (H ++ [(c, .ok 0)]) := by
    omega
  unfold reclaim
  by_cases hl : q.live i = true
  · rw [if_pos hl]
    refine ⟨⟨a, b, h1, hcounts⟩, fun e he => ?_⟩
    obtain ⟨j, s, g1, g2, g3⟩ := hstr e he
    by_cases hj : j = i
    · subst hj; exact ⟨j, s, g1, hl, g3⟩
    · exact ⟨j, s, g1, g2 hj, g3⟩
  · rw [if_neg hl]
    cases hs : q.schemas[i]? with
    | none =>
      refine ⟨⟨a, b, h1, hcounts⟩, fun e he => ?_⟩
      obtain ⟨j, s, g1, g2, g3⟩ := hstr e he
      by_cases hj : j = i
      · subst hj; rw [hs] at g1; cases g1
      · exact ⟨j, s, g1, g2 hj, g3⟩
    | some s0 =>
      refine ⟨⟨a, b, h1.strings _ _ (Nat.le_refl _), hcounts⟩, fun e he => ?_⟩
      dsimp only at he ⊢
      rw [List.mem_filter] at he
      obtain ⟨j, s, g1, g2, g3⟩ := hstr e he.1
      by_cases hj : j = i
      · subst hj
        rw [hs, Option.some.injEq] at g1
        subst g1
        have := he.2
        rw [List.contains_iff_mem.2 g3] at this
        cases this
      · refine ⟨j, s, getElem?_set_old g1 hj, (live_iff _ _).2 ?_, g3⟩
        rcases (live_iff _ _).1 (g2 hj) with ⟨s', l1, l2⟩ | l
        · exact .inl ⟨s', getElem?_set_old l1 hj, l2⟩
        · exact .inr l

theorem tidy_delSchema (h : Tidy p H) (i : Nat) : Tidy (delSchema p i).2 (H ++ [(.delSchema i, (delSchema p i).1)]) := by
  unfold delSchema
  cases hs : p.schemas[i]? with
  | none => exact h.note _
  | some s =>
    dsimp only
    by_cases hh : s.held = true
    · rw [if_pos hh]
      refine tidy_reclaim h.tables ⟨rfl, rfl, rfl, rfl⟩ ?_
      intro e he
      obtain ⟨j, t, g1, g2, g3⟩ := h.strings e he
      by_cases hj : j = i
      · subst hj
        rw [hs, Option.some.injEq] at g1
        subst g1
        exact ⟨_, _, getElem?_set_new hs, fun h => absurd rfl h, g3⟩
      · refine ⟨j, t, getElem?_set_old g1 hj, fun _ => (live_iff _ _).2 ?_, g3⟩
        rcases (live_iff _ _).1 g2 with ⟨s', l1, l2⟩ | l
        · exact .inl ⟨s', getElem?_set_old l1 hj, l2⟩
        · exact .inr l
    · rw [if_neg hh]
      exact h.note _

theorem tidy_delWriter (h : Tidy p H) (k : Nat) : Tidy (delWriter p k).2 (H ++ [(.delWriter k, (delWriter p k).1)]) := by
  unfold delWriter
  cases hs : p.writers[k]? with
  | none => exact h.note _
  | some o =>
    dsimp only
    by_cases hh : o.held = true
    · rw [if_pos hh]
      refine tidy_reclaim h.tables ⟨rfl, rfl, rfl, rfl⟩ ?_
      intro e he
      obtain ⟨j, t, g1, g2, g3⟩ := h.strings e he
      refine ⟨j, t, g1, fun hj => (live_iff _ _).2 ?_, g3⟩
      rcases (live_iff _ _).1 g2 with l | ⟨w, l1, l2, l3⟩
      · exact .inl l
      · right
        obtain ⟨l, hl⟩ := List.getElem?_of_mem l1
        by_cases hlk : l = k
        · subst hlk
          rw [hs, Option.some.injEq] at hl
          subst hl
          exact absurd l3.symm hj
        · exact ⟨w, List.mem_of_getElem? (getElem?_set_old hl hlk), l2, l3⟩
    · rw [if_neg hh]
      exact h.note _

theorem tidy_step (hp : PInv ce p H) (h : Tidy p H) (c : PyOp) (hok : ∀ q, step ce p c ≠ (.abort, q) ∧ step ce p c ≠ (.ub, q)) :
    Tidy (step ce p c).2 (H ++ [(c, (step ce p c).1)]) := by
  cases c with
  | newSchema d m x y z => exact tidy_newSchema h d m x y z hok
  | freeSchema i => exact tidy_freeSchema hp h i hok
  | newWriter f i => exact tidy_newWriter h f i hok
  | writeInt k d m t v => exact tidy_writeInt h k d m t v hok
  | close k => exact tidy_close hp h k hok
  | delSchema i => exact tidy_delSchema h i
  | delWriter k => exact tidy_delWriter h k

theorem tidy_run (ce : CEnv) (cs : List PyOp) : ∀ (p : PyState) (H : List (PyOp × PyOutcome)), PInv ce p H → Tidy p H →
    .abort ∉ (run ce p cs).1 → Tidy (run ce p cs).2 (H ++ cs.zip (run ce p cs).1) := by
  induction cs with
  | nil => intro p H _ h _; rw [List.zip_nil_left, List.append_nil]; exact h
  | cons c cs ih =>
    intro p H hp h hab
    have hf := fine_step hp c
    rw [run_step ce p c cs hf.1] at hab ⊢
    by_cases ha : (step ce p c).1 = .abort
    · rw [if_pos ha] at hab
      exact absurd (List.mem_singleton.2 rfl) hab
    · rw [if_neg ha] at hab ⊢
      have h1 := tidy_step hp h c (fun q => ⟨fun e => ha (by rw [e]), fun e => hf.1 (by rw [e])⟩)
      have := ih _ _ (hf.2.1 ha) h1 (fun hm => hab (List.mem_cons_of_mem _ hm))
      dsimp only
      rw [List.zip_cons_cons, ← List.singleton_append, ← List.append_assoc]
      exact this

end TsFile.Py

namespace TsFile
open Spec Py
open CApi (CEnv)

/-! ## C86 -/

/-- **C86**: after any program that was not ended, the library holds a schema for each schema object that was made and not freed, and a
writer for each writer object that was made and not closed; whether the program still refers to them does not matter. -/
theorem C86_counts (ce : CEnv) (cs : List PyOp) (h : .abort ∉ (run ce start cs).1) :
    (run ce start cs).2.mem.schemas.length + schemasFreed (cs.zip (run ce start cs).1) = schemasMade (cs.zip (run ce start cs).1)
    ∧ (run ce start cs).2.mem.writers.length + writersClosed (cs.zip (run ce start cs).1) = writersMade (cs.zip (run ce start cs).1) := by
  obtain ⟨a, b, h1, h2, h3⟩ := (tidy_run ce cs start [] (pinv_start ce) tidy_start h).tables
  rw [List.nil_append] at h2 h3
  rw [h1.nschemas, h1.nwriters]
  exact ⟨h2, h3⟩

/-- **C86**: once the program refers to none of its objects, no string of it is left. -/
theorem C86_strings (ce : CEnv) (cs : List PyOp) (h : .abort ∉ (run ce start cs).1) (hd : AllDropped (cs.zip (run ce start cs).1)) :
    (run ce start cs).2.mem.strings = [] := by
  have ht := tidy_run ce cs start [] (pinv_start ce) tidy_start h
  obtain ⟨-, -, known⟩ := (run_all ce cs start [] (pinv_start ce) known_start).2.2 h
  rw [List.nil_append] at ht known
  generalize (run ce start cs).2 = p at *
  generalize cs.zip (run ce start cs).1 = H at *
  rw [List.eq_nil_iff_forall_not_mem]
  intro e he
  obtain ⟨i, s, h1, h2, -⟩ := ht.strings e he
  rcases (live_iff _ _).1 h2 with ⟨s', g1, g2⟩ | ⟨o, g1, g2, -⟩
  · have hlt : i < (sview p).length := by
      rw [sview, List.length_map]; exact (List.getElem?_eq_some_iff.1 g1).1
    obtain ⟨d, m, x, y, z, hm⟩ := (known.s.made i).2 hlt
    obtain ⟨b, hb⟩ := (known.s.gone i).1 (hd.1 _ _ _ _ _ _ hm)
    rw [sview_get g1, g2] at hb
    simp at hb
  · obtain ⟨k, hk⟩ := List.getElem?_of_mem g1
    have hlt : k < (wview p).length := by
      rw [wview, List.length_map]; exact (List.getElem?_eq_some_iff.1 hk).1
    obtain ⟨f, j, hm⟩ := (known.w.made k).2 hlt
    obtain ⟨b, hb⟩ := (known.w.gone k).1 (hd.2 _ _ _ hm)
    rw [wview_get hk, g2] at hb
    simp at hb

/-! ## Cases -/

/-- In the sample program one writer object is dropped without being closed: its writer stays. -/
example : schemasMade (Demo.pyprogram.zip (run Demo.cenv start Demo.pyprogram).1) = 2
    ∧ schemasFreed (Demo.pyprogram.zip (run Demo.cenv start Demo.pyprogram).1) = 1
    ∧ writersMade (Demo.pyprogram.zip (run Demo.cenv start Demo.pyprogram).1) = 2
    ∧ writersClosed (Demo.pyprogram.zip (run Demo.cenv start Demo.pyprogram).1) = 1
    ∧ (run Demo.cenv start Demo.pyprogram).2.mem.writers.length = 1 := by decide +kernel

example : (run Demo.cenv start Demo.pyprogram).2.mem.writers.length + writersClosed (Demo.pyprogram.zip (run Demo.cenv start Demo.pyprogram).1)
    = writersMade (Demo.pyprogram.zip (run Demo.cenv start Demo.pyprogram).1) :=
  (C86_counts Demo.cenv Demo.pyprogram (by decide +kernel)).2

/-- Up to its last step but one, the program dropped everything it made. -/
example : (run Demo.cenv start (Demo.pyprogram.take 16)).2.mem.strings = [] := by
  have hr : (run Demo.cenv start (Demo.pyprogram.take 16)).1 = Demo.pyoutcomes.take 16 := by decide +kernel
  refine C86_strings _ _ (by rw [hr]; decide) ?_
  rw [hr]
  refine ⟨?_, ?_⟩
  · intro d m x y z i hm
    simp only [Demo.pyprogram, Demo.pyoutcomes, List.take_succ_cons, List.take_zero, List.zip_cons_cons, List.zip_nil_right, List.mem_cons,
      List.not_mem_nil, or_false, Prod.mk.injEq, PyOutcome.ok.injEq, reduceCtorEq, false_and, and_false] at hm
    rw [hm.2]
    decide +kernel
  · intro f i k hm
    simp only [Demo.pyprogram, Demo.pyoutcomes, List.take_succ_cons, List.take_zero, List.zip_cons_cons, List.zip_nil_right, List.mem_cons,
      List.not_mem_nil, or_false, Prod.mk.injEq, PyOutcome.ok.injEq, reduceCtorEq, false_and, and_false, false_or] at hm
    rcases hm with hm | hm
    · rw [hm.2]; decide +kernel
    · rw [hm.2]; decide +kernel

end TsFile
