import Verif.Spec.CApi
/-! # The C interface: the simulation of what a program holds -/

namespace TsFile.CApi
open Spec

theorem find_isSome {α : Type} (p : Addr) (l : List (Addr × α)) : (find p l).isSome = true ↔ p ∈ l.map Prod.fst := by
  induction l with
  | nil => simp [find]
  | cons e l ih =>
    rw [find, List.map_cons, List.mem_cons]
    by_cases h : e.1 = p
    · rw [if_pos h]; simp [h]
    · rw [if_neg h, ih]
      constructor
      · exact Or.inr
      · rintro (h' | h')
        · exact absurd h'.symm h
        · exact h'

theorem find_mem {α : Type} {p : Addr} {l : List (Addr × α)} {a : α} (h : find p l = some a) : p ∈ l.map Prod.fst :=
  (find_isSome p l).1 (by rw [h]; rfl)

theorem find_of_mem {α : Type} {p : Addr} {l : List (Addr × α)} (h : p ∈ l.map Prod.fst) : ∃ a, find p l = some a :=
  Option.isSome_iff_exists.1 ((find_isSome p l).2 h)

theorem find_cons {α : Type} (p q : Addr) (a : α) (l : List (Addr × α)) :
    find p ((q, a) :: l) = if q = p then some a else find p l := rfl

theorem find_release {α : Type} (p q : Addr) (l : List (Addr × α)) :
    find p (release q l) = if p = q then none else find p l := by
  induction l with
  | nil => simp [release, find]
  | cons e l ih =>
    unfold release at ih ⊢
    by_cases h : e.1 = q
    · rw [List.filter_cons_of_neg (by simp [h]), ih, find]
      by_cases h2 : p = q
      · rw [if_pos h2, if_pos h2]
      · rw [if_neg h2, if_neg h2, if_neg (fun h3 => h2 (h3.symm.trans h))]
    · rw [List.filter_cons_of_pos (by simp [h]), find, ih, find]
      by_cases h3 : e.1 = p
      · rw [if_pos h3, if_pos h3, if_neg (fun h4 => h (h3.trans h4))]
      · rw [if_neg h3, if_neg h3]

theorem map_release {α : Type} (q : Addr) (l : List (Addr × α)) :
    (release q l).map Prod.fst = (l.map Prod.fst).filter (fun p => p ≠ q) := by
  rw [List.filter_map, release]
  rfl

theorem map_filter {α : Type} (q : Addr) (l : List (Addr × α)) :
    (l.filter (fun e => e.1 ≠ q)).map Prod.fst = (l.map Prod.fst).filter (fun p => p ≠ q) := map_release q l

theorem passed_cons (p r : Addr) (x : List Addr) (l : List (Addr × List Addr)) :
    passed p ((r, x) :: l) = if r = p then x ++ passed p l else passed p l := by
  unfold passed
  by_cases h : r = p
  · rw [List.filter_cons_of_pos (by simp [h]), if_pos h]; rfl
  · rw [List.filter_cons_of_neg (by simp [h]), if_neg h]

theorem passed_filter (p q : Addr) (l : List (Addr × List Addr)) (h : p ≠ q) :
    passed p (l.filter (fun e => e.1 ≠ q)) = passed p l := by
  unfold passed
  rw [List.filter_filter]
  congr 1
  apply List.filter_congr
  intro e _
  by_cases h1 : e.1 = p
  · simp [h1, h]
  · simp [h1]

theorem mem_passed {p a : Addr} {l : List (Addr × List Addr)} (h : a ∈ passed p l) : ∃ e ∈ l, a ∈ e.2 := by
  unfold passed at h
  rw [List.mem_flatMap] at h
  obtain ⟨e, he, ha⟩ := h
  exact ⟨e, (List.mem_filter.1 he).1, ha⟩

/-- What the program holds matches the memory. -/
structure Sim (st : State) (h : Holds) : Prop where
  strings : st.strings.map Prod.fst = h.strings
  schemas : st.schemas.map Prod.fst = h.schemas.map Prod.fst
  writers : st.writers.map Prod.fst = h.writers.map Prod.fst
  next : 0 < st.next
  freshS : ∀ p ∈ h.strings, 0 < p ∧ p < st.next
  freshC : ∀ p ∈ h.schemas.map Prod.fst, 0 < p ∧ p < st.next
  freshW : ∀ p ∈ h.writers.map Prod.fst, 0 < p ∧ p < st.next
  keptC : ∀ p s, find p st.schemas = some s → s.device ∈ passed p h.schemas ∧ s.measurement ∈ passed p h.schemas
  keptW : ∀ p b, find p st.writers = some b → ∀ a ∈ b.borrowed, a ∈ passed p h.writers
  need : ∀ p, h.Needed p → p ∈ h.strings

theorem sim_start : Sim start Holds.nothing := by
  refine ⟨rfl, rfl, rfl, by decide, ?_, ?_, ?_, ?_, ?_, ?_⟩
  · intro p hp; cases hp
  · intro p hp; cases hp
  · intro p hp; cases hp
  · intro p s hp; cases hp
  · intro p s hp; cases hp
  · rintro p (⟨e, he, _⟩ | ⟨e, he, _⟩) <;> cases he

variable {ce : CEnv} {st : State} {h : Holds}

theorem Sim.newOk (sim : Sim st h) : st.next ≠ 0 ∧ st.next ∉ h.strings ∧ st.next ∉ h.schemas.map Prod.fst
    ∧ st.next ∉ h.writers.map Prod.fst :=
  ⟨Nat.ne_of_gt sim.next, fun hm => Nat.lt_irrefl _ (sim.freshS _ hm).2, fun hm => Nat.lt_irrefl _ (sim.freshC _ hm).2,
    fun hm => Nat.lt_irrefl _ (sim.freshW _ hm).2⟩

theorem Sim.find_string (sim : Sim st h) {p : Addr} (hp : p ∈ h.strings) : ∃ s, find p st.strings = some s :=
  find_of_mem (by rw [sim.strings]; exact hp)

theorem Sim.cstr (sim : Sim st h) {p : Addr} (hp : p = 0 ∨ p ∈ h.strings) :
    cstr st p = .error .abort ∨ (p ∈ h.strings ∧ ∃ s, cstr st p = .ok s) := by
  unfold CApi.cstr
  by_cases h0 : p = 0
  · rw [if_pos h0]; exact Or.inl rfl
  · rcases hp with hp | hp
    · exact absurd hp h0
    · obtain ⟨s, hs⟩ := sim.find_string hp
      rw [if_neg h0, hs]
      exact Or.inr ⟨hp, s, rfl⟩

/-- A call in accordance with the rules: it is aborted, or it returns the pointer it must return, and the relation holds again. -/
def Good (st : State) (h : Holds) (c : CCall) (x : Outcome × State) : Prop :=
  x = (.abort, st) ∨ ∃ r st', x = (.ok r, st') ∧ h.Returns r c ∧ Sim st' (h.after r c)

theorem good_newString (sim : Sim st h) (s : Bytes) : Good st h (.newString s) (step ce st (.newString s)) := by
  refine Or.inr ⟨st.next, _, rfl, sim.newOk, ?_⟩
  refine ⟨?_, sim.schemas, sim.writers, Nat.succ_pos _, ?_, ?_, ?_, sim.keptC, sim.keptW, ?_⟩
  · show st.next :: _ = st.next :: _
    rw [sim.strings]
  · intro p hp
    rcases List.mem_cons.1 hp with rfl | hp
    · exact ⟨sim.next, Nat.lt_succ_self _⟩
    · exact ⟨(sim.freshS _ hp).1, Nat.lt_succ_of_lt (sim.freshS _ hp).2⟩
  · exact fun p hp => ⟨(sim.freshC _ hp).1, Nat.lt_succ_of_lt (sim.freshC _ hp).2⟩
  · exact fun p hp => ⟨(sim.freshW _ hp).1, Nat.lt_succ_of_lt (sim.freshW _ hp).2⟩
  · exact fun p hp => List.mem_cons_of_mem _ (sim.need p hp)

theorem good_freeString (sim : Sim st h) (p : Addr) (hr : h.Allows (.freeString p)) :
    Good st h (.freeString p) (step ce st (.freeString p)) := by
  obtain ⟨s, hs⟩ := sim.find_string hr.1
  refine Or.inr ⟨0, { st with strings := release p st.strings }, by simp only [step, hs], rfl, ?_⟩
  refine ⟨?_, sim.schemas, sim.writers, sim.next, ?_, sim.freshC, sim.freshW, sim.keptC, sim.keptW, ?_⟩
  · show (release p st.strings).map Prod.fst = _
    rw [map_release, sim.strings]
    rfl
  · exact fun q hq => sim.freshS q (List.mem_filter.1 hq).1
  · intro q hq
    refine List.mem_filter.2 ⟨sim.need q hq, ?_⟩
    simp only [ne_eq, decide_not, Bool.not_eq_eq_eq_not, Bool.not_true, decide_eq_false_iff_not]
    rintro rfl
    exact hr.2 hq

theorem good_schemaSimple (sim : Sim st h) (d m : Addr) (x y z : UInt8) (hr : h.Allows (.schemaSimple d m x y z)) :
    Good st h (.schemaSimple d m x y z) (step ce st (.schemaSimple d m x y z)) := by
  show Good st h _ (schemaSimple ce st d m x y z)
  unfold schemaSimple
  rcases sim.cstr hr.1 with hd | ⟨hd, sd, hd'⟩
  · rw [hd]; exact Or.inl rfl
  rcases sim.cstr hr.2 with hm | ⟨hm, sm, hm'⟩
  · rw [hd', hm]; exact Or.inl rfl
  rw [hd', hm']
  dsimp only
  by_cases hu : (ce.utf8 sd && ce.utf8 sm) = true
  · rw [if_pos hu]
    cases TSDataType.tryFrom x with
    | none => exact Or.inl rfl
    | some dt =>
      cases TSEncoding.tryFrom y with
      | none => exact Or.inl rfl
      | some e =>
        cases CompressionType.tryFrom z with
        | none => exact Or.inl rfl
        | some c =>
          refine Or.inr ⟨st.next, _, rfl, sim.newOk, ?_⟩
          refine ⟨sim.strings, ?_, sim.writers, Nat.succ_pos _, ?_, ?_, ?_, ?_, sim.keptW, ?_⟩
          · show st.next :: _ = st.next :: _
            rw [sim.schemas]
          · exact fun p hp => ⟨(sim.freshS _ hp).1, Nat.lt_succ_of_lt (sim.freshS _ hp).2⟩
          · intro p hp
            rcases List.mem_cons.1 hp with rfl | hp
            · exact ⟨sim.next, Nat.lt_succ_self _⟩
            · exact ⟨(sim.freshC _ hp).1, Nat.lt_succ_of_lt (sim.freshC _ hp).2⟩
          · exact fun p hp => ⟨(sim.freshW _ hp).1, Nat.lt_succ_of_lt (sim.freshW _ hp).2⟩
          · intro p s hs
            simp only [find_cons] at hs
            simp only [Holds.after, passed_cons]
            by_cases hp : st.next = p
            · rw [if_pos hp] at hs ⊢
              obtain rfl := Option.some.inj hs
              simp
            · rw [if_neg hp] at hs ⊢
              exact sim.keptC p s hs
          · rintro p (⟨e, he, hp⟩ | he)
            · rcases List.mem_cons.1 he with rfl | he
              · rcases List.mem_cons.1 hp with rfl | hp
                · exact hd
                · rcases List.mem_cons.1 hp with rfl | hp
                  · exact hm
                  · cases hp
              · exact sim.need p (Or.inl ⟨e, he, hp⟩)
            · exact sim.need p (Or.inr he)
  · rw [if_neg hu]; exact Or.inl rfl

theorem good_schemaFree (sim : Sim st h) (s : Addr) (hr : h.Allows (.schemaFree s)) :
    Good st h (.schemaFree s) (step ce st (.schemaFree s)) := by
  show Good st h _ (schemaFree st s)
  unfold schemaFree
  have fin : ∀ st', st' = { st with schemas := release s st.schemas } → Good st h (.schemaFree s) (.ok 0, st') := by
    rintro st' rfl
    refine Or.inr ⟨0, _, rfl, rfl, ?_⟩
    refine ⟨sim.strings, ?_, sim.writers, sim.next, sim.freshS, ?_, sim.freshW, ?_, sim.keptW, ?_⟩
    · show (release s st.schemas).map Prod.fst = (h.schemas.filter (fun e => e.1 ≠ s)).map Prod.fst
      rw [map_release, map_filter, sim.schemas]
    · intro p hp
      simp only [Holds.after, map_filter] at hp
      exact sim.freshC p (List.mem_filter.1 hp).1
    · intro p b hb
      simp only [find_release] at hb
      by_cases hps : p = s
      · rw [if_pos hps] at hb; cases hb
      · rw [if_neg hps] at hb
        simp only [Holds.after, passed_filter p s _ hps]
        exact sim.keptC p b hb
    · rintro p (⟨e, he, hp⟩ | he)
      · exact sim.need p (Or.inl ⟨e, (List.mem_filter.1 he).1, hp⟩)
      · exact sim.need p (Or.inr he)
  by_cases h0 : s = 0
  · rw [if_pos h0]
    apply fin
    have : release s st.schemas = st.schemas := by
      unfold release
      rw [List.filter_eq_self]
      intro e he
      have : 0 < e.1 := (sim.freshC e.1 (by rw [← sim.schemas]; exact List.mem_map_of_mem he)).1
      rw [h0]
      exact decide_eq_true (Nat.ne_of_gt this)
    rw [this]
  · rw [if_neg h0]
    rcases hr with hr | hr
    · exact absurd hr h0
    · obtain ⟨b, hb⟩ := find_of_mem (l := st.schemas) (p := s) (by rw [sim.schemas]; exact hr)
      rw [hb]
      exact fin _ rfl

theorem good_fileWriterNew (sim : Sim st h) (f s : Addr) (hr : h.Allows (.fileWriterNew f s)) :
    Good st h (.fileWriterNew f s) (step ce st (.fileWriterNew f s)) := by
  show Good st h _ (fileWriterNew ce st f s)
  unfold fileWriterNew
  rcases sim.cstr hr.1 with hf | ⟨hf, sf, hf'⟩
  · rw [hf]; exact Or.inl rfl
  rw [hf']
  obtain ⟨b, hb⟩ := find_of_mem (l := st.schemas) (p := s) (by rw [sim.schemas]; exact hr.2)
  rw [hb]
  have hk := sim.keptC s b hb
  obtain ⟨d, hd⟩ := sim.find_string (sim.need _ (Or.inl (mem_passed hk.1)))
  obtain ⟨m, hm⟩ := sim.find_string (sim.need _ (Or.inl (mem_passed hk.2)))
  dsimp only
  rw [hd, hm]
  dsimp only
  by_cases hu : (ce.utf8 sf && ce.canCreate sf) = true
  · rw [if_pos hu]
    cases Writer.new ce.env (Schema.simple d m b.dataType b.encoding b.compression) { bytes := [], cap := none } with
    | error e => exact Or.inl rfl
    | ok w =>
      refine Or.inr ⟨st.next, _, rfl, sim.newOk, ?_⟩
      refine ⟨sim.strings, sim.schemas, ?_, Nat.succ_pos _, ?_, ?_, ?_, sim.keptC, ?_, ?_⟩
      · show st.next :: _ = st.next :: _
        rw [sim.writers]
      · exact fun p hp => ⟨(sim.freshS _ hp).1, Nat.lt_succ_of_lt (sim.freshS _ hp).2⟩
      · exact fun p hp => ⟨(sim.freshC _ hp).1, Nat.lt_succ_of_lt (sim.freshC _ hp).2⟩
      · intro p hp
        rcases List.mem_cons.1 hp with rfl | hp
        · exact ⟨sim.next, Nat.lt_succ_self _⟩
        · exact ⟨(sim.freshW _ hp).1, Nat.lt_succ_of_lt (sim.freshW _ hp).2⟩
      · intro p c hc a ha
        simp only [find_cons] at hc
        simp only [Holds.after, passed_cons]
        by_cases hp : st.next = p
        · rw [if_pos hp] at hc ⊢
          obtain rfl := Option.some.inj hc
          rcases List.mem_cons.1 ha with rfl | ha
          · exact List.mem_append_left _ hk.1
          · rcases List.mem_cons.1 ha with rfl | ha
            · exact List.mem_append_left _ hk.2
            · cases ha
        · rw [if_neg hp] at hc ⊢
          exact sim.keptW p c hc a ha
      · rintro p (he | ⟨e, he, hp⟩)
        · exact sim.need p (Or.inl he)
        · rcases List.mem_cons.1 he with rfl | he
          · exact sim.need p (Or.inl (mem_passed hp))
          · exact sim.need p (Or.inr ⟨e, he, hp⟩)
  · rw [if_neg hu]; exact Or.inl rfl

theorem Sim.borrowed (sim : Sim st h) {p : Addr} {b : WriterBox} (hb : find p st.writers = some b) :
    b.borrowed.all (fun q => (find q st.strings).isSome) = true := by
  rw [List.all_eq_true]
  intro a ha
  rw [find_isSome, sim.strings]
  exact sim.need a (Or.inr (mem_passed (sim.keptW p b hb a ha)))

theorem good_write (sim : Sim st h) (w d m : Addr) (t : W64) (v : W32) (hr : h.Allows (.fileWriterWriteInt32 w d m t v)) :
    Good st h (.fileWriterWriteInt32 w d m t v) (step ce st (.fileWriterWriteInt32 w d m t v)) := by
  show Good st h _ (fileWriterWriteInt32 ce st w d m t v)
  unfold fileWriterWriteInt32
  by_cases h0 : w = 0
  · rw [if_pos h0]; exact Or.inl rfl
  rw [if_neg h0]
  rcases sim.cstr hr.2.1 with hd | ⟨hd, sd, hd'⟩
  · rw [hd]; exact Or.inl rfl
  rcases sim.cstr hr.2.2 with hm | ⟨hm, sm, hm'⟩
  · rw [hd', hm]; exact Or.inl rfl
  rw [hd', hm']
  have hw : w ∈ h.writers.map Prod.fst := by
    rcases hr.1 with hr | hr
    · exact absurd hr h0
    · exact hr
  obtain ⟨b, hb⟩ := find_of_mem (l := st.writers) (p := w) (by rw [sim.writers]; exact hw)
  rw [hb]
  dsimp only
  by_cases hu : (ce.utf8 sd && ce.utf8 sm) = true
  · rw [if_pos hu, if_pos (sim.borrowed hb)]
    rcases b.writer.write ce.env sd sm t (.INT v) with ⟨w', r⟩
    cases r with
    | ok u =>
      refine Or.inr ⟨w, _, rfl, rfl, ?_⟩
      refine ⟨sim.strings, sim.schemas, ?_, sim.next, sim.freshS, sim.freshC, ?_, sim.keptC, ?_, ?_⟩
      · show w :: (release w st.writers).map Prod.fst = w :: (h.writers.filter (fun e => e.1 ≠ w)).map Prod.fst
        rw [map_release, map_filter, sim.writers]
      · intro p hp
        simp only [Holds.after, List.map_cons, map_filter] at hp
        rcases List.mem_cons.1 hp with rfl | hp
        · exact sim.freshW p hw
        · exact sim.freshW p (List.mem_filter.1 hp).1
      · intro p c hc a ha
        simp only [List.cons_append, List.nil_append, find_cons, find_release] at hc
        simp only [Holds.after, passed_cons]
        by_cases hp : w = p
        · subst hp
          rw [if_pos rfl] at hc ⊢
          obtain rfl := Option.some.inj hc
          apply List.mem_append_left
          dsimp only at ha
          split at ha
          · rcases List.mem_append.1 ha with ha | ha
            · exact List.mem_append_left _ (sim.keptW w b hb a ha)
            · exact List.mem_append_right _ ha
          · exact List.mem_append_left _ (sim.keptW w b hb a ha)
        · rw [if_neg hp, if_neg (fun h => hp h.symm)] at hc
          rw [if_neg hp, passed_filter p w _ (fun h => hp h.symm)]
          exact sim.keptW p c hc a ha
      · rintro p (he | ⟨e, he, hp⟩)
        · exact sim.need p (Or.inl he)
        · rcases List.mem_cons.1 he with rfl | he
          · rcases List.mem_append.1 hp with hp | hp
            · exact sim.need p (Or.inr (mem_passed hp))
            · obtain rfl := List.mem_singleton.1 hp
              exact hm
          · exact sim.need p (Or.inr ⟨e, (List.mem_filter.1 he).1, hp⟩)
    | _ => exact Or.inl rfl
  · rw [if_neg hu]; exact Or.inl rfl

theorem good_close (sim : Sim st h) (w : Addr) (hr : h.Allows (.fileWriterClose w)) :
    Good st h (.fileWriterClose w) (step ce st (.fileWriterClose w)) := by
  show Good st h _ (fileWriterClose ce st w)
  unfold fileWriterClose
  have fin : ∀ st' fs, st' = { st with writers := release w st.writers, files := fs } →
      Good st h (.fileWriterClose w) (.ok 0, st') := by
    rintro st' fs rfl
    refine Or.inr ⟨0, _, rfl, rfl, ?_⟩
    refine ⟨sim.strings, sim.schemas, ?_, sim.next, sim.freshS, sim.freshC, ?_, sim.keptC, ?_, ?_⟩
    · show (release w st.writers).map Prod.fst = (h.writers.filter (fun e => e.1 ≠ w)).map Prod.fst
      rw [map_release, map_filter, sim.writers]
    · intro p hp
      simp only [Holds.after, map_filter] at hp
      exact sim.freshW p (List.mem_filter.1 hp).1
    · intro p b hb
      simp only [find_release] at hb
      by_cases hps : p = w
      · rw [if_pos hps] at hb; cases hb
      · rw [if_neg hps] at hb
        simp only [Holds.after, passed_filter p w _ hps]
        exact sim.keptW p b hb
    · rintro p (he | ⟨e, he, hp⟩)
      · exact sim.need p (Or.inl he)
      · exact sim.need p (Or.inr ⟨e, (List.mem_filter.1 he).1, hp⟩)
  by_cases h0 : w = 0
  · rw [if_pos h0]
    apply fin _ st.files
    have : release w st.writers = st.writers := by
      unfold release
      rw [List.filter_eq_self]
      intro e he
      have : 0 < e.1 := (sim.freshW e.1 (by rw [← sim.writers]; exact List.mem_map_of_mem he)).1
      rw [h0]
      exact decide_eq_true (Nat.ne_of_gt this)
    rw [this]
  · rw [if_neg h0]
    rcases hr with hr | hr
    · exact absurd hr h0
    · obtain ⟨b, hb⟩ := find_of_mem (l := st.writers) (p := w) (by rw [sim.writers]; exact hr)
      rw [hb]
      dsimp only
      rw [if_pos (sim.borrowed hb)]
      cases b.writer.close ce.env with
      | none => exact Or.inl rfl
      | some w' => exact fin _ _ rfl

theorem good (sim : Sim st h) (c : CCall) (hr : h.Allows c) : Good st h c (step ce st c) := by
  cases c with
  | newString s => exact good_newString sim s
  | freeString p => exact good_freeString sim p hr
  | schemaSimple d m x y z => exact good_schemaSimple sim d m x y z hr
  | schemaFree s => exact good_schemaFree sim s hr
  | fileWriterNew f s => exact good_fileWriterNew sim f s hr
  | fileWriterWriteInt32 w d m t v => exact good_write sim w d m t v hr
  | fileWriterClose w => exact good_close sim w hr

theorem run_good (ce : CEnv) (cs : List CCall) : ∀ (st : State) (h : Holds), Sim st h → Obeys h cs (run ce st cs).1 →
    Behaves h cs (run ce st cs).1 ∧ Sim (run ce st cs).2 (held h cs (run ce st cs).1) := by
  induction cs with
  | nil => intro st h sim _; exact ⟨rfl, sim⟩
  | cons c cs ih =>
    intro st h sim ho
    have hal : h.Allows c := by
      revert ho
      cases (run ce st (c :: cs)).1 with
      | nil => exact id
      | cons o os => cases o with
        | ok r => exact And.left
        | abort => exact id
        | ub => exact id
    rcases good (ce := ce) sim c hal with hg | ⟨r, st', hg, hret, sim'⟩
    · rw [run, hg]
      exact ⟨rfl, sim⟩
    · rw [run, hg] at ho ⊢
      obtain ⟨h1, h2⟩ := ih st' (h.after r c) sim' ho.2
      exact ⟨⟨hret, h1⟩, h2⟩

end TsFile.CApi
