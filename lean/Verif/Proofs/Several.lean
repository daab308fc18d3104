import Verif.Spec.Several
import Verif.Spec.Stream
/-! # Proofs about several writers -/

namespace TsFile.Several
open Spec

theorem logging_faithful : Faithful logging List.flatten where
  stores :=
    { ok := fun s b n h => by
        simp only [logging, Except.ok.injEq] at h
        subst h
        exact ⟨Nat.le_refl _, by simp [logging]⟩
      error := fun s b e h => by simp [logging] at h }
  flush := fun _ => rfl
  all := fun w b => by
    cases b with
    | nil => exact ⟨w, by rw [WriteWrapper.writeAll.eq_def]; rfl⟩
    | cons x b =>
      refine ⟨⟨w.position + BitVec.ofNat 64 (b.length + 1), w.writer ++ [x :: b]⟩, ?_⟩
      rw [WriteWrapper.writeAll.eq_def]
      simp only [logging, WriteWrapper.write, List.isEmpty_cons, List.length_cons, Bool.false_eq_true, if_false]
      rw [WriteWrapper.writeAll.eq_def]
      simp
  small := fun _ _ _ _ => rfl

theorem overwrite_end (c b : Bytes) : overwrite c c.length b = c ++ b := by
  rw [overwrite]
  split
  · simp_all
  · simp

/-- Of those who have the file at `l` open, only `i` goes on. -/
def Free (i : Nat) (l : Loc) (st : State) (evs : List Event) : Prop :=
  ∀ j, j ≠ i → ∀ h, st.handles j = some h → h.place = l → eventsOf j evs = []

theorem eventsOf_cons_nil {j : Nat} {e : Event} {evs : List Event} (h : eventsOf j (e :: evs) = []) :
    e.who ≠ j ∧ eventsOf j evs = [] := by
  rw [eventsOf] at h
  by_cases hj : e.who = j
  · rw [List.filter_cons_of_pos (by simpa using hj)] at h
    cases h
  · rw [List.filter_cons_of_neg (by simpa using hj)] at h
    exact ⟨hj, h⟩

theorem step_free {i : Nat} {l : Loc} {st : State} {e : Event} {evs : List Event} (hf : Free i l st (e :: evs))
    (he : ∀ j, j ≠ i → e ≠ .create j l) : Free i l (step st e) evs := by
  intro j hj h hh hl
  cases e with
  | create k l' =>
    simp only [step] at hh
    split at hh
    · rename_i hjk
      subst hjk
      injection hh with hh
      subst hh
      dsimp only at hl
      exact absurd (by rw [hl]) (he j hj)
    · exact (eventsOf_cons_nil (hf j hj h hh hl)).2
  | write k b =>
    rw [step] at hh
    cases hk : st.handles k with
    | none => rw [hk] at hh; exact (eventsOf_cons_nil (hf j hj h hh hl)).2
    | some g =>
      rw [hk] at hh
      dsimp only at hh
      split at hh
      · rename_i hjk
        subst hjk
        injection hh with hh
        subst hh
        exact (eventsOf_cons_nil (hf j hj g hk hl)).2
      · exact (eventsOf_cons_nil (hf j hj h hh hl)).2

/-- What another writer does leaves the file and the handle alone. -/
theorem step_other {i : Nat} {l : Loc} {st : State} {e : Event} {evs : List Event} (hf : Free i l st (e :: evs))
    (he : ∀ j, j ≠ i → e ≠ .create j l) (hw : e.who ≠ i) :
    (step st e).files l = st.files l ∧ (step st e).handles i = st.handles i := by
  cases e with
  | create k l' =>
    have hk : k ≠ i := hw
    have hl : l ≠ l' := fun h => he k hk (by rw [h])
    exact ⟨if_neg hl, if_neg hk.symm⟩
  | write k b =>
    have hk : k ≠ i := hw
    rw [step]
    cases hg : st.handles k with
    | none => exact ⟨rfl, rfl⟩
    | some g =>
      have hl : g.place ≠ l := fun h => (eventsOf_cons_nil (hf k hk g hg h)).1 rfl
      exact ⟨if_neg hl.symm, if_neg hk.symm⟩

/-- Running with the file open: it grows by what `i` writes. -/
theorem run_open {i : Nat} {l : Loc} (evs : List Event) (pieces : List Bytes) (c : Bytes) (st : State) (hf : Free i l st evs)
    (ha : Alone i l evs) (hfile : st.files l = some c) (hh : st.handles i = some ⟨l, c.length⟩)
    (hw : eventsOf i evs = pieces.map (.write i)) : (run st evs).files l = some (c ++ pieces.flatten) := by
  induction evs generalizing pieces c st with
  | nil =>
    cases pieces with
    | nil => simpa [run] using hfile
    | cons b bs => simp [eventsOf] at hw
  | cons e evs ih =>
    have he : ∀ j, j ≠ i → e ≠ .create j l := fun j hj h => ha j hj (by rw [h]; exact List.mem_cons_self)
    have ha' : Alone i l evs := fun j hj h => ha j hj (List.mem_cons_of_mem _ h)
    have hf' := step_free hf he
    rw [run, List.foldl_cons]
    by_cases hi : e.who = i
    · rw [eventsOf, List.filter_cons_of_pos (by simpa using hi)] at hw
      cases pieces with
      | nil => cases hw
      | cons b bs =>
        rw [List.map_cons, List.cons.injEq] at hw
        obtain ⟨rfl, hw⟩ := hw
        have := ih bs (c ++ b) _ hf' ha' (by
            rw [step, hh]
            simp only [if_true, hfile, Option.getD_some, overwrite_end]) (by
            rw [step, hh]
            simp only [if_true, List.length_append]) hw
        rw [run] at this
        rw [this, List.flatten_cons, List.append_assoc]
    · obtain ⟨h1, h2⟩ := step_other hf he hi
      rw [eventsOf, List.filter_cons_of_neg (by simpa using hi)] at hw
      exact ih pieces c _ hf' ha' (by rw [h1, hfile]) (by rw [h2, hh]) hw

/-- Running before the file is opened. -/
theorem run_works {i : Nat} {l : Loc} (evs : List Event) (pieces : List Bytes) (st : State) (hf : Free i l st evs)
    (ha : Alone i l evs) (hw : Works i l pieces evs) : (run st evs).files l = some pieces.flatten := by
  induction evs generalizing st with
  | nil => simp [Works, eventsOf] at hw
  | cons e evs ih =>
    have he : ∀ j, j ≠ i → e ≠ .create j l := fun j hj h => ha j hj (by rw [h]; exact List.mem_cons_self)
    have ha' : Alone i l evs := fun j hj h => ha j hj (List.mem_cons_of_mem _ h)
    have hf' := step_free hf he
    rw [run, List.foldl_cons]
    by_cases hi : e.who = i
    · rw [Works, eventsOf, List.filter_cons_of_pos (by simpa using hi), List.cons.injEq] at hw
      obtain ⟨rfl, hw⟩ := hw
      have := run_open evs pieces [] _ hf' ha' (by simp [step]) (by simp [step]) hw
      simpa [run] using this
    · rw [Works, eventsOf, List.filter_cons_of_neg (by simpa using hi)] at hw
      exact ih _ hf' ha' hw

/-- As long as `i` has done nothing, the file is as it was. -/
theorem run_idle {i : Nat} {l : Loc} (evs : List Event) (st : State) (hf : Free i l st evs) (ha : Alone i l evs)
    (hw : eventsOf i evs = []) : (run st evs).files l = st.files l := by
  induction evs generalizing st with
  | nil => rfl
  | cons e evs ih =>
    have he : ∀ j, j ≠ i → e ≠ .create j l := fun j hj h => ha j hj (by rw [h]; exact List.mem_cons_self)
    have ha' : Alone i l evs := fun j hj h => ha j hj (List.mem_cons_of_mem _ h)
    rw [run, List.foldl_cons]
    by_cases hi : e.who = i
    · rw [eventsOf, List.filter_cons_of_pos (by simpa using hi)] at hw
      cases hw
    · rw [eventsOf, List.filter_cons_of_neg (by simpa using hi)] at hw
      have := ih _ (step_free hf he) ha' hw
      rw [run] at this
      rw [this, (step_other hf he hi).1]

/-- A beginning of a schedule: `i` has done nothing yet, or it has opened the file and written a beginning of its pieces. -/
theorem works_take {i : Nat} {l : Loc} {evs : List Event} {pieces : List Bytes} (hw : Works i l pieces evs) (k : Nat) :
    eventsOf i (evs.take k) = [] ∨ ∃ n, Works i l (pieces.take n) (evs.take k) := by
  have hpre : eventsOf i (evs.take k) <+: eventsOf i evs := by
    obtain ⟨t, ht⟩ := List.take_prefix k evs
    refine ⟨eventsOf i t, ?_⟩
    rw [eventsOf, eventsOf, eventsOf, ← List.filter_append, ht]
  rw [hw] at hpre
  cases hc : eventsOf i (evs.take k) with
  | nil => exact .inl rfl
  | cons e es =>
    right
    rw [hc, List.cons_prefix_cons] at hpre
    obtain ⟨rfl, hp⟩ := hpre
    refine ⟨es.length, ?_⟩
    rw [Works, hc, List.map_take]
    congr 1
    exact List.prefix_iff_eq_take.1 hp

theorem overwrite_twice (c : Bytes) (p : Nat) (a b : Bytes) :
    overwrite (overwrite c p a) (p + a.length) b = overwrite c p (a ++ b) := by
  by_cases ha : a = []
  · subst ha; simp [overwrite]
  by_cases hb : b = []
  · subst hb; simp [overwrite]
  have hab : a ++ b ≠ [] := fun h => ha (List.append_eq_nil_iff.1 h).1
  rw [overwrite, overwrite, overwrite, if_neg ha, if_neg hb, if_neg hab]
  have hx : (c.take p ++ List.replicate (p - c.length) 0).length = p := by
    rw [List.length_append, List.length_take, List.length_replicate]
    omega
  have hxa : (c.take p ++ List.replicate (p - c.length) 0 ++ a).length = p + a.length := by rw [List.length_append, hx]
  generalize hX : c.take p ++ List.replicate (p - c.length) (0 : UInt8) = X at *
  have h1 : (X ++ a ++ c.drop (p + a.length)).take (p + a.length) = X ++ a := by
    rw [← hxa, List.take_left]
  have h2 : p + a.length - (X ++ a ++ c.drop (p + a.length)).length = 0 := by
    rw [List.length_append, hxa]
    omega
  have h3 : (X ++ a ++ c.drop (p + a.length)).drop (p + a.length + b.length) = c.drop (p + (a ++ b).length) := by
    rw [List.drop_append, hxa, List.drop_eq_nil_of_le (by omega), List.nil_append, List.drop_drop, List.length_append]
    congr 1
    omega
  rw [h1, h2, h3]
  simp

theorem overwrite_front (c b : Bytes) : overwrite c 0 b = b ++ c.drop b.length := by
  rw [overwrite]
  split <;> simp_all

/-- Some calls in a row by one writer. -/
theorem run_writes {i : Nat} {h : Handle} (ps : List Bytes) (st : State) (hh : st.handles i = some h)
    (hf : (st.files h.place).isSome = true) :
    (run st (ps.map (.write i))).files h.place = (st.files h.place).map (fun c => overwrite c h.pos ps.flatten)
    ∧ (run st (ps.map (.write i))).handles i = some ⟨h.place, h.pos + ps.flatten.length⟩
    ∧ ∀ j, j ≠ i → (run st (ps.map (.write i))).handles j = st.handles j := by
  induction ps generalizing st h with
  | nil =>
    refine ⟨?_, by simpa [run] using hh, fun _ _ => rfl⟩
    cases hc : st.files h.place <;> simp [run, hc, overwrite]
  | cons b ps ih =>
    have e1 : (step st (.write i b)).handles i = some ⟨h.place, h.pos + b.length⟩ := by rw [step, hh]; simp
    have e2 : (step st (.write i b)).files h.place = (st.files h.place).map (fun c => overwrite c h.pos b) := by
      rw [step, hh]
      cases hc : st.files h.place with
      | none => rw [hc] at hf; cases hf
      | some c => simp [hc]
    have e3 : ∀ j, j ≠ i → (step st (.write i b)).handles j = st.handles j := by
      intro j hj
      rw [step, hh]
      simp [hj]
    obtain ⟨h1, h2, h3⟩ := ih (h := ⟨h.place, h.pos + b.length⟩) (step st (.write i b)) e1 (by dsimp only; rw [e2]; simpa using hf)
    dsimp only at h1 h2
    rw [List.map_cons, run, List.foldl_cons]
    rw [run] at h1 h2 h3
    refine ⟨?_, ?_, fun j hj => by rw [h3 j hj, e3 j hj]⟩
    · rw [h1, e2, Option.map_map, List.flatten_cons]
      congr 1
      funext c
      exact overwrite_twice c h.pos b ps.flatten
    · rw [h2, List.flatten_cons, List.length_append, Nat.add_assoc]

theorem run_append (st : State) (a b : List Event) : run st (a ++ b) = run (run st a) b := by rw [run, List.foldl_append]; rfl

end TsFile.Several
