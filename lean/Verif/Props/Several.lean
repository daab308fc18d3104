import Verif.Props.Stream
import Verif.Props.Unfinished
import Verif.Proofs.Several
/-! # C94: writers that work at the same time

The schedules are lists of system calls (`Model/Several.lean`): between any two system calls of a writer others may come. -/

namespace TsFile
open Spec Several

variable {unsnap : Bytes → Option Bytes}

/-- What a session writes, call by call, put together is its file. -/
theorem C94_calls {env : Env} {schema : Schema} {ops : List Op} {s : Session} (hs : session env schema ops = some s)
    (hl : s.file.length < 2 ^ 64) : ∃ pieces, sessionWrites env schema ops = some pieces ∧ pieces.flatten = s.file := by
  obtain ⟨w, w', h1, _, h3, h4⟩ := C73_file logging_faithful (s0 := []) rfl hs hl
  refine ⟨w'.io.out.writer, ?_, h4⟩
  rw [sessionWrites, h1]
  simp only [h3, Option.map_some]

/-- **C94** (1). Writers on different files, in any number, and any schedule: in the end every file is what it would be if its writer
had been alone, and all other files are as they were. Missing: writers on the same file, see `C94_same_wrong`. -/
theorem C94_together_partial {jobs : List Job} {evs : List Event} (hs : ∀ j ∈ jobs, session j.env j.schema j.ops = some j.alone)
    (hl : ∀ j ∈ jobs, j.alone.file.length < 2 ^ 64) (hplaces : (jobs.map Job.place).Nodup) (hevs : Schedule jobs evs)
    {st : State} (hst : ∀ i, st.handles i = none) :
    (∀ j ∈ jobs, (run st evs).files j.place = some j.alone.file)
    ∧ ∀ l, (∀ j ∈ jobs, j.place ≠ l) → (run st evs).files l = st.files l := by
  have hfree : ∀ i l, Free i l st evs := fun i l j _ h hh => by rw [hst j] at hh; cases hh
  have hcreate : ∀ i l, .create i l ∈ evs → ∃ job, jobs[i]? = some job ∧ job.place = l := by
    intro i l hmem
    have hi : i < jobs.length := hevs.2 _ hmem
    refine ⟨jobs[i], by rw [List.getElem?_eq_getElem hi], ?_⟩
    obtain ⟨pieces, _, hw⟩ := hevs.1 i jobs[i] (by rw [List.getElem?_eq_getElem hi])
    have : .create i l ∈ eventsOf i evs := List.mem_filter.2 ⟨hmem, by simp [Event.who]⟩
    rw [hw, List.mem_cons, List.mem_map] at this
    rcases this with h | ⟨b, _, h⟩
    · injection h with _ h
      exact h.symm
    · cases h
  constructor
  · intro j hj
    obtain ⟨i, hi, rfl⟩ := List.getElem_of_mem hj
    obtain ⟨pieces, hp, hw⟩ := hevs.1 i jobs[i] (by rw [List.getElem?_eq_getElem hi])
    obtain ⟨pieces', hp', hflat⟩ := C94_calls (hs _ hj) (hl _ hj)
    rw [hp, Option.some.injEq] at hp'
    subst hp'
    rw [run_works evs pieces st (hfree _ _) (fun k hk hmem => ?_) hw, hflat]
    obtain ⟨job, hjob, hplace⟩ := hcreate k _ hmem
    obtain ⟨hk', rfl⟩ := List.getElem?_eq_some_iff.1 hjob
    apply hk
    exact (List.getElem_inj (i := k) (j := i) (h₀ := by simpa using hk') (h₁ := by simpa using hi) hplaces).1 (by simpa using hplace)
  · intro l hne
    have ha : Alone jobs.length l evs := by
      intro k _ hmem
      obtain ⟨job, hjob, hplace⟩ := hcreate k l hmem
      exact hne job (List.mem_of_getElem? hjob) hplace
    refine run_idle evs st (hfree jobs.length l) ha ?_
    rw [eventsOf, List.filter_eq_nil_iff]
    intro e he
    have := hevs.2 e he
    simp only [decide_eq_true_eq]
    omega

/-- **C94** (2). One writer among others that do anything with other files. `pieces` is its output, however it was cut; the others may have
opened the same file before, if they write no more. At every moment the file is as it was before, or it is a beginning of what it
will be: so a crash leaves a beginning of the file, and what C72 and C93 say about those holds. In the end it is the whole file. -/
theorem C94_any_time_partial {i : Nat} {l : Loc} {s : Session} {pieces : List Bytes} (hp : pieces.flatten = s.file) {evs : List Event}
    (hw : Works i l pieces evs) (ha : Alone i l evs) {st : State}
    (hst : ∀ j, j ≠ i → ∀ h, st.handles j = some h → h.place = l → eventsOf j evs = []) :
    (run st evs).files l = some s.file
    ∧ ∀ k, (run st (evs.take k)).files l = st.files l ∨ ∃ left, (run st (evs.take k)).files l = some left ∧ left <+: s.file := by
  refine ⟨by rw [run_works evs pieces st hst ha hw, hp], fun k => ?_⟩
  have ha' : Alone i l (evs.take k) := fun j hj h => ha j hj (List.mem_of_mem_take h)
  have hst' : Free i l st (evs.take k) := fun j hj h hh hpl => by
    have := hst j hj h hh hpl
    rw [eventsOf, List.filter_eq_nil_iff] at this ⊢
    exact fun e he => this e (List.mem_of_mem_take he)
  rcases works_take hw k with h | ⟨n, h⟩
  · exact .inl (run_idle _ st hst' ha' h)
  · refine .inr ⟨_, run_works _ _ st hst' ha' h, ?_⟩
    rw [← hp]
    obtain ⟨t, ht⟩ := List.take_prefix n pieces
    exact ⟨t.flatten, by rw [← List.flatten_append, ht]⟩

namespace Demo

/-- One point, for the schema of `trapOps`. -/
def smallOps : List Op := [.write (str "root.d") (str "s") 9 (.LONG 5)]

def smallResult : Session := (session Demo.env trapSchema smallOps).getD ⟨[], [], 0, []⟩

theorem small_eq : session Demo.env trapSchema smallOps = some smallResult := by
  have : (session Demo.env trapSchema smallOps).isSome = true := by decide +kernel
  rw [smallResult]
  cases h : session Demo.env trapSchema smallOps with
  | none => rw [h] at this; simp at this
  | some s => rfl

def trapWrites : List Bytes := (sessionWrites Demo.env trapSchema trapOps).getD []
def smallWrites : List Bytes := (sessionWrites Demo.env trapSchema smallOps).getD []

/-- Two writers, each with a file. -/
def jobs (l l' : Loc) : List Job := [⟨Demo.env, l, trapSchema, trapOps, trapResult⟩, ⟨Demo.env, l', trapSchema, smallOps, smallResult⟩]

/-- Both open their files, then the first writes, then the second. -/
def oneByOne (l l' : Loc) : List Event := [.create 0 l, .create 1 l'] ++ trapWrites.map (.write 0) ++ smallWrites.map (.write 1)

/-- Both open their files, then the second writes, then the first. -/
def otherWay (l l' : Loc) : List Event := [.create 0 l, .create 1 l'] ++ smallWrites.map (.write 1) ++ trapWrites.map (.write 0)

/-- Both open their files, the second writes 20 times, then the first, and at last the rest of the second. -/
def mixed (l l' : Loc) : List Event :=
  [.create 1 l', .create 0 l] ++ (smallWrites.take 20).map (.write 1) ++ trapWrites.map (.write 0) ++ (smallWrites.drop 20).map (.write 1)

theorem trapWrites_eq : sessionWrites Demo.env trapSchema trapOps = some trapWrites ∧ trapWrites.flatten = trapResult.file := by
  obtain ⟨p, h1, h2⟩ := C94_calls trap_eq (by decide +kernel)
  rw [trapWrites, h1]
  exact ⟨rfl, h2⟩

theorem smallWrites_eq : sessionWrites Demo.env trapSchema smallOps = some smallWrites ∧ smallWrites.flatten = smallResult.file := by
  obtain ⟨p, h1, h2⟩ := C94_calls small_eq (by decide +kernel)
  rw [smallWrites, h1]
  exact ⟨rfl, h2⟩

theorem eventsOf_map (i j : Nat) (ps : List Bytes) :
    eventsOf i (ps.map (Event.write j)) = if j = i then ps.map (.write j) else [] := by
  rw [eventsOf]
  split
  · rw [List.filter_eq_self]
    simp_all [Event.who]
  · rw [List.filter_eq_nil_iff]
    simp_all [Event.who]

theorem schedule_of {l l' : Loc} {evs : List Event} (h0 : Works 0 l trapWrites evs) (h1 : Works 1 l' smallWrites evs)
    (hlt : ∀ e ∈ evs, e.who < 2) : Schedule (jobs l l') evs := by
  refine ⟨fun i job h => ?_, hlt⟩
  match i with
  | 0 =>
    injection h with h
    subst h
    exact ⟨_, trapWrites_eq.1, h0⟩
  | 1 =>
    injection h with h
    subst h
    exact ⟨_, smallWrites_eq.1, h1⟩
  | i + 2 => cases h

theorem oneByOne_ok (l l' : Loc) : Schedule (jobs l l') (oneByOne l l') := by
  refine schedule_of ?_ ?_ ?_
  · have h := eventsOf_map 0 0 trapWrites
    have h' := eventsOf_map 0 1 smallWrites
    rw [eventsOf] at h h'
    rw [Works, eventsOf, oneByOne, List.filter_append, List.filter_append, h, h']
    simp [Event.who]
  · have h := eventsOf_map 1 0 trapWrites
    have h' := eventsOf_map 1 1 smallWrites
    rw [eventsOf] at h h'
    rw [Works, eventsOf, oneByOne, List.filter_append, List.filter_append, h, h']
    simp [Event.who]
  · intro e he
    simp only [oneByOne, List.mem_append, List.mem_cons, List.not_mem_nil, or_false, List.mem_map] at he
    rcases he with ((rfl | rfl) | ⟨b, _, rfl⟩) | ⟨b, _, rfl⟩ <;> simp [Event.who]

theorem otherWay_ok (l l' : Loc) : Schedule (jobs l l') (otherWay l l') := by
  refine schedule_of ?_ ?_ ?_
  · have h := eventsOf_map 0 0 trapWrites
    have h' := eventsOf_map 0 1 smallWrites
    rw [eventsOf] at h h'
    rw [Works, eventsOf, otherWay, List.filter_append, List.filter_append, h, h']
    simp [Event.who]
  · have h := eventsOf_map 1 0 trapWrites
    have h' := eventsOf_map 1 1 smallWrites
    rw [eventsOf] at h h'
    rw [Works, eventsOf, otherWay, List.filter_append, List.filter_append, h, h']
    simp [Event.who]
  · intro e he
    simp only [otherWay, List.mem_append, List.mem_cons, List.not_mem_nil, or_false, List.mem_map] at he
    rcases he with ((rfl | rfl) | ⟨b, _, rfl⟩) | ⟨b, _, rfl⟩ <;> simp [Event.who]

theorem mixed_ok (l l' : Loc) : Schedule (jobs l l') (mixed l l') := by
  refine schedule_of ?_ ?_ ?_
  · have h := eventsOf_map 0 0 trapWrites
    have h' := eventsOf_map 0 1 (smallWrites.take 20)
    have h'' := eventsOf_map 0 1 (smallWrites.drop 20)
    rw [eventsOf] at h h' h''
    rw [Works, eventsOf, mixed, List.filter_append, List.filter_append, List.filter_append, h, h', h'']
    simp [Event.who]
  · have h := eventsOf_map 1 0 trapWrites
    have h' := eventsOf_map 1 1 (smallWrites.take 20)
    have h'' := eventsOf_map 1 1 (smallWrites.drop 20)
    rw [eventsOf] at h h' h''
    rw [Works, eventsOf, mixed, List.filter_append, List.filter_append, List.filter_append, h, h', h'']
    simp only [Event.who, if_true, List.filter_cons, List.filter_nil]
    simp
  · intro e he
    simp only [mixed, List.mem_append, List.mem_cons, List.not_mem_nil, or_false, List.mem_map] at he
    rcases he with (((rfl | rfl) | ⟨b, _, rfl⟩) | ⟨b, _, rfl⟩) | ⟨b, _, rfl⟩ <;> simp [Event.who]

/-- Nothing is there, and nothing is open. -/
def nothing : State := ⟨fun _ => none, fun _ => none⟩

theorem oneByOne_file (l : Loc) : (run nothing (oneByOne l l)).files l
    = some (smallResult.file ++ trapResult.file.drop smallResult.file.length) := by
  rw [oneByOne, Several.run_append, Several.run_append]
  obtain ⟨h1, _, h3⟩ := run_writes (i := 0) (h := ⟨l, 0⟩) trapWrites (run nothing [.create 0 l, .create 1 l]) (by simp [run, step])
    (by simp [run, step])
  have h2 := h3 1 (by decide)
  obtain ⟨h4, _, _⟩ := run_writes (i := 1) (h := ⟨l, 0⟩) smallWrites _ (h2.trans (by simp [run, step])) (by rw [h1]; simp [run, step])
  rw [h4, h1, trapWrites_eq.2, smallWrites_eq.2]
  simp [run, step, overwrite_front]

theorem otherWay_file (l : Loc) : (run nothing (otherWay l l)).files l
    = some (trapResult.file ++ smallResult.file.drop trapResult.file.length) := by
  rw [otherWay, Several.run_append, Several.run_append]
  obtain ⟨h1, _, h3⟩ := run_writes (i := 1) (h := ⟨l, 0⟩) smallWrites (run nothing [.create 0 l, .create 1 l]) (by simp [run, step])
    (by simp [run, step])
  have h2 := h3 0 (by decide)
  obtain ⟨h4, _, _⟩ := run_writes (i := 0) (h := ⟨l, 0⟩) trapWrites _ (h2.trans (by simp [run, step])) (by rw [h1]; simp [run, step])
  rw [h4, h1, trapWrites_eq.2, smallWrites_eq.2]
  simp [run, step, overwrite_front]

theorem jobs_session (l l' : Loc) : ∀ j ∈ jobs l l', session j.env j.schema j.ops = some j.alone := by
  simp only [jobs, List.mem_cons, List.not_mem_nil, or_false, forall_eq_or_imp, forall_eq]
  exact ⟨trap_eq, small_eq⟩

theorem jobs_ok (l l' : Loc) : ∀ j ∈ jobs l l', ∀ r ∈ j.alone.results, r = .ok () := by
  have h1 : ∀ r ∈ trapResult.results, r = .ok () := by decide +kernel
  have h2 : ∀ r ∈ smallResult.results, r = .ok () := by decide +kernel
  rw [jobs, List.forall_mem_cons, List.forall_mem_singleton]
  exact ⟨h1, h2⟩

theorem jobs_length (l l' : Loc) : ∀ j ∈ jobs l l', j.alone.file.length < 2 ^ 64 := by
  have h1 : trapResult.file.length < 2 ^ 64 := by decide +kernel
  have h2 : smallResult.file.length < 2 ^ 64 := by decide +kernel
  rw [jobs, List.forall_mem_cons, List.forall_mem_singleton]
  exact ⟨h1, h2⟩

theorem jobs_place (l : Loc) : ∀ j ∈ jobs l l, j.place = l := by
  rw [jobs, List.forall_mem_cons, List.forall_mem_singleton]
  exact ⟨rfl, rfl⟩

end Demo

/-- Two writers on one file, both of which have opened it before either writes: first the events of the one, then those of the other. -/
theorem overlaid {a b : Job} {i j : Nat} (hij : i ≠ j) (hi : i < 2) (hj : j < 2)
    {pi pj : List Bytes} (hpi : sessionWrites (if i = 0 then a else b).env (if i = 0 then a else b).schema (if i = 0 then a else b).ops = some pi)
    (hpj : sessionWrites (if j = 0 then a else b).env (if j = 0 then a else b).schema (if j = 0 then a else b).ops = some pj)
    {l : Loc} (ha : a.place = l) (hb : b.place = l) (st : State) :
    Schedule [a, b] ([.create 0 l, .create 1 l] ++ pi.map (.write i) ++ pj.map (.write j))
    ∧ (run st ([.create 0 l, .create 1 l] ++ pi.map (.write i) ++ pj.map (.write j))).files l
      = some (pj.flatten ++ pi.flatten.drop pj.flatten.length) := by
  have hw : ∀ k, k < 2 → eventsOf k ([.create 0 l, .create 1 l] ++ pi.map (.write i) ++ pj.map (.write j))
      = .create k l :: (if i = k then pi.map (.write i) else []) ++ (if j = k then pj.map (.write j) else []) := by
    intro k hk
    have h := Demo.eventsOf_map k i pi
    have h' := Demo.eventsOf_map k j pj
    rw [eventsOf] at h h'
    rw [eventsOf, List.filter_append, List.filter_append, h, h']
    obtain rfl | rfl : k = 0 ∨ k = 1 := by omega
    · simp [Event.who]
    · simp [Event.who]
  have hcase : (i = 0 ∧ j = 1) ∨ (i = 1 ∧ j = 0) := by omega
  refine ⟨⟨fun k job h => ?_, ?_⟩, ?_⟩
  · have hk : k < 2 := by
      rcases Nat.lt_or_ge k 2 with h' | h'
      · exact h'
      · rw [List.getElem?_eq_none (by simpa using h')] at h; cases h
    obtain rfl | rfl : k = 0 ∨ k = 1 := by omega
    · simp only [List.getElem?_cons_zero, Option.some.injEq] at h
      subst h
      rcases hcase with ⟨rfl, rfl⟩ | ⟨rfl, rfl⟩
      · exact ⟨pi, by simpa using hpi, by rw [Works, hw 0 hk, ha]; simp⟩
      · exact ⟨pj, by simpa using hpj, by rw [Works, hw 0 hk, ha]; simp⟩
    · simp only [List.getElem?_cons_succ, List.getElem?_cons_zero, Option.some.injEq] at h
      subst h
      rcases hcase with ⟨rfl, rfl⟩ | ⟨rfl, rfl⟩
      · exact ⟨pj, by simpa using hpj, by rw [Works, hw 1 hk, hb]; simp⟩
      · exact ⟨pi, by simpa using hpi, by rw [Works, hw 1 hk, hb]; simp⟩
  · intro e he
    simp only [List.mem_append, List.mem_cons, List.not_mem_nil, or_false, List.mem_map] at he
    rcases he with ((rfl | rfl) | ⟨b, _, rfl⟩) | ⟨b, _, rfl⟩ <;> simp [Event.who, hi, hj]
  · have hh : ∀ k, k < 2 → (run st [.create 0 l, .create 1 l]).handles k = some ⟨l, 0⟩ := by
      intro k hk
      obtain rfl | rfl : k = 0 ∨ k = 1 := by omega
      · simp [run, step]
      · simp [run, step]
    have hf : (run st [.create 0 l, .create 1 l]).files l = some [] := by simp [run, step]
    rw [Several.run_append, Several.run_append]
    obtain ⟨h1, _, h3⟩ := run_writes (i := i) (h := ⟨l, 0⟩) pi (run st [.create 0 l, .create 1 l]) (hh i hi) (by rw [hf]; rfl)
    have h2 := h3 j (fun e => hij e.symm)
    obtain ⟨h4, _, _⟩ := run_writes (i := j) (h := ⟨l, 0⟩) pj _ (h2.trans (hh j hj)) (by rw [h1, hf]; rfl)
    rw [h4, h1, hf]
    simp [overwrite_front]

/-- **C94** is violated by any two writers on the same file, whatever was on the disk before: with one schedule the file is that of the
second, laid over that of the first, with another one it is the other way round. So with one of the two schedules the file is that of
one writer, and nothing is left of what the other one, all of whose calls returned as if it were alone, has written. -/
theorem C94_overlaid_wrong {a b : Job} (hplace : a.place = b.place) (ha : session a.env a.schema a.ops = some a.alone)
    (hb : session b.env b.schema b.ops = some b.alone) (hla : a.alone.file.length < 2 ^ 64) (hlb : b.alone.file.length < 2 ^ 64)
    (st : State) : ∃ evs evs', Schedule [a, b] evs ∧ Schedule [a, b] evs'
      ∧ (run st evs).files a.place = some (b.alone.file ++ a.alone.file.drop b.alone.file.length)
      ∧ (run st evs').files a.place = some (a.alone.file ++ b.alone.file.drop a.alone.file.length)
      ∧ ((run st evs).files a.place = some b.alone.file ∨ (run st evs').files a.place = some a.alone.file) := by
  obtain ⟨pa, ha1, ha2⟩ := C94_calls ha hla
  obtain ⟨pb, hb1, hb2⟩ := C94_calls hb hlb
  obtain ⟨s1, r1⟩ := overlaid (a := a) (b := b) (i := 0) (j := 1) (by decide) (by decide) (by decide) (by simpa using ha1)
    (by simpa using hb1) rfl hplace.symm st
  obtain ⟨s2, r2⟩ := overlaid (a := a) (b := b) (i := 1) (j := 0) (by decide) (by decide) (by decide) (by simpa using hb1)
    (by simpa using ha1) rfl hplace.symm st
  rw [ha2, hb2] at r1 r2
  refine ⟨_, _, s1, s2, r1, r2, ?_⟩
  rcases Nat.le_total a.alone.file.length b.alone.file.length with h | h
  · exact .inl (by rw [r1, List.drop_eq_nil_of_le h, List.append_nil])
  · exact .inr (by rw [r2, List.drop_eq_nil_of_le h, List.append_nil])

/-- Two such writers. -/
example (l : Loc) : ∃ a b : Job, a.place = b.place ∧ session a.env a.schema a.ops = some a.alone
    ∧ session b.env b.schema b.ops = some b.alone ∧ a.alone.file.length < 2 ^ 64 ∧ b.alone.file.length < 2 ^ 64 :=
  have h := Demo.jobs_session l l
  have hl := Demo.jobs_length l l
  have hp := Demo.jobs_place l
  have h0 : (Demo.jobs l l)[0]'(by simp [Demo.jobs]) ∈ Demo.jobs l l := List.getElem_mem _
  have h1 : (Demo.jobs l l)[1]'(by simp [Demo.jobs]) ∈ Demo.jobs l l := List.getElem_mem _
  ⟨_, _, (hp _ h0).trans (hp _ h1).symm, h _ h0, h _ h1, hl _ h0, hl _ h1⟩

/-- **C94** is violated for writers on the same file: nothing keeps a program from opening a file that another writer is working on. Every
call of both writers returns `Ok`, and with one schedule the file cannot be read, with another one it has only the points of the
first. -/
theorem C94_same_wrong : ∃ (jobs : List Job) (l : Loc) (evs evs' : List Event), jobs.length = 2
    ∧ (∀ j ∈ jobs, j.place = l ∧ session j.env j.schema j.ops = some j.alone ∧ ∀ r ∈ j.alone.results, r = .ok ())
    ∧ Schedule jobs evs ∧ Schedule jobs evs'
    ∧ (((run Demo.nothing evs).files l).any (fun f => (readFooter f).isNone)) = true
    ∧ ((run Demo.nothing evs').files l) = jobs.head?.map (fun j => j.alone.file) := by
  exact ⟨Demo.jobs [] [], [], Demo.oneByOne [] [], Demo.otherWay [] [], rfl,
    fun j hj => ⟨Demo.jobs_place _ j hj, Demo.jobs_session _ _ j hj, Demo.jobs_ok _ _ j hj⟩, Demo.oneByOne_ok _ _, Demo.otherWay_ok _ _,
    by rw [Demo.oneByOne_file]; decide +kernel, by rw [Demo.otherWay_file, List.drop_eq_nil_of_le (by decide +kernel), List.append_nil]; rfl⟩

/-! ## Cases -/

-- two writers on two files; the second one is stopped in the middle of its output until the first has finished
example : (run Demo.nothing (Demo.mixed [str "a"] [str "b"])).files [str "a"] = some Demo.trapResult.file
    ∧ (run Demo.nothing (Demo.mixed [str "a"] [str "b"])).files [str "b"] = some Demo.smallResult.file := by
  have h := (C94_together_partial (Demo.jobs_session _ _) (Demo.jobs_length _ _) (by decide +kernel) (Demo.mixed_ok [str "a"] [str "b"])
    (st := Demo.nothing) (fun _ => rfl)).1
  simp only [Demo.jobs, List.forall_mem_cons] at h
  generalize Demo.trapResult.file = a at h ⊢
  generalize Demo.smallResult.file = b at h ⊢
  exact ⟨h.1, h.2.1⟩

-- the output of the second session in one piece; the first writer has opened the same file before and written half of its output
example : (run (run Demo.nothing ([.create 0 []] ++ (Demo.trapWrites.take 20).map (.write 0))) [.create 1 [], .write 1 Demo.smallResult.file]).files []
    = some Demo.smallResult.file :=
  (C94_any_time_partial (s := Demo.smallResult) (i := 1) (l := []) (pieces := [Demo.smallResult.file]) (by simp) (by simp [Works, eventsOf, Event.who])
    (fun j hj h => by simp at h; exact hj h) (fun j hj h hh hp => by
      rw [eventsOf, List.filter_eq_nil_iff]
      intro e he
      simp only [List.mem_cons, List.not_mem_nil, or_false] at he
      rcases he with rfl | rfl <;> exact fun h => hj (of_decide_eq_true h).symm)).1

end TsFile
