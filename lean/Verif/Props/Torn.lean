import Verif.Proofs.TornKeep
import Verif.Props.Stream
/-! # C74: an output that fails for a while

The writer is opened and used on an output that works (`p`), then on one that fails at will (`q`: each `write` may take a
part, fail, or take nothing, in any order), and the index is written on an output that works again (`p'`). -/

namespace TsFile
open Spec

section
variable {env : Env} {unsnap : Bytes → Option Bytes} {schema : Schema} {σ : Type} {p q p' : Port σ} {content : σ → Bytes}

private theorem offered_sublist (ops : List Op) : ∀ rs, (offered ops rs).Sublist (ops.flatMap Op.recs) := by
  induction ops with
  | nil => intro rs; cases rs <;> exact List.nil_sublist _
  | cons op ops ih =>
    intro rs
    cases rs with
    | nil => cases op <;> exact List.nil_sublist _
    | cons r rs =>
      rw [offered_cons, List.flatMap_cons]
      exact (handedBy_sublist op r).append (ih rs)

/-- **C74**, partial. Whatever the output did in between, the closed file can be read, and reading a series gives first all the
points that were on the disk before the trouble began, and then some of the points handed over, in order and unchanged: what
the failures lost is missing, nothing else changes. Missing: series with 3000 points or more after the trouble began
(`C74_stale_wrong`). -/
theorem C74_partial (he : EnvOk env unsnap) {d : Bytes} (hsch : schema.IndexableAt d)
    (hp : Faithful p content) (hq : Keeps q content) (hp' : Faithful p' content)
    {s0 : σ} (h0 : content s0 = []) {w0 w3 : Stream.Writer σ} (hnew : Stream.Writer.new env p schema s0 = some (.ok w0))
    (before during : List Op) {w1 w2 : Stream.Writer σ × List (Res Unit)} (h1 : w0.run env p before = w1)
    (h2 : w1.1.run env q during = w2) (h3 : w2.1.close env q p' = some w3)
    (hpan : Res.panic ∉ w1.2 ++ w2.2)
    (hfew : ∀ d m, (series (during.flatMap Op.recs) d m).length < 3000)
    (hall : ((before ++ during).flatMap Op.recs).length ≤ 190000000) (hB : ∀ n ≤ schema.size, env.bloomSize n ≤ 2 ^ 60)
    (hfile : (content w3.io.out.writer).length < 2 ^ 62)
    (hclosing : (content w3.io.out.writer).length < (content w2.1.io.out.writer).length + 2 ^ 32)
    (m : Bytes) (hm : NoDot m) :
    ∃ pts, readSeries unsnap (content w3.io.out.writer) d m = some pts
      ∧ recovered unsnap (content w1.1.io.out.writer) d m <+: pts
      ∧ pts.Sublist (series (offered before w1.2 ++ offered during w2.2) d m) := by
  subst h1 h2
  rw [List.mem_append, not_or] at hpan
  rw [List.flatMap_append, List.length_append] at hall
  have hser : ∀ (l : List Rec) (d m : Bytes), (series l d m).length ≤ l.length := by
    intro l d m
    rw [series_length]
    exact List.length_filter_le _ _
  obtain ⟨t0, o0⟩ := new_torn (unsnap := unsnap) hsch.wf hp h0 hnew (fun _ _ => 0)
  -- the outputs grow
  rw [Stream.Writer.close] at h3
  cases hfl : ((w0.run env p before).1.run env q during).1.flushAllChunkGroups env q with
  | none => rw [hfl] at h3; cases h3
  | some r =>
    obtain ⟨w4, e4⟩ := r
    rw [hfl] at h3
    simp only at h3
    cases hend : w4.io.endFile env p' with
    | none => rw [hend] at h3; cases h3
    | some io5 =>
      rw [hend] at h3
      cases h3
      dsimp only at hfile hclosing ⊢
      have g1 := run_grows (env := env) hp.toKeeps before w0 t0.io.counts
      have g2 := run_grows (env := env) hq during (w0.run env p before).1 g1.1
      have g3 := flushAll_grows (env := env) hq hfl g2.1
      have g4 := endFile_grows (env := env) hp'.stores hend g3.1
      have l1 := g2.2.length_le
      have l2 := g3.2.length_le
      have l3 := g4.2.length_le
      -- before
      obtain ⟨new1, buf1, t1, s1, o1⟩ := run_any he.snappy hsch.wf hp.toKeeps before t0 (by simp) (fun _ => hp)
        (fun d m => by
          have := hser (before.flatMap Op.recs) d m
          simp only [plus, List.nil_append]
          omega) hpan.1 (by omega)
      -- during
      have t1' : Torn env unsnap true schema content (w0.run env p before).1 ([] ++ new1) buf1 (fun _ _ => 0) := t1.good
      have hb1 : ∀ d m, (buf1 d m).length ≤ (before.flatMap Op.recs).length := by
        intro d m
        have e1 := (s1 d m).length_le
        have e2 := (offered_sublist before (w0.run env p before).2).length_le
        have e3 := hser (offered before (w0.run env p before).2) d m
        simp only [plus, List.nil_append, List.length_append] at e1
        omega
      obtain ⟨new2, buf2, t2, s2, _⟩ := run_any he.snappy hsch.wf hq during t1'
        (fun _ d m => by simp only [more, Nat.zero_add]; exact hfew d m) (fun h => by cases h)
        (fun d m => by
          have e1 := hser (during.flatMap Op.recs) d m
          have e2 := hb1 d m
          simp only [plus, List.length_append]
          omega) hpan.2 (by omega)
      -- closing
      have hb2 : ∀ d m, (buf2 d m).length < 2 ^ 32 := by
        intro d m
        have e1 := (s2 d m).length_le
        have e2 := (offered_sublist during ((w0.run env p before).1.run env q during).2).length_le
        have e3 := hser (offered during ((w0.run env p before).1.run env q during).2) d m
        have e4 := hb1 d m
        simp only [plus, List.length_append] at e1
        omega
      obtain ⟨new3, buf3, t3, s3, _⟩ := flushAll_any he.snappy hsch.wf hq t2
        (fun _ d m => by simp only [more, Nat.zero_add]; exact hfew d m) (fun h => by cases h) hb2 hfl (by omega)
      have hsub : ∀ d m, (locPts ([] ++ new1 ++ new2 ++ new3) d m).Sublist
          (series (offered before (w0.run env p before).2
            ++ offered during ((w0.run env p before).1.run env q during).2) d m) := by
        intro d m
        rw [series_append, List.nil_append, locPts_append, locPts_append]
        have e1 := s1 d m
        have e2 := s2 d m
        have e3 := (List.sublist_append_left (locPts new3 d m) (buf3 d m)).trans (s3 d m)
        simp only [plus, List.nil_append] at e1 e2
        rw [List.append_assoc]
        refine (List.Sublist.append (List.Sublist.refl _) ((List.Sublist.append (List.Sublist.refl _) e3).trans e2)).trans ?_
        rw [← List.append_assoc]
        exact e1.append (List.Sublist.refl _)
      obtain ⟨paths, L, hL⟩ := t3.io.closed he.order hp' hend hsch.toNamed
        (recs := offered before (w0.run env p before).2
            ++ offered during ((w0.run env p before).1.run env q during).2)
        (fun d m => (hsub d m).length_le)
        (by
          have e1 := (offered_sublist during ((w0.run env p before).1.run env q during).2).length_le
          have e2 := (offered_sublist before (w0.run env p before).2).length_le
          rw [List.length_append]
          omega) hB (by omega) (by omega)
      refine ⟨_, L.readSeries hsch t3.io.ok hL m, ?_, ?_⟩
      · rw [if_pos hm]
        rw [(o1 _ hp.buffering (o0 _)).recovered hsch.toNamed (fun l hl => hL.chunks l (by
          simp only [List.mem_append]; exact Or.inl (Or.inl (List.mem_append.1 hl))))]
        rw [List.nil_append, List.append_assoc, locPts_append]
        exact List.prefix_append _ _
      · rw [if_pos hm]
        exact hsub d m

/-- **C74**, once the output works again. After the trouble (`during`) calls go on on an output that works (`soon`, then `later`).
What is read back of a series is a part of what was handed over up to the end of the trouble (with all that was on the disk
before it in front), followed by the points handed over since: every point of a call that returned without error since then is
there, in order. So a failed call costs the points it held at the time, and nothing that comes after.
Missing: series with 3000 points or more between the beginning of the trouble and the first flush after it (`soon` ends after
that flush: the output has grown). -/
theorem C74_recovered_partial (he : EnvOk env unsnap) {d : Bytes} (hsch : schema.IndexableAt d)
    (hp : Faithful p content) (hq : Keeps q content) (hp' : Faithful p' content)
    {s0 : σ} (h0 : content s0 = []) {w0 w5 : Stream.Writer σ} (hnew : Stream.Writer.new env p schema s0 = some (.ok w0))
    (before during soon later : List Op) {w1 w2 w3 w4 : Stream.Writer σ × List (Res Unit)} (h1 : w0.run env p before = w1)
    (h2 : w1.1.run env q during = w2) (h3 : w2.1.run env p' soon = w3) (h4 : w3.1.run env p' later = w4)
    (h5 : w4.1.close env p' p' = some w5)
    (hpan : Res.panic ∉ w1.2 ++ w2.2 ++ w3.2 ++ w4.2)
    (hfew : ∀ d m, (series ((during ++ soon).flatMap Op.recs) d m).length < 3000)
    (hgrow : later = [] ∨ (content w2.1.io.out.writer).length < (content w3.1.io.out.writer).length)
    (hall : ((before ++ during ++ soon ++ later).flatMap Op.recs).length ≤ 190000000) (hB : ∀ n ≤ schema.size, env.bloomSize n ≤ 2 ^ 60)
    (hfile : (content w5.io.out.writer).length < 2 ^ 62)
    (hclosing : (content w5.io.out.writer).length < (content w4.1.io.out.writer).length + 2 ^ 32)
    (m : Bytes) (hm : NoDot m) :
    ∃ old rest, readSeries unsnap (content w5.io.out.writer) d m = some (old ++ rest)
      ∧ recovered unsnap (content w1.1.io.out.writer) d m <+: old
      ∧ old.Sublist (series (offered before w1.2 ++ offered during w2.2) d m)
      ∧ (series (accepted soon w3.2 ++ accepted later w4.2) d m).Sublist rest
      ∧ rest.Sublist (series (offered soon w3.2 ++ offered later w4.2) d m) := by
  subst h1 h2 h3 h4
  simp only [List.mem_append, not_or] at hpan
  obtain ⟨⟨⟨hpan1, hpan2⟩, hpan3⟩, hpan4⟩ := hpan
  simp only [List.flatMap_append, List.length_append] at hall
  have hser : ∀ (l : List Rec) (d m : Bytes), (series l d m).length ≤ l.length := by
    intro l d m
    rw [series_length]
    exact List.length_filter_le _ _
  obtain ⟨t0, o0⟩ := new_torn (unsnap := unsnap) hsch.wf hp h0 hnew (fun _ _ => 0)
  have hz : w0.recordCount.toNat = 0 := by
    rw [Stream.Writer.new] at hnew
    split at hnew
    · cases hnew
    · cases hnew
    · cases hnew; rfl
  have c1 := run_count (env := env) (p := p) before w0
  have c2 := run_count (env := env) (p := q) during (w0.run env p before).1
  have c3 := run_count (env := env) (p := p') soon ((w0.run env p before).1.run env q during).1
  rw [Stream.Writer.close] at h5
  cases hfl : (((w0.run env p before).1.run env q during).1.run env p' soon).1.run env p' later |>.1.flushAllChunkGroups env p' with
  | none => rw [hfl] at h5; cases h5
  | some r =>
    obtain ⟨w6, e6⟩ := r
    rw [hfl] at h5
    simp only at h5
    cases hend : w6.io.endFile env p' with
    | none => rw [hend] at h5; cases h5
    | some io5 =>
      rw [hend] at h5
      cases h5
      dsimp only at hfile hclosing ⊢
      have g1 := run_grows (env := env) hp.toKeeps before w0 t0.io.counts
      have g2 := run_grows (env := env) hq during (w0.run env p before).1 g1.1
      have g3 := run_grows (env := env) hp'.toKeeps soon _ g2.1
      have g4 := run_grows (env := env) hp'.toKeeps later _ g3.1
      have g5 := flushAll_grows (env := env) hp'.toKeeps hfl g4.1
      have g6 := endFile_grows (env := env) hp'.stores hend g5.1
      have l2 := g2.2.length_le
      have l3 := g3.2.length_le
      have l4 := g4.2.length_le
      have l5 := g5.2.length_le
      have l6 := g6.2.length_le
      -- before
      obtain ⟨new1, buf1, t1, s1, o1⟩ := run_any he.snappy hsch.wf hp.toKeeps before t0 (by simp) (fun _ => hp)
        (fun d m => by
          have := hser (before.flatMap Op.recs) d m
          simp only [plus, List.nil_append]
          omega) hpan1 (by omega)
      -- during
      have t1' : Torn env unsnap true schema content (w0.run env p before).1 ([] ++ new1) buf1 (fun _ _ => 0) := t1.good
      have hb1 : ∀ d m, (buf1 d m).length ≤ (before.flatMap Op.recs).length := by
        intro d m
        have e1 := (s1 d m).length_le
        have e2 := (offered_sublist before (w0.run env p before).2).length_le
        have e3 := hser (offered before (w0.run env p before).2) d m
        simp only [plus, List.nil_append, List.length_append] at e1
        omega
      have hfew1 : ∀ d m, more (fun _ _ => 0) (during.flatMap Op.recs) d m < 3000 := by
        intro d m
        have := hfew d m
        simp only [more, Nat.zero_add, List.flatMap_append, series_append, List.length_append] at this ⊢
        omega
      obtain ⟨new2, buf2, t2, s2, _⟩ := run_any he.snappy hsch.wf hq during t1'
        (fun _ d m => hfew1 d m) (fun h => by cases h)
        (fun d m => by
          have e1 := hser (during.flatMap Op.recs) d m
          have e2 := hb1 d m
          simp only [plus, List.length_append]
          omega) hpan2 (by omega)
      have hb2 : ∀ d m, (buf2 d m).length ≤ (before.flatMap Op.recs).length + (during.flatMap Op.recs).length := by
        intro d m
        have e1 := (s2 d m).length_le
        have e2 := (offered_sublist during ((w0.run env p before).1.run env q during).2).length_le
        have e3 := hser (offered during ((w0.run env p before).1.run env q during).2) d m
        have e4 := hb1 d m
        simp only [plus, List.length_append] at e1
        omega
      -- soon
      have k0 : Kept schema buf2 buf2 ((w0.run env p before).1.run env q during).1.recordCount [] [] [] := Kept.start _ _
      have t2' : Torn env unsnap true schema content ((w0.run env p before).1.run env q during).1 (([] ++ new1 ++ new2) ++ []) buf2
          (more (fun _ _ => 0) (during.flatMap Op.recs)) := by rw [List.append_nil]; exact t2
      have hb3 : ∀ d m, (plus buf2 (soon.flatMap Op.recs) d m).length
          ≤ (before.flatMap Op.recs).length + (during.flatMap Op.recs).length + (soon.flatMap Op.recs).length := by
        intro d m
        have e1 := hser (soon.flatMap Op.recs) d m
        have e2 := hb2 d m
        simp only [plus, List.length_append]
        omega
      obtain ⟨new3, buf3, b3, t3, s3, k3, f3⟩ := run_kept he.snappy hsch.wf hp' soon t2' k0
        (fun _ d m => by
          have := hfew d m
          rw [more_append]
          simp only [more, Nat.zero_add, List.flatMap_append] at this ⊢
          exact this) (by omega)
        (fun d m => by have := hb3 d m; omega) hpan3 (by omega)
      -- later
      have hb4 : ∀ d m, (plus buf3 (later.flatMap Op.recs) d m).length < 2 ^ 32 := by
        intro d m
        have e1 := hser (later.flatMap Op.recs) d m
        have e2 := hb3 d m
        have e3 := f3 d m
        rw [plus, List.length_append]
        omega
      have hn4 : b3 = true → ∀ d m, more (more (more (fun _ _ => 0) (during.flatMap Op.recs)) (soon.flatMap Op.recs)) (later.flatMap Op.recs) d m < 3000 := by
        intro hb d m
        rcases hgrow with hl | hl
        · have := hfew d m
          subst hl
          rw [more_append, more_append, List.flatMap_nil, List.append_nil]
          simp only [more, Nat.zero_add, List.flatMap_append] at this ⊢
          exact this
        · rcases s3 with s3 | ⟨_, s3⟩
          · rw [s3] at hb; cases hb
          · rw [s3] at hl
            exact absurd hl (Nat.lt_irrefl _)
      obtain ⟨new4, buf4, b4, t4, s4, k4, f4⟩ := run_kept he.snappy hsch.wf hp' later t3 k3 hn4 (by omega) hb4 hpan4 (by omega)
      -- closing
      obtain ⟨new5, i5, k5⟩ := Kept.closed he.snappy hsch.wf hp' t4 k4
        (fun hb d m => by
          rcases s4 with s4 | ⟨s4, _⟩
          · rw [s4] at hb; cases hb
          · rw [s4] at hb; exact hn4 hb d m)
        (fun d m => Nat.lt_of_le_of_lt (f4 d m) (hb4 d m)) hfl (by omega)
      have hold : ∀ d m, ∀ a, a.Sublist (buf2 d m) → (locPts ([] ++ new1 ++ new2) d m ++ a).Sublist
          (series (offered before (w0.run env p before).2
            ++ offered during ((w0.run env p before).1.run env q during).2) d m) := by
        intro d m a ha
        rw [series_append, List.nil_append, locPts_append]
        have e1 := s1 d m
        have e2 := s2 d m
        simp only [plus, List.nil_append] at e1 e2
        rw [List.append_assoc]
        refine (List.Sublist.append (List.Sublist.refl _) ((List.Sublist.append (List.Sublist.refl _) ha).trans e2)).trans ?_
        rw [← List.append_assoc]
        exact e1.append (List.Sublist.refl _)
      have hsub : ∀ d m, (locPts ([] ++ new1 ++ new2 ++ new5) d m).Sublist
          (series ((offered before (w0.run env p before).2
            ++ offered during ((w0.run env p before).1.run env q during).2)
            ++ (([] ++ offered soon (((w0.run env p before).1.run env q during).1.run env p' soon).2)
            ++ offered later ((((w0.run env p before).1.run env q during).1.run env p' soon).1.run env p' later).2)) d m) := by
        intro d m
        obtain ⟨a, b, x1, x2, x3, x4⟩ := k5 d m
        rw [locPts_append, x1, ← List.append_assoc, series_append]
        exact (hold d m a x2).append x4
      obtain ⟨paths, L, hL⟩ := i5.closed he.order hp' hend hsch.toNamed (fun d m => (hsub d m).length_le)
        (by
          have e1 := (offered_sublist during ((w0.run env p before).1.run env q during).2).length_le
          have e2 := (offered_sublist before (w0.run env p before).2).length_le
          have e3 := (offered_sublist soon (((w0.run env p before).1.run env q during).1.run env p' soon).2).length_le
          have e4 := (offered_sublist later ((((w0.run env p before).1.run env q during).1.run env p' soon).1.run env p' later).2).length_le
          simp only [List.length_append, List.length_nil]
          omega) hB (by omega) (by omega)
      obtain ⟨a, b, x1, x2, x3, x4⟩ := k5 d m
      refine ⟨locPts ([] ++ new1 ++ new2) d m ++ a, b, ?_, ?_, hold d m a x2, ?_, ?_⟩
      · rw [L.readSeries hsch i5.ok hL m, if_pos hm, locPts_append _ new5, x1, List.append_assoc (locPts _ d m)]
      · rw [(o1 _ hp.buffering (o0 _)).recovered hsch.toNamed (fun l hl => hL.chunks l (by
          simp only [List.mem_append]; exact Or.inl (Or.inl (List.mem_append.1 hl))))]
        rw [locPts_append _ new2, List.append_assoc]
        exact List.prefix_append _ _
      · simpa using x3
      · simpa using x4

end

/-! ## The demo: one call of the output fails -/

namespace Demo

/-- An output in memory whose call number `k` fails; all the others take everything. -/
def glitch (k : Option Nat) : Device (Bytes × Nat) := fun s b =>
  if some s.2 = k then ((s.1, s.2 + 1), .error .other) else ((s.1 ++ b, s.2 + 1), .ok b.length)

def port (k : Option Nat) : Port (Bytes × Nat) := ⟨glitch k, id, id⟩

theorem glitch_stores (k : Option Nat) : Stores (glitch k) Prod.fst := by
  constructor
  · intro s b n h
    rw [glitch] at h ⊢
    split at h
    · cases h
    · rename_i hk
      simp only [Except.ok.injEq] at h
      subst h
      simp [hk]
  · intro s b e h
    rw [glitch] at h ⊢
    split at h
    · rename_i hk
      simp [hk]
    · cases h

theorem port_faithful : Faithful (port none) Prod.fst :=
  faithful_of_accepts (glitch_stores none) (fun s b hb => by
    cases b with
    | nil => exact absurd rfl hb
    | cons x xs => exact ⟨xs.length, rfl⟩) (fun _ _ _ _ => rfl) (fun n => Nat.le_refl n) (fun _ => rfl)

/-- The results of the calls, and the output after the calls and at the end. -/
def trouble (k : Nat) (during : List Op) : Option (List (Res Unit) × Bytes × Bytes) :=
  match Stream.Writer.new env (port none) schema ([], 0) with
  | some (.ok w0) =>
    match (w0.run env (port (some k)) during).1.close env (port (some k)) (port none) with
    | some w3 => some ((w0.run env (port (some k)) during).2, (w0.run env (port (some k)) during).1.io.out.writer.1,
        w3.io.out.writer.1)
    | none => none
  | _ => none

/-- The call number 20 fails, which is in the middle of the second device of the flush of `close`. -/
theorem trouble_20 : (trouble 20 ops).any (fun x => decide (x.1 = result.results ∧ .panic ∉ x.1
    ∧ x.2.2.length < x.2.1.length + 2 ^ 32 ∧ x.2.2.length < 2 ^ 62
    ∧ (readSeries some x.2.2 (str "root.sg.d1") (str "s1")).map List.length = some 2
    ∧ readSeries some x.2.2 (str "root.sg.d2") (str "s1") = some [])) = true := by
  decide +kernel

end Demo

/-- The hypotheses of `C74_partial` are met by the demo: the call fails while `close` flushes the second device; the calls return
what they would have returned, and the points of that device are not in the file. -/
example : ∃ w0 w2 w3, Stream.Writer.new Demo.env (Demo.port none) Demo.schema ([], 0) = some (.ok w0)
    ∧ w0.run Demo.env (Demo.port (some 20)) Demo.ops = w2
    ∧ w2.1.close Demo.env (Demo.port (some 20)) (Demo.port none) = some w3
    ∧ w2.2 = Demo.result.results
    ∧ (∃ pts, readSeries some w3.io.out.writer.1 (str "root.sg.d1") (str "s1") = some pts
        ∧ recovered some w0.io.out.writer.1 (str "root.sg.d1") (str "s1") <+: pts
        ∧ pts.Sublist (series (offered [] [] ++ offered Demo.ops w2.2) (str "root.sg.d1") (str "s1")))
    ∧ readSeries some w3.io.out.writer.1 (str "root.sg.d2") (str "s1") = some []
    ∧ series (accepted Demo.ops w2.2) (str "root.sg.d2") (str "s1") ≠ [] := by
  obtain ⟨x, hx, hx2⟩ := (Option.any_eq_true _ _).1 Demo.trouble_20
  have hx2 := of_decide_eq_true hx2
  rw [Demo.trouble] at hx
  cases hn : Stream.Writer.new Demo.env (Demo.port none) Demo.schema ([], 0) with
  | none => rw [hn] at hx; cases hx
  | some r =>
    cases r with
    | error e => rw [hn] at hx; cases hx
    | ok w0 =>
      rw [hn] at hx
      simp only at hx
      cases hc : (w0.run Demo.env (Demo.port (some 20)) Demo.ops).1.close Demo.env (Demo.port (some 20)) (Demo.port none) with
      | none => rw [hc] at hx; cases hx
      | some w3 =>
        rw [hc] at hx
        simp only [Option.some.injEq] at hx
        subst hx
        obtain ⟨h1, h2, h3, h4, h5, h6⟩ := hx2
        refine ⟨w0, _, w3, rfl, rfl, hc, h1, ?_, h6, ?_⟩
        · have h := C74_partial Demo.envOk (Demo.indexable.at (str "root.sg.d1")) Demo.port_faithful
            (q := Demo.port (some 20)) ⟨Demo.glitch_stores (some 20), fun _ => rfl⟩ Demo.port_faithful rfl hn [] Demo.ops rfl rfl hc
            (by simpa [Stream.Writer.run] using h2) ?_ (by decide +kernel) (by decide +kernel) h4 h3 (str "s1") (by decide +kernel)
          · exact h
          · intro d m
            rw [series_length]
            refine Nat.lt_of_le_of_lt (List.length_filter_le _ _) ?_
            decide +kernel
        · dsimp only at h1
          rw [h1]
          decide +kernel

namespace Demo

/-- Calls in three phases on the demo schema; the results of each, and the output after the first, the third and at the end. -/
def phases (k : Nat) (a b c : List Op) : Option ((List (Res Unit) × List (Res Unit) × List (Res Unit)) × Bytes × Bytes × Bytes) :=
  match Stream.Writer.new env (port none) schema ([], 0) with
  | some (.ok w0) =>
    match w0.run env (port none) a with
    | w1 =>
      match w1.1.run env (port (some k)) b with
      | w2 =>
        match w2.1.run env (port none) c with
        | w3 =>
          match w3.1.close env (port none) (port none) with
          | some w5 => some ((w1.2, w2.2, w3.2), w1.1.io.out.writer.1, w3.1.io.out.writer.1, w5.io.out.writer.1)
          | none => none
  | _ => none

theorem phases_ok : (phases 9 (ops.take 2) ((ops.drop 2).take 2) (ops.drop 4)).any (fun x => decide (.panic ∉ x.1.1 ++ x.1.2.1 ++ x.1.2.2 ++ []
    ∧ x.2.2.2.length < x.2.2.1.length + 2 ^ 32 ∧ x.2.2.2.length < 2 ^ 62
    ∧ series (accepted (ops.drop 4) x.1.2.2) (str "root.sg.d1") (str "s1") = [(12, .INT (-1))])) = true := by
  decide +kernel

end Demo

/-- The hypotheses of `C74_recovered_partial` are met by the demo, cut into three phases. -/
example : ∃ w0 w1 w2 w3 w5, Stream.Writer.new Demo.env (Demo.port none) Demo.schema ([], 0) = some (.ok w0)
    ∧ w0.run Demo.env (Demo.port none) (Demo.ops.take 2) = w1
    ∧ w1.1.run Demo.env (Demo.port (some 9)) ((Demo.ops.drop 2).take 2) = w2
    ∧ w2.1.run Demo.env (Demo.port none) (Demo.ops.drop 4) = w3
    ∧ w3.1.close Demo.env (Demo.port none) (Demo.port none) = some w5
    ∧ ∃ old rest : List Point, readSeries some w5.io.out.writer.1 (str "root.sg.d1") (str "s1") = some (old ++ rest)
      ∧ recovered some w1.1.io.out.writer.1 (str "root.sg.d1") (str "s1") <+: old
      ∧ ([(12, .INT (-1))] : List Point).Sublist rest := by
  obtain ⟨x, hx, hx2⟩ := (Option.any_eq_true _ _).1 Demo.phases_ok
  have hx2 := of_decide_eq_true hx2
  rw [Demo.phases] at hx
  cases hn : Stream.Writer.new Demo.env (Demo.port none) Demo.schema ([], 0) with
  | none => rw [hn] at hx; cases hx
  | some r =>
    cases r with
    | error e => rw [hn] at hx; cases hx
    | ok w0 =>
      rw [hn] at hx
      obtain ⟨w1, hw1⟩ : ∃ w1, w0.run Demo.env (Demo.port none) (Demo.ops.take 2) = w1 := ⟨_, rfl⟩
      obtain ⟨w2, hw2⟩ : ∃ w2, w1.1.run Demo.env (Demo.port (some 9)) ((Demo.ops.drop 2).take 2) = w2 := ⟨_, rfl⟩
      obtain ⟨w3, hw3⟩ : ∃ w3, w2.1.run Demo.env (Demo.port none) (Demo.ops.drop 4) = w3 := ⟨_, rfl⟩
      simp only [hw1, hw2, hw3] at hx
      cases hc : w3.1.close Demo.env (Demo.port none) (Demo.port none) with
      | none => rw [hc] at hx; cases hx
      | some w5 =>
        rw [hc] at hx
        simp only [Option.some.injEq] at hx
        subst hx
        obtain ⟨h1, h2, h3, h4⟩ := hx2
        have h := C74_recovered_partial Demo.envOk (Demo.indexable.at (str "root.sg.d1")) Demo.port_faithful
          (q := Demo.port (some 9)) ⟨Demo.glitch_stores (some 9), fun _ => rfl⟩ Demo.port_faithful rfl hn (Demo.ops.take 2)
          ((Demo.ops.drop 2).take 2) (Demo.ops.drop 4) [] hw1 hw2 hw3 (w4 := (w3.1, [])) rfl hc h1
          (by
            intro d m
            rw [series_length]
            refine Nat.lt_of_le_of_lt (List.length_filter_le _ _) ?_
            decide +kernel) (.inl rfl) (by decide +kernel) (by decide +kernel) h3 h2 (str "s1") (by decide +kernel)
        obtain ⟨old, rest, r1, r2, _, r4, _⟩ := h
        refine ⟨w0, w1, w2, w3, w5, rfl, hw1, hw2, hw3, hc, old, rest, r1, r2, ?_⟩
        rw [series_append] at r4
        have h5 := (List.sublist_append_left _ _).trans r4
        dsimp only at h4
        exact Eq.subst (motive := fun l : List Point => l.Sublist rest) h4 h5

/-! ## A series that goes on after a flush that failed -/

namespace Demo

/-- A writer for a series, one point, and `flush` to an output that fails. -/
def failedFlush : Option ChunkWriter :=
  match (ChunkWriter.new env (str "s1") .INT32 .UNCOMPRESSED .PLAIN).write env 1 (.INT 7) with
  | .ok (c, _) => (Stream.writeToFileWriter env (port (some 0)) c ⟨⟨0, ([], 0)⟩, none, [], none, [], []⟩).map Prod.fst
  | _ => none

/-- Two pages of one point each (in the code, pages are that small only if the page is sealed by a flush; a long series
has pages of at least 1500 points). -/
def twoPages (c : ChunkWriter) : Option Bytes :=
  match c.write env 2 (.INT 8) with
  | .ok (c, _) =>
    match c.sealCurrentPage env with
    | none => none
    | some c =>
      match c.write env 3 (.INT 9) with
      | .ok (c, _) => (c.sealCurrentPage env).map ChunkWriter.pageBuffer
      | _ => none
  | _ => none

end Demo

/-- A series whose flush failed keeps the old size of its first page header. When it then fills a second page, the statistics
of the first page are put at a wrong place: the chunk has the right length, but its pages cannot be read, while those of a new
writer with the same points can. -/
theorem C74_stale_wrong : ∃ c good bad, Demo.failedFlush = some c ∧ c.pageBuffer = [] ∧ c.numPages = 0
    ∧ Demo.twoPages (ChunkWriter.new Demo.env (str "s1") .INT32 .UNCOMPRESSED .PLAIN) = some good
    ∧ Demo.twoPages c = some bad ∧ bad.length = good.length
    ∧ (pAll (pPage some .INT32 .UNCOMPRESSED .PLAIN true) good).map (fun l => (l.map Prod.snd).flatten)
        = some [(2, .INT 8), (3, .INT 9)]
    ∧ pAll (pPage some .INT32 .UNCOMPRESSED .PLAIN true) bad = none := by
  refine ⟨Demo.failedFlush.getD (ChunkWriter.new Demo.env [] .INT32 .UNCOMPRESSED .PLAIN), (Demo.twoPages
    (ChunkWriter.new Demo.env (str "s1") .INT32 .UNCOMPRESSED .PLAIN)).getD [], ((Demo.failedFlush).bind Demo.twoPages).getD [], ?_⟩
  decide +kernel

end TsFile
