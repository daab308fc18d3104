import Verif.Proofs.Disk
import Verif.Props.Crash
import Verif.Props.Stream
/-! # C78: an output with a buffer of its own

`content s` is what the output was given, `disk s` what of it would survive a crash (`Buffering`, `Spec/Stream.lean`): the output
may keep bytes back until `flush` is called. The writer calls `flush` after every chunk group. -/

namespace TsFile
open Spec

section
variable {env : Env} {unsnap : Bytes → Option Bytes} {schema : Schema} {σ : Type} {p : Port σ} {content disk : σ → Bytes}

private theorem bursts_of_few {v0 : TsFile.Writer} {ops : List Op} (h : (ops.flatMap Op.recs).length ≤ 190000000) :
    burstsBelow 195000000 0 (ops.zip ((v0.grown env ops).map (fun n => decide (0 < n)))) := by
  apply bursts_total
  have hlen := (run_length env ops v0).2
  have : ((ops.zip ((v0.grown env ops).map (fun n => decide (0 < n)))).map (fun e => e.1.recs.length))
      = ops.map (fun op => op.recs.length) := by
    have hfun : (fun e : Op × Bool => e.1.recs.length) = (fun op : Op => op.recs.length) ∘ Prod.fst := rfl
    rw [hfun, ← List.map_map, List.map_fst_zip]
    simp [hlen]
  rw [this, ← List.length_flatMap]
  omega

private theorem session_fine {ops : List Op} {s : Session} (hs : session env schema ops = some s) : Res.panic ∉ s.results := by
  rw [session] at hs
  split at hs
  · simp at hs
  · split at hs
    · simp at hs
    · next hpan =>
      split at hs
      · simp at hs
      · cases hs
        exact hpan

/-- **C78** (1). Between two calls, everything the writer has moved to the file is on the disk: from what a crash leaves then, all
those points are recovered, and no others. -/
theorem C78_between (hsn : SnappyOk env unsnap) (hsch : schema.Named) (hp : Buffering p content disk) {s0 : σ} (h0 : content s0 = [])
    {ops : List Op} {v0 v : TsFile.Writer} (h : Reached env schema ops v0 v)
    (hall : (ops.flatMap Op.recs).length ≤ 190000000) (hlen : v.io.out.bytes.length < 2 ^ 64) :
    ∃ w0, Stream.Writer.new env p schema s0 = some (.ok w0) ∧ (w0.run env p ops).2 = (v0.run env ops).2
      ∧ ∀ d m, recovered unsnap (disk (w0.run env p ops).1.io.out.writer) d m
          = series (abstractly env schema ops v0).stored d m := by
  have ht := faithful_tracks hp.toFaithful
  obtain ⟨w0, h1, h2⟩ := Stream.new_like env ht.toFollows schema (s := s0) (k := ⟨[], none⟩)
    ⟨by rw [WriteWrapper.new, h0], by rw [WriteWrapper.Counts, WriteWrapper.new, h0]; rfl⟩ h.new
  obtain ⟨h3, h4⟩ := Stream.run_like env ht.toFollows ops h2 h.fine (by rw [h.run]; exact hlen)
  have hc : content (w0.run env p ops).1.io.out.writer = v.io.out.bytes := by
    rw [← h.run]
    exact (congrArg Sink.bytes h4.io.out.1).symm
  obtain ⟨locs, buf, t, o, hb⟩ := run_buffered hsn hsch.wf hp h0 h1 ops (by rw [h3]; exact h.fine) hall (by rw [hc]; exact hlen)
  have hl := chunks_short t.io.ok (fun d m => by
    have := hb d m
    rw [List.length_append] at this
    omega) (Nat.le_refl 190000000)
  refine ⟨w0, h1, h3, fun d m => ?_⟩
  have e1 := o.on_disk hsch hl (r := []) (List.prefix_refl _) ((hp.front _).trans (List.prefix_append _ _)) d m
  have e2 := o.on_disk hsch hl (r := []) (hp.front _) (List.prefix_append _ _) d m
  obtain ⟨items, s1, s2⟩ := C50_recoverable_points hsn hsch h (bursts_of_few hall)
  have e3 := scanPoints_prefix d m _ _ (recover_prefix s1 (List.prefix_append v.io.out.bytes [2])) none
  have e4 := scanPoints_prefix d m _ _ (recover_all s1 (List.prefix_refl v.io.out.bytes)) none
  rw [e1, ← e2, hc, ← s2 d m]
  exact e3.eq_of_length_le e4.length_le

/-- **C78** (2). A crash during a call: whatever of the bytes of this call has reached the disk, the points of the file as it was
before the call are all recovered, and what is recovered are points of the file after the call. -/
theorem C78_during_call (hsn : SnappyOk env unsnap) (hsch : schema.Named) (hp : Buffering p content disk) {s0 : σ}
    (h0 : content s0 = []) {ops : List Op} {op : Op} {v0 v v' : TsFile.Writer} (h : Reached env schema ops v0 v)
    (h' : Reached env schema (ops ++ [op]) v0 v') (hall : ((ops ++ [op]).flatMap Op.recs).length ≤ 190000000) (hlen : v'.io.out.bytes.length < 2 ^ 64) :
    ∃ w0, Stream.Writer.new env p schema s0 = some (.ok w0)
      ∧ ∀ left, disk (w0.run env p ops).1.io.out.writer <+: left →
          left <+: content (w0.run env p (ops ++ [op])).1.io.out.writer → ∀ d m,
          series (abstractly env schema ops v0).stored d m <+: recovered unsnap left d m
          ∧ recovered unsnap left d m <+: series (abstractly env schema (ops ++ [op]) v0).stored d m := by
  have ht := faithful_tracks hp.toFaithful
  obtain ⟨w0, h1, h2⟩ := Stream.new_like env ht.toFollows schema (s := s0) (k := ⟨[], none⟩)
    ⟨by rw [WriteWrapper.new, h0], by rw [WriteWrapper.Counts, WriteWrapper.new, h0]; rfl⟩ h.new
  obtain ⟨_, h4⟩ := Stream.run_like env ht.toFollows (ops ++ [op]) h2 h'.fine (by rw [h'.run]; exact hlen)
  have hc : content (w0.run env p (ops ++ [op])).1.io.out.writer = v'.io.out.bytes := by
    rw [← h'.run]
    exact (congrArg Sink.bytes h4.io.out.1).symm
  have hle : v.io.out.bytes.length ≤ v'.io.out.bytes.length := by
    rw [← h.run, ← h'.run, (run_append env ops [op] v0).1]
    exact (Grows.run env [op] (v0.run env ops).1).pre.length_le
  have hall' : (ops.flatMap Op.recs).length ≤ 190000000 := by
    rw [List.flatMap_append, List.length_append] at hall
    omega
  obtain ⟨w1, e1, _, e2⟩ := C78_between hsn hsch hp h0 h hall' (by omega)
  rw [h1] at e1
  cases e1
  refine ⟨w0, h1, fun left l1 l2 d m => ⟨?_, ?_⟩⟩
  · obtain ⟨h5, h6⟩ := Stream.run_like env ht.toFollows ops h2 h.fine (by rw [h.run]; omega)
    have hc' : content (w0.run env p ops).1.io.out.writer = v.io.out.bytes := by
      rw [← h.run]
      exact (congrArg Sink.bytes h6.io.out.1).symm
    obtain ⟨locs, buf, t, o, hb⟩ := run_buffered hsn hsch.wf hp h0 h1 ops (by rw [h5]; exact h.fine) hall' (by rw [hc']; omega)
    have hl := chunks_short t.io.ok (fun d m => by
      have := hb d m
      rw [List.length_append] at this
      omega) (Nat.le_refl 190000000)
    rw [← e2 d m, o.on_disk hsch hl (r := []) (List.prefix_refl _) ((hp.front _).trans (List.prefix_append _ _)) d m]
    exact o.at_least hsch hl l1 d m
  · rw [hc] at l2
    obtain ⟨items, s1, s2⟩ := C50_recoverable_points hsn hsch h' (bursts_of_few hall)
    rw [← s2 d m]
    exact scanPoints_prefix d m _ _ (recover_prefix s1 (l2.trans (List.prefix_append _ [2]))) none

/-- **C78** (3). After `close` has returned, all the points are on the disk: from what a crash leaves then, a scan recovers all of
them. Missing: the index and the footer may still wait in the buffer (`C78_close_wrong`). -/
theorem C78_closed_partial (he : EnvOk env unsnap) (hsch : schema.Named) (hp : Buffering p content disk) {s0 : σ}
    (h0 : content s0 = []) {ops : List Op} {s : Session} (hs : session env schema ops = some s) (hw : s.Within ops)
    (hall : (ops.flatMap Op.recs).length ≤ 190000000) :
    ∃ w w', Stream.Writer.new env p schema s0 = some (.ok w) ∧ (w.run env p ops).1.close env p p = some w'
      ∧ content w'.io.out.writer = s.file ∧ disk w'.io.out.writer <+: s.file
      ∧ ∀ d m, recovered unsnap (disk w'.io.out.writer) d m = series (storedBy schema ops s.grown) d m := by
  obtain ⟨w, w', h1, h2, h3, h4⟩ := C73_file hp.toFaithful h0 hs hw.file
  have hpan : Res.panic ∉ (w.run env p ops).2 := by
    rw [h2]
    exact session_fine hs
  refine ⟨w, w', h1, h3, h4, h4 ▸ hp.front _, fun d m => ?_⟩
  obtain ⟨t0, _⟩ := new_torn (unsnap := unsnap) hsch.wf hp.toFaithful h0 h1 (fun _ _ => 0)
  have g1 := run_grows (env := env) hp.toKeeps ops w t0.io.counts
  rw [Stream.Writer.close] at h3
  cases hf : (w.run env p ops).1.flushAllChunkGroups env p with
  | none => rw [hf] at h3; cases h3
  | some r =>
    obtain ⟨w1, e⟩ := r
    rw [hf] at h3
    simp only at h3
    cases hend : w1.io.endFile env p with
    | none => rw [hend] at h3; cases h3
    | some io2 =>
      rw [hend] at h3
      cases h3
      dsimp only at h4 ⊢
      have g2 := flushAll_grows (env := env) hp.toKeeps hf g1.1
      have g3 := endFile_grows (env := env) hp.stores hend g2.1
      have l2 := g2.2.length_le
      have l3 := g3.2.length_le
      have hF := hw.file
      rw [← h4] at hF
      obtain ⟨locs, buf, t, o, hb⟩ := run_buffered he.snappy hsch.wf hp h0 h1 ops hpan hall (by omega)
      obtain ⟨locs', buf', t', o', hb'⟩ := flush_buffered he.snappy hsch.wf hp t o hb hf (by omega)
      have hl := chunks_short t'.io.ok (fun d m => by
        have := hb' d m
        rw [List.length_append] at this
        omega) (Nat.le_refl 190000000)
      obtain ⟨r, hr⟩ := endFile_marker hp.toFaithful t'.io.counts hend
      have e1 := o'.on_disk hsch hl (r := r) (endFile_along hp.along hend) (by rw [← hr]; exact hp.front _) d m
      have e2 := o'.on_disk hsch hl (r := r) ((endFile_along hp.along hend).trans (hp.front _)) (by rw [← hr]; exact List.prefix_refl _) d m
      rw [e1, ← e2, h4]
      exact (C72_closed he hsch hs hw d m).2

/-- `close` does not flush the output: on an output that keeps back all it can (`write` only fills the buffer), when `close` has
returned nothing of the index and the footer is on the disk, and not even the marker in front of them: what is on the disk ends
at the latest where the scan of the file stops. -/
theorem C78_close_wrong (he : EnvOk env unsnap) (hsch : schema.Named) (hp : Buffering p content disk)
    (hlazy : ∀ s b, disk (p.dev s b).1 = disk s) {s0 : σ} (h0 : content s0 = []) {ops : List Op} {s : Session}
    (hs : session env schema ops = some s) (hw : s.Within ops) (hall : (ops.flatMap Op.recs).length ≤ 190000000) :
    ∃ w w' items stop, Stream.Writer.new env p schema s0 = some (.ok w) ∧ (w.run env p ops).1.close env p p = some w'
      ∧ content w'.io.out.writer = s.file ∧ scan unsnap s.file = some (items, stop)
      ∧ disk w'.io.out.writer <+: s.file.take stop ∧ stop < s.file.length ∧ disk w'.io.out.writer ≠ s.file := by
  obtain ⟨w, w', h1, h2, h3, h4⟩ := C73_file hp.toFaithful h0 hs hw.file
  have hpan : Res.panic ∉ (w.run env p ops).2 := by
    rw [h2]
    exact session_fine hs
  have hclose := h3
  obtain ⟨t0, _⟩ := new_torn (unsnap := unsnap) hsch.wf hp.toFaithful h0 h1 (fun _ _ => 0)
  have g1 := run_grows (env := env) hp.toKeeps ops w t0.io.counts
  rw [Stream.Writer.close] at h3
  cases hf : (w.run env p ops).1.flushAllChunkGroups env p with
  | none => rw [hf] at h3; cases h3
  | some r =>
    obtain ⟨w1, e⟩ := r
    rw [hf] at h3
    simp only at h3
    cases hend : w1.io.endFile env p with
    | none => rw [hend] at h3; cases h3
    | some io2 =>
      rw [hend] at h3
      cases h3
      dsimp only at h4
      have g2 := flushAll_grows (env := env) hp.toKeeps hf g1.1
      have g3 := endFile_grows (env := env) hp.stores hend g2.1
      have l2 := g2.2.length_le
      have l3 := g3.2.length_le
      have hF := hw.file
      rw [← h4] at hF
      obtain ⟨locs, buf, t, o, hb⟩ := run_buffered he.snappy hsch.wf hp h0 h1 ops hpan hall (by omega)
      obtain ⟨locs', buf', t', o', hb'⟩ := flush_buffered he.snappy hsch.wf hp t o hb hf (by omega)
      have hl := chunks_short t'.io.ok (fun d m => by
        have := hb' d m
        rw [List.length_append] at this
        omega) (Nat.le_refl 190000000)
      obtain ⟨r, hr⟩ := endFile_marker hp.toFaithful t'.io.counts hend
      have hsame : disk io2.out.writer = disk w1.io.out.writer :=
        (endFile_along (R := fun s s' => disk s = disk s') ⟨fun _ => rfl, Eq.trans, fun s b => (hlazy s b).symm⟩ hend).symm
      obtain ⟨groups, q1, rfl, q2, _⟩ := o'
      have hsc := scan_groups hsch q2 (fun g hg c hc => by
        obtain ⟨off, hm⟩ := mem_fileLocs env hg hc 7
        exact hl _ hm) r
      rw [← q1, ← hr, h4] at hsc
      have htk : s.file.take (content w1.io.out.writer).length = content w1.io.out.writer := by
        rw [← h4, hr, List.take_left]
      have hlt : (content w1.io.out.writer).length < s.file.length := by
        rw [← h4, hr]
        simp
      have hd : disk io2.out.writer <+: s.file.take (content w1.io.out.writer).length := by
        rw [htk, hsame]
        exact hp.front _
      refine ⟨w, _, _, _, h1, hclose, h4, hsc, hd, hlt, fun hc => ?_⟩
      have := hd.length_le
      rw [hc, List.length_take] at this
      omega

end

end TsFile

namespace TsFile.Demo
open Spec

/-- Like `std::io::BufWriter` with room for `cap` bytes: (disk, buffer). What does not fit makes it write out its buffer first;
large pieces go to the disk directly. -/
def bufWriter (cap : Nat) : Device (Bytes × Bytes) := fun s b =>
  let s := if s.2.length + b.length > cap then (s.1 ++ s.2, []) else s
  if b.length ≥ cap then ((s.1 ++ s.2 ++ b, []), .ok b.length) else ((s.1, s.2 ++ b), .ok b.length)

def bufPort (cap : Nat) : Port (Bytes × Bytes) := ⟨bufWriter cap, fun n => n + 1, fun s => (s.1 ++ s.2, [])⟩

/-- A buffer without a limit. -/
def lazyPort : Port (Bytes × Bytes) :=
  ⟨fun s b => ((s.1, s.2 ++ b), .ok b.length), fun n => n + 1, fun s => (s.1 ++ s.2, [])⟩

theorem buffering_of {p : Port (Bytes × Bytes)} (hok : ∀ s b, (p.dev s b).2 = .ok b.length)
    (hall : ∀ s b, (p.dev s b).1.1 ++ (p.dev s b).1.2 = s.1 ++ s.2 ++ b) (hg : ∀ s b, s.1 <+: (p.dev s b).1.1)
    (hpt : ∀ n, n ≤ p.patience n) (hf : p.flush = fun s => (s.1 ++ s.2, [])) :
    Buffering p (fun s => s.1 ++ s.2) Prod.fst where
  toFaithful := faithful_of_accepts (content := fun s => s.1 ++ s.2)
    ⟨fun s b n h => by
      rw [hok] at h
      cases h
      exact ⟨Nat.le_refl _, by rw [hall, List.take_length]⟩, fun s b e h => by rw [hok] at h; cases h⟩
    (fun s b hb => by
      cases b with
      | nil => exact absurd rfl hb
      | cons x xs => exact ⟨xs.length, hok _ _⟩) (fun s b _ _ => hok s b) hpt (fun s => by rw [hf]; simp)
  front := fun s => List.prefix_append _ _
  grows := hg
  flushed := fun s => by rw [hf]

theorem bufPort_buffering (cap : Nat) : Buffering (bufPort cap) (fun s => s.1 ++ s.2) Prod.fst :=
  buffering_of (fun s b => by simp only [bufPort, bufWriter]; split <;> (split <;> rfl))
    (fun s b => by simp only [bufPort, bufWriter]; split <;> (split <;> simp))
    (fun s b => by
      simp only [bufPort, bufWriter]
      split <;> (split <;> simp [List.append_assoc]))
    (fun n => Nat.le_succ n) rfl

theorem lazyPort_buffering : Buffering lazyPort (fun s => s.1 ++ s.2) Prod.fst :=
  buffering_of (fun s b => rfl) (fun s b => by simp [lazyPort]) (fun s b => List.prefix_refl _) (fun n => Nat.le_succ n) rfl

/-- `C78_between` on the demo with a buffer of 64 bytes. -/
example := C78_between envOk.snappy indexable.toNamed (bufPort_buffering 64) (s0 := ([], [])) rfl reached (by decide +kernel) (by decide +kernel)

/-- `C78_during_call` for the last call of the demo. -/
example := C78_during_call envOk.snappy indexable.toNamed (bufPort_buffering 64) (s0 := ([], [])) rfl (ops := ops.dropLast)
  (op := ops.getLast (by decide)) (v0 := w0) ⟨by decide +kernel, rfl, by decide +kernel, by decide +kernel⟩ reached
  (by decide +kernel) (by decide +kernel)

/-- All the points of the demo are on the disk after `close`. -/
example := C78_closed_partial envOk indexable.toNamed (bufPort_buffering 64) (s0 := ([], [])) rfl session_eq within (by decide +kernel)

/-- The hypotheses of `C78_close_wrong` are met. -/
example := C78_close_wrong envOk indexable.toNamed lazyPort_buffering (fun _ _ => rfl) (s0 := ([], [])) rfl session_eq within (by decide +kernel)

/-- What is on the disk, and what the output was given, after `close`. -/
def closedOn (p : Port (Bytes × Bytes)) : Option (Bytes × Bytes) :=
  match Stream.Writer.new env p schema ([], []) with
  | some (.ok w) => ((w.run env p ops).1.close env p p).map (fun w => (w.io.out.writer.1, w.io.out.writer.1 ++ w.io.out.writer.2))
  | _ => none

/-- Here the file on the disk cannot be opened, although `close` has returned: the footer is missing. -/
example : (closedOn lazyPort).any (fun x => decide (x.2 = result.file ∧ x.1 ≠ [] ∧ readFooter x.1 = none ∧ (readFooter x.2).isSome)) = true := by
  decide +kernel

/-- With a buffer of 64 bytes a part of the index is there, and the footer is not. -/
example : (closedOn (bufPort 64)).any (fun x => decide (x.2 = result.file ∧ x.1 ≠ x.2 ∧ readFooter x.1 = none)) = true := by
  decide +kernel

end TsFile.Demo
