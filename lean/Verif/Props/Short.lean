import Verif.Proofs.Short
import Verif.Props.ReadBack
/-! # C51: outputs that take a part of what they are offered

The nodes of the index may be cut short (`C51_short_writes_wrong`). Here is what holds of the whole file. -/

namespace TsFile
open Spec

variable {env : Env} {unsnap : Bytes → Option Bytes} {schema : Schema} {σ : Type} {p : Port σ} {content : σ → Bytes}

/-- **C51**, for whole programs: on every output that never fails, however few bytes it takes at a time, opening succeeds, the
calls return what they return on a vector, closing returns, and the output begins with the same bytes as the file on a vector,
up to the marker after the data. So a scan of it finds exactly the stored points. Missing: the index after the marker. -/
theorem C51_data_partial (he : EnvOk env unsnap) (hsch : schema.Named) (hk : Keeps p content) (ha : Accepts p.dev)
    (hp : ∀ n, n ≤ p.patience n) {s0 : σ} (h0 : content s0 = []) {ops : List Op} {s : Session}
    (hs : session env schema ops = some s) (hw : s.Within ops) :
    ∃ w w' items footer, Stream.Writer.new env p schema s0 = some (.ok w) ∧ (w.run env p ops).2 = s.results
      ∧ (w.run env p ops).1.close env p p = some w' ∧ readFooter s.file = some footer
      ∧ footer.metaOffset < s.file.length ∧ s.file.take (footer.metaOffset + 1) <+: content w'.io.out.writer
      ∧ scan unsnap (content w'.io.out.writer) = some (items, footer.metaOffset)
      ∧ ∀ d m, scanPoints d m none items = series (storedBy schema ops s.grown) d m := by
  obtain ⟨c⟩ := session_outlined he hsch hs hw
  obtain ⟨bits, _, hfoot⟩ := c.layout.readFooter c.fits
  have hscan := c.layout.scan hsch c.ok c.fits
  have hall : ∀ (w : WriteWrapper σ) (b : Bytes), ∃ w', w.writeAll p.dev (p.patience b.length) b = some (w', .ok ()) :=
    fun w b => WriteWrapper.writeAll_accepts ha _ w b (hp _)
  have hfl := c.flushed
  have hfile : ∃ r, s.file = (fileBytes env c.groups ++ [2]) ++ r := ⟨_, by rw [List.append_assoc]; exact c.layout.bytes⟩
  have hfoot : ∃ footer, readFooter s.file = some footer ∧ footer.metaOffset = (fileBytes env c.groups).length := ⟨_, hfoot, rfl⟩
  have hpts := c.pts
  generalize c.groups = groups at hfl hfile hpts hscan hfoot
  have hl := hw.file
  rw [session] at hs
  split at hs
  · simp at hs
  · next v hv =>
    split at hs
    · simp at hs
    · next hpan =>
      split at hs
      · simp at hs
      · next v' hc =>
        cases hs
        simp only at hl hscan hfoot hfile hpts ⊢
        have hg := (Grows.close env _ hc).pre.length_le
        have ht := keeps_follows hk hall
        obtain ⟨w, h1, h2⟩ := Stream.new_like env ht schema (s := s0) (k := ⟨[], none⟩)
          ⟨by rw [WriteWrapper.new, h0], by rw [WriteWrapper.Counts, WriteWrapper.new, h0]; rfl⟩ hv
        obtain ⟨h3, h4⟩ := Stream.run_like env ht ops h2 hpan (by omega)
        cases hf : (v.run env ops).1.flushAllChunkGroups env with
        | none => rw [Writer.close, hf] at hc; simp at hc
        | some r =>
          obtain ⟨v1, e⟩ := r
          obtain ⟨w', h5, h6⟩ := close_short hk hall h4 hf hc hl
          rw [hfl v v1 e hv hf] at h6
          obtain ⟨r, hr⟩ := hfile
          obtain ⟨footer, hfoot, hoff⟩ := hfoot
          obtain ⟨t, ht⟩ := h6
          have hscan' : scan unsnap (content w'.io.out.writer) = some (groups.flatMap (groupItems env), footer.metaOffset) := by
            rw [← ht, hoff]
            rw [hr] at hscan
            exact (scan_extend (scan_shrink hscan (by simp)) t).1
          refine ⟨w, w', _, footer, h1, h3, h5, hfoot, ?_, ?_, hscan', ?_⟩
          · simp only [hr, hoff, List.length_append, List.length_cons, List.length_nil]
            omega
          · refine ⟨t, ?_⟩
            rw [hr, hoff, List.take_left' (by simp), ht]
          · intro d m
            rw [scanPoints_groups, hpts]

/-- **C51** is violated by every program: on an output that never fails but takes at most seven bytes at a time, opening succeeds,
the calls return what they return on a vector, closing returns, and the file is shorter than the file on a vector. With eight
bytes at a time the file is the same (`C73_file`). -/
theorem C51_seven_wrong (hk : Keeps p content) (ha : Accepts p.dev) (hp : ∀ n, n ≤ p.patience n)
    (h7 : ∀ s b n, (p.dev s b).2 = .ok n → n ≤ 7) {s0 : σ} (h0 : content s0 = []) {ops : List Op} {s : Session}
    (hs : session env schema ops = some s) (hl : s.file.length < 2 ^ 64) :
    ∃ w w', Stream.Writer.new env p schema s0 = some (.ok w) ∧ (w.run env p ops).2 = s.results
      ∧ (w.run env p ops).1.close env p p = some w' ∧ (content w'.io.out.writer).length < s.file.length := by
  have hall : ∀ (w : WriteWrapper σ) (b : Bytes), ∃ w', w.writeAll p.dev (p.patience b.length) b = some (w', .ok ()) :=
    fun w b => WriteWrapper.writeAll_accepts ha _ w b (hp _)
  have ht := keeps_follows hk hall
  rw [session] at hs
  split at hs
  · simp at hs
  · next v hv =>
    split at hs
    · simp at hs
    · next hpan =>
      split at hs
      · simp at hs
      · next v' hc =>
        cases hs
        simp only at hl ⊢
        have hg := (Grows.close env _ hc).pre.length_le
        obtain ⟨w, h1, h2⟩ := Stream.new_like env ht schema (s := s0) (k := ⟨[], none⟩)
          ⟨by rw [WriteWrapper.new, h0], by rw [WriteWrapper.Counts, WriteWrapper.new, h0]; rfl⟩ hv
        obtain ⟨h3, h4⟩ := Stream.run_like env ht ops h2 hpan (by omega)
        obtain ⟨w', h5, h6⟩ := close_shorter hk hall h7 h4 hc hl
        exact ⟨w, w', h1, h3, h5, h6⟩

end TsFile

namespace TsFile.Demo
open Spec

/-- The example on an output that takes at most `k` bytes per call: the results of the calls and the bytes after closing. -/
def shortOn (k : Nat) : Option (List (Res Unit) × Bytes) :=
  match Stream.Writer.new env ⟨chunked k, id, id⟩ schema [] with
  | some (.ok w) =>
    ((w.run env ⟨chunked k, id, id⟩ ops).1.close env ⟨chunked k, id, id⟩ ⟨chunked k, id, id⟩).map
      (fun w' => ((w.run env ⟨chunked k, id, id⟩ ops).2, w'.io.out.writer))
  | _ => none

/-- An output that takes one byte per call. -/
example := C51_data_partial envOk indexable.toNamed (p := ⟨chunked 1, id, id⟩) (content := id) ⟨chunked_stores 1, fun _ => rfl⟩
  (chunked_accepts (by omega)) (fun n => Nat.le_refl n) rfl session_eq within

/-- An output that takes three bytes per call. -/
example := C51_seven_wrong (p := ⟨chunked 3, id, id⟩) (content := id) ⟨chunked_stores 3, fun _ => rfl⟩
  (chunked_accepts (by omega)) (fun n => Nat.le_refl n)
  (fun s b n h => by simp only [chunked, Except.ok.injEq, List.length_take] at h; omega) rfl session_eq within.file

/-- **C51** is violated by a whole program: on an output that never fails and takes up to seven bytes at a time, all calls return
what they return on a vector, closing returns, and the file has no footer that could be read. -/
theorem _root_.TsFile.C51_file_wrong : ∃ file, shortOn 7 = some (result.results, file) ∧ file ≠ result.file ∧ readFooter file = none
    ∧ (readFooter result.file).isSome := by
  have h : (match shortOn 7 with
      | some (rs, file) => decide (rs = result.results) && decide (file ≠ result.file) && (readFooter file).isNone
          && (readFooter result.file).isSome
      | none => false) = true := by decide +kernel
  cases hc : shortOn 7 with
  | none => rw [hc] at h; cases h
  | some x =>
    obtain ⟨rs, file⟩ := x
    rw [hc] at h
    simp only [Bool.and_eq_true, decide_eq_true_eq, Option.isNone_iff_eq_none] at h
    exact ⟨file, by rw [h.1.1.1], h.1.1.2, h.1.2, h.2⟩

end TsFile.Demo
