import Verif.Proofs.Ports
import Verif.Props.Faults
/-! # C73: the writer on any output that does its work

`Model/Stream.lean` makes every single `write` and `write_all` of the writer on any `std::io::Write`. `Faithful p content`
(`Spec/Stream.lean`) says that the output stores what it accepts, that `write_all` on it succeeds, and that it takes the at
most 8 bytes of the calls of `write` whose result the writer ignores (the others may be cut in pieces in any way). -/

namespace TsFile
open Spec Stream

variable {env : Env} {σ : Type} {p : Port σ} {content : σ → Bytes} {schema : Schema}

/-- **C73** (1). The file does not depend on how the output cuts the data: on every such output, the calls return what
they return on a vector, and the output contains the same file at the end. -/
theorem C73_file (hp : Faithful p content) {s0 : σ} (h0 : content s0 = []) {ops : List Op} {s : Session}
    (hs : session env schema ops = some s) (hl : s.file.length < 2 ^ 64) :
    ∃ w w', Stream.Writer.new env p schema s0 = some (.ok w) ∧ (w.run env p ops).2 = s.results
      ∧ (w.run env p ops).1.close env p p = some w' ∧ content w'.io.out.writer = s.file := by
  have ht := faithful_tracks hp
  rw [session] at hs
  split at hs
  · simp at hs
  · next v hv =>
    split at hs
    · simp at hs
    · next hpan =>
      split at hs
      · simp at hs
      · next v' hc =>
        cases hs
        simp only at hl
        have hg := (Grows.close env _ hc).pre.length_le
        obtain ⟨w, h1, h2⟩ := new_like env ht.toFollows schema (s := s0) (k := ⟨[], none⟩)
          ⟨by rw [WriteWrapper.new, h0], by rw [WriteWrapper.Counts, WriteWrapper.new, h0]; rfl⟩ hv
        obtain ⟨h3, h4⟩ := run_like env ht.toFollows ops h2 hpan (by omega)
        obtain ⟨w', h5, h6⟩ := close_like env ht ht h4 hc hl
        refine ⟨w, w', h1, h3, h5, ?_⟩
        have := h6.io.out.1
        simp only [this]

/-- **C73** (2). An output that runs full after `n` bytes: call by call, the writer does exactly what the simpler model of
`Model/Writer.lean` says (which treats the bytes of several calls at once). So what C31 and C32 say about a full disk holds for
every single call of `write`. -/
theorem C73_limited (n : Nat) {patience : Nat → Nat} (hpt : ∀ k, 2 ≤ patience k) {ops : List Op} {v v' : TsFile.Writer}
    (hv : openOn env schema (some n) = .ok v) (hpan : Res.panic ∉ (v.run env ops).2)
    (hc : (v.run env ops).1.close env = some v') (hl : v'.io.out.bytes.length < 2 ^ 64) :
    ∃ w w', Stream.Writer.new env ⟨limited n, patience, id⟩ schema [] = some (.ok w)
      ∧ (w.run env ⟨limited n, patience, id⟩ ops).2 = (v.run env ops).2
      ∧ (w.run env ⟨limited n, patience, id⟩ ops).1.io.out.writer = (v.run env ops).1.io.out.bytes
      ∧ (w.run env ⟨limited n, patience, id⟩ ops).1.close env ⟨limited n, patience, id⟩ ⟨limited n, patience, id⟩ = some w'
      ∧ w'.io.out.writer = v'.io.out.bytes := by
  have ht := limited_tracks n hpt
  have hg := (Grows.close env _ hc).pre.length_le
  obtain ⟨w, h1, h2⟩ := new_like env ht.toFollows schema (s := []) (k := ⟨[], some n⟩) ⟨rfl, rfl⟩ hv
  obtain ⟨h3, h4⟩ := run_like env ht.toFollows ops h2 hpan (by omega)
  obtain ⟨w', h5, h6⟩ := close_like env ht ht h4 hc hl
  refine ⟨w, w', h1, h3, ?_, h5, ?_⟩
  · have := h4.io.out.1
    simp only [this]
  · have := h6.io.out.1
    simp only [this]

/-- **C73** (3). If there is no room for the header, opening fails in the same way. -/
theorem C73_no_room (n : Nat) (hn : n < 7) {patience : Nat → Nat} (hpt : ∀ k, 2 ≤ patience k) :
    Stream.Writer.new env ⟨limited n, patience, id⟩ schema [] = some (.error .ioError) :=
  new_error_like env (limited_tracks n hpt).toFollows schema (s := []) (k := ⟨[], some n⟩) ⟨rfl, rfl⟩
    ((C32_create env schema n).2 hn)

end TsFile

namespace TsFile.Demo
open Spec

/-- An output that takes at most 8 bytes per call gets the file of the example. -/
example := C73_file (chunked_faithful (Nat.le_refl 8)) rfl session_eq within.file

/-- So does one that takes 1000 bytes per call. -/
example := C73_file (chunked_faithful (k := 1000) (by omega)) rfl session_eq within.file


/-- An output with room for 100 bytes. -/
example (v v' : TsFile.Writer) (hv : openOn env schema (some 100) = .ok v) (hp : Res.panic ∉ (v.run env ops).2)
    (hc : (v.run env ops).1.close env = some v') (hl : v'.io.out.bytes.length < 2 ^ 64) :=
  C73_limited 100 (patience := fun _ => 2) (fun _ => Nat.le_refl 2) hv hp hc hl

end TsFile.Demo
