import Verif.Proofs.Local
import Verif.Props.ReadBack
import Verif.Props.Write
/-! # Schemas where names contain dots: C01, C05, C06, C33

`Schema.IndexableAt` is in `Verif/Spec/Isolated.lean`. -/

namespace TsFile
open Spec

/-- **C33**, partial, with conditions on one device only: every series of an isolated device with at most 65536
measurements (not counting those with dots in their names) is found through the index, if its measurement has no dot. -/
theorem C33_device_partial {env : Env} {unsnap : Bytes → Option Bytes} (he : EnvOk env unsnap) {schema : Schema}
    {d m : Bytes} (hsch : schema.IndexableAt d) {ops : List Op} {s : Session} (hs : session env schema ops = some s)
    (hw : s.Within ops) (hm : NoDot m)
    (hne : series (storedBy schema ops s.grown) d m ≠ []) :
    ∃ sm, readSeriesMeta s.file d m = some (some sm) ∧ sm.measurement = m
      ∧ (readChunks unsnap s.file m sm.chunks).map (fun cs => cs.flatMap Chunk.points)
        = some (series (storedBy schema ops s.grown) d m) := by
  have h := C01_device_partial he hsch hs hw m
  rw [if_pos hm, Spec.readSeries] at h
  obtain ⟨c⟩ := session_outlined he hsch.toNamed hs hw
  rcases c.layout.readSeriesMeta hsch c.ok c.fits m with ⟨h1, h2⟩ | ⟨ms, sc, _, _, _, _, h2⟩
  · rw [h2] at h
    exact absurd (Option.some.inj h).symm hne
  · rw [h2] at h
    exact ⟨_, h2, rfl, by simpa using h⟩

/-- **C05**, what holds (2), for any schema: a scan of the file finds every point of a call that returned `Ok`, in order. -/
theorem C05_ok_scanned_partial {env : Env} {unsnap : Bytes → Option Bytes} (he : EnvOk env unsnap) {schema : Schema}
    (hsch : schema.Named) {ops : List Op} {s : Session} (hs : session env schema ops = some s) (hw : s.Within ops) :
    ∃ items stop, scan unsnap s.file = some (items, stop)
      ∧ ∀ d m, (series (accepted ops s.results) d m).Sublist (scanPoints d m none items) := by
  obtain ⟨items, footer, _, h1, _, h2⟩ := C02_scan he hsch hs hw
  exact ⟨items, _, h1, fun d m => by rw [h2]; exact stored_accepted he hsch hs hw d m⟩

/-- **C06**, what holds, for any schema: the points that a scan finds for a series are a sequence of bursts, each with
increasing non-negative timestamps; there are at most one more bursts than calls that made the output grow. -/
theorem C06_bursts_scanned_partial {env : Env} {unsnap : Bytes → Option Bytes} (he : EnvOk env unsnap) {schema : Schema}
    (hsch : schema.Named) {ops : List Op} {s : Session} (hs : session env schema ops = some s) (hw : s.Within ops) :
    ∃ items stop, scan unsnap s.file = some (items, stop)
      ∧ ∀ d m, ∃ bs : List (List Point), scanPoints d m none items = bs.flatten
        ∧ (∀ b ∈ bs, Increasing b) ∧ bs.length ≤ (s.grown.filter (fun n => decide (0 < n))).length + 1 := by
  obtain ⟨items, footer, _, h1, _, h2⟩ := C02_scan he hsch hs hw
  exact ⟨items, _, h1, fun d m => by rw [h2]; exact stored_bursts hs d m⟩

end TsFile

namespace TsFile.Demo
open Spec

/-- Device `root.d` has a measurement with and one without a dot; device `root.d.a` has a series with the same path as
`root.d`, `a.b`. -/
def mixedSchema : Schema :=
  [(str "root.d", [(str "a.b", ⟨.INT32, .PLAIN, .UNCOMPRESSED⟩), (str "c", ⟨.INT32, .PLAIN, .UNCOMPRESSED⟩)]),
   (str "root.d.a", [(str "b", ⟨.INT32, .PLAIN, .UNCOMPRESSED⟩)])]

def mixedOps : List Op :=
  [.write (str "root.d") (str "a.b") 1 (.INT 1), .write (str "root.d") (str "c") 1 (.INT 2),
   .write (str "root.d.a") (str "b") 5 (.INT 3)]

def mixedResult : Session := (session env mixedSchema mixedOps).getD ⟨[], [], 0, []⟩

theorem mixedSession_eq : session env mixedSchema mixedOps = some mixedResult := by
  have : (session env mixedSchema mixedOps).isSome = true := by decide +kernel
  rw [mixedResult]
  cases h : session env mixedSchema mixedOps with
  | none => rw [h] at this; simp at this
  | some s => rfl

theorem mixedWithin : mixedResult.Within mixedOps :=
  ⟨by decide +kernel, by decide +kernel, by decide +kernel, by decide +kernel⟩

theorem mixedNamed : mixedSchema.Named :=
  ⟨⟨by decide +kernel, by decide +kernel⟩, by decide +kernel, by decide +kernel⟩

theorem mixedIsolated : mixedSchema.Isolated (str "root.d") := by
  intro e he x hx m hm hp
  simp only [mixedSchema, List.mem_cons, List.not_mem_nil, or_false] at he
  rcases he with rfl | rfl
  · rfl
  · exfalso
    simp only [List.mem_cons, List.not_mem_nil, or_false] at hx
    subst hx
    have : str "root.d.a" ++ [0x2e] ++ str "b" = str "root.d" ++ [0x2e] ++ str "a.b" := by decide
    simp only [this, List.append_cancel_left_eq] at hp
    subst hp
    exact hm (by decide)

theorem mixedFew (d : Bytes) : mixedSchema.FewIn d := by
  intro e he _
  refine Nat.le_trans (List.length_filter_le _ _) ?_
  simp only [mixedSchema, List.mem_cons, List.not_mem_nil, or_false] at he
  rcases he with rfl | rfl <;> decide

theorem mixedAt : mixedSchema.IndexableAt (str "root.d") := ⟨mixedNamed, mixedIsolated, mixedFew _⟩

end TsFile.Demo

namespace TsFile
open Spec

-- the hypotheses are met in a schema whose index is wrong for other series
example : readSeries some Demo.mixedResult.file (str "root.d") (str "c") = some [(1, .INT 2)] := by
  rw [C01_device_partial Demo.envOk Demo.mixedAt Demo.mixedSession_eq Demo.mixedWithin]
  decide +kernel

example : readSeries some Demo.mixedResult.file (str "root.d") (str "a.b")
    ≠ some (series (storedBy Demo.mixedSchema Demo.mixedOps Demo.mixedResult.grown) (str "root.d") (str "a.b")) :=
  C01_dotted_wrong Demo.envOk Demo.mixedAt Demo.mixedSession_eq Demo.mixedWithin (by decide) (by decide +kernel)

example := C33_device_partial Demo.envOk Demo.mixedAt Demo.mixedSession_eq Demo.mixedWithin (m := str "c") (by decide) (by decide +kernel)

example := C05_ok_scanned_partial Demo.envOk Demo.mixedNamed Demo.mixedSession_eq Demo.mixedWithin
example := C06_bursts_scanned_partial Demo.envOk Demo.mixedNamed Demo.mixedSession_eq Demo.mixedWithin

/-- **C01** is false for a device that is not isolated, although its own names have no dots in the measurements: the
series `root.d.a`, `b` has the same path as `root.d`, `a.b`. They share one entry of the index, which has the name `a.b`;
the point accepted for `b` is not found. -/
theorem C01_mixed_wrong : Demo.mixedResult.results = [.ok (), .ok (), .ok ()]
    ∧ series (storedBy Demo.mixedSchema Demo.mixedOps Demo.mixedResult.grown) (str "root.d.a") (str "b") = [(5, .INT 3)]
    ∧ readSeries some Demo.mixedResult.file (str "root.d.a") (str "b") = some [] := by
  decide +kernel

end TsFile
