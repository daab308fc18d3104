import Verif.Proofs.SparseNodes
import Verif.Props.Device
import Verif.Props.Close
/-! # The index below one device, in schemas where other names contain dots: C23, C24 -/

namespace TsFile
open Spec

section
variable {env : Env} {unsnap : Bytes → Option Bytes} {schema : Schema} {ops : List Op} {s : Session}

/-- **C23**, partial, with conditions on one device only: an isolated device `d` with at most 65536 measurements (not counting
those with dots in their names) has one entry in the root node if a series of it without a dot in the measurement has stored
points, and no entry otherwise. The node of this entry lists exactly these measurements, each once. Other devices may have any
names and any number of measurements. Missing: devices that are not isolated, dots in the measurement (`C23_dots_wrong`). -/
theorem C23_device_partial (he : EnvOk env unsnap) {d : Bytes} (hsch : schema.IndexableAt d)
    (hs : session env schema ops = some s) (hw : s.Within ops) :
    ∃ footer, readFooter s.file = some footer ∧ footer.root.kind = 1 ∧ (footer.root.entries.map Entry.name).Nodup
      ∧ (d ∈ footer.root.entries.map Entry.name ↔ ∃ m, NoDot m ∧ series (storedBy schema ops s.grown) d m ≠ [])
      ∧ ∀ e ∈ footer.root.entries, e.name = d → ∃ node metas, readNode s.file e.offset = some node
        ∧ nodeSeries s.file node = some metas ∧ (metas.map SeriesMeta.measurement).Nodup
        ∧ ∀ m, m ∈ metas.map SeriesMeta.measurement ↔ NoDot m ∧ series (storedBy schema ops s.grown) d m ≠ [] := by
  obtain ⟨c⟩ := session_outlined he hsch.toNamed hs hw
  have hloc : ∀ m, locsIn (fileLocs env 7 c.groups) d m ≠ [] ↔ series (storedBy schema ops s.grown) d m ≠ [] := by
    intro m
    rw [← c.pts, ← locsOf_ne_nil c.ok]
    rfl
  obtain ⟨footer, h1, h2, h3, h4, h5⟩ := Sparse.deviceNode hsch c.ok.locs c.layout c.fits
  refine ⟨footer, h1, h2, h3, ?_, ?_⟩
  · rw [h4]
    simp only [hloc]
  · intro e he hed
    obtain ⟨node, metas, q1, _, _, q2, q3, q4⟩ := h5 e he hed
    refine ⟨node, metas, q1, q2, ?_, ?_⟩
    · rw [List.nodup_iff_pairwise_ne]
      exact q3.imp (fun {a b} hab => bytesLt_ne ((bytesLt_iff _ _).2 hab))
    · intro m
      rw [q4, hloc]

/-- **C23** is false for every stored series with a dot in its measurement, of an isolated device: the node of the entry of this
device, if there is one, does not list it, so what the property says about this device does not hold. -/
theorem C23_dotted_wrong (he : EnvOk env unsnap) {d : Bytes} (hsch : schema.IndexableAt d)
    (hs : session env schema ops = some s) (hw : s.Within ops) {m : Bytes} (hm : ¬ NoDot m)
    (hne : series (storedBy schema ops s.grown) d m ≠ []) :
    ∃ footer, readFooter s.file = some footer
      ∧ (∀ e ∈ footer.root.entries, e.name = d → ∃ node metas, readNode s.file e.offset = some node
        ∧ nodeSeries s.file node = some metas ∧ m ∉ metas.map SeriesMeta.measurement)
      ∧ ¬ ((d ∈ footer.root.entries.map Entry.name ↔ ∃ m, series (storedBy schema ops s.grown) d m ≠ [])
        ∧ ∀ e ∈ footer.root.entries, e.name = d → ∀ node metas, readNode s.file e.offset = some node →
          nodeSeries s.file node = some metas →
          ∀ m, m ∈ metas.map SeriesMeta.measurement ↔ series (storedBy schema ops s.grown) d m ≠ []) := by
  obtain ⟨footer, hf, _, _, _, hx⟩ := C23_device_partial he hsch hs hw
  have key : ∀ e ∈ footer.root.entries, e.name = d → ∃ node metas, readNode s.file e.offset = some node
      ∧ nodeSeries s.file node = some metas ∧ m ∉ metas.map SeriesMeta.measurement := by
    intro e he' hn
    obtain ⟨node, metas, h1, h2, _, h3⟩ := hx e he' hn
    exact ⟨node, metas, h1, h2, fun h => hm ((h3 m).1 h).1⟩
  refine ⟨footer, hf, key, fun ⟨h1, h2⟩ => ?_⟩
  obtain ⟨e, he', hn⟩ := List.mem_map.1 (h1.2 ⟨m, hne⟩)
  obtain ⟨node, metas, h3, h4, h5⟩ := key e he' hn
  exact h5 ((h2 e he' hn node metas h3 h4 m).2 hne)

/-- **C24**, partial, with conditions on one device only: the node of an isolated device with at most 65536 measurements (not
counting those with dots in their names) is a node of measurements whose names are strictly ascending, in byte order, and so are
the measurements of the series below it. -/
theorem C24_device_partial (he : EnvOk env unsnap) {d : Bytes} (hsch : schema.IndexableAt d)
    (hs : session env schema ops = some s) (hw : s.Within ops) :
    ∃ footer, readFooter s.file = some footer
      ∧ ∀ e ∈ footer.root.entries, e.name = d → ∃ node metas, readNode s.file e.offset = some node ∧ node.kind = 3
        ∧ (node.entries.map Entry.name).Pairwise (· < ·)
        ∧ nodeSeries s.file node = some metas ∧ (metas.map SeriesMeta.measurement).Pairwise (· < ·) := by
  obtain ⟨c⟩ := session_outlined he hsch.toNamed hs hw
  obtain ⟨footer, h1, _, _, _, h5⟩ := Sparse.deviceNode hsch c.ok.locs c.layout c.fits
  refine ⟨footer, h1, fun e he hed => ?_⟩
  obtain ⟨node, metas, q1, q2, q3, q4, q5, _⟩ := h5 e he hed
  exact ⟨node, metas, q1, q2, q3, q4, q5⟩

end

/-! ### the hypotheses are met in a schema whose index is wrong for other series -/

example := C23_device_partial Demo.envOk Demo.mixedAt Demo.mixedSession_eq Demo.mixedWithin
/-- A series with a dot in its measurement, as in `C23_dotted_wrong`. -/
example := C23_dotted_wrong Demo.envOk Demo.mixedAt Demo.mixedSession_eq Demo.mixedWithin (m := str "a.b") (by decide)
  (by decide +kernel)
example := C24_device_partial Demo.envOk Demo.mixedAt Demo.mixedSession_eq Demo.mixedWithin

/-- The index of that file. -/
example : (listIndex Demo.mixedResult.file).map (fun idx => idx.map (fun x => (x.1, x.2.map SeriesMeta.measurement)))
    = some [(str "root.d", [str "c"]), (str "root.d.a", [str "a.b"])] := by decide +kernel

/-- The writer of that session, when it is created. -/
def Demo.mixedW0 : Writer := ((Writer.new Demo.env Demo.mixedSchema ⟨[], none⟩).toOption).getD Demo.w0

theorem Demo.mixedNew : Writer.new Demo.env Demo.mixedSchema ⟨[], none⟩ = .ok Demo.mixedW0 := by
  have h : (Writer.new Demo.env Demo.mixedSchema ⟨[], none⟩).toOption.isSome = true := by decide +kernel
  rw [Demo.mixedW0]
  cases hn : Writer.new Demo.env Demo.mixedSchema ⟨[], none⟩ with
  | error e => rw [hn] at h; simp [Except.toOption] at h
  | ok w => rfl

example := C29_order_partial Demo.envOk Demo.mixedNamed (ops := Demo.mixedOps) Demo.mixedNew (by decide +kernel)
  (o := id) (o' := List.reverse) (fun l => List.Perm.refl l) (fun l => List.reverse_perm l)

end TsFile
