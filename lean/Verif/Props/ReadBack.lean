import Verif.Proofs.Local
import Verif.Proofs.Machine
import Verif.Props.Example
/-! # Reading back what was written: C01, C02, C28, C45 -/

namespace TsFile
open Spec

/-- **C01**, partial: reading a closed file through its index gives, for every device and measurement, exactly the
points that the abstract writer has stored, in order. The results of the calls are those of the abstract
writer too. Missing: measurement names with dots and devices with more than 65536 measurements (`Schema.Indexable`), for
which the index is wrong, see `C01_dots_wrong` and C33. -/
theorem C01_index_read_back_partial {env : Env} {unsnap : Bytes → Option Bytes} (he : EnvOk env unsnap) {schema : Schema}
    (hsch : schema.Indexable) {ops : List Op} {s : Session} (hs : session env schema ops = some s)
    (hw : s.Within ops) :
    s.results = (AState.init.run schema (ops.zip (s.grown.map (fun n => decide (0 < n))))).2
    ∧ ∀ d m, readSeries unsnap s.file d m = some (series (storedBy schema ops s.grown) d m) := by
  obtain ⟨c⟩ := session_closed he hsch hs hw
  refine ⟨c.results.symm, fun d m => ?_⟩
  rw [c.layout.readSeries hsch he.order c.ok c.fits, c.pts]

example : ∀ d m, readSeries some Demo.result.file d m
    = some (series (storedBy Demo.schema Demo.ops Demo.result.grown) d m) :=
  (C01_index_read_back_partial Demo.envOk Demo.indexable Demo.session_eq Demo.within).2

/-- Without failing `write_many` calls, the stored points are those of the successful calls. -/
theorem storedBy_accepted {env : Env} {unsnap : Bytes → Option Bytes} (he : EnvOk env unsnap) {schema : Schema}
    (hsch : schema.Named) {ops : List Op} {s : Session} (hs : session env schema ops = some s)
    (hw : s.Within ops) (hmany : ∀ d t vs r, (Op.writeMany d t vs, r) ∈ ops.zip s.results → r = .ok ()) :
    storedBy schema ops s.grown = accepted ops s.results := by
  obtain ⟨c⟩ := session_outlined he hsch hs hw
  have hlen : s.grown.length = ops.length := session_grown_length hs
  have hmap : (ops.zip (s.grown.map (fun n => decide (0 < n)))).map Prod.fst = ops := by
    rw [List.map_fst_zip]
    simp [hlen]
  obtain ⟨h1, h2⟩ := run_accepted schema (ops.zip (s.grown.map (fun n => decide (0 < n)))) AState.init rfl
    (by rw [c.results, hmap]; exact hmany)
  rw [c.results, hmap] at h1
  rw [storedBy, (flush_all _ (fun h0 => List.length_eq_zero_iff.1 (by rw [← h2]; exact h0))).1, h1]
  rfl

/-- **C01**, partial, for a history in which no `write_many` fails: exactly the points of the calls that returned
`Ok` are read back. Missing: as above, and what happens after a failing `write_many` (C05). -/
theorem C01_accepted_read_back_partial {env : Env} {unsnap : Bytes → Option Bytes} (he : EnvOk env unsnap)
    {schema : Schema} (hsch : schema.Indexable) {ops : List Op} {s : Session}
    (hs : session env schema ops = some s) (hw : s.Within ops)
    (hmany : ∀ d t vs r, (Op.writeMany d t vs, r) ∈ ops.zip s.results → r = .ok ()) (d m : Bytes) :
    readSeries unsnap s.file d m = some (series (accepted ops s.results) d m) := by
  rw [(C01_index_read_back_partial he hsch hs hw).2, storedBy_accepted he hsch.toNamed hs hw hmany]

example (d m : Bytes) : readSeries some Demo.result.file d m
    = some (series (accepted Demo.ops Demo.result.results) d m) :=
  C01_accepted_read_back_partial Demo.envOk Demo.indexable Demo.session_eq Demo.within Demo.manyOk d m

-- the demo is not trivial
example : series (accepted Demo.ops Demo.result.results) (str "root.sg.d1") (str "s1")
    = [(10, .INT 7), (12, .INT (-1))] := by decide +kernel

/-- **C01**, partial, with conditions on one device only: if no series of another device has a path that reads as a series
of device `d`, and `d` has at most 65536 measurements without dots in their names, then reading any series of `d` through
the index gives exactly the stored points if the measurement has no dot in its name, and nothing if it has. Other devices
may have any names and any number of measurements. Missing: devices that are not isolated (`C01_mixed_wrong`), dots in the
measurement (`C01_dotted_wrong`), more measurements (C33). -/
theorem C01_device_partial {env : Env} {unsnap : Bytes → Option Bytes} (he : EnvOk env unsnap) {schema : Schema}
    {d : Bytes} (hsch : schema.IndexableAt d) {ops : List Op} {s : Session} (hs : session env schema ops = some s)
    (hw : s.Within ops) (m : Bytes) :
    readSeries unsnap s.file d m = some (if NoDot m then series (storedBy schema ops s.grown) d m else []) := by
  obtain ⟨c⟩ := session_outlined he hsch.toNamed hs hw
  rw [c.layout.readSeries hsch c.ok c.fits, c.pts]

/-- **C01** is false for every series of an isolated device whose measurement has a dot in its name: whatever is stored,
reading through the index finds nothing. -/
theorem C01_dotted_wrong {env : Env} {unsnap : Bytes → Option Bytes} (he : EnvOk env unsnap) {schema : Schema}
    {d m : Bytes} (hsch : schema.IndexableAt d) {ops : List Op} {s : Session} (hs : session env schema ops = some s)
    (hw : s.Within ops) (hm : ¬ NoDot m)
    (hne : series (storedBy schema ops s.grown) d m ≠ []) :
    readSeries unsnap s.file d m ≠ some (series (storedBy schema ops s.grown) d m) := by
  rw [C01_device_partial he hsch hs hw, if_neg hm]
  intro h
  exact hne (Option.some.inj h).symm

/-- **C01**, partial, with conditions on one device, for a history in which no `write_many` fails: exactly the points of the
calls that returned `Ok` are read back. -/
theorem C01_device_accepted_partial {env : Env} {unsnap : Bytes → Option Bytes} (he : EnvOk env unsnap) {schema : Schema}
    {d : Bytes} (hsch : schema.IndexableAt d) {ops : List Op} {s : Session} (hs : session env schema ops = some s)
    (hw : s.Within ops) (hmany : ∀ d t vs r, (Op.writeMany d t vs, r) ∈ ops.zip s.results → r = .ok ()) (m : Bytes) :
    readSeries unsnap s.file d m = some (if NoDot m then series (accepted ops s.results) d m else []) := by
  rw [C01_device_partial he hsch hs hw, storedBy_accepted he hsch.toNamed hs hw hmany]

/-- **C01** is false with a dot in a measurement name: the point is accepted, and reading the series through the index
finds nothing. (A scan finds it, see C02.) -/
theorem C01_dots_wrong : Demo.dotResult.results = [.ok ()]
    ∧ readSeries some Demo.dotResult.file (str "root.d") (str "a.b") = some [] := by
  decide +kernel

/-- **C02.** Scanning the file from the beginning finds the end marker at the position given in the footer;
the chunks of each series hold exactly the stored points in order, and the scan begins with a chunk group
header if it finds anything. -/
theorem C02_scan {env : Env} {unsnap : Bytes → Option Bytes} (he : EnvOk env unsnap) {schema : Schema}
    (hsch : schema.Named) {ops : List Op} {s : Session} (hs : session env schema ops = some s)
    (hw : s.Within ops) :
    ∃ items footer, readFooter s.file = some footer ∧ scan unsnap s.file = some (items, footer.metaOffset)
      ∧ (∀ item ∈ items.head?, ∃ d, item = .group d)
      ∧ ∀ d m, scanPoints d m none items = series (storedBy schema ops s.grown) d m := by
  obtain ⟨c⟩ := session_outlined he hsch hs hw
  obtain ⟨bits, _, hf⟩ := c.layout.readFooter c.fits
  refine ⟨_, _, hf, c.layout.scan hsch c.ok c.fits, ?_, ?_⟩
  · cases hg : c.groups with
    | nil => simp
    | cons g gs => simp [groupItems]
  · intro d m
    rw [scanPoints_groups, c.pts]

example : (scan some Demo.result.file).map (fun r => r.1.length) = some 5 := by decide +kernel

-- the hypotheses are met by a schema whose index is wrong
example : ∃ items footer, readFooter Demo.dotResult.file = some footer
    ∧ scan some Demo.dotResult.file = some (items, footer.metaOffset)
    ∧ scanPoints (str "root.d") (str "a.b") none items = [(1, .INT 1)] := by
  obtain ⟨i, f, h1, h2, _, h3⟩ := C02_scan Demo.envOk Demo.dotNamed Demo.dotSession_eq Demo.dotWithin
  exact ⟨i, f, h1, h2, by rw [h3]; decide +kernel⟩

/-- **C02**, for a history in which no `write_many` fails: a scan finds exactly the points of the calls that returned
`Ok`. -/
theorem C02_scan_accepted {env : Env} {unsnap : Bytes → Option Bytes} (he : EnvOk env unsnap) {schema : Schema}
    (hsch : schema.Named) {ops : List Op} {s : Session} (hs : session env schema ops = some s)
    (hw : s.Within ops) (hmany : ∀ d t vs r, (Op.writeMany d t vs, r) ∈ ops.zip s.results → r = .ok ()) :
    ∃ items stop, scan unsnap s.file = some (items, stop)
      ∧ ∀ d m, scanPoints d m none items = series (accepted ops s.results) d m := by
  obtain ⟨items, footer, _, h2, _, h3⟩ := C02_scan he hsch hs hw
  exact ⟨items, _, h2, fun d m => by rw [h3, storedBy_accepted he hsch hs hw hmany]⟩

example : ∃ items stop, scan some Demo.result.file = some (items, stop)
    ∧ ∀ d m, scanPoints d m none items = series (accepted Demo.ops Demo.result.results) d m :=
  C02_scan_accepted Demo.envOk Demo.indexable.toNamed Demo.session_eq Demo.within Demo.manyOk

/-- **C28.** The footer is found from the end of the file: the file ends with the magic string, before that
is the length of the footer (see `readFooter`); the offset in the footer is the position of the marker byte
that separates the data from the index. -/
theorem C28_footer {env : Env} {unsnap : Bytes → Option Bytes} (he : EnvOk env unsnap) {schema : Schema}
    (hsch : schema.Named) {ops : List Op} {s : Session} (hs : session env schema ops = some s)
    (hw : s.Within ops) :
    ∃ footer, readFooter s.file = some footer ∧ s.file[footer.metaOffset]? = some 2
      ∧ footer.root.kind = 1 := by
  obtain ⟨c⟩ := session_outlined he hsch hs hw
  obtain ⟨bits, _, hf⟩ := c.layout.readFooter c.fits
  refine ⟨_, hf, ?_, ?_⟩
  · simp only
    rw [c.layout.bytes]
    simp
  · simp only [IndexNode.toSpec, c.layout.kind]
    rfl

example : (readFooter Demo.result.file).isSome = true := by decide +kernel

/-- **C45.** What is read back for a series depends only on the stored points of this series. -/
theorem C45_series_independent {env env' : Env} {unsnap : Bytes → Option Bytes} (he : EnvOk env unsnap)
    (he' : EnvOk env' unsnap) {schema schema' : Schema} {d : Bytes} (hsch : schema.IndexableAt d)
    (hsch' : schema'.IndexableAt d)
    {ops ops' : List Op} {s s' : Session} (hs : session env schema ops = some s)
    (hs' : session env' schema' ops' = some s') (hw : s.Within ops) (hw' : s'.Within ops')
    (hmany : ∀ d t vs r, (Op.writeMany d t vs, r) ∈ ops.zip s.results → r = .ok ())
    (hmany' : ∀ d t vs r, (Op.writeMany d t vs, r) ∈ ops'.zip s'.results → r = .ok ()) (m : Bytes)
    (hsame : series (accepted ops s.results) d m = series (accepted ops' s'.results) d m) :
    readSeries unsnap s.file d m = readSeries unsnap s'.file d m := by
  rw [C01_device_accepted_partial he hsch hs hw hmany, C01_device_accepted_partial he' hsch' hs' hw' hmany', hsame]

/-- **C45**, for any schemas: what a scan finds for a series depends only on the accepted points of this series. -/
theorem C45_scan_independent {env env' : Env} {unsnap : Bytes → Option Bytes} (he : EnvOk env unsnap)
    (he' : EnvOk env' unsnap) {schema schema' : Schema} (hsch : schema.Named) (hsch' : schema'.Named)
    {ops ops' : List Op} {s s' : Session} (hs : session env schema ops = some s)
    (hs' : session env' schema' ops' = some s') (hw : s.Within ops) (hw' : s'.Within ops')
    (hmany : ∀ d t vs r, (Op.writeMany d t vs, r) ∈ ops.zip s.results → r = .ok ())
    (hmany' : ∀ d t vs r, (Op.writeMany d t vs, r) ∈ ops'.zip s'.results → r = .ok ()) :
    ∃ items stop items' stop', scan unsnap s.file = some (items, stop) ∧ scan unsnap s'.file = some (items', stop')
      ∧ ∀ d m, series (accepted ops s.results) d m = series (accepted ops' s'.results) d m →
        scanPoints d m none items = scanPoints d m none items' := by
  obtain ⟨i, p, h1, h2⟩ := C02_scan_accepted he hsch hs hw hmany
  obtain ⟨i', p', h1', h2'⟩ := C02_scan_accepted he' hsch' hs' hw' hmany'
  exact ⟨i, p, i', p', h1, h1', fun d m e => by rw [h2, h2', e]⟩

-- the second session writes only one of the series of the first
example : readSeries some Demo.result.file (str "root.sg.d1") (str "s1")
    = readSeries some Demo.result2.file (str "root.sg.d1") (str "s1") :=
  C45_series_independent Demo.envOk Demo.envOk (Demo.indexable.at _) (Demo.indexable2.at _) Demo.session_eq Demo.session_eq2
    Demo.within Demo.within2 Demo.manyOk Demo.manyOk2 _ (by decide +kernel)

end TsFile
