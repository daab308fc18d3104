import Verif.Props.Reference
import Verif.Props.Blocks
import Verif.Props.Producers
import Verif.Proofs.Unused
/-! # C99: series and devices that no call names

`Spec/Unused.lean` says when two schemas are the same for a call. -/

namespace TsFile
open Spec

section
variable {env : Env} {unsnap : Bytes → Option Bytes}

/-! ## The property -/

variable {schema schema' : Schema} {ops : List Op} {s s' : Session}

/-- What the calls name. -/
theorem named_devices (hop : ∀ op ∈ ops, Op.SameFor schema schema' op) (d : Bytes) (h : ∃ op ∈ ops, Op.device op = d) :
    (look d schema).isSome = (look d schema').isSome := by
  obtain ⟨op, ho, rfl⟩ := h
  exact (hop op ho).device

theorem named_series (hop : ∀ op ∈ ops, Op.SameFor schema schema' op) (d m : Bytes)
    (h : ∃ op ∈ ops, ∃ r ∈ Op.recs op, r.device = d ∧ r.measurement = m) :
    (look d schema).bind (look m) = (look d schema').bind (look m) := by
  obtain ⟨op, ho, r, hr, rfl, rfl⟩ := h
  exact (hop op ho).series r hr

theorem new_writer (env : Env) (schema : Schema) : ∃ w, Writer.new env schema ⟨[], none⟩ = .ok w
    ∧ w.groupWriters = Writer.newGroupWriters env schema ∧ w.recordCountForNextMemCheck = 100 := by
  simp only [Writer.new, IoWriter.new, Sink.ok, Sink.write, if_true]
  exact ⟨_, rfl, rfl, rfl⟩

/-- A session in steps. -/
theorem session_pieces (hs : session env schema ops = some s) {w : Writer} (hn : Writer.new env schema ⟨[], none⟩ = .ok w) :
    .panic ∉ (w.run env ops).2 ∧ s.results = (w.run env ops).2 ∧ s.grown = w.grown env ops
    ∧ ∃ w2, (w.run env ops).1.close env = some w2
      ∧ s.closing = w2.io.out.bytes.length - (w.run env ops).1.io.out.bytes.length ∧ s.file = w2.io.out.bytes := by
  rw [session, hn] at hs
  simp only at hs
  split at hs
  · simp at hs
  · next hnp =>
    split at hs
    · simp at hs
    · next w2 hcl =>
      simp only [Option.some.injEq] at hs
      subst hs
      exact ⟨hnp, rfl, rfl, w2, hcl, rfl, rfl⟩

/-- **C99**, partial. Measurements of the schema that no call names leave no trace: if one session completes, so does the session of
the same calls on a schema that has other such measurements (and the same devices). All calls return the same and add the same
number of bytes to the output, and the file is the same, to the last byte. Missing: devices that no call names
(`C99_devices_partial`, `C99_device_wrong`). -/
theorem C99_measurements_partial (he : EnvOk env unsnap) (hsch : schema.WF) (hsch' : schema'.WF)
    (hd : ∀ d, (look d schema).isSome = (look d schema').isSome)
    (hop : ∀ op ∈ ops, Op.SameFor schema schema' op)
    (hs : session env schema ops = some s) (hw : s.Within ops) : session env schema' ops = some s := by
  obtain ⟨w, hn, hw1, hw2⟩ := new_writer env schema
  obtain ⟨w', hn', hw1', hw2'⟩ := new_writer env schema'
  obtain ⟨hnp, hres, hgr, x, hcl, hc, hf⟩ := session_pieces hs hn
  have hK := named_series hop
  have hbursts := hw.bursts
  rw [hgr] at hbursts
  obtain ⟨r1, r2, b, gs, hsim, hsim', ham, hlen⟩ := like_bytes (D := fun d => ∃ op ∈ ops, Op.device op = d)
    (K := fun d m => ∃ op ∈ ops, ∃ r ∈ Op.recs op, r.device = d ∧ r.measurement = m) he.snappy hsch hsch' hd hK ops
    (fun op ho => ⟨⟨op, ho, rfl⟩, fun r hr => ⟨op, ho, r, hr, rfl, rfl⟩⟩) (sim_new unsnap hsch hn) (sim_new unsnap hsch' hn')
    (new_like env hsch hsch' (fun d _ => hd d) hK (by rw [hw2, hw2']) hw1 hw1') ⟨by simp [AState.init], by simp [AState.init]⟩ 0
    (by simp [AState.init]) (by simp [AState.init]) hbursts hnp
  obtain ⟨y, n1, hy, hsy, _⟩ := sim_flush he.snappy hsch hsim hlen
  obtain ⟨y', n1', hy', hsy', _⟩ := sim_flush he.snappy hsch' hsim' hlen
  have hsame := groups_same hsch hsch' hd hK hsy hsy' ham.flush
  rw [hsame] at hsy'
  have hout : y'.io.out = y.io.out := by
    have h1 := hsy.file.bytes
    have h2 := hsy'.file.bytes
    have h3 := hsy.file.cap
    have h4 := hsy'.file.cap
    cases ho : y.io.out
    cases ho' : y'.io.out
    rw [ho] at h1 h3
    rw [ho'] at h2 h4
    simp only at h1 h2 h3 h4
    rw [h1, h2, h3, h4]
  have hend := endFile_map (env := env) hout (by rw [hsy.file.metas, hsy'.file.metas]) (by rw [hsy.file.tsm, hsy'.file.tsm])
  rw [Writer.close, hy] at hcl
  simp only at hcl
  cases hx : y.io.endFile env with
  | none => rw [hx] at hcl; simp at hcl
  | some io =>
    rw [hx] at hcl hend
    simp only [Option.some.injEq] at hcl
    obtain ⟨io', hx', hio⟩ := Option.map_eq_some_iff.1 hend
    rw [session, hn']
    simp only
    rw [if_neg (by rw [r1]; exact hnp), Writer.close, hy']
    simp only [hx']
    subst hcl
    simp only at hc hf
    rw [r1, r2, hio, hsim'.file.bytes, ← hsim.file.bytes, ← hres, ← hgr, ← hc, ← hf]

/-- **C99**, partial, for whole devices: devices and measurements of the schema that no call names do not change what a call returns,
nor whether the session completes, nor at which calls the writer flushes, nor what a scan finds of any series, nor what is read
through the index of devices for which the index is correct with both schemas. The files are not the same (`C99_device_wrong`). -/
theorem C99_devices_partial (he : EnvOk env unsnap) (hsch : schema.Named) (hsch' : schema'.Named)
    (hop : ∀ op ∈ ops, Op.SameFor schema schema' op)
    (hs : session env schema ops = some s) (hw : s.Within ops)
    (hsize : env.bloomSize (pathsOf (storedBy schema ops s.grown)).length < 2 ^ 31) :
    ∃ s', session env schema' ops = some s' ∧ s'.results = s.results
      ∧ s'.grown.map (fun n => decide (0 < n)) = s.grown.map (fun n => decide (0 < n))
      ∧ (s'.Within ops → ∃ items stop items' stop', scan unsnap s.file = some (items, stop) ∧ scan unsnap s'.file = some (items', stop')
        ∧ (∀ d m, scanPoints d m none items' = scanPoints d m none items)
        ∧ ∀ d m, schema.IndexableAt d → schema'.IndexableAt d → readSeries unsnap s'.file d m = readSeries unsnap s.file d m) := by
  obtain ⟨w, hn, hw1, hw2⟩ := new_writer env schema
  obtain ⟨w', hn', hw1', hw2'⟩ := new_writer env schema'
  obtain ⟨hnp, hres, hgr, x, hcl, hc, hf⟩ := session_pieces hs hn
  have hD := named_devices hop
  have hK := named_series hop
  have hbursts := hw.bursts
  rw [hgr] at hbursts
  obtain ⟨r1, r2⟩ := like_run (D := fun d => ∃ op ∈ ops, Op.device op = d)
    (K := fun d m => ∃ op ∈ ops, ∃ r ∈ Op.recs op, r.device = d ∧ r.measurement = m) he.snappy hsch.wf hsch'.wf hD hK ops
    (fun op ho => ⟨⟨op, ho, rfl⟩, fun r hr => ⟨op, ho, r, hr, rfl, rfl⟩⟩) (sim_new unsnap hsch.wf hn) (sim_new unsnap hsch'.wf hn')
    (new_like env hsch.wf hsch'.wf hD hK (by rw [hw2, hw2']) hw1 hw1') 0 (by simp [AState.init]) hbursts hnp
  have hstored : storedBy schema' ops (w'.grown env ops) = storedBy schema ops (w.grown env ops) := by
    rw [storedBy, storedBy, r2]
    rw [run_congr (schema := schema) (schema' := schema') _ (fun e he => hop e.1 (List.of_mem_zip he).1)]
  rw [hgr] at hsize
  have h1 := (session_closable he hsch.wf hn hbursts hnp hsize).1 (by rw [hs]; rfl)
  have h2 := (session_closable he hsch'.wf hn' (by rw [r2]; exact hbursts) (by rw [r1]; exact hnp) (by rw [hstored]; exact hsize)).2
    (by rw [hstored]; exact h1)
  obtain ⟨s', hs'⟩ := Option.isSome_iff_exists.1 h2
  obtain ⟨_, hres', hgr', _⟩ := session_pieces hs' hn'
  refine ⟨s', hs', by rw [hres', hres, r1], by rw [hgr', hgr, r2], fun hw' => ?_⟩
  obtain ⟨i, f, _, p2, _, p3⟩ := C02_scan he hsch hs hw
  obtain ⟨i', f', _, p2', _, p3'⟩ := C02_scan he hsch' hs' hw'
  exact ⟨i, _, i', _, p2, p2', fun d m => by rw [p3, p3', hgr, hgr', hstored], fun d m h h' => by
    rw [C01_device_partial he h hs hw, C01_device_partial he h' hs' hw', hgr, hgr', hstored]⟩

/-- **C99** is false of devices: a device that one schema has and the other has not makes the files differ whenever a point was
stored, although no point of that device was. The calls need not even be the same. -/
theorem C99_device_wrong {ops' : List Op} (he : EnvOk env unsnap) (hsch : schema.Named) (hsch' : schema'.Named)
    (hs : session env schema ops = some s) (hw : s.Within ops)
    (hs' : session env schema' ops' = some s') (hw' : s'.Within ops') {d : Bytes}
    (h1 : d ∈ schema.map Prod.fst) (h2 : d ∉ schema'.map Prod.fst) (hne : storedBy schema ops s.grown ≠ []) :
    s.file ≠ s'.file := by
  intro heq
  obtain ⟨i, st, bl, a1, a2, a3⟩ := C68_blocks he hsch hs hw
  obtain ⟨i', st', bl', b1, b2, b3⟩ := C68_blocks he hsch' hs' hw'
  rw [heq, b1, Option.some.injEq, Prod.mk.injEq] at a1
  have hin : Item.group d ∈ i := by
    rw [← (C68_bursts schema ops s.grown).1] at hne
    cases hb : burstsBy schema ops s.grown with
    | nil => rw [hb] at hne; exact absurd rfl hne
    | cons b bs =>
      rw [hb] at a3
      cases a3 with
      | @cons _ k _ ks hk _ =>
        obtain ⟨g, hg, rfl⟩ := List.mem_map.1 (hk.devices.mem_iff.2 h1)
        rw [a2]
        exact List.mem_flatMap.2 ⟨g, by simp [hg], by simp [Group.items]⟩
  rw [← a1.1, b2] at hin
  obtain ⟨g, hg, hgi⟩ := List.mem_flatMap.1 hin
  obtain ⟨k, hk, hgk⟩ := List.mem_flatten.1 hg
  have hgd : g.1 = d := by
    simp only [Group.items, List.mem_cons, List.mem_map, reduceCtorEq, and_false, exists_false, or_false, Item.group.injEq] at hgi
    exact hgi.symm
  obtain ⟨b, hb⟩ : ∃ b, IsBlock schema' b k := by
    clear b2 hin hg
    revert b3
    generalize burstsBy schema' ops' s'.grown = bs
    intro b3
    induction b3 with
    | nil => cases hk
    | cons h _ ih =>
      rcases List.mem_cons.1 hk with rfl | hk
      · exact ⟨_, h⟩
      · exact ih hk
  exact h2 (hb.devices.mem_iff.1 (List.mem_map.2 ⟨g, hgk, hgd⟩))

end

/-! ## Not empty -/

namespace Demo

/-- `Demo.schema` without the measurement that gets no points. -/
def sparse : Schema :=
  [(str "root.sg.d1", [(str "s1", ⟨.INT32, .TS2DIFF, .UNCOMPRESSED⟩)]),
   (str "root.sg.d2", [(str "s1", ⟨.INT64, .TS2DIFF, .SNAPPY⟩), (str "s2", ⟨.FLOAT, .PLAIN, .UNCOMPRESSED⟩)])]

/-- `Demo.schema` with a device that gets no points. -/
def wider : Schema := schema ++ [(str "root.sg.d9", [(str "s1", ⟨.INT32, .PLAIN, .UNCOMPRESSED⟩)])]

def widerResult : Session := (session env wider ops).getD ⟨[], [], 0, []⟩

theorem wider_eq : session env wider ops = some widerResult := by
  have : (session env wider ops).isSome = true := by decide +kernel
  rw [widerResult]
  cases h : session env wider ops with
  | none => rw [h] at this; simp at this
  | some s => rfl

theorem wider_within : widerResult.Within ops :=
  ⟨by decide +kernel, by decide +kernel, by decide +kernel, by decide +kernel⟩

theorem sparse_named : sparse.Named :=
  ⟨⟨by decide +kernel, by decide +kernel⟩, by decide +kernel, by decide +kernel⟩

theorem wider_named : wider.Named :=
  ⟨⟨by decide +kernel, by decide +kernel⟩, by decide +kernel, by decide +kernel⟩

theorem sparse_devices (d : Bytes) : (look d schema).isSome = (look d sparse).isSome := by
  by_cases h1 : str "root.sg.d1" = d
  · subst h1; decide +kernel
  · by_cases h2 : str "root.sg.d2" = d
    · subst h2; decide +kernel
    · simp [schema, sparse, look, h1, h2]

theorem sparse_same : ∀ op ∈ ops, Op.SameFor schema sparse op := fun op hop =>
  ⟨(by decide +kernel : ∀ op ∈ ops, (look (Op.device op) schema).isSome = (look (Op.device op) sparse).isSome) op hop,
   (by decide +kernel : ∀ op ∈ ops, ∀ r ∈ Op.recs op, (look r.device schema).bind (look r.measurement)
      = (look r.device sparse).bind (look r.measurement)) op hop⟩

theorem wider_same : ∀ op ∈ ops, Op.SameFor schema wider op := fun op hop =>
  ⟨(by decide +kernel : ∀ op ∈ ops, (look (Op.device op) schema).isSome = (look (Op.device op) wider).isSome) op hop,
   (by decide +kernel : ∀ op ∈ ops, ∀ r ∈ Op.recs op, (look r.device schema).bind (look r.measurement)
      = (look r.device wider).bind (look r.measurement)) op hop⟩

end Demo

/-- One measurement less, the same file. -/
example : Demo.schema ≠ Demo.sparse ∧ session Demo.env Demo.sparse Demo.ops = some Demo.result :=
  ⟨by decide +kernel, C99_measurements_partial Demo.envOk Demo.indexable.toNamed.wf Demo.sparse_named.wf Demo.sparse_devices Demo.sparse_same
    Demo.session_eq Demo.within⟩

/-- One device more: another file, the same points. -/
example : Demo.widerResult.file ≠ Demo.result.file :=
  C99_device_wrong Demo.envOk Demo.wider_named Demo.indexable.toNamed Demo.wider_eq Demo.wider_within Demo.session_eq Demo.within
    (d := str "root.sg.d9") (by decide +kernel) (by decide +kernel) (by decide +kernel)

example : ∃ s', session Demo.env Demo.wider Demo.ops = some s' ∧ s'.Within Demo.ops ∧ s'.results = Demo.result.results
    ∧ ∃ items stop items' stop', scan some Demo.result.file = some (items, stop) ∧ scan some s'.file = some (items', stop')
      ∧ ∀ d m, scanPoints d m none items' = scanPoints d m none items := by
  obtain ⟨s', h1, h2, _, h3⟩ := C99_devices_partial Demo.envOk Demo.indexable.toNamed Demo.wider_named Demo.wider_same
    Demo.session_eq Demo.within (by decide +kernel)
  have hr : s' = Demo.widerResult := Option.some.inj (h1.symm.trans Demo.wider_eq)
  have hw : s'.Within Demo.ops := by rw [hr]; exact Demo.wider_within
  obtain ⟨i, st, i', st', a, b, c, _⟩ := h3 hw
  exact ⟨s', h1, hw, h2, i, st, i', st', a, b, c⟩

/-- One device more: the same points through the index. -/
example : Demo.schema.IndexableAt (str "root.sg.d1") ∧ Demo.wider.IndexableAt (str "root.sg.d1")
    ∧ readSeries some Demo.widerResult.file (str "root.sg.d1") (str "s1") = readSeries some Demo.result.file (str "root.sg.d1") (str "s1") := by
  obtain ⟨s', h1, _, _, h3⟩ := C99_devices_partial Demo.envOk Demo.indexable.toNamed Demo.wider_named Demo.wider_same
    Demo.session_eq Demo.within (by decide +kernel)
  have hr : s' = Demo.widerResult := Option.some.inj (h1.symm.trans Demo.wider_eq)
  have hw : s'.Within Demo.ops := by rw [hr]; exact Demo.wider_within
  obtain ⟨_, _, _, _, _, _, _, h⟩ := h3 hw
  rw [← hr]
  have hi : Demo.wider.Indexable := ⟨Demo.wider_named, by decide +kernel, by decide +kernel⟩
  exact ⟨Demo.indexable.at _, hi.at _, h _ _ (Demo.indexable.at _) (hi.at _)⟩

end TsFile
