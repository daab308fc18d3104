import Verif.Props.Close
import Verif.Props.DeviceIndex
import Verif.Props.Lookup
import Verif.Props.ReadBack
import Verif.Props.Structure
/-! # The order of the devices, in every file: C24, C29

The examples of `Props/Structure.lean` and `Props/Close.lean` are not exceptional: with two orders of the hash map every session
that stores points of two devices has two different files, and in one of them the devices are not in ascending order. -/

namespace TsFile
open Spec

section
variable {env : Env} {unsnap : Bytes → Option Bytes} {schema : Schema} {ops : List Op} {s : Session}

/-- The names in the root node are what the hash map makes of the devices in ascending order. -/
theorem root_order (he : EnvOk env unsnap) (hsch : schema.Indexable) (hs : session env schema ops = some s) (hw : s.Within ops) :
    ∃ footer nodes, readFooter s.file = some footer
      ∧ footer.root.entries.map Entry.name = (env.hashOrder nodes).map Prod.fst
      ∧ (nodes.map Prod.fst).Pairwise (· < ·)
      ∧ ∀ d, d ∈ nodes.map Prod.fst ↔ ∃ m, series (storedBy schema ops s.grown) d m ≠ [] := by
  obtain ⟨c⟩ := session_outlined he hsch.toNamed hs hw
  obtain ⟨htsorted, htne, _⟩ := c.layout.device c.ok.locs (hsch.at []).isolated
  obtain ⟨bits, _, hfooter⟩ := c.layout.readFooter c.fits
  have hnodes : c.layout.nodes.map Prod.fst = c.layout.tsm.map Prod.fst := by
    obtain ⟨out, map, h1, h2⟩ := devicesLoop_any env c.layout.tsm _ htne
    rw [c.layout.nodes_eq] at h1
    simp only [Option.some.injEq, Prod.mk.injEq] at h1
    rw [← h2, ← h1.2]
  have hnames : c.layout.root.toSpec.entries.map Entry.name = c.layout.order.map Prod.fst := by
    have : c.layout.root.toSpec.entries = (devEntries (fileBytes env c.groups ++ [2] ++ metaBytes env c.layout.tsm).length c.layout.order).map IndexEntry.toSpec := by rw [← c.layout.entries]; rfl
    rw [this, List.map_map]
    exact devEntries_names _ _
  refine ⟨_, c.layout.nodes, hfooter, by rw [hnames, c.layout.order_eq], ?_, fun x => ?_⟩
  · rw [hnodes, List.pairwise_map]
    exact htsorted.imp (fun h => (bytesLt_iff _ _).1 h)
  · obtain ⟨footer', hf', _, _, hx, _⟩ := C23_device_partial he (hsch.at x) hs hw
    rw [hfooter] at hf'
    cases hf'
    have hx' : x ∈ c.layout.root.toSpec.entries.map Entry.name ↔ _ := hx
    rw [hnames, (c.layout.order_perm.map Prod.fst).mem_iff] at hx'
    rw [hx']
    constructor
    · rintro ⟨m, _, hm⟩
      exact ⟨m, hm⟩
    · rintro ⟨m, hm⟩
      refine ⟨m, ?_, hm⟩
      by_contra hc
      have := (C01_index_read_back_partial he hsch hs hw).2 x m
      rw [C01_device_partial he (hsch.at x) hs hw m, if_neg hc] at this
      exact hm (Option.some.inj this).symm

theorem sorted_reverse {l : List Bytes} (h : l.Pairwise (· < ·)) (h' : l.reverse.Pairwise (· < ·)) {d d' : Bytes} (hd : d ∈ l)
    (hd' : d' ∈ l) : d = d' := by
  match l, h, h', hd, hd' with
  | [], _, _, hd, _ => cases hd
  | [a], _, _, hd, hd' => rw [List.mem_singleton.1 hd, List.mem_singleton.1 hd']
  | a :: b :: l, h, h', _, _ =>
    have h1 : a < b := (List.pairwise_cons.1 h).1 b (by simp)
    rw [List.pairwise_reverse] at h'
    have h2 : b < a := (List.pairwise_cons.1 h').1 b (by simp)
    exact absurd rfl (bytes_lt_ne (bytes_lt_trans h1 h2))

/-- **C24** is false of the root node of every file with two devices: if the hash map gives the devices in descending order, their
names are not ascending. -/
theorem C24_reversed_wrong (hsnap : SnappyOk env unsnap) (hsch : schema.Indexable)
    (hs : session { env with hashOrder := List.reverse } schema ops = some s) (hw : s.Within ops) {d d' m m' : Bytes} (hdd : d ≠ d')
    (hd : series (storedBy schema ops s.grown) d m ≠ []) (hd' : series (storedBy schema ops s.grown) d' m' ≠ []) :
    ∃ footer, readFooter s.file = some footer ∧ ¬ (footer.root.entries.map Entry.name).Pairwise (· < ·) := by
  have he : EnvOk { env with hashOrder := List.reverse } unsnap := ⟨hsnap, fun l => List.reverse_perm l⟩
  obtain ⟨footer, nodes, h1, h2, h3, h4⟩ := root_order he hsch hs hw
  refine ⟨footer, h1, fun h => hdd ?_⟩
  rw [h2, List.map_reverse] at h
  exact sorted_reverse h3 h ((h4 d).2 ⟨m, hd⟩) ((h4 d').2 ⟨m', hd'⟩)

/-- What a session is made of, and that a different order leaves all but the file. -/
theorem session_reordered {env : Env} {schema : Schema} {ops : List Op} {s : Session} {o : List (Bytes × IndexNode) → List (Bytes × IndexNode)}
    (h : session (env.reorder o) schema ops = some s) :
    ∃ w, Writer.new env schema ⟨[], none⟩ = .ok w ∧ s.grown = w.grown env ops
      ∧ s.closing = s.file.length - (w.run env ops).1.io.out.bytes.length := by
  rw [session, Reorder.writerNew] at h
  cases hn : Writer.new env schema ⟨[], none⟩ with
  | error e => rw [hn] at h; cases h
  | ok w =>
    rw [hn] at h
    simp only [Reorder.run, Reorder.grown] at h
    split at h
    · cases h
    · split at h
      · cases h
      · cases h
        exact ⟨w, rfl, rfl, rfl⟩

/-- **C29** is false of every history with two devices: if the hash map gives the devices once in ascending and once in descending
order, the session completes in both cases, with the same answers, but the files are different. -/
theorem C29_two_wrong (hsnap : SnappyOk env unsnap) (hsch : schema.Indexable)
    (hs : session { env with hashOrder := id } schema ops = some s) (hw : s.Within ops) {d d' m m' : Bytes} (hdd : d ≠ d')
    (hd : series (storedBy schema ops s.grown) d m ≠ []) (hd' : series (storedBy schema ops s.grown) d' m' ≠ []) :
    ∃ s', session { env with hashOrder := List.reverse } schema ops = some s' ∧ s'.results = s.results ∧ s'.file ≠ s.file := by
  have he : EnvOk { env with hashOrder := id } unsnap := ⟨hsnap, fun l => List.Perm.refl l⟩
  have ho : ∀ l : List (Bytes × IndexNode), (id l).Perm l := fun l => List.Perm.refl l
  have ho' : ∀ l : List (Bytes × IndexNode), l.reverse.Perm l := fun l => List.reverse_perm l
  have he' : EnvOk { env with hashOrder := List.reverse } unsnap := ⟨hsnap, ho'⟩
  obtain ⟨w, hn, hg, hc⟩ := session_reordered (env := { env with hashOrder := id }) (o := id) hs
  have hb := hw.bursts
  rw [hg] at hb
  obtain ⟨hiff, heq⟩ := C29_order_partial he hsch.toNamed hn hb ho ho'
  obtain ⟨s', hs'⟩ := Option.isSome_iff_exists.1 (hiff.1 (by rw [hs]; rfl))
  obtain ⟨hr, hg', hl, _⟩ := heq s s' hs hs'
  obtain ⟨w', hn', _, hc'⟩ := session_reordered (env := { env with hashOrder := id }) (o := List.reverse) hs'
  rw [hn] at hn'
  cases hn'
  have hw' : s'.Within ops :=
    ⟨hg' ▸ hw.bursts, hg' ▸ hw.calls, by rw [hc', ← hl, ← hc]; exact hw.closing, hl ▸ hw.file⟩
  refine ⟨s', hs', hr.symm, fun e => ?_⟩
  obtain ⟨footer, nodes, h1, h2, h3, _⟩ := root_order he hsch hs hw
  obtain ⟨footer', h1', h'⟩ := C24_reversed_wrong hsnap hsch hs' hw' hdd (hg' ▸ hd) (hg' ▸ hd')
  rw [e, h1] at h1'
  cases h1'
  exact h' (by rw [h2]; exact h3)

end

/-- The demo session has points of two devices. -/
example : ∃ s', session { Demo.env with hashOrder := List.reverse } Demo.schema Demo.ops = some s'
    ∧ s'.results = Demo.result.results ∧ s'.file ≠ Demo.result.file :=
  C29_two_wrong Demo.envOk.snappy Demo.indexable (show session _ _ _ = _ from Demo.session_eq) Demo.within (d := str "root.sg.d1")
    (d' := str "root.sg.d2") (m := str "s1") (m' := str "s2") (by decide) (by decide +kernel) (by decide +kernel)

example : ∃ s footer, session { Demo.env with hashOrder := List.reverse } Demo.schema Demo.ops = some s
    ∧ readFooter s.file = some footer ∧ ¬ (footer.root.entries.map Entry.name).Pairwise (· < ·) := by
  have h0 : (session { Demo.env with hashOrder := List.reverse } Demo.schema Demo.ops).map
      (fun s => (s.grown, s.closing, s.file.length)) = some (Demo.result.grown, Demo.result.closing, Demo.result.file.length) := by
    decide +kernel
  cases h : session { Demo.env with hashOrder := List.reverse } Demo.schema Demo.ops with
  | none => rw [h] at h0; cases h0
  | some s =>
    rw [h] at h0
    simp only [Option.map_some, Option.some.injEq, Prod.mk.injEq] at h0
    obtain ⟨g, c, l⟩ := h0
    have hw : s.Within Demo.ops := by
      have hw := Demo.within
      generalize Demo.result = r at g c l hw
      exact ⟨by rw [g]; exact hw.bursts, by rw [g]; exact hw.calls, by rw [c]; exact hw.closing, by rw [l]; exact hw.file⟩
    obtain ⟨footer, h1, h2⟩ := C24_reversed_wrong Demo.envOk.snappy Demo.indexable h
      hw (d := str "root.sg.d1")
      (d' := str "root.sg.d2") (m := str "s1") (m' := str "s2") (by decide) (by rw [g]; decide +kernel) (by rw [g]; decide +kernel)
    exact ⟨s, footer, rfl, h1, h2⟩

end TsFile
