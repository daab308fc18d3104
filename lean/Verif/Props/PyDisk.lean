import Verif.Props.PyProgram
import Verif.Proofs.PyDisk
import Verif.Props.CDisk
/-! # C79 and C85 on the disk

In `C79_file` and `C85_orderly` a file is the output of its writer object. Here it is what is on the disk in the end at the place where
its name leads to, see `Model/PyDisk.lean`. This needs that no other writer object is made for the same file. -/

namespace TsFile
open Spec Py
open CApi (CEnv)

/-- **C79** on the disk: the file of a writer object that was closed is the file of the session, if no other writer object of the program
was made for the same file, whatever was on the disk before. -/
theorem C79_on_disk (place : Bytes → Loc) (ce : CEnv) (cs : List PyOp) (k r : Nat) (hc : (.close k, .ok r) ∈ cs.zip (run ce start cs).1)
    {disk : Several.State} (hd : ∀ i, disk.handles i = none) :
    ∃ f i d m ms s, (.newWriter f i, .ok k) ∈ cs.zip (run ce start cs).1 ∧ MadeSchema (cs.zip (run ce start cs).1) i d m ms
      ∧ session ce.env [(beforeNul d, [(beforeNul m, ms)])] (pyWrites k (cs.zip (run ce start cs).1)) = some s
      ∧ ((∀ k' f' i', (.newWriter f' i', .ok k') ∈ cs.zip (run ce start cs).1 → place (beforeNul f') = place (beforeNul f) → k' = k) →
        (Several.run disk (diskEvents place ce start cs)).files (place (beforeNul f)) = some s.file) := by
  obtain ⟨p', pd⟩ := pdisk_run (ce := ce) (place := place) cs start [] [] pdisk_start (pinv_start ce)
  rw [List.nil_append, List.nil_append] at pd
  obtain ⟨f, i, d, m, ms, s, pieces, h1, h2, h3, h4, h5⟩ := pd.closed k r hc
  rw [cText_eq, cText_eq] at h3
  rw [cText_eq] at h4
  refine ⟨f, i, d, m, ms, s, h1, h2, h3, fun honly => ?_⟩
  rw [← h5]
  refine Several.run_works _ pieces disk (fun j _ h hh => by rw [hd j] at hh; cases hh) (fun q hq hmem => ?_) h4
  obtain ⟨f', i', o1, o2⟩ := pd.creates q _ hmem
  rw [cText_eq] at o2
  exact hq (honly q f' i' o1 o2)

/-- **C85** on the disk: a Python program that hands over its points in order finds them in the file of every writer object that it closed
and whose file no other writer object was made for. -/
theorem C85_on_disk {place : Bytes → Loc} {ce : CEnv} {unsnap : Bytes → Option Bytes} (hev : EnvOk ce.env unsnap)
    (hB : ∀ n ≤ 1, ce.env.bloomSize n ≤ 256) {cs : List PyOp}
    (hin : ∀ k c, cs[k]? = some c → StepInOrder ce ((cs.zip (run ce start cs).1).take k) c) {disk : Several.State}
    (hd : ∀ i, disk.handles i = none) {k r : Nat} (hc : (.close k, .ok r) ∈ cs.zip (run ce start cs).1) :
    ∃ f i, (.newWriter f i, .ok k) ∈ cs.zip (run ce start cs).1
      ∧ ((∀ k' f' i', (.newWriter f' i', .ok k') ∈ cs.zip (run ce start cs).1 → place (beforeNul f') = place (beforeNul f) → k' = k) →
        ∃ file, (Several.run disk (diskEvents place ce start cs)).files (place (beforeNul f)) = some file
          ∧ ∀ d' m', readSeries unsnap file d' m'
            = some (series ((pyWrites k (cs.zip (run ce start cs).1)).flatMap Op.recs) d' m')) := by
  obtain ⟨f, i, d, m, ms, s, h1, h2, h3, h4⟩ := C79_on_disk place ce cs k r hc hd
  refine ⟨f, i, h1, fun honly => ⟨s.file, h4 honly, ?_⟩⟩
  obtain ⟨s', hs', hr⟩ := (orderly_python hev hB hin).2.2 k f i d m ms h1 h2
  rw [h3, Option.some.injEq] at hs'
  rw [hs']
  exact hr

/-! ## Cases -/

theorem Demo.pyprogram_made {k i : Nat} {f : Bytes} (h : (.newWriter f i, .ok k) ∈ Demo.pyprogram.zip (run Demo.cenv start Demo.pyprogram).1) :
    (f = str "a.tsfile" ∧ k = 0) ∨ (f = str "b.tsfile" ∧ k = 1) := by
  rw [Demo.pyprogram_outcomes] at h
  simp only [Demo.pyprogram, Demo.pyoutcomes, List.zip_cons_cons, List.zip_nil_right, List.mem_cons, List.not_mem_nil, or_false, Prod.mk.injEq,
    PyOp.newWriter.injEq, PyOutcome.ok.injEq, reduceCtorEq, false_and, and_false, false_or] at h
  rcases h with ⟨⟨h, -⟩, h'⟩ | ⟨⟨h, -⟩, h'⟩
  · exact .inl ⟨h, h'⟩
  · exact .inr ⟨h, h'⟩

theorem Demo.pyprogram_only (k' : Nat) (f' : Bytes) (i' : Nat)
    (h : (.newWriter f' i', .ok k') ∈ Demo.pyprogram.zip (run Demo.cenv start Demo.pyprogram).1)
    (hf : [beforeNul f'] = [beforeNul (str "a.tsfile")]) : k' = 0 := by
  rcases Demo.pyprogram_made h with ⟨-, h⟩ | ⟨rfl, -⟩
  · exact h
  · exact absurd hf (by decide)

/-- The first writer object of `Demo.pyprogram`, on any disk. -/
example {disk : Several.State} (hd : ∀ i, disk.handles i = none) :
    ∃ file, (Several.run disk (diskEvents (fun f => [f]) Demo.cenv start Demo.pyprogram)).files [str "a.tsfile"] = some file
      ∧ readSeries some file (str "d1") (str "s1") = some [(10, .INT 7), (11, .INT 8)] := by
  obtain ⟨f, i, h1, h2⟩ := C85_on_disk (place := fun f => [f]) (ce := Demo.cenv) Demo.envOk (by decide +kernel) (cs := Demo.pyprogram)
    Demo.pyprogram_in_order hd (k := 0) (r := 0) (by decide +kernel)
  obtain ⟨rfl, -⟩ : f = str "a.tsfile" ∧ True := by
    rcases Demo.pyprogram_made h1 with ⟨h, -⟩ | ⟨-, h⟩
    · exact ⟨h, trivial⟩
    · cases h
  obtain ⟨file, h3, h4⟩ := h2 Demo.pyprogram_only
  rw [show beforeNul (str "a.tsfile") = str "a.tsfile" by decide] at h3
  refine ⟨file, h3, (h4 (str "d1") (str "s1")).trans ?_⟩
  decide +kernel

/-- The same for the bytes of the file. -/
example {disk : Several.State} (hd : ∀ i, disk.handles i = none) :
    ∃ d m ms s, session Demo.cenv.env [(d, [(m, ms)])] (pyWrites 0 (Demo.pyprogram.zip (run Demo.cenv start Demo.pyprogram).1)) = some s
      ∧ (Several.run disk (diskEvents (fun f => [f]) Demo.cenv start Demo.pyprogram)).files [str "a.tsfile"] = some s.file := by
  obtain ⟨f, i, d, m, ms, s, h1, h2, h3, h4⟩ := C79_on_disk (fun f => [f]) Demo.cenv Demo.pyprogram 0 0 (by decide +kernel) hd
  obtain ⟨rfl, -⟩ : f = str "a.tsfile" ∧ True := by
    rcases Demo.pyprogram_made h1 with ⟨h, -⟩ | ⟨-, h⟩
    · exact ⟨h, trivial⟩
    · cases h
  have h5 := h4 Demo.pyprogram_only
  beta_reduce at h5
  rw [show beforeNul (str "a.tsfile") = str "a.tsfile" by decide] at h5
  exact ⟨_, _, ms, s, h3, h5⟩

end TsFile
