import Verif.Props.CProgram
import Verif.Proofs.CDisk
import Verif.Props.Several
/-! # C54 and C84 on the disk

In `C54_file_of_session` and `C84_orderly` a file is the output of its writer. Here it is what is on the disk in the end at the place where
its name leads to, see `Model/CDisk.lean`. This needs that no other writer opens the same file: otherwise C54 and C84 are wrong. -/

namespace TsFile
open Spec CApi

/-- **C54** on the disk: the file of a writer that was closed is the file of the session, if no other writer of the program was opened on
the same file, whatever was on the disk before. -/
theorem C54_on_disk (place : Bytes → Loc) (ce : CEnv) (cs : List CCall) (p r : Addr) (hp : p ≠ 0)
    (hc : (.fileWriterClose p, .ok r) ∈ cs.zip (run ce start cs).1) {disk : Several.State} (hd : ∀ i, disk.handles i = none) :
    ∃ f d m ms s, OpenedAs (cs.zip (run ce start cs).1) p f d m ms
      ∧ session ce.env [(d, [(m, ms)])] (writesTo p [] (cs.zip (run ce start cs).1)) = some s
      ∧ ((∀ q f' d' m' ms', OpenedAs (cs.zip (run ce start cs).1) q f' d' m' ms' → place f' = place f → q = p) →
        (Several.run disk (diskEvents place ce start cs)).files (place f) = some s.file) := by
  obtain ⟨st, od⟩ := onDisk_run (ce := ce) (place := place) cs start [] [] onDisk_start (inv_start ce)
  rw [List.nil_append, List.nil_append] at od
  obtain ⟨f, d, m, ms, s, pieces, h1, h2, h3, h4⟩ := od.closed p r hp hc
  refine ⟨f, d, m, ms, s, h1, h2, fun honly => ?_⟩
  rw [← h4]
  refine Several.run_works _ pieces disk (fun j _ h hh => by rw [hd j] at hh; cases hh) (fun q hq hmem => ?_) h3
  obtain ⟨f', d', m', ms', o1, o2⟩ := od.creates q _ hmem
  exact hq (honly q f' d' m' ms' o1 o2)

/-- **C84** on the disk: a C program that keeps to the rules and hands over its points in order finds them in the file of every writer
that it closed and whose file no other writer was opened on. -/
theorem C84_on_disk {place : Bytes → Loc} {ce : CEnv} {unsnap : Bytes → Option Bytes} (hev : EnvOk ce.env unsnap)
    (hB : ∀ n ≤ 1, ce.env.bloomSize n ≤ 256) {cs : List CCall} (h : Obeys Holds.nothing cs (CApi.run ce CApi.start cs).1)
    (hin : ∀ k c, cs[k]? = some c → CallInOrder ce ((cs.zip (CApi.run ce CApi.start cs).1).take k) c) {disk : Several.State}
    (hd : ∀ i, disk.handles i = none) {w r : Addr} (hw : w ≠ 0)
    (hc : (.fileWriterClose w, .ok r) ∈ cs.zip (CApi.run ce CApi.start cs).1) :
    ∃ f d m ms, OpenedAs (cs.zip (CApi.run ce CApi.start cs).1) w f d m ms
      ∧ ((∀ q f' d' m' ms', OpenedAs (cs.zip (CApi.run ce CApi.start cs).1) q f' d' m' ms' → place f' = place f → q = w) →
        ∃ file, (Several.run disk (diskEvents place ce start cs)).files (place f) = some file
          ∧ ∀ d' m', readSeries unsnap file d' m'
            = some (series ((writesTo w [] (cs.zip (CApi.run ce CApi.start cs).1)).flatMap Op.recs) d' m')) := by
  obtain ⟨f, d, m, ms, s, h1, h2, h3⟩ := C54_on_disk place ce cs w r hw hc hd
  refine ⟨f, d, m, ms, h1, fun honly => ⟨s.file, h3 honly, ?_⟩⟩
  obtain ⟨s', hs', hr⟩ := (orderly_program hev hB h hin).2.2 w f d m ms h1
  rw [h2, Option.some.injEq] at hs'
  rw [hs']
  exact hr

namespace Demo

/-- No other writer of this program is opened on the file of the second writer. -/
theorem cprogram_only (q : Addr) (f d m : Bytes) (ms : MeasurementSchema)
    (h : OpenedAs (cprogram.zip (run cenv start cprogram).1) q f d m ms) (hf : [f] = [str "b.tsfile"]) : q = 7 := by
  have hr : (run cenv start cprogram).1 = [1, 2, 3, 4, 5, 6, 7, 0, 0, 6, 7, 6, 0, 7, 0, 0, 0, 0].map Outcome.ok := by decide +kernel
  obtain ⟨fa, sa, da, ma, x, y, z, h1, -, -, -, h2, -⟩ := h
  rw [hr] at h1 h2
  simp only [cprogram, List.map_cons, List.map_nil, List.zip_cons_cons, List.zip_nil_right, List.mem_cons, Prod.mk.injEq,
    CCall.newString.injEq, CCall.fileWriterNew.injEq, Outcome.ok.injEq, reduceCtorEq, false_and, false_or, or_false, List.not_mem_nil] at h1 h2
  obtain rfl := List.singleton_inj.mp hf
  rcases h2 with ⟨⟨rfl, rfl⟩, rfl⟩ | ⟨⟨rfl, rfl⟩, rfl⟩
  · exact absurd h1 (by decide)
  · rfl

end Demo

/-- The second writer of the program of `Props/CApi.lean`, on any disk. -/
example {disk : Several.State} (hd : ∀ i, disk.handles i = none) :
    ∃ file, (Several.run disk (diskEvents (fun f => [f]) Demo.cenv start Demo.cprogram)).files [str "b.tsfile"] = some file
      ∧ readSeries some file (str "d1") (str "s1") = some [(3, .INT 4), (5, .INT 5)] := by
  obtain ⟨f, d, m, ms, h3, h4⟩ := C84_on_disk (place := fun f => [f]) (ce := Demo.cenv) Demo.envOk (by decide +kernel)
    (cs := Demo.cprogram) (by decide +kernel) Demo.cprogram_in_order hd (w := 7) (r := 0) (by decide) (by decide +kernel)
  have once := once_run Demo.cenv Demo.cprogram CApi.start [] once_start
  rw [List.nil_append] at once
  have h7 : OpenedAs (Demo.cprogram.zip (CApi.run Demo.cenv CApi.start Demo.cprogram).1) 7 (str "b.tsfile") (str "d1") (str "s1")
      ⟨.INT32, .TS2DIFF, .UNCOMPRESSED⟩ :=
    ⟨4, 5, 1, 2, 1, 4, 0, by decide +kernel, by decide +kernel, by decide +kernel, by decide +kernel, by decide +kernel, rfl, rfl, rfl⟩
  obtain ⟨rfl, -⟩ := once.opened h3 h7
  obtain ⟨file, h5, h6⟩ := h4 Demo.cprogram_only
  refine ⟨file, h5, (h6 (str "d1") (str "s1")).trans ?_⟩
  decide +kernel

/-- The same for the bytes of the file. -/
example {disk : Several.State} (hd : ∀ i, disk.handles i = none) :
    ∃ f d m ms s, OpenedAs (Demo.cprogram.zip (run Demo.cenv start Demo.cprogram).1) 7 f d m ms
      ∧ session Demo.cenv.env [(d, [(m, ms)])] (writesTo 7 [] (Demo.cprogram.zip (run Demo.cenv start Demo.cprogram).1)) = some s
      ∧ (Several.run disk (diskEvents (fun f => [f]) Demo.cenv start Demo.cprogram)).files [f] = some s.file := by
  obtain ⟨f, d, m, ms, s, h3, h4, h5⟩ := C54_on_disk (fun f => [f]) Demo.cenv Demo.cprogram 7 0 (by decide) (by decide +kernel) hd
  have once := once_run Demo.cenv Demo.cprogram CApi.start [] once_start
  rw [List.nil_append] at once
  have h7 : OpenedAs (Demo.cprogram.zip (CApi.run Demo.cenv CApi.start Demo.cprogram).1) 7 (str "b.tsfile") (str "d1") (str "s1")
      ⟨.INT32, .TS2DIFF, .UNCOMPRESSED⟩ :=
    ⟨4, 5, 1, 2, 1, 4, 0, by decide +kernel, by decide +kernel, by decide +kernel, by decide +kernel, by decide +kernel, rfl, rfl, rfl⟩
  obtain ⟨rfl, -⟩ := once.opened h3 h7
  exact ⟨_, d, m, ms, s, h3, h4, h5 Demo.cprogram_only⟩

namespace Demo

/-- Two writers on one file: the second is opened while the first is at work. -/
def sameFile : List CCall :=
  [.newString (str "d"), .newString (str "s"), .newString (str "f"), .schemaSimple 1 2 1 0 0, .fileWriterNew 3 4,
   .fileWriterNew 3 4, .fileWriterWriteInt32 5 1 2 10 7, .fileWriterWriteInt32 5 1 2 11 8, .fileWriterClose 5,
   .fileWriterWriteInt32 6 1 2 3 4, .fileWriterClose 6]

/-- What this program does to the disk. -/
def sameFileEvents : List Several.Event :=
  [.create 5 [[102]], .write 5 [84, 115, 70, 105, 108, 101, 3], .create 6 [[102]], .write 6 [84, 115, 70, 105, 108, 101, 3], .write
   5 [], .write 5 [], .write 5 [0, 2, 100, 5, 2, 115, 29, 1, 0, 0, 27, 27, 24, 0, 0, 0, 1, 0, 0, 0, 0, 0, 0, 0, 0, 0, 0, 0, 1, 0, 0,
   0, 0, 0, 0, 0, 10, 14, 16, 2, 0, 2, 115, 1, 8, 2, 0, 0, 0, 0, 0, 0, 0, 10, 0, 0, 0, 0, 0, 0, 0, 11, 0, 0, 0, 7, 0, 0, 0, 8, 0, 0,
   0, 7, 0, 0, 0, 8, 0, 0, 0, 0, 0, 0, 0, 15, 0, 0, 0, 0, 0, 0, 0, 10, 1, 2, 115, 0, 0, 0, 0, 0, 0, 0, 47, 0, 0, 0, 0, 0, 0, 0, 101,
   3, 1, 2, 100, 0, 0, 0, 0, 0, 0, 0, 101, 0, 0, 0, 0, 0, 0, 0, 121, 1, 0, 0, 0, 0, 0, 0, 0, 46, 19, 0, 0, 0, 64, 0, 0, 0, 0, 0, 0,
   16, 20, 0, 0, 0, 0, 0, 0, 8, 128, 2, 5, 0, 0, 0, 51, 84, 115, 70, 105, 108, 101], .write 6 [], .write 6 [0, 2, 100, 5, 2, 115, 28,
   1, 0, 0, 26, 26, 24, 0, 0, 0, 0, 0, 0, 0, 0, 127, 255, 255, 255, 255, 255, 255, 255, 0, 0, 0, 0, 0, 0, 0, 3, 8, 2, 0, 2, 115, 1,
   8, 1, 0, 0, 0, 0, 0, 0, 0, 3, 0, 0, 0, 0, 0, 0, 0, 3, 0, 0, 0, 4, 0, 0, 0, 4, 0, 0, 0, 4, 0, 0, 0, 4, 0, 0, 0, 0, 0, 0, 0, 4, 0,
   0, 0, 0, 0, 0, 0, 10, 1, 2, 115, 0, 0, 0, 0, 0, 0, 0, 46, 0, 0, 0, 0, 0, 0, 0, 100, 3, 1, 2, 100, 0, 0, 0, 0, 0, 0, 0, 100, 0, 0,
   0, 0, 0, 0, 0, 120, 1, 0, 0, 0, 0, 0, 0, 0, 45, 19, 0, 0, 0, 64, 0, 0, 0, 0, 0, 0, 16, 20, 0, 0, 0, 0, 0, 0, 8, 128, 2, 5, 0, 0,
   0, 51, 84, 115, 70, 105, 108, 101]]

theorem sameFile_events : diskEvents (fun f => [f]) cenv start sameFile = sameFileEvents := by decide +kernel

end Demo

/-- **C54** and **C84** on the disk are wrong for programs that open a file twice: this program keeps to the rules, every call returns,
and in the end the file has no readable footer. -/
theorem C54_same_file_wrong : Obeys Holds.nothing Demo.sameFile (run Demo.cenv start Demo.sameFile).1
    ∧ (run Demo.cenv start Demo.sameFile).1 = [1, 2, 3, 4, 5, 6, 5, 5, 0, 6, 0].map Outcome.ok
    ∧ ((Several.run Demo.nothing (diskEvents (fun f => [f]) Demo.cenv start Demo.sameFile)).files [str "f"]).any
        (fun file => (readFooter file).isNone) = true := by
  refine ⟨by decide +kernel, by decide +kernel, ?_⟩
  rw [Demo.sameFile_events]
  decide +kernel

end TsFile
