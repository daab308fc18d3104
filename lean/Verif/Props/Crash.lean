import Verif.Props.Flush
import Verif.Props.ReadBack
import Verif.Props.Faults
import Verif.Proofs.Recover
/-! # C72: what can be recovered when the output ends at any byte

`left` is what is on the disk after a crash: any beginning of the bytes the writer has handed to its output, cut at any
byte, in the middle of a page, a header or the index. `recovered unsnap left d m` (`Spec/Recover.lean`) is what a scan
that keeps complete chunks finds for a series. -/

namespace TsFile
open Spec

variable {env : Env} {unsnap : Bytes → Option Bytes} {schema : Schema}

/-- **C72** (1). Nothing is invented: while the writer is open, whatever beginning of its output a crash leaves, the points
recovered for a series are a beginning of the points the writer has moved to the file, in order and unchanged. -/
theorem C72_no_invention (hsn : SnappyOk env unsnap) (hsch : schema.Named) {ops : List Op} {w0 w : Writer}
    (h : Reached env schema ops w0 w) (hcalls : ∀ n ∈ w0.grown env ops, n < 2 ^ 32) {left : Bytes}
    (hleft : left <+: w.io.out.bytes) (d m : Bytes) :
    recovered unsnap left d m <+: series (abstractly env schema ops w0).stored d m := by
  obtain ⟨items, h1, h2⟩ := C50_recoverable hsn hsch h hcalls
  rw [← h2]
  exact scanPoints_prefix _ _ _ _ (recover_prefix h1 (hleft.trans (List.prefix_append _ _))) _

/-- **C72** (2). Nothing that was flushed is lost: if what a crash leaves begins with the output as it was after some
calls, then all the points that were in the file at that time are recovered, whatever partial bytes follow. -/
theorem C72_no_loss (hsn : SnappyOk env unsnap) (hsch : schema.Named) {ops : List Op} {w0 w : Writer}
    (h : Reached env schema ops w0 w) (hcalls : ∀ n ∈ w0.grown env ops, n < 2 ^ 32) {left : Bytes}
    (hleft : w.io.out.bytes <+: left) (d m : Bytes) :
    series (abstractly env schema ops w0).stored d m <+: recovered unsnap left d m := by
  obtain ⟨items, h1, h2⟩ := C50_recoverable hsn hsch h hcalls
  rw [← h2]
  exact scanPoints_prefix _ _ _ _ (recover_all h1 hleft) _

/-- **C72** (3). Both together, for a crash during a call: the points recovered are between those in the file before the
call and those after it. -/
theorem C72_during_call (hsn : SnappyOk env unsnap) (hsch : schema.Named) {ops : List Op} {op : Op} {w0 w w' : Writer}
    (h : Reached env schema ops w0 w) (h' : Reached env schema (ops ++ [op]) w0 w')
    (hcalls : ∀ n ∈ w0.grown env ops, n < 2 ^ 32) (hcalls' : ∀ n ∈ w0.grown env (ops ++ [op]), n < 2 ^ 32) {left : Bytes}
    (h1 : w.io.out.bytes <+: left) (h2 : left <+: w'.io.out.bytes) (d m : Bytes) :
    series (abstractly env schema ops w0).stored d m <+: recovered unsnap left d m
    ∧ recovered unsnap left d m <+: series (abstractly env schema (ops ++ [op]) w0).stored d m :=
  ⟨C72_no_loss hsn hsch h hcalls h1 d m, C72_no_invention hsn hsch h' hcalls' h2 d m⟩

/-- **C72** (4). The same for the whole life of a writer, closing included: from every beginning of the file, a beginning
of the points of each series is recovered; from the whole file, all of them. -/
theorem C72_closed (he : EnvOk env unsnap) (hsch : schema.Named) {ops : List Op} {s : Session}
    (hs : session env schema ops = some s) (hw : s.Within ops) (d m : Bytes) :
    (∀ left, left <+: s.file → recovered unsnap left d m <+: series (storedBy schema ops s.grown) d m)
    ∧ recovered unsnap s.file d m = series (storedBy schema ops s.grown) d m := by
  obtain ⟨items, footer, _, h1, _, h2⟩ := C02_scan he hsch hs hw
  have hpre : ∀ left, left <+: s.file → recovered unsnap left d m <+: series (storedBy schema ops s.grown) d m := by
    intro left hl
    rw [← h2]
    exact scanPoints_prefix _ _ _ _ (recover_prefix h1 hl) _
  refine ⟨hpre, ?_⟩
  rw [← h2]
  exact congrArg (scanPoints d m none) (recover_scan h1)

/-- **C72** (5). In a history without failing `write_many`, from every beginning of the file: a beginning of the accepted
points of each series. -/
theorem C72_accepted (he : EnvOk env unsnap) (hsch : schema.Named) {ops : List Op} {s : Session}
    (hs : session env schema ops = some s) (hw : s.Within ops)
    (hmany : ∀ d t vs r, (Op.writeMany d t vs, r) ∈ ops.zip s.results → r = .ok ()) {left : Bytes} (hl : left <+: s.file)
    (d m : Bytes) : recovered unsnap left d m <+: series (accepted ops s.results) d m := by
  rw [← storedBy_accepted he hsch hs hw hmany]
  exact (C72_closed he hsch hs hw d m).1 left hl

/-- **C72** (6). On an output with room for `n` bytes, what it holds when `close` has returned gives a beginning of the
points of each series: a full disk cuts off the end of the data and does not change what is before. -/
theorem C72_full_disk (he : EnvOk env unsnap) (hsch : schema.Named) {ops : List Op} {s : Session} {n : Nat} {c c' : Writer}
    (hs : session env schema ops = some s) (hw : s.Within ops) (hc : openOn env schema (some n) = .ok c)
    (hpc : .panic ∉ (c.run env ops).2) (hcc : (c.run env ops).1.close env = some c') (d m : Bytes) :
    recovered unsnap c'.io.out.bytes d m <+: series (storedBy schema ops s.grown) d m := by
  rw [C31_full_disk_close hs hc hpc hcc]
  exact (C72_closed he hsch hs hw d m).1 _ (List.take_prefix _ _)

/-- **C72** (7). How much a cut costs: from the first `k` bytes of the file, exactly the chunks that end within these
bytes are recovered. Only the chunk that is hit by the cut and what comes after it is lost. -/
theorem C72_cut (he : EnvOk env unsnap) (hsch : schema.Named) {ops : List Op} {s : Session}
    (hs : session env schema ops = some s) (hw : s.Within ops) (k : Nat) :
    recover unsnap (s.file.take k) = ((pieces unsnap s.file).filter (fun p => decide (p.2 ≤ k))).map Prod.fst
    ∧ ∃ stop, scan unsnap s.file = some ((pieces unsnap s.file).map Prod.fst, stop) := by
  obtain ⟨items, footer, _, h1, _, _⟩ := C02_scan he hsch hs hw
  exact ⟨recover_cut unsnap s.file k, _, by rw [recover_pieces, recover_scan h1]; exact h1⟩

/-! ## The hypotheses can be met -/

-- the pieces of a file: two chunk group headers and three chunks
example : (pieces some Demo.result.file).map Prod.snd = [19, 70, 82, 141, 180] := by decide +kernel

-- a cut in the middle of the first chunk of the second group: the first device is recovered, the second not
example : recovered some (Demo.result.file.take 120) (str "root.sg.d1") (str "s1") = [(10, .INT 7), (12, .INT (-1))]
    ∧ recovered some (Demo.result.file.take 120) (str "root.sg.d2") (str "s1") = [] := by decide +kernel

example (left : Bytes) (hl : left <+: Demo.result.file) (d m : Bytes) :
    recovered some left d m <+: series (accepted Demo.ops Demo.result.results) d m :=
  C72_accepted Demo.envOk Demo.indexable.toNamed Demo.session_eq Demo.within Demo.manyOk hl d m

-- nothing is written before the file is closed; a crash before that leaves a beginning of the header
example (left : Bytes) (hl : left <+: (Demo.w0.run Demo.env Demo.ops).1.io.out.bytes) (d m : Bytes) :
    recovered some left d m <+: series (abstractly Demo.env Demo.schema Demo.ops Demo.w0).stored d m :=
  C72_no_invention Demo.envOk.snappy Demo.indexable.toNamed Demo.reached (by decide +kernel) hl d m

example (left : Bytes) (hl : (Demo.w0.run Demo.env Demo.ops).1.io.out.bytes <+: left) (d m : Bytes) :
    series (abstractly Demo.env Demo.schema Demo.ops Demo.w0).stored d m <+: recovered some left d m :=
  C72_no_loss Demo.envOk.snappy Demo.indexable.toNamed Demo.reached (by decide +kernel) hl d m

example (k : Nat) : recovered some (Demo.result.file.take k) (str "root.sg.d1") (str "s1") <+: [(10, .INT 7), (12, .INT (-1))] := by
  have e : series (storedBy Demo.schema Demo.ops Demo.result.grown) (str "root.sg.d1") (str "s1") = [(10, .INT 7), (12, .INT (-1))] := by
    decide +kernel
  rw [← e]
  exact (C72_closed Demo.envOk Demo.indexable.toNamed Demo.session_eq Demo.within _ _).1 _ (List.take_prefix _ _)

-- on a disk with room for 100 bytes, see `Demo.onLimit_100`
example (c c' : Writer) (hc : openOn Demo.env Demo.schema (some 100) = .ok c) (hp : .panic ∉ (c.run Demo.env Demo.ops).2)
    (hcc : (c.run Demo.env Demo.ops).1.close Demo.env = some c') (d m : Bytes) :
    recovered some c'.io.out.bytes d m <+: series (storedBy Demo.schema Demo.ops Demo.result.grown) d m :=
  C72_full_disk Demo.envOk Demo.indexable.toNamed Demo.session_eq Demo.within hc hp hcc d m

example (k : Nat) := C72_cut Demo.envOk Demo.indexable.toNamed Demo.session_eq Demo.within k

-- there are histories in which a call flushes, so that a crash can happen in the middle of it
example {env : Env} {unsnap : Bytes → Option Bytes} (hsn : SnappyOk env unsnap) (d m : Bytes) :
    ∃ w0 ops op w, Reached env (wideSchema d m) (ops ++ [op]) w0 w
      ∧ (w0.run env ops).1.io.out.bytes.length < w.io.out.bytes.length :=
  C41_flush_happens hsn d m

end TsFile
