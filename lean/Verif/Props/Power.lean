import Verif.Proofs.Power
import Verif.Props.Several
import Verif.Props.Crash
import Verif.Props.Limits
/-! # C95: loss of power

The system calls of a session are those of C94. `Model/Power.lean` is the file in the operating system, `Spec/Power.lean` says what a loss
of power may leave of it. The blocks of the disk can have any size. -/

namespace TsFile
open Spec Power

/-- **C95** (1). If any program calls `fsync` on the file after `close` has returned, a loss of power at any time later leaves the whole
file. Missing: without this call the points can be lost, see `C95_lost_wrong`. -/
theorem C95_synced_partial {env : Env} {schema : Schema} {ops : List Op} {s : Session} (hs : session env schema ops = some s)
    (hl : s.file.length < 2 ^ 64) : ∃ pieces, Several.sessionWrites env schema ops = some pieces
      ∧ ∀ (syncs : Nat) (block : Nat) (left : Bytes),
        LeftOver block (run created (pieces.map .write ++ .sync :: List.replicate syncs .sync)) left → left = s.file := by
  obtain ⟨pieces, h1, h2⟩ := C94_calls hs hl
  refine ⟨pieces, h1, fun syncs block left hleft => ?_⟩
  have hc : ∀ n f, (run f (List.replicate n .sync)).content = f.content := by
    intro n
    induction n with
    | zero => exact fun _ => rfl
    | succ n ih => exact fun f => ih (step f .sync)
  have hstart : run created (pieces.map .write ++ [.sync]) = ⟨s.file, s.file.length⟩ := by
    rw [Power.run_append, run_writes, ← h2]
    rfl
  rw [show pieces.map Act.write ++ .sync :: List.replicate syncs .sync = (pieces.map .write ++ [.sync]) ++ List.replicate syncs .sync by simp,
    Power.run_append, hstart] at hleft
  have hk : Keeps s.file (run ⟨s.file, s.file.length⟩ (List.replicate syncs .sync)) :=
    keeps_run _ ⟨List.prefix_refl _, Nat.le_refl _, Nat.le_refl _⟩
  have h3 := keeps_left hk hleft
  have h4 := left_length hleft
  rw [hc] at h4
  exact (h3.eq_of_length_le h4).symm

/-- **C95** (2). If any program calls `fsync` on the file between two calls of the writer, then whatever is written and synchronised
afterwards, and whatever a loss of power leaves of it, a scan finds all points that were in the file at that time. -/
theorem C95_so_far_partial {env : Env} {unsnap : Bytes → Option Bytes} (hsn : SnappyOk env unsnap) {schema : Schema} (hsch : schema.Named)
    {ops : List Op} {w0 w : Writer} (h : Reached env schema ops w0 w) (hcalls : ∀ n ∈ w0.grown env ops, n < 2 ^ 32) {pieces : List Bytes}
    (hp : pieces.flatten = w.io.out.bytes) (more : List Act) {block : Nat} {left : Bytes}
    (hleft : LeftOver block (run created (pieces.map .write ++ .sync :: more)) left) (d m : Bytes) :
    series (abstractly env schema ops w0).stored d m <+: recovered unsnap left d m := by
  refine C72_no_loss hsn hsch h hcalls ?_ d m
  have hstart : run created (pieces.map .write ++ [.sync]) = ⟨w.io.out.bytes, w.io.out.bytes.length⟩ := by
    rw [Power.run_append, run_writes, ← hp]
    rfl
  rw [show pieces.map Act.write ++ .sync :: more = (pieces.map .write ++ [.sync]) ++ more by simp, Power.run_append, hstart] at hleft
  exact keeps_left (keeps_run more ⟨List.prefix_refl _, Nat.le_refl _, Nat.le_refl _⟩) hleft

/-- **C95** is violated by every session: the crate never calls `fsync`, so after `close` has returned a loss of power may leave any
beginning of the file, also none of it, or zeros in the place of all of its bytes, and then nothing can be read. -/
theorem C95_lost_wrong {env : Env} {schema : Schema} {ops : List Op} {s : Session} (hs : session env schema ops = some s)
    (hl : s.file.length < 2 ^ 64) : ∃ pieces, Several.sessionWrites env schema ops = some pieces
      ∧ (∀ block n, n ≤ s.file.length → LeftOver block (run created (pieces.map .write)) (s.file.take n))
      ∧ (∀ block n, n ≤ s.file.length → LeftOver block (run created (pieces.map .write)) (List.replicate n 0))
      ∧ ∀ unsnap n d m, readSeries unsnap (List.replicate n 0) d m = none ∧ recovered unsnap (List.replicate n 0) d m = [] := by
  obtain ⟨pieces, h1, h2⟩ := C94_calls hs hl
  have hrun : run created (pieces.map .write) = ⟨s.file, 0⟩ := by
    rw [run_writes, ← h2]
    rfl
  refine ⟨pieces, h1, fun block n hn => ?_, fun block n hn => ?_, fun unsnap n d m => ⟨?_, ?_⟩⟩
  · rw [hrun]
    exact left_take block _ n hn
  · rw [hrun]
    exact left_zeros block _ n hn
  · rw [readSeries, readSeriesMeta, readFooter, if_neg (fun h => zeros_head n h.1)]
    rfl
  · rw [recovered, recover, if_neg (zeros_head n)]
    rfl

namespace Demo

def sevensSchema : Schema := [(str "d", [(str "s", ⟨.INT64, .PLAIN, .UNCOMPRESSED⟩)])]

/-- 125 points, all with the value 7. -/
def sevens : List Op := (List.range 125).map (fun i => .write (str "d") (str "s") (BitVec.ofNat 64 i) (.LONG 7#64))

def sevensFront : Bytes :=
  [84, 115, 70, 105, 108, 101, 3, 0, 2, 100, 5, 2, 115, 133, 8, 2, 0, 0, 129, 8, 129, 8, 24, 0, 0, 0, 124, 0, 0, 0, 0, 0, 0, 0, 0, 0, 0,
   0, 1, 0, 0, 0, 0, 0, 0, 0, 0]

def sevensBack : Bytes :=
  [2, 0, 2, 115, 2, 8, 125, 0, 0, 0, 0, 0, 0, 0, 0, 0, 0, 0, 0, 0, 0, 0, 124, 0, 0, 0, 0, 0, 0, 0, 7, 0, 0, 0, 0, 0, 0, 0, 7, 0, 0, 0, 0,
   0, 0, 0, 7, 0, 0, 0, 0, 0, 0, 0, 7, 64, 139, 88, 0, 0, 0, 0, 0, 0, 0, 0, 0, 0, 0, 0, 10, 1, 2, 115, 0, 0, 0, 0, 0, 0, 4, 24, 0, 0, 0,
   0, 0, 0, 4, 94, 3, 1, 2, 100, 0, 0, 0, 0, 0, 0, 4, 94, 0, 0, 0, 0, 0, 0, 4, 114, 1, 0, 0, 0, 0, 0, 0, 4, 23, 19, 0, 0, 0, 64, 0, 0, 0,
   0, 0, 0, 16, 20, 0, 0, 0, 0, 0, 0, 8, 128, 2, 5, 0, 0, 0, 51, 84, 115, 70, 105, 108, 101]

def seven : Bytes := [0, 0, 0, 0, 0, 0, 0, 7]

def sevensFile : Bytes := sevensFront ++ (List.replicate 125 seven).flatten ++ sevensBack

/-- The file without its second block of 512 bytes. -/
def sevensLeft : Bytes :=
  sevensFront ++ (List.replicate 58 seven).flatten ++ List.replicate 512 0 ++ (List.replicate 3 seven).flatten ++ sevensBack

theorem sevens_file : (session env sevensSchema sevens).map (fun s => s.file) = some sevensFile := by decide +kernel

theorem sevens_accepted : (session env sevensSchema sevens).all (fun s => s.results.all (fun r => decide (r = .ok ()))) = true := by
  decide +kernel

theorem sevens_torn : torn 512 ⟨sevensFile, 0⟩ sevensFile.length (fun n => n != 1) = sevensLeft := by decide +kernel

theorem sevens_read : (readSeries some sevensLeft (str "d") (str "s")).any (fun l => l.any (fun p => decide (p = (60#64, .LONG 0#64)))) = true := by
  decide +kernel

end Demo

/-- **C95** is violated also in this way: a loss of power after `close` has returned may leave a file that has its full length and can
be read through its index, and in which a point has a value that was never written. Here the disk has blocks of 512 bytes, and one of
them was not on the medium. Nothing in the format shows it, and nothing in the program. -/
theorem C95_invented_wrong : ∃ (s : Session) (pieces : List Bytes) (left : Bytes) (points : List Point),
    session Demo.env Demo.sevensSchema Demo.sevens = some s ∧ (∀ r ∈ s.results, r = .ok ())
    ∧ Several.sessionWrites Demo.env Demo.sevensSchema Demo.sevens = some pieces
    ∧ LeftOver 512 (run created (pieces.map .write)) left
    ∧ readSeries some left (str "d") (str "s") = some points ∧ (60#64, .LONG 0#64) ∈ points
    ∧ ∀ op ∈ Demo.sevens, ∀ r ∈ op.recs, r.value = .LONG 7#64 := by
  have hf := Demo.sevens_file
  have ha := Demo.sevens_accepted
  cases hs : session Demo.env Demo.sevensSchema Demo.sevens with
  | none => rw [hs] at hf; cases hf
  | some s =>
    rw [hs] at hf ha
    have hf : s.file = Demo.sevensFile := Option.some.inj hf
    obtain ⟨pieces, h1, h2⟩ := C94_calls hs (by rw [hf]; decide +kernel)
    have hr := Demo.sevens_read
    cases hp : readSeries some Demo.sevensLeft (str "d") (str "s") with
    | none => rw [hp] at hr; cases hr
    | some points =>
      rw [hp] at hr
      obtain ⟨p, g1, g2⟩ := List.any_eq_true.1 (show points.any _ = true from hr)
      refine ⟨s, pieces, Demo.sevensLeft, points, rfl, ?_, h1, ?_, hp, ?_, ?_⟩
      · intro r hr
        exact of_decide_eq_true (List.all_eq_true.1 (show s.results.all _ = true from ha) r hr)
      · have hrun : run created (pieces.map .write) = ⟨Demo.sevensFile, 0⟩ := by
          rw [run_writes, h2, hf]
          rfl
        rw [hrun]
        exact ⟨Demo.sevensFile.length, fun n => n != 1, Nat.zero_le _, Nat.le_refl _, Demo.sevens_torn.symm⟩
      · rw [← of_decide_eq_true g2]
        exact g1
      · intro op ho r hr
        obtain ⟨i, -, rfl⟩ := List.mem_map.1 ho
        obtain rfl := List.mem_singleton.1 hr
        rfl

/-! ## Cases -/

/-- The session of the other examples, synchronised after closing. -/
example : ∃ pieces, Several.sessionWrites Demo.env Demo.schema Demo.ops = some pieces
    ∧ ∀ left, LeftOver 4096 (run created (pieces.map .write ++ [.sync])) left → left = Demo.result.file := by
  obtain ⟨pieces, h1, h2⟩ := C95_synced_partial Demo.session_eq (by decide +kernel)
  exact ⟨pieces, h1, fun left => h2 0 4096 left⟩

/-- And not synchronised: a beginning of 100 bytes may be left. -/
example : ∃ pieces, Several.sessionWrites Demo.env Demo.schema Demo.ops = some pieces
    ∧ LeftOver 512 (run created (pieces.map .write)) (Demo.result.file.take 100) := by
  obtain ⟨pieces, h1, h2, -⟩ := C95_lost_wrong Demo.session_eq (by decide +kernel)
  exact ⟨pieces, h1, h2 512 100 (by decide +kernel)⟩

/-- A history whose last call flushes (so there are points in the file), synchronised after this call; then more is written. -/
example : ∃ w0 ops op w, Reached Demo.env (wideSchema (str "root.d") (str "a")) (ops ++ [op]) w0 w
    ∧ (w0.run Demo.env ops).1.io.out.bytes.length < w.io.out.bytes.length
    ∧ ∀ left d m, LeftOver 512 (run created [.write w.io.out.bytes, .sync, .write (str "more")]) left →
      series (abstractly Demo.env (wideSchema (str "root.d") (str "a")) (ops ++ [op]) w0).stored d m <+: recovered some left d m := by
  obtain ⟨w0, ops, op, w, h1, h2, h3⟩ := Demo.flushing
  exact ⟨w0, ops, op, w, h1, h2, fun left d m hl => C95_so_far_partial Demo.envOk.snappy Demo.flushNamed h1 h3
    (pieces := [w.io.out.bytes]) (by simp) [.write (str "more")] hl d m⟩

end TsFile
