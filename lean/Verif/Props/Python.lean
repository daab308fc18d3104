import Verif.Proofs.PythonTell
import Verif.Props.CApi
/-! # The Python classes over the C interface (C79, C80) -/

namespace TsFile
open Spec Py
open CApi (CEnv)

/-- **C79**: no step of a Python program that uses the classes is undefined, in whatever order it makes, uses, frees, closes and drops
the objects, and whatever it passes. -/
theorem C79_no_ub (ce : CEnv) (cs : List PyOp) : PyOutcome.ub ∉ (run ce start cs).1 :=
  (run_all ce cs start [] (pinv_start ce) known_start).1

/-- **C79**: a step raises an exception exactly for a stated reason, which is about the steps before and how they ended. -/
theorem C79_raises (ce : CEnv) (cs : List PyOp) (k : Nat) (c : PyOp) (o : PyOutcome) (hc : cs[k]? = some c)
    (ho : (run ce start cs).1[k]? = some o) : o = .raises ↔ RaiseReason ((cs.zip (run ce start cs).1).take k) c :=
  ((run_all ce cs start [] (pinv_start ce) known_start).2.1 k c o hc ho).1

/-- **C79**: a step ends the process exactly for a stated reason. -/
theorem C79_aborts (ce : CEnv) (cs : List PyOp) (k : Nat) (c : PyOp) (o : PyOutcome) (hc : cs[k]? = some c)
    (ho : (run ce start cs).1[k]? = some o) : o = .abort ↔ PyAbortReason ce ((cs.zip (run ce start cs).1).take k) c :=
  ((run_all ce cs start [] (pinv_start ce) known_start).2.1 k c o hc ho).2.1

/-- **C79**: a program without a reason to end the process does all its steps; each ends normally or with an exception. -/
theorem C79_completes (ce : CEnv) (cs : List PyOp)
    (hno : ∀ k c, cs[k]? = some c → ¬ PyAbortReason ce ((cs.zip (run ce start cs).1).take k) c) :
    (run ce start cs).1.length = cs.length ∧ ∀ o ∈ (run ce start cs).1, o = .raises ∨ ∃ n, o = .ok n := by
  have hall := run_all ce cs start [] (pinv_start ce) known_start
  have hlen : ∀ (cs : List PyOp) (p : PyState), (run ce p cs).1.length ≤ cs.length := by
    intro cs
    induction cs with
    | nil => intro p; exact Nat.le_refl _
    | cons c cs ih =>
      intro p
      rw [run]
      rcases step ce p c with ⟨o, q⟩
      cases o with
      | ok n => exact Nat.succ_le_succ (ih q)
      | raises => exact Nat.succ_le_succ (ih q)
      | abort => exact Nat.succ_le_succ (Nat.zero_le _)
      | ub => exact Nat.succ_le_succ (Nat.zero_le _)
  have hab : PyOutcome.abort ∉ (run ce start cs).1 := by
    intro hm
    obtain ⟨k, hk, hx⟩ := List.getElem_of_mem hm
    have hkc : k < cs.length := Nat.lt_of_lt_of_le hk (hlen cs start)
    have hc : cs[k]? = some cs[k] := List.getElem?_eq_getElem hkc
    exact hno k _ hc ((C79_aborts ce cs k _ .abort hc (by rw [List.getElem?_eq_getElem hk, hx])).1 rfl)
  refine ⟨(hall.2.2 hab).1, ?_⟩
  intro o ho
  cases o with
  | ok n => exact Or.inr ⟨n, rfl⟩
  | raises => exact Or.inl rfl
  | abort => exact absurd ho hab
  | ub => exact absurd ho hall.1

/-- **C79**: the file of a closed writer object is there under its name, and it is the file of the Rust interface for the schema
object's device, measurement and types, and the points that this writer object took. Strings count up to the first zero byte. -/
theorem C79_file (ce : CEnv) (cs : List PyOp) (k r : Nat) (hc : (.close k, .ok r) ∈ cs.zip (run ce start cs).1) :
    ∃ f i d m ms s, (.newWriter f i, .ok k) ∈ cs.zip (run ce start cs).1 ∧ MadeSchema (cs.zip (run ce start cs).1) i d m ms
      ∧ session ce.env [(beforeNul d, [(beforeNul m, ms)])] (pyWrites k (cs.zip (run ce start cs).1)) = some s
      ∧ (∀ r ∈ s.results, r = .ok ()) ∧ (beforeNul f, s.file) ∈ (run ce start cs).2.mem.files := by
  have h := run_closed ce cs start [] (pinv_start ce) k r
  rw [List.nil_append] at h
  obtain ⟨f, i, d, m, ms, s, h1, h2, h3, h4, h5⟩ := h hc
  rw [cText_eq, cText_eq] at h3
  rw [cText_eq] at h5
  exact ⟨f, i, d, m, ms, s, h1, h2, h3, h4, h5⟩

/-- **C80**, the part that holds: with a writer object that the program refers to and has not closed, and a timestamp and a value of 32
bits, `write_int` takes the point exactly if the Rust interface takes it, and otherwise ends the process. -/
theorem C80_small_partial (ce : CEnv) (cs : List PyOp) (n k i : Nat) (f d0 m0 d m : Bytes) (ms : MeasurementSchema) (t v : Int)
    (o : PyOutcome) (writer : Writer) (hc : cs[n]? = some (.writeInt k d m t v)) (ho : (run ce start cs).1[n]? = some o)
    (hw : (.newWriter f i, .ok k) ∈ (cs.zip (run ce start cs).1).take n) (hs : MadeSchema ((cs.zip (run ce start cs).1).take n) i d0 m0 ms)
    (hopen : (.close k, .ok 0) ∉ (cs.zip (run ce start cs).1).take n) (hheld : (.delWriter k, .ok 0) ∉ (cs.zip (run ce start cs).1).take n)
    (ht : isCInt t) (hv : isCInt v) (hu : ce.utf8 (beforeNul d) = true ∧ ce.utf8 (beforeNul m) = true)
    (hr : RustWriter ce.env [(beforeNul d0, [(beforeNul m0, ms)])] (pyWrites k ((cs.zip (run ce start cs).1).take n)) writer) :
    ((∃ r, o = .ok r) ↔ (writer.write ce.env (beforeNul d) (beforeNul m) (BitVec.ofInt 64 t) (.INT (BitVec.ofInt 32 v))).2 = .ok ())
    ∧ ((∃ r, o = .ok r) ∨ o = .abort) := by
  have h1 := C79_raises ce cs n _ o hc ho
  have h2 := C79_aborts ce cs n _ o hc ho
  have h3 : o ≠ .ub := fun e => C79_no_ub ce cs (e ▸ List.mem_of_getElem? ho)
  have hnr : o ≠ .raises := by
    intro e
    rcases h1.1 e with h | h | h | h
    · exact h f i hw
    · exact hheld h
    · exact hopen h
    · exact h ⟨ht, hv⟩
  have hok : o = .abort ∨ ∃ r, o = .ok r := by
    cases o with
    | ok r => exact Or.inr ⟨r, rfl⟩
    | raises => exact absurd rfl hnr
    | abort => exact Or.inl rfl
    | ub => exact absurd rfl h3
  refine ⟨⟨?_, ?_⟩, hok.symm⟩
  · rintro ⟨r, rfl⟩
    by_cases hx : (writer.write ce.env (beforeNul d) (beforeNul m) (BitVec.ofInt 64 t) (.INT (BitVec.ofInt 32 v))).2 = .ok ()
    · exact hx
    · have := h2.2 ⟨fun h => hnr (h1.2 h), Or.inr (Or.inr ⟨f, i, d0, m0, ms, writer, hw, hs, hr, hx⟩)⟩
      cases this
  · intro hx
    rcases hok with rfl | h
    · obtain ⟨-, h | h | ⟨f', i', d', m', ms', writer', g1, g2, ⟨w1, g3, g4⟩, g5⟩⟩ := h2.1 rfl
      · rw [hu.1] at h; cases h
      · rw [hu.2] at h; cases h
      · obtain ⟨-, -, sv, wv, hk⟩ := (run_all ce cs start [] (pinv_start ce) known_start).2.1 n _ _ hc ho
        obtain ⟨rfl, rfl⟩ := hk.wone _ _ _ _ _ hw g1
        obtain ⟨rfl, rfl, rfl⟩ := hk.made hs g2
        obtain ⟨w0, g6, g7⟩ := hr
        rw [g6] at g3
        obtain rfl := Except.ok.inj g3
        rw [g4, ← g7] at g5
        exact absurd hx g5
    · exact h

/-- **C80** is false: no timestamp of 2^31 or more can be written, so no time after 1970-01-25 in milliseconds: `write_int` raises an
exception, whatever the program did before. -/
theorem C80_time_wrong (ce : CEnv) (cs : List PyOp) (n k : Nat) (d m : Bytes) (t v : Int) (o : PyOutcome) (ht : 2147483648 ≤ t)
    (hc : cs[n]? = some (.writeInt k d m t v)) (ho : (run ce start cs).1[n]? = some o) : o = .raises :=
  (C79_raises ce cs n _ o hc ho).2 (Or.inr (Or.inr (Or.inr (fun h => by have := h.1.2; omega))))

/-! ## Cases -/

namespace Demo

/-- Two writer objects from one schema object. The schema object is freed and dropped before the writer objects are closed; one of them
is dropped without being closed. A timestamp does not fit, a closed writer object is used; the exceptions are caught. -/
def pyprogram : List PyOp :=
  [.newSchema (str "d1") (str "s1") 1 4 0, .newWriter (str "a.tsfile") 0, .newWriter (str "b.tsfile") 0, .writeInt 0 (str "d1") (str "s1") 10 7,
   .freeSchema 0, .newWriter (str "c.tsfile") 0, .writeInt 1 (str "d1") (str "s1") 3 (-4), .delSchema 0,
   .writeInt 0 (str "d1") (str "s1") 1700000000000 8, .writeInt 0 (str "d1") (str "s1") 11 8, .close 0, .writeInt 0 (str "d1") (str "s1") 12 9,
   .close 0, .delWriter 0, .writeInt 1 (str "d1") (str "s1") 5 5, .delWriter 1, .newSchema (str "d2") (str "s2") 1 4 0]

/-- The example program of the file, for some points: two `with` statements. -/
def pymain (n : Nat) : List PyOp :=
  [.newSchema (str "d1") (str "s1") 1 0 0, .newWriter (str "test.tsfile") 0]
    ++ (List.range n).map (fun i => .writeInt 0 (str "d1") (str "s1") i i) ++ [.close 0, .freeSchema 0]

end Demo

example : (run Demo.cenv start Demo.pyprogram).1
    = [.ok 0, .ok 0, .ok 1, .ok 0, .ok 0, .raises, .ok 0, .ok 0, .raises, .ok 0, .ok 0, .raises, .raises, .ok 0, .ok 0, .ok 0, .ok 1] := by
  decide +kernel

example : pyWrites 0 (Demo.pyprogram.zip (run Demo.cenv start Demo.pyprogram).1)
    = [.write (str "d1") (str "s1") 10 (.INT 7), .write (str "d1") (str "s1") 11 (.INT 8)] := by decide +kernel

example : (.close 0, .ok 0) ∈ Demo.pyprogram.zip (run Demo.cenv start Demo.pyprogram).1 := by decide +kernel

/-- The strings of the first schema object are reclaimed with the second writer object, not before. -/
example : ((run Demo.cenv start (Demo.pyprogram.take 15)).2.mem.strings.map Prod.snd = [str "s1", str "d1"])
    ∧ (run Demo.cenv start (Demo.pyprogram.take 16)).2.mem.strings = [] := by decide +kernel

example : (run Demo.cenv start (Demo.pymain 3)).1 = List.replicate 7 (.ok 0) := by decide +kernel

/-- An unknown number of a type, and a stale timestamp, end the process. -/
example : (run Demo.cenv start [.newSchema (str "d1") (str "s1") 9 4 0, .delSchema 0]).1 = [.abort]
    ∧ (run Demo.cenv start (Demo.pyprogram.take 4 ++ [.writeInt 0 (str "d1") (str "s1") 10 8, .close 0])).1
      = [.ok 0, .ok 0, .ok 1, .ok 0, .abort] := by decide +kernel

-- the sixth step of the sample program raises, and there is a reason for it
example : RaiseReason ((Demo.pyprogram.zip (run Demo.cenv start Demo.pyprogram).1).take 5) (Demo.pyprogram[5]'(by decide)) :=
  (C79_raises Demo.cenv Demo.pyprogram 5 _ .raises rfl (by decide +kernel)).1 rfl

example : PyAbortReason Demo.cenv (([.newSchema (str "d1") (str "s1") 9 4 0].zip
    (run Demo.cenv start [.newSchema (str "d1") (str "s1") 9 4 0]).1).take 0) (.newSchema (str "d1") (str "s1") 9 4 0) :=
  (C79_aborts Demo.cenv [.newSchema (str "d1") (str "s1") 9 4 0] 0 _ .abort rfl (by decide +kernel)).1 rfl

example : ∃ f i d m ms s, (.newWriter f i, .ok 0) ∈ Demo.pyprogram.zip (run Demo.cenv start Demo.pyprogram).1
    ∧ MadeSchema (Demo.pyprogram.zip (run Demo.cenv start Demo.pyprogram).1) i d m ms
    ∧ session Demo.cenv.env [(beforeNul d, [(beforeNul m, ms)])] (pyWrites 0 (Demo.pyprogram.zip (run Demo.cenv start Demo.pyprogram).1)) = some s
    ∧ (∀ r ∈ s.results, r = .ok ()) ∧ (beforeNul f, s.file) ∈ (run Demo.cenv start Demo.pyprogram).2.mem.files :=
  C79_file Demo.cenv Demo.pyprogram 0 0 (by decide +kernel)

-- no step of the sample program has a reason to abort
example : (run Demo.cenv start Demo.pyprogram).1.length = Demo.pyprogram.length :=
  (C79_completes Demo.cenv Demo.pyprogram (fun k c hc hr => by
    have hl : k < (run Demo.cenv start Demo.pyprogram).1.length := by
      have h1 : k < Demo.pyprogram.length := (List.getElem?_eq_some_iff.1 hc).1
      have h2 : (run Demo.cenv start Demo.pyprogram).1.length = Demo.pyprogram.length := by decide +kernel
      omega
    have ho := List.getElem?_eq_getElem hl
    have := (C79_aborts Demo.cenv Demo.pyprogram k c _ hc ho).2 hr
    have hno : PyOutcome.abort ∉ (run Demo.cenv start Demo.pyprogram).1 := by decide +kernel
    exact hno (this ▸ List.getElem_mem hl))).1

/-- The number of a type counts modulo 256, and a string counts up to the first zero byte. -/
example : (run Demo.cenv start [.newSchema (str "d1" ++ [0, 65]) (str "s1") 257 4 0, .newWriter (str "a") 0, .writeInt 0 (str "d1") (str "s1") 1 1]).1
    = [.ok 0, .ok 0, .ok 0] := by decide +kernel

/-- The hypotheses of `C80_small_partial` in the sample program, at its tenth step. -/
example : ∃ writer, RustWriter Demo.cenv.env [(beforeNul (str "d1"), [(beforeNul (str "s1"), ⟨.INT32, .TS2DIFF, .UNCOMPRESSED⟩)])]
      (pyWrites 0 ((Demo.pyprogram.zip (run Demo.cenv start Demo.pyprogram).1).take 9)) writer
    ∧ MadeSchema ((Demo.pyprogram.zip (run Demo.cenv start Demo.pyprogram).1).take 9) 0 (str "d1") (str "s1") ⟨.INT32, .TS2DIFF, .UNCOMPRESSED⟩
    ∧ (.newWriter (str "a.tsfile") 0, .ok 0) ∈ (Demo.pyprogram.zip (run Demo.cenv start Demo.pyprogram).1).take 9
    ∧ (.close 0, .ok 0) ∉ (Demo.pyprogram.zip (run Demo.cenv start Demo.pyprogram).1).take 9
    ∧ (.delWriter 0, .ok 0) ∉ (Demo.pyprogram.zip (run Demo.cenv start Demo.pyprogram).1).take 9 := by
  have hw : ∃ w0, Writer.new Demo.cenv.env [(beforeNul (str "d1"), [(beforeNul (str "s1"), ⟨.INT32, .TS2DIFF, .UNCOMPRESSED⟩)])]
      { bytes := [], cap := none } = .ok w0 := ⟨_, rfl⟩
  obtain ⟨w0, hw⟩ := hw
  exact ⟨_, ⟨w0, hw, rfl⟩, ⟨1, 4, 0, by decide +kernel⟩, by decide +kernel⟩

end TsFile
