import Verif.Props.Crash
import Verif.Proofs.Unfinished
/-! # C93: a file that was not finished is not taken for a finished one

`left` is what is on the disk: a beginning of the file, cut at any byte. A reader through the index looks at the end of the file
(`readFooter`), a reader from front to back goes on to the end marker (`scan`), see `Spec/Reader.lean`. -/

namespace TsFile
open Spec

variable {env : Env} {unsnap : Bytes → Option Bytes} {schema : Schema}

/-- **C93** (1). A reader from front to back is never deceived: of a file that was cut off it reports the end marker exactly if all
the data is there, and then it finds all the stored points. -/
theorem C93_scan (he : EnvOk env unsnap) (hsch : schema.Named) {ops : List Op} {s : Session} (hs : session env schema ops = some s)
    (hw : s.Within ops) {left : Bytes} (hl : left <+: s.file) :
    (∃ footer, readFooter s.file = some footer ∧ ((scan unsnap left).isSome ↔ footer.metaOffset < left.length))
    ∧ ∀ items stop, scan unsnap left = some (items, stop) →
        ∀ d m, scanPoints d m none items = series (storedBy schema ops s.grown) d m := by
  obtain ⟨items, footer, h1, h2, _, h3⟩ := C02_scan he hsch hs hw
  obtain ⟨t, ht⟩ := hl
  rw [← ht] at h2
  refine ⟨⟨footer, h1, fun h => ?_, fun h => ?_⟩, fun items' stop h => ?_⟩
  · obtain ⟨⟨items', stop⟩, h⟩ := Option.isSome_iff_exists.1 h
    obtain ⟨h4, h5⟩ := scan_extend h t
    rw [h2] at h4
    simp only [Option.some.injEq, Prod.mk.injEq] at h4
    rw [h4.2]
    exact h5
  · rw [scan_shrink h2 h]
    rfl
  · obtain ⟨h4, _⟩ := scan_extend h t
    rw [h2] at h4
    simp only [Option.some.injEq, Prod.mk.injEq] at h4
    rw [← h4.1]
    exact h3

/-- **C93** (2). As long as the writer is not closed, a reader from front to back does not take its output for a finished file,
however many blocks were flushed. -/
theorem C93_open (hsn : SnappyOk env unsnap) (hsch : schema.Named) {ops : List Op} {w0 w : Writer} (h : Reached env schema ops w0 w)
    (hcalls : ∀ n ∈ w0.grown env ops, n < 2 ^ 32) {left : Bytes} (hl : left <+: w.io.out.bytes) : scan unsnap left = none := by
  obtain ⟨items, h1, _⟩ := C50_recoverable hsn hsch h hcalls
  obtain ⟨t, ht⟩ := hl
  rw [← ht] at h1
  cases hc : scan unsnap left with
  | none => rfl
  | some r =>
    obtain ⟨h2, h3⟩ := scan_extend (items := r.1) (stop := r.2) hc (t ++ [2])
    rw [← List.append_assoc, h1] at h2
    simp only [Option.some.injEq, Prod.mk.injEq, List.length_append] at h2
    omega

/-- **C93** (3), what holds for a reader through the index: if the six letters that end a file are nowhere else in it than at its
beginning and at its end, then a file that was cut off is refused. Missing: files with these letters in a name, a timestamp or a
value, see `C93_footer_wrong`. -/
theorem C93_footer_partial {ops : List Op} {s : Session} (_ : session env schema ops = some s)
    (honly : ∀ i, (s.file.drop i).take 6 = tailMagic → i = 0 ∨ i + 6 = s.file.length) {left : Bytes} (hl : left <+: s.file)
    (hcut : left ≠ s.file) : readFooter left = none ∧ ∀ d m, readSeries unsnap left d m = none := by
  have key : readFooter left = none := by
    rw [readFooter]
    by_cases h : left.take 7 = head ∧ left.drop (left.length - 6) = tailMagic
    · exfalso
      have h7 := congrArg List.length h.1
      rw [head_length, List.length_take] at h7
      obtain ⟨t, ht⟩ := hl
      have hm : (s.file.drop (left.length - 6)).take 6 = tailMagic := by
        rw [← ht, List.drop_append_of_le_length (by omega), h.2]
        rfl
      have hlen := congrArg List.length ht
      rw [List.length_append] at hlen
      rcases honly _ hm with h0 | h0
      · omega
      · apply hcut
        rw [← ht, List.eq_nil_of_length_eq_zero (l := t) (by omega), List.append_nil]
    · simp only [if_neg h]
  refine ⟨key, fun d m => ?_⟩
  rw [readSeries, readSeriesMeta, key]
  rfl

namespace Demo

/-- A series of INT64 values, without encoding and compression. -/
def trapSchema : Schema := [(str "root.d", [(str "s", ⟨.INT64, .PLAIN, .UNCOMPRESSED⟩)])]

/-- Five points. The bytes of the first four values are the end of a file with an empty index. -/
def trapOps : List Op :=
  [.write (str "root.d") (str "s") 1 (.LONG 0), .write (str "root.d") (str "s") 2 (.LONG 0x0000010000000000),
   .write (str "root.d") (str "s") 3 (.LONG 0), .write (str "root.d") (str "s") 4 (.LONG 0x0015547346696c65),
   .write (str "root.d") (str "s") 5 (.LONG 7)]

def trapResult : Session := (session Demo.env trapSchema trapOps).getD ⟨[], [], 0, []⟩

theorem trap_eq : session Demo.env trapSchema trapOps = some trapResult := by
  have : (session Demo.env trapSchema trapOps).isSome = true := by decide +kernel
  rw [trapResult]
  cases h : session Demo.env trapSchema trapOps with
  | none => rw [h] at this; simp at this
  | some s => rfl

theorem trapNamed : trapSchema.Named := ⟨⟨by decide +kernel, by decide +kernel⟩, by decide +kernel, by decide +kernel⟩

theorem trapWithin : trapResult.Within trapOps := ⟨by decide +kernel, by decide +kernel, by decide +kernel, by decide +kernel⟩

end Demo

/-- **C93** is violated for a reader through the index: there is a session whose calls all return `Ok`, and a place in its file such
that the file cut off at this place passes for a finished one. The reader reports no error, and no points. The uncut file has the five
points of the session. -/
theorem C93_footer_wrong : ∃ (schema : Schema) (ops : List Op) (s : Session) (left : Bytes),
    session Demo.env schema ops = some s ∧ s.Within ops ∧ s.results = List.replicate 5 (.ok ())
    ∧ left <+: s.file ∧ left ≠ s.file
    ∧ (readFooter left).isSome = true ∧ readSeries some left (str "root.d") (str "s") = some []
    ∧ (readSeries some s.file (str "root.d") (str "s")).map List.length = some 5 :=
  ⟨Demo.trapSchema, Demo.trapOps, Demo.trapResult, Demo.trapResult.file.take 81, Demo.trap_eq, Demo.trapWithin, by decide +kernel,
    List.take_prefix _ _, by decide +kernel, by decide +kernel, by decide +kernel, by decide +kernel⟩

/-! ## Cases -/

-- the reader from front to back is not deceived by this file
example : scan some (Demo.trapResult.file.take 81) = none := by
  obtain ⟨⟨footer, h1, h2⟩, _⟩ := C93_scan Demo.envOk Demo.trapNamed Demo.trap_eq Demo.trapWithin (List.take_prefix 81 _)
  have h3 : (readFooter Demo.trapResult.file).any (fun f => decide (81 < f.metaOffset)) = true := by decide +kernel
  rw [h1] at h3
  have h3 := of_decide_eq_true h3
  cases h : scan some (Demo.trapResult.file.take 81) with
  | none => rfl
  | some r =>
    have := h2.1 (by rw [h]; rfl)
    rw [List.length_take] at this
    omega

-- the demo: cut off in the index, all points are found
example : ∃ items stop, scan some (Demo.result.file.take 200) = some (items, stop)
    ∧ scanPoints (str "root.sg.d1") (str "s1") none items = [(10, .INT 7), (12, .INT (-1))] := by
  have hsome : (scan some (Demo.result.file.take 200)).isSome = true := by decide +kernel
  cases h : scan some (Demo.result.file.take 200) with
  | none => rw [h] at hsome; cases hsome
  | some r =>
    refine ⟨r.1, r.2, rfl, ?_⟩
    rw [(C93_scan Demo.envOk Demo.indexable.toNamed Demo.session_eq Demo.within (List.take_prefix 200 _)).2 r.1 r.2 h]
    decide +kernel

-- the demo before it is closed
example (k : Nat) : scan some ((Demo.w0.run Demo.env Demo.ops).1.io.out.bytes.take k) = none :=
  C93_open Demo.envOk.snappy Demo.indexable.toNamed Demo.reached (by decide +kernel) (List.take_prefix k _)

-- the letters are nowhere else in the file of the demo, so every cut is noticed
theorem Demo.letters : ∀ i, (Demo.result.file.drop i).take 6 = tailMagic → i = 0 ∨ i + 6 = Demo.result.file.length := by
  have h : ∀ i < Demo.result.file.length, (Demo.result.file.drop i).take 6 = tailMagic → i = 0 ∨ i + 6 = Demo.result.file.length := by
    decide +kernel
  intro i hi
  by_cases hl : i < Demo.result.file.length
  · exact h i hl hi
  · rw [List.drop_eq_nil_of_le (by omega)] at hi
    cases hi

example (k : Nat) (hk : k < Demo.result.file.length) : readFooter (Demo.result.file.take k) = none :=
  (C93_footer_partial (unsnap := some) Demo.session_eq Demo.letters (List.take_prefix k _) (fun h => by
    have := congrArg List.length h
    rw [List.length_take] at this
    omega)).1

end TsFile
