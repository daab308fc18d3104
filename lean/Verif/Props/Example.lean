import Verif.Model.Session
import Verif.Model.EnvStd
import Verif.Proofs.Main
/-! # A concrete session, used to show that the hypotheses of the theorems can be met -/

namespace TsFile.Demo
open Spec

/-- Two devices with three series; one series is never written. -/
def schema : Schema :=
  [(str "root.sg.d2", [(str "s1", ⟨.INT64, .TS2DIFF, .SNAPPY⟩), (str "s2", ⟨.FLOAT, .PLAIN, .UNCOMPRESSED⟩)]),
   (str "root.sg.d1", [(str "s1", ⟨.INT32, .TS2DIFF, .UNCOMPRESSED⟩), (str "unused", ⟨.INT64, .PLAIN, .SNAPPY⟩)])]

/-- Accepted and rejected calls. -/
def ops : List Op :=
  [.write (str "root.sg.d1") (str "s1") 10 (.INT 7),
   .write (str "root.sg.d2") (str "s1") 5 (.LONG (-3)),
   .write (str "root.sg.d1") (str "s1") 10 (.INT 8),
   .writeMany (str "root.sg.d2") 6 [(str "s1", .LONG 9000000000), (str "s2", .FLOAT 0x40490fdb)],
   .write (str "root.sg.d3") (str "s1") 1 (.INT 1),
   .write (str "root.sg.d1") (str "s1") 12 (.INT (-1)),
   .write (str "root.sg.d1") (str "s9") 12 (.INT (-1))]

/-- Standard environment with a trivial compressor. -/
def env : Env := Env.std some

/-- The session, if it does not panic. -/
def result : Session := (session env schema ops).getD ⟨[], [], 0, []⟩

theorem session_eq : session env schema ops = some result := by
  have : (session env schema ops).isSome = true := by decide +kernel
  rw [result]
  cases h : session env schema ops with
  | none => rw [h] at this; simp at this
  | some s => rfl

theorem within : result.Within ops :=
  ⟨by decide +kernel, by decide +kernel, by decide +kernel, by decide +kernel⟩

theorem envOk : EnvOk env some :=
  ⟨fun x hx => ⟨x, rfl, rfl, by omega⟩, fun l => List.Perm.refl l⟩

theorem indexable : schema.Indexable :=
  ⟨⟨⟨by decide +kernel, by decide +kernel⟩, by decide +kernel, by decide +kernel⟩, by decide +kernel, by decide +kernel⟩

/-- No `write_many` of the session fails. -/
theorem manyOk : ∀ d t vs r, (Op.writeMany d t vs, r) ∈ ops.zip result.results → r = .ok () := by
  have : ∀ p ∈ ops.zip result.results, (match p.1 with | .writeMany .. => decide (p.2 = .ok ()) | _ => true) = true := by
    decide +kernel
  intro d t vs r h
  exact of_decide_eq_true (this _ h)

/-! ## A second, smaller session -/

def schema2 : Schema := [(str "root.sg.d1", [(str "s1", ⟨.INT32, .PLAIN, .SNAPPY⟩)])]

def ops2 : List Op :=
  [.write (str "root.sg.d1") (str "s1") 10 (.INT 7), .writeMany (str "root.sg.d1") 12 [(str "s1", .INT (-1))]]

def result2 : Session := (session env schema2 ops2).getD ⟨[], [], 0, []⟩

theorem session_eq2 : session env schema2 ops2 = some result2 := by
  have : (session env schema2 ops2).isSome = true := by decide +kernel
  rw [result2]
  cases h : session env schema2 ops2 with
  | none => rw [h] at this; simp at this
  | some s => rfl

theorem within2 : result2.Within ops2 :=
  ⟨by decide +kernel, by decide +kernel, by decide +kernel, by decide +kernel⟩

theorem indexable2 : schema2.Indexable :=
  ⟨⟨⟨by decide +kernel, by decide +kernel⟩, by decide +kernel, by decide +kernel⟩, by decide +kernel, by decide +kernel⟩

theorem manyOk2 : ∀ d t vs r, (Op.writeMany d t vs, r) ∈ ops2.zip result2.results → r = .ok () := by
  have : ∀ p ∈ ops2.zip result2.results, (match p.1 with | .writeMany .. => decide (p.2 = .ok ()) | _ => true) = true := by
    decide +kernel
  intro d t vs r h
  exact of_decide_eq_true (this _ h)

/-! ## A measurement with a dot in its name -/

def dotSchema : Schema := [(str "root.d", [(str "a.b", ⟨.INT32, .PLAIN, .UNCOMPRESSED⟩)])]

def dotOps : List Op := [.write (str "root.d") (str "a.b") 1 (.INT 1)]

def dotResult : Session := (session env dotSchema dotOps).getD ⟨[], [], 0, []⟩

theorem dotSession_eq : session env dotSchema dotOps = some dotResult := by
  have : (session env dotSchema dotOps).isSome = true := by decide +kernel
  rw [dotResult]
  cases h : session env dotSchema dotOps with
  | none => rw [h] at this; simp at this
  | some s => rfl

theorem dotWithin : dotResult.Within dotOps :=
  ⟨by decide +kernel, by decide +kernel, by decide +kernel, by decide +kernel⟩

theorem dotNamed : dotSchema.Named :=
  ⟨⟨by decide +kernel, by decide +kernel⟩, by decide +kernel, by decide +kernel⟩

end TsFile.Demo
