import Verif.Model.Writer
import Verif.Spec.Machine
/-! # Using the writer: histories of calls

No code of the crate is modelled here; these definitions only call the model of `TsFileWriter`
(`writer/tsfile_writer.rs:122-168,299-347`). -/

namespace TsFile
open Spec

/-- A call of the user: `write` or `write_many`. -/
def Writer.step (env : Env) (w : Writer) : Op → Writer × Res Unit
  | .write d m t v => w.write env d m t v
  | .writeMany d t vs => w.writeMany env d t vs

/-- A history of calls: the last state and the results. -/
def Writer.run (env : Env) (w : Writer) : List Op → Writer × List (Res Unit)
  | [] => (w, [])
  | op :: ops =>
    let r := w.step env op
    let rs := Writer.run env r.1 ops
    (rs.1, r.2 :: rs.2)

/-- For each call of a history: the number of bytes it added to the output. -/
def Writer.grown (env : Env) (w : Writer) : List Op → List Nat
  | [] => []
  | op :: ops =>
    ((w.step env op).1.io.out.bytes.length - w.io.out.bytes.length) :: Writer.grown env (w.step env op).1 ops

/-- What the user sees of a whole session. -/
structure Session where
  /-- the results of the calls -/
  results : List (Res Unit)
  /-- the number of bytes that each call added to the output -/
  grown : List Nat
  /-- the number of bytes that `close` added -/
  closing : Nat
  /-- the final content of the output -/
  file : Bytes
  deriving DecidableEq, Repr

/-- A whole session on an output without limit: open a writer, make the calls, close it. `none`: the
program panics somewhere. -/
def session (env : Env) (schema : Schema) (ops : List Op) : Option Session :=
  match Writer.new env schema { bytes := [], cap := none } with
  | .error _ => none
  | .ok w =>
    if .panic ∈ (w.run env ops).2 then none
    else
      match (w.run env ops).1.close env with
      | none => none
      | some w' => some
        { results := (w.run env ops).2
          grown := w.grown env ops
          closing := w'.io.out.bytes.length - (w.run env ops).1.io.out.bytes.length
          file := w'.io.out.bytes }

/-- The session stays within the limits of the 32 bit fields of the format: at no time 2^32 points wait to be
written, no call makes the file grow by 4 GB or more. The file as a whole may be larger. -/
structure Session.Within (s : Session) (ops : List Op) : Prop where
  bursts : burstsBelow (2 ^ 32) 0 (ops.zip (s.grown.map (fun n => decide (0 < n))))
  calls : ∀ n ∈ s.grown, n < 2 ^ 32
  closing : s.closing < 2 ^ 32
  file : s.file.length < 2 ^ 64

end TsFile
