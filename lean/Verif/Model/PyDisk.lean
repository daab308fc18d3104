import Verif.Model.Python
import Verif.Model.Several
/-! # What a Python program does to the file system

As `Model/CDisk.lean`, for the classes of `rust.py`. The number of a writer is the number of its object. -/

namespace TsFile.Py
open CApi (CEnv)
open Several (Event)

/-- What the library has written so far for a writer object that is open. -/
def outOf (p : PyState) (k : Nat) : Bytes :=
  match p.writers[k]? with
  | some ⟨_, some a, _⟩ =>
    match CApi.find a p.mem.writers with
    | some b => b.writer.io.out.bytes
    | none => []
  | _ => []

/-- What a step does to the file system. `place` says where a name leads to. `TsFileWriter.__init__`, `rust.py:61`, creates the file and
writes the head; `write_int`, `rust.py:70-75`, and `close`, `rust.py:77-86`, write what is new in the output. Other steps, and steps that
raise an exception, do not touch the file system. -/
def stepEvents (place : Bytes → Loc) (p : PyState) (c : PyOp) (o : PyOutcome) (p' : PyState) : List Event :=
  match c, o with
  | .newWriter f _, .ok k => [.create k (place (cText f)), .write k (outOf p' k)]
  | .writeInt k _ _ _ _, .ok _ => [.write k ((outOf p' k).drop (outOf p k).length)]
  | .close k, .ok _ =>
    match p'.mem.files with
    | f :: _ => [.write k (f.2.drop (outOf p k).length)]
    | [] => []
  | _, _ => []

/-- What a Python program does to the file system, until the process ends. -/
def diskEvents (place : Bytes → Loc) (ce : CEnv) : PyState → List PyOp → List Event
  | _, [] => []
  | p, c :: cs =>
    match step ce p c with
    | (.abort, _) => []
    | (.ub, _) => []
    | (o, p') => stepEvents place p c o p' ++ diskEvents place ce p' cs

end TsFile.Py
