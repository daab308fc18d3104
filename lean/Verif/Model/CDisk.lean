import Verif.Model.CApi
import Verif.Model.Several
/-! # What a C program does to the file system

`Model/CApi.lean` keeps the output of every writer by itself. Here the calls are seen as system calls on one file system
(`Model/Several.lean`). The number of a writer is its address. The output of one call is one system call: that it may be cut does
not matter (C94). Calls that abort the process are left out. -/

namespace TsFile.CApi
open Several (Event)

/-- What a call that returned `r` did to the file system. `place` says where a name leads to. `file_writer_new` creates the file and
writes the head, `tsfile-writer-c/src/lib.rs:79-83`; `file_writer_write_int32` and `file_writer_close` write what is new in the output,
`tsfile-writer-c/src/lib.rs:113-124`, `131-136`. -/
def callEvents (place : Bytes → Loc) (st : State) (c : CCall) (r : Addr) (st' : State) : List Event :=
  match c with
  | .fileWriterNew _ _ =>
    match find r st'.writers with
    | some b => [.create r (place b.filename), .write r b.writer.io.out.bytes]
    | none => []
  | .fileWriterWriteInt32 w _ _ _ _ =>
    match find w st.writers, find w st'.writers with
    | some b, some b' => [.write w (b'.writer.io.out.bytes.drop b.writer.io.out.bytes.length)]
    | _, _ => []
  | .fileWriterClose w =>
    match find w st.writers, st'.files with
    | some b, f :: _ => [.write w (f.2.drop b.writer.io.out.bytes.length)]
    | _, _ => []
  | _ => []

/-- What a C program does to the file system. -/
def diskEvents (place : Bytes → Loc) (ce : CEnv) : State → List CCall → List Event
  | _, [] => []
  | st, c :: cs =>
    match step ce st c with
    | (.ok r, st') => callEvents place st c r st' ++ diskEvents place ce st' cs
    | _ => []

end TsFile.CApi
