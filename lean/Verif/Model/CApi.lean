import Verif.Model.Writer
import Verif.Model.SchemaBuilder
/-! # `tsfile-writer-c/src/lib.rs`

Memory is modelled as three tables: the C strings of the caller, the schemas and the writers that were handed out. Addresses are
numbers, 0 is the null pointer. New addresses are taken from a counter, so an address is not used again after it was freed.
A `&str` that the Rust code keeps is the address of the caller's string. -/

namespace TsFile.CApi

/-- An address. -/
abbrev Addr := Nat

/-- A boxed `Schema`, made by `schema_simple`: it keeps the two strings by address, `tsfile-writer-c/src/lib.rs:42-46`. -/
structure SchemaBox where
  device : Addr
  measurement : Addr
  dataType : TSDataType
  encoding : TSEncoding
  compression : CompressionType
  deriving DecidableEq, Repr

/-- A boxed `TsFileWriter` (on an output without limit), the name of its file, and the strings that it keeps by address. After an
automatic flush the keys of the old `last_time_map` are still kept (`writer/tsfile_writer.rs:220-221`), but no longer read; the model
counts them as read. -/
structure WriterBox where
  filename : Bytes
  writer : Writer
  borrowed : List Addr
  deriving DecidableEq, Repr

/-- The memory, and the files whose writers were closed. -/
structure State where
  strings : List (Addr × Bytes)
  schemas : List (Addr × SchemaBox)
  writers : List (Addr × WriterBox)
  files : List (Bytes × Bytes)
  next : Addr
  deriving DecidableEq, Repr

/-- Surroundings: the writer's environment, what is UTF-8, and which files can be created. -/
structure CEnv where
  env : Env
  utf8 : Bytes → Bool
  canCreate : Bytes → Bool

/-- How a call ends: it returns a pointer (0 if it returns nothing), the process is aborted (a panic in an `extern "C"`
function), or the behaviour is undefined. -/
inductive Outcome
  | ok (p : Addr)
  | abort
  | ub
  deriving DecidableEq, Repr

/-- Looking up an address. -/
def find {α : Type} (p : Addr) : List (Addr × α) → Option α
  | [] => none
  | e :: l => if e.1 = p then some e.2 else find p l

/-- Releasing an address. -/
def release {α : Type} (p : Addr) (l : List (Addr × α)) : List (Addr × α) := l.filter (fun e => e.1 ≠ p)

/-- The arguments of type `*const c_char`, e.g. `tsfile-writer-c/src/lib.rs:21-31`: null is a failed assertion, a string that
is not there is undefined behaviour. -/
def cstr (st : State) (p : Addr) : Except Outcome Bytes :=
  if p = 0 then .error .abort
  else
    match find p st.strings with
    | none => .error .ub
    | some s => .ok s

/-- `schema_simple`, `tsfile-writer-c/src/lib.rs:14-47`. -/
def schemaSimple (ce : CEnv) (st : State) (device measurement : Addr) (dataType encoding compression : UInt8) :
    Outcome × State :=
  match cstr st device with
  | .error e => (e, st)
  | .ok d =>
    match cstr st measurement with
    | .error e => (e, st)
    | .ok m =>
      if ce.utf8 d && ce.utf8 m then
        match TSDataType.tryFrom dataType, TSEncoding.tryFrom encoding, CompressionType.tryFrom compression with
        | some dt, some e, some c =>
          (.ok st.next, { st with schemas := (st.next, ⟨device, measurement, dt, e, c⟩) :: st.schemas, next := st.next + 1 })
        | _, _, _ => (.abort, st)
      else (.abort, st)

/-- `schema_free`, `tsfile-writer-c/src/lib.rs:53-57`. -/
def schemaFree (st : State) (schema : Addr) : Outcome × State :=
  if schema = 0 then (.ok 0, st)
  else
    match find schema st.schemas with
    | none => (.ub, st)
    | some _ => (.ok 0, { st with schemas := release schema st.schemas })

/-- `file_writer_new`, `tsfile-writer-c/src/lib.rs:63-86`, with `TsFileWriter::new`, `writer/tsfile_writer.rs:278-295`. The strings
of the schema are used when the writer is built; the writer keeps them. -/
def fileWriterNew (ce : CEnv) (st : State) (filename schema : Addr) : Outcome × State :=
  match cstr st filename with
  | .error e => (e, st)
  | .ok f =>
    match find schema st.schemas with
    | none => (.ub, st)
    | some s =>
      match find s.device st.strings, find s.measurement st.strings with
      | some d, some m =>
        if ce.utf8 f && ce.canCreate f then
          match Writer.new ce.env (Schema.simple d m s.dataType s.encoding s.compression) { bytes := [], cap := none } with
          | .error _ => (.abort, st)
          | .ok w => (.ok st.next,
              { st with writers := (st.next, ⟨f, w, [s.device, s.measurement]⟩) :: st.writers, next := st.next + 1 })
        else (.abort, st)
      | _, _ => (.ub, st)

/-- Whether `write` keeps the caller's measurement string: it becomes a key of `last_time_map` if there was none,
`writer/group_writer.rs:111-113`. -/
def keepsMeasurement (w : Writer) (device measurement : Bytes) : Bool :=
  match w.groupWriters.get? device with
  | none => false
  | some g => (g.lastTimeMap.get? measurement).isNone

/-- `file_writer_write_int32`, `tsfile-writer-c/src/lib.rs:92-125`. The writer compares its keys with the given strings: all
strings that it keeps must be there. Any error of `write` is a panic. -/
def fileWriterWriteInt32 (ce : CEnv) (st : State) (writer device measurement : Addr) (timestamp : W64) (number : W32) :
    Outcome × State :=
  if writer = 0 then (.abort, st)
  else
    match cstr st device with
    | .error e => (e, st)
    | .ok d =>
      match cstr st measurement with
      | .error e => (e, st)
      | .ok m =>
        match find writer st.writers with
        | none => (.ub, st)
        | some b =>
          if ce.utf8 d && ce.utf8 m then
            if b.borrowed.all (fun p => (find p st.strings).isSome) then
              match b.writer.write ce.env d m timestamp (.INT number) with
              | (w, .ok ()) =>
                let kept := if keepsMeasurement b.writer d m then b.borrowed ++ [measurement] else b.borrowed
                (.ok writer, { st with writers := [(writer, ⟨b.filename, w, kept⟩)] ++ release writer st.writers })
              | _ => (.abort, st)
            else (.ub, st)
          else (.abort, st)

/-- `file_writer_close`, `tsfile-writer-c/src/lib.rs:131-136`. Closing writes the names that the writer keeps. -/
def fileWriterClose (ce : CEnv) (st : State) (writer : Addr) : Outcome × State :=
  if writer = 0 then (.ok 0, st)
  else
    match find writer st.writers with
    | none => (.ub, st)
    | some b =>
      if b.borrowed.all (fun p => (find p st.strings).isSome) then
        match b.writer.close ce.env with
        | none => (.abort, st)
        | some w => (.ok 0, { st with writers := release writer st.writers, files := (b.filename, w.io.out.bytes) :: st.files })
      else (.ub, st)

/-- What a C program does: it makes strings, frees strings, and calls the library. -/
inductive CCall
  | newString (s : Bytes)
  | freeString (p : Addr)
  | schemaSimple (device measurement : Addr) (dataType encoding compression : UInt8)
  | schemaFree (schema : Addr)
  | fileWriterNew (filename schema : Addr)
  | fileWriterWriteInt32 (writer device measurement : Addr) (timestamp : W64) (number : W32)
  | fileWriterClose (writer : Addr)
  deriving DecidableEq, Repr

/-- One step of a C program. Making and freeing strings is `malloc` and `free` of the caller. -/
def step (ce : CEnv) (st : State) : CCall → Outcome × State
  | .newString s => (.ok st.next, { st with strings := (st.next, s) :: st.strings, next := st.next + 1 })
  | .freeString p =>
    match find p st.strings with
    | none => (.ub, st)
    | some _ => (.ok 0, { st with strings := release p st.strings })
  | .schemaSimple d m dt e c => schemaSimple ce st d m dt e c
  | .schemaFree s => schemaFree st s
  | .fileWriterNew f s => fileWriterNew ce st f s
  | .fileWriterWriteInt32 w d m t v => fileWriterWriteInt32 ce st w d m t v
  | .fileWriterClose w => fileWriterClose ce st w

/-- The start: nothing is there. -/
def start : State := { strings := [], schemas := [], writers := [], files := [], next := 1 }

/-- A C program, until it aborts or its behaviour is undefined: the outcomes and the last state. -/
def run (ce : CEnv) : State → List CCall → List Outcome × State
  | st, [] => ([], st)
  | st, c :: cs =>
    match step ce st c with
    | (.ok p, st') => ((.ok p) :: (run ce st' cs).1, (run ce st' cs).2)
    | (o, st') => ([o], st')

end TsFile.CApi
