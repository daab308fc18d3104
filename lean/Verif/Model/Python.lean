import Verif.Model.CApi
/-! # `tsfile-writer-c/rust.py`: the Python classes over the C interface

The classes `VariableHolder`, `Schema` and `TsFileWriter`, which call the library through the crate's C interface with `cffi`. What
`cffi` and CPython do is modelled as follows. A Python string is its UTF-8 encoding (a string that has none raises an exception
before anything happens, and is left out). A `bytes` object is passed by its address; the library sees it up to the first zero byte.
An `int` that does not fit into 32 bits raises `OverflowError`; `None` for a pointer raises `TypeError`. A 32 bit number that is
passed for a parameter of another width is extended with its sign or cut (`libffi` on x86-64 and AArch64). An object is reclaimed as
soon as nothing refers to it. Equal `bytes` objects of different holders are different objects. -/

namespace TsFile.Py
open CApi (Addr CEnv State Outcome)

/-- A Python integer for a C `int`, `rust.py:13,17`; `none` is `OverflowError`. -/
def cInt (x : Int) : Option W32 := if -2147483648 ≤ x ∧ x < 2147483648 then some (BitVec.ofInt 32 x) else none

/-- A C `int` for a parameter of type `u8`, `rust.py:13` and `lib.rs:17-19`. -/
def low (x : W32) : UInt8 := UInt8.ofNat x.toNat

/-- What the library sees of a `bytes` object. -/
def cText (s : Bytes) : Bytes := s.takeWhile (fun c => c != 0)

/-- `VariableHolder`, `rust.py:24-26`: strings with their `bytes` objects. -/
abbrev Holder := List (Bytes × Addr)

/-- `self.refs[s]`, `rust.py:29-31`. -/
def lookup (s : Bytes) : Holder → Option Addr
  | [] => none
  | e :: h => if e.1 = s then some e.2 else lookup s h

/-- `VariableHolder.get`, `rust.py:28-31`: memory, holder and address. -/
def get (ce : CEnv) (mem : State) (h : Holder) (s : Bytes) : State × Holder × Addr :=
  match lookup s h with
  | some a => (mem, h, a)
  | none =>
    match CApi.step ce mem (.newString (cText s)) with
    | (.ok a, mem) => (mem, (s, a) :: h, a)
    | (_, mem) => (mem, h, 0)

/-- An object of class `Schema`, `rust.py:34-38`; `held`: the program refers to it. -/
structure SchemaObj where
  holder : Holder
  inst : Option Addr
  held : Bool
  deriving DecidableEq, Repr

/-- An object of class `TsFileWriter`, `rust.py:58-61`; `schema` is the number of the schema object. -/
structure WriterObj where
  schema : Nat
  inst : Option Addr
  held : Bool
  deriving DecidableEq, Repr

/-- The memory of the library, and the objects in the order in which they were made. -/
structure PyState where
  mem : State
  schemas : List SchemaObj
  writers : List WriterObj
  deriving DecidableEq, Repr

/-- What a Python program does with the classes. The `with` statement is a constructor, the body, and `freeSchema` or `close`
(`rust.py:40-44`, `63-67`). `delSchema` and `delWriter`: the last variable that refers to the object goes away. -/
inductive PyOp
  | newSchema (device measurement : Bytes) (dataType encoding compression : Int)
  | freeSchema (i : Nat)
  | newWriter (filename : Bytes) (schema : Nat)
  | writeInt (w : Nat) (device measurement : Bytes) (timestamp value : Int)
  | close (w : Nat)
  | delSchema (i : Nat)
  | delWriter (w : Nat)
  deriving DecidableEq, Repr

/-- How a step ends: normally (with the number of a new object, otherwise 0), with an exception, with the end of the process, or its
behaviour is undefined. -/
inductive PyOutcome
  | ok (n : Nat)
  | raises
  | abort
  | ub
  deriving DecidableEq, Repr

/-- Going on after a call of the library. -/
def after (p : PyState) (r : Outcome × State) (k : Addr → PyState → PyOutcome × PyState) : PyOutcome × PyState :=
  match r with
  | (.ok a, mem) => k a { p with mem := mem }
  | (.abort, mem) => (.abort, { p with mem := mem })
  | (.ub, mem) => (.ub, { p with mem := mem })

/-- `Schema.__init__`, `rust.py:35-38`. If a number does not fit, the `bytes` objects made before are reclaimed at once; they are
left out. -/
def newSchema (ce : CEnv) (p : PyState) (device measurement : Bytes) (dataType encoding compression : Int) : PyOutcome × PyState :=
  match cInt dataType, cInt encoding, cInt compression with
  | some x, some y, some z =>
    let d := get ce p.mem [] device
    let m := get ce d.1 d.2.1 measurement
    after p (CApi.step ce m.1 (.schemaSimple d.2.2 m.2.2 (low x) (low y) (low z))) fun a p =>
      (.ok p.schemas.length, { p with schemas := p.schemas ++ [⟨m.2.1, some a, true⟩] })
  | _, _, _ => (.raises, p)

/-- `Schema.free`, `rust.py:46-55`. -/
def freeSchema (ce : CEnv) (p : PyState) (i : Nat) : PyOutcome × PyState :=
  match p.schemas[i]? with
  | none => (.raises, p)
  | some s =>
    if s.held then
      match s.inst with
      | none => (.raises, p)
      | some a =>
        after p (CApi.step ce p.mem (.schemaFree a)) fun _ p =>
          (.ok 0, { p with schemas := p.schemas.set i { s with inst := none } })
    else (.raises, p)

/-- `TsFileWriter.__init__`, `rust.py:59-61`. The `bytes` object of the file name is reclaimed after the call. -/
def newWriter (ce : CEnv) (p : PyState) (filename : Bytes) (schema : Nat) : PyOutcome × PyState :=
  match p.schemas[schema]? with
  | none => (.raises, p)
  | some s =>
    if s.held then
      match s.inst with
      | none => (.raises, p)
      | some a =>
        after p (CApi.step ce p.mem (.newString (cText filename))) fun f p =>
        after p (CApi.step ce p.mem (.fileWriterNew f a)) fun w p =>
        after p (CApi.step ce p.mem (.freeString f)) fun _ p =>
          (.ok p.writers.length, { p with writers := p.writers ++ [⟨schema, some w, true⟩] })
    else (.raises, p)

/-- `TsFileWriter.write_int`, `rust.py:69-75`. -/
def writeInt (ce : CEnv) (p : PyState) (w : Nat) (device measurement : Bytes) (timestamp value : Int) : PyOutcome × PyState :=
  match p.writers[w]? with
  | none => (.raises, p)
  | some o =>
    if o.held then
      match o.inst, p.schemas[o.schema]? with
      | some a, some s =>
        let d := get ce p.mem s.holder device
        let m := get ce d.1 d.2.1 measurement
        let p := { p with mem := m.1, schemas := p.schemas.set o.schema { s with holder := m.2.1 } }
        match cInt timestamp, cInt value with
        | some t, some v =>
          after p (CApi.step ce p.mem (.fileWriterWriteInt32 a d.2.2 m.2.2 (t.signExtend 64) v)) fun _ p => (.ok 0, p)
        | _, _ => (.raises, p)
      | _, _ => (.raises, p)
    else (.raises, p)

/-- `TsFileWriter.close`, `rust.py:77-86`. -/
def close (ce : CEnv) (p : PyState) (w : Nat) : PyOutcome × PyState :=
  match p.writers[w]? with
  | none => (.raises, p)
  | some o =>
    if o.held then
      match o.inst with
      | none => (.raises, p)
      | some a =>
        after p (CApi.step ce p.mem (.fileWriterClose a)) fun _ p =>
          (.ok 0, { p with writers := p.writers.set w { o with inst := none } })
    else (.raises, p)

/-- Whether something refers to a schema object: the program, or a writer object (`self.schema`, `rust.py:60`) that the program
refers to. -/
def PyState.live (p : PyState) (i : Nat) : Bool :=
  (match p.schemas[i]? with | some s => s.held | none => false) || p.writers.any (fun o => o.held && o.schema == i)

/-- A schema object is reclaimed if nothing refers to it, and with it the `bytes` objects of its holder. Neither class has a
`__del__`: the library is not called. -/
def reclaim (p : PyState) (i : Nat) : PyState :=
  if p.live i then p
  else
    match p.schemas[i]? with
    | none => p
    | some s =>
      { p with
        mem := { p.mem with strings := p.mem.strings.filter (fun e => !(s.holder.map Prod.snd).contains e.1) }
        schemas := p.schemas.set i { s with holder := [] } }

/-- The last variable that refers to a schema object goes away. -/
def delSchema (p : PyState) (i : Nat) : PyOutcome × PyState :=
  match p.schemas[i]? with
  | none => (.raises, p)
  | some s => if s.held then (.ok 0, reclaim { p with schemas := p.schemas.set i { s with held := false } } i) else (.raises, p)

/-- The last variable that refers to a writer object goes away. -/
def delWriter (p : PyState) (w : Nat) : PyOutcome × PyState :=
  match p.writers[w]? with
  | none => (.raises, p)
  | some o =>
    if o.held then (.ok 0, reclaim { p with writers := p.writers.set w { o with held := false } } o.schema) else (.raises, p)

/-- One step of a Python program; using an object that the program does not refer to is a `NameError`. -/
def step (ce : CEnv) (p : PyState) : PyOp → PyOutcome × PyState
  | .newSchema d m x y z => newSchema ce p d m x y z
  | .freeSchema i => freeSchema ce p i
  | .newWriter f i => newWriter ce p f i
  | .writeInt w d m t v => writeInt ce p w d m t v
  | .close w => close ce p w
  | .delSchema i => delSchema p i
  | .delWriter w => delWriter p w

/-- Nothing was done yet. -/
def start : PyState := { mem := CApi.start, schemas := [], writers := [] }

/-- A Python program (it may catch exceptions and go on), until the process ends or the behaviour is undefined. -/
def run (ce : CEnv) : PyState → List PyOp → List PyOutcome × PyState
  | p, [] => ([], p)
  | p, c :: cs =>
    match step ce p c with
    | (.abort, p') => ([.abort], p')
    | (.ub, p') => ([.ub], p')
    | (o, p') => (o :: (run ce p' cs).1, (run ce p' cs).2)

end TsFile.Py
