import Verif.Model.Index
/-! # The output: `WriteWrapper` (`writer/mod.rs:136-184`) over any `std::io::Write`

The rest of the model writes to a `Sink`. Here the inner writer is arbitrary: it may take only a part of what it is
offered (a short write) and it may fail. -/

namespace TsFile

/-- An `std::io::Error`: `ErrorKind::Interrupted`, `ErrorKind::WriteZero` or another one. -/
inductive IoErr
  | interrupted | writeZero | other
  deriving DecidableEq, Repr

/-- The method `write` of an inner writer with state `σ`: the new state, and the number of bytes it took or an error. -/
abbrev Device (σ : Type) := σ → Bytes → σ × Except IoErr Nat

/-- `WriteWrapper`, `writer/mod.rs:143-146`. -/
structure WriteWrapper (σ : Type) where
  position : W64
  writer : σ
  deriving DecidableEq, Repr

namespace WriteWrapper
variable {σ : Type}

/-- `new`, `writer/mod.rs:171-178`. -/
def new (writer : σ) : WriteWrapper σ := { position := 0, writer }

/-- `get_position`, `writer/mod.rs:165-169`. -/
def getPosition (w : WriteWrapper σ) : W64 := w.position

/-- `write`, `writer/mod.rs:148-158`; the addition wraps as in a release build. -/
def write (dev : Device σ) (w : WriteWrapper σ) (buf : Bytes) : WriteWrapper σ × Except IoErr Nat :=
  match dev w.writer buf with
  | (s, .ok size) => ({ position := w.position + BitVec.ofNat 64 size, writer := s }, .ok size)
  | (s, .error e) => ({ w with writer := s }, .error e)

/-- `flush`, `writer/mod.rs:160-162`; the writer of this crate drops its result. -/
def flush (f : σ → σ) (w : WriteWrapper σ) : WriteWrapper σ := { w with writer := f w.writer }

/-- `std::io::Write::write_all` (the provided method of the standard library): it repeats `write` with the rest of
the buffer, goes on after `Interrupted`, and fails with `WriteZero` if nothing was taken. It may run forever on a writer
that always reports `Interrupted`; `none` means that it is not finished after `fuel` calls of `write`. -/
def writeAll (dev : Device σ) : Nat → WriteWrapper σ → Bytes → Option (WriteWrapper σ × Except IoErr Unit)
  | fuel, w, buf =>
    if buf.isEmpty then some (w, .ok ()) else
    match fuel with
    | 0 => none
    | fuel + 1 =>
      match w.write dev buf with
      | (w, .ok 0) => some (w, .error .writeZero)
      | (w, .ok (n + 1)) => writeAll dev fuel w (buf.drop (n + 1))
      | (w, .error .interrupted) => writeAll dev fuel w buf
      | (w, .error e) => some (w, .error e)

/-- `Serializable for MetadataIndexEntry`, `writer/mod.rs:365-377`, on any writer: the name goes through `write_all`
(the one of the length, which is written byte by byte with `write_all`, and the one of the text, are joined), the offset
through a single `write` whose result is ignored. -/
def writeEntry (dev : Device σ) (fuel : Nat) (w : WriteWrapper σ) (e : IndexEntry) : Option (WriteWrapper σ) :=
  match w.writeAll dev fuel (writeStr e.name) with
  | none => none
  | some (w, _) => some (w.write dev (be64 (BitVec.ofNat 64 e.offset))).1

/-- The loop over the children, `writer/mod.rs:398-400`. -/
def writeEntries (dev : Device σ) (fuel : Nat) : WriteWrapper σ → List IndexEntry → Option (WriteWrapper σ)
  | w, [] => some w
  | w, e :: es =>
    match w.writeEntry dev fuel e with
    | none => none
    | some w => writeEntries dev fuel w es

/-- `Serializable for MetadataIndexNode`, `writer/mod.rs:386-407`, with that of `MetadataIndexNodeType`,
`writer/mod.rs:345-354`, on any writer. -/
def writeNode (dev : Device σ) (fuel : Nat) (w : WriteWrapper σ) (n : IndexNode) : Option (WriteWrapper σ) :=
  match w.writeAll dev fuel (writeVarU32 (u32 n.children.length)) with
  | none => none
  | some (w, _) =>
    match w.writeEntries dev fuel n.children with
    | none => none
    | some w =>
      let w := (w.write dev (be64 (BitVec.ofNat 64 n.endOffset))).1
      some (w.write dev [n.nodeType.serialize]).1

end WriteWrapper

end TsFile
