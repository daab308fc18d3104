import Verif.Model.Several
/-! # Loss of power

What `write` hands to the operating system is in its memory first. It is certain to be on the medium only after `fsync` (`File::sync_all`
in Rust). The crate never calls it: `WriteWrapper` (`writer/mod.rs:144-164`) has `write` and `flush`, and `flush` of a `File` does
nothing; `TsFileWriter::close` (`writer/tsfile_writer.rs:123-127`) only writes. This file models one file in an operating system that
writes its blocks to the medium in any order; it is not code of the crate. Files are written from the front to the end, which is what a
writer does whose file nobody else opens (C94). The name of the file is taken to survive. -/

namespace TsFile.Power

/-- A file: what programs read, and how much of it is certain to be on the medium. -/
structure File where
  content : Bytes
  safe : Nat
  deriving DecidableEq, Repr

/-- System calls on the file: `write`, and `fsync`, which any program can call. -/
inductive Act
  | write (b : Bytes)
  | sync
  deriving DecidableEq, Repr

/-- The file just after `File::create`, `writer/tsfile_writer.rs:292`. -/
def created : File := ⟨[], 0⟩

/-- One system call. -/
def step (f : File) : Act → File
  | .write b => { f with content := f.content ++ b }
  | .sync => { f with safe := f.content.length }

/-- System calls, in order. -/
def run (f : File) (acts : List Act) : File := acts.foldl step f

/-- Bytes from position `i` on, of which only those before `safe`, and some blocks, were on the medium: `block` is the size of a block,
`keep` says which blocks were there. The others are read as zeros. -/
def blank (block safe : Nat) (keep : Nat → Bool) : Nat → Bytes → Bytes
  | _, [] => []
  | i, b :: r => (if i < safe ∨ keep (i / block) = true then b else 0) :: blank block safe keep (i + 1) r

/-- What is left of a file of which only a length, and some blocks, were on the medium. -/
def torn (block : Nat) (f : File) (length : Nat) (keep : Nat → Bool) : Bytes := blank block f.safe keep 0 (f.content.take length)

end TsFile.Power
