import Verif.Model.Open
import Verif.Model.Stream
/-! # Several writers at the same time

A program may use any number of writers at the same time, from one thread or from several: the crates have no global state, and a writer
is used through `&mut self`. What the writers share is the file system. `TsFileWriter::new` opens the file with `File::create`
(`writer/tsfile_writer.rs:292`), and all output goes to this `File` (`writer/mod.rs:143-158`). This file models what the operating system
does with `open(O_WRONLY | O_CREAT | O_TRUNC)` and `write`; it is not code of the crate. A place is where a name leads to, see
`Model/Open.lean`. Files are not removed or renamed, and the disk is not full. -/

namespace TsFile.Several
open Spec

/-- An open file: its place, and the position at which the next bytes are written. Every `File` has a position of its own. -/
structure Handle where
  place : Loc
  pos : Nat
  deriving DecidableEq, Repr

/-- The files, and the open file of every writer. Writers have numbers. -/
structure State where
  files : Loc → Option Bytes
  handles : Nat → Option Handle

/-- What a writer does to the file system: `File::create`, `writer/tsfile_writer.rs:292`, and `write` on the `File`,
`writer/mod.rs:148-158`, of which `b` are the bytes that were taken. -/
inductive Event
  | create (i : Nat) (l : Loc)
  | write (i : Nat) (b : Bytes)
  deriving DecidableEq, Repr

/-- The writer that does it. -/
def Event.who : Event → Nat
  | .create i _ => i
  | .write i _ => i

/-- Writing in the middle, or behind the end, of a file. A gap is filled with zeros. -/
def overwrite (c : Bytes) (pos : Nat) (b : Bytes) : Bytes :=
  if b = [] then c else c.take pos ++ List.replicate (pos - c.length) 0 ++ b ++ c.drop (pos + b.length)

/-- One event. `File::create` makes the file empty if there is one; files that were opened before stay open. -/
def step (st : State) : Event → State
  | .create i l =>
    { files := fun l' => if l' = l then some [] else st.files l',
      handles := fun j => if j = i then some ⟨l, 0⟩ else st.handles j }
  | .write i b =>
    match st.handles i with
    | none => st
    | some h =>
      { files := fun l' => if l' = h.place then some (overwrite ((st.files l').getD []) h.pos b) else st.files l',
        handles := fun j => if j = i then some ⟨h.place, h.pos + b.length⟩ else st.handles j }

/-- The events of all writers, in the order in which they happen. -/
def run (st : State) (evs : List Event) : State := evs.foldl step st

/-- An output that takes every call of `write` and keeps a list of them. -/
def logging : Port (List Bytes) := ⟨fun s b => (s ++ [b], .ok b.length), fun _ => 1, id⟩

/-- The calls of `write` on its output that a session makes, from `new_from_writer` to `close`, if each is taken; `none`: a panic or an
error of `new`. -/
def sessionWrites (env : Env) (schema : Schema) (ops : List Op) : Option (List Bytes) :=
  match Stream.Writer.new env logging schema [] with
  | some (.ok w) => ((w.run env logging ops).1.close env logging logging).map (fun w => w.io.out.writer)
  | _ => none

end TsFile.Several
