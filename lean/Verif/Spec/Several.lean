import Verif.Model.Several
import Verif.Model.Session
/-! # What one of several writers does -/

namespace TsFile.Spec
open Several

/-- The events of a schedule in which writer `i` takes part, in order. -/
def eventsOf (i : Nat) (evs : List Event) : List Event := evs.filter (fun e => e.who = i)

/-- Writer `i` opens the file at `l` and then writes `pieces`, in order, and nothing else. -/
def Works (i : Nat) (l : Loc) (pieces : List Bytes) (evs : List Event) : Prop :=
  eventsOf i evs = .create i l :: pieces.map (.write i)

/-- Nobody but writer `i` opens the file at `l`. -/
def Alone (i : Nat) (l : Loc) (evs : List Event) : Prop := ∀ j, j ≠ i → .create j l ∉ evs

/-- One of the writers of a program: its surroundings, the place of its file, its schema, the calls on it, and what the session would do
if it were alone in the world. -/
structure Job where
  env : Env
  place : Loc
  schema : Schema
  ops : List Op
  alone : Session

/-- A schedule of some writers, numbered from 0: each does what its session does, from opening to closing, and the events of different
writers come in any order. -/
def Schedule (jobs : List Job) (evs : List Event) : Prop :=
  (∀ i job, jobs[i]? = some job → ∃ pieces, sessionWrites job.env job.schema job.ops = some pieces ∧ Works i job.place pieces evs)
  ∧ ∀ e ∈ evs, e.who < jobs.length

end TsFile.Spec
