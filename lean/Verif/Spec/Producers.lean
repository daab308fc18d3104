import Verif.Spec.Machine
/-! # Producers that share a writer

Several parts of a program (threads that send their points through a queue to the thread with the writer, tasks, callbacks) hand points to
one writer. The calls reach the writer one after the other, in an order that nobody controls. -/

namespace TsFile.Spec

/-- A schedule: the calls in the order in which they reach the writer, each with the number of its producer. -/
abbrev Turns := List (Nat × Op)

/-- What the writer sees. -/
def allCalls (t : Turns) : List Op := t.map Prod.snd

/-- The calls of one producer, in order. -/
def callsOf (i : Nat) (t : Turns) : List Op := (t.filter (fun e => decide (e.1 = i))).map Prod.snd

/-- The answers that one producer gets, of the answers of the writer. -/
def answersOf (i : Nat) : Turns → List (Res Unit) → List (Res Unit)
  | e :: t, r :: rs => if e.1 = i then r :: answersOf i t rs else answersOf i t rs
  | _, _ => []

/-- No two producers have points of the same series: each series has an owner. (Devices may be shared.) -/
def OneOwner (owner : Bytes → Bytes → Nat) (t : Turns) : Prop := ∀ e ∈ t, ∀ r ∈ e.2.recs, owner r.device r.measurement = e.1

end TsFile.Spec
