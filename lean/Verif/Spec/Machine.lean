import Verif.Model.Types
/-! # What a TsFile writer does, as an abstract machine

The machine knows nothing of encodings, pages, chunks, buffers or files: its state is the list of points
that are in the file, the list of points that are waiting, and the last timestamp accepted for each series.
When the waiting points are moved to the file is not decided by the machine: it is an input of a run. -/

namespace TsFile.Spec

/-- Calls of the user. -/
inductive Op
  | write (device measurement : Bytes) (timestamp : W64) (value : IoTDBValue)
  | writeMany (device : Bytes) (timestamp : W64) (values : List (Bytes × IoTDBValue))
  deriving DecidableEq, Repr

/-- A stored point: device, measurement, timestamp, value. -/
structure Rec where
  device : Bytes
  measurement : Bytes
  timestamp : W64
  value : IoTDBValue
  deriving DecidableEq, Repr

/-- The points of one series, in order. -/
def series (l : List Rec) (device measurement : Bytes) : List (W64 × IoTDBValue) :=
  (l.filter (fun r => decide (r.device = device ∧ r.measurement = measurement))).map
    (fun r => (r.timestamp, r.value))

/-- Timestamps are not negative and strictly increasing. -/
def Increasing (l : List (W64 × IoTDBValue)) : Prop :=
  (∀ p ∈ l, 0 ≤ p.1.toInt) ∧ l.Pairwise (fun p q => p.1.toInt < q.1.toInt)

/-- The value belongs to the data type. -/
def fits : TSDataType → IoTDBValue → Bool
  | .INT32, .INT _ => true
  | .INT64, .LONG _ => true
  | .FLOAT, .FLOAT _ => true
  | _, _ => false

/-- The format has no TS_2DIFF encoding for FLOAT in this crate. -/
def encodable : TSDataType → TSEncoding → Bool
  | .FLOAT, .TS2DIFF => false
  | _, _ => true

/-- Lookup in a list of pairs. -/
def look {α : Type} (k : Bytes) : List (Bytes × α) → Option α
  | [] => none
  | (k', v) :: l => if k' = k then some v else look k l

/-- State of the abstract writer. -/
structure AState where
  /-- points in the file -/
  stored : List Rec
  /-- points accepted but not yet in the file -/
  pending : List Rec
  /-- last timestamp accepted for a series since the last flush; -1 if there is none -/
  last : Bytes → Bytes → W64
  /-- number of points of successful calls since the last flush -/
  counted : Nat
  /-- the points in the file once more, one list for each flush -/
  bursts : List (List Rec)

/-- The number of flushes that moved something. -/
def AState.flushes (a : AState) : Nat := a.bursts.length

/-- The fresh writer. -/
def AState.init : AState := { stored := [], pending := [], last := fun _ _ => -1, counted := 0, bursts := [] }

/-- Move everything to the file. Nothing happens if no call succeeded since the last flush. The last
timestamps are forgotten. -/
def AState.flush (a : AState) : AState :=
  if a.counted = 0 then a
  else { stored := a.stored ++ a.pending, pending := [], last := fun _ _ => -1, counted := 0, bursts := a.bursts ++ [a.pending] }

/-- One point for a known device: accepted, rejected or panic. The checks are made in this order. -/
def AState.put (a : AState) (ms : List (Bytes × MeasurementSchema)) (d m : Bytes) (t : W64)
    (v : IoTDBValue) : AState × Res Unit :=
  if t.toInt ≤ (a.last d m).toInt then (a, .err .outOfOrderData)
  else
    match look m ms with
    | none => (a, .err (.illegalState (some "Unknown measurement id")))
    | some s =>
      if fits s.dataType v && encodable s.dataType s.encoding then
        ({ a with pending := a.pending ++ [⟨d, m, t, v⟩],
                  last := fun d' m' => if d' = d ∧ m' = m then t else a.last d' m' }, .ok ())
      else (a, .panic)

/-- Several points: stop at the first that is not accepted, keeping the ones before it. -/
def AState.putMany (ms : List (Bytes × MeasurementSchema)) (d : Bytes) (t : W64) :
    List (Bytes × IoTDBValue) → AState → AState × Res Unit
  | [], a => (a, .ok ())
  | (m, v) :: l, a =>
    match a.put ms d m t v with
    | (a, .ok ()) => putMany ms d t l a
    | r => r

/-- A call, without the flush that may follow it. -/
def AState.exec (schema : Schema) (a : AState) : Op → AState × Res Unit
  | .write d m t v =>
    match look d schema with
    | none => (a, .err (.illegalState (some "No Group Writer found")))
    | some ms =>
      match a.put ms d m t v with
      | (a, .ok ()) => ({ a with counted := a.counted + 1 }, .ok ())
      | r => r
  | .writeMany d t vs =>
    match look d schema with
    | none => (a, .err (.illegalState none))
    | some ms =>
      match AState.putMany ms d t vs a with
      | (a, .ok ()) => ({ a with counted := a.counted + vs.length }, .ok ())
      | r => r

/-- A call: `exec`, and then a flush if `flushed`. -/
def AState.step (schema : Schema) (a : AState) (op : Op) (flushed : Bool) : AState × Res Unit :=
  let r := a.exec schema op
  (if flushed then r.1.flush else r.1, r.2)

/-- A history of calls; the flag beside each call says whether it was followed by a flush. -/
def AState.run (schema : Schema) (a : AState) : List (Op × Bool) → AState × List (Res Unit)
  | [] => (a, [])
  | (op, flushed) :: ops =>
    let r := a.step schema op flushed
    let rs := AState.run schema r.1 ops
    (rs.1, r.2 :: rs.2)

/-- The points in the file after the history and the final flush. `grown` is what each call added to the
output: a call was followed by a flush iff it added something. -/
def storedBy (schema : Schema) (ops : List Op) (grown : List Nat) : List Rec :=
  (AState.init.run schema (ops.zip (grown.map (fun n => decide (0 < n))))).1.flush.stored

/-- The same points, one list for each flush: those between two flushes, and at the end those of the flush made by
closing (if there are any to flush). -/
def burstsBy (schema : Schema) (ops : List Op) (grown : List Nat) : List (List Rec) :=
  (AState.init.run schema (ops.zip (grown.map (fun n => decide (0 < n))))).1.flush.bursts

/-- The points of a call. -/
def Op.recs : Op → List Rec
  | .write d m t v => [⟨d, m, t, v⟩]
  | .writeMany d t vs => vs.map (fun p => ⟨d, p.1, t, p.2⟩)

/-- The points of the successful calls, in order. -/
def accepted : List Op → List (Res Unit) → List Rec
  | op :: ops, r :: rs => (if r = .ok () then op.recs else []) ++ accepted ops rs
  | _, _ => []

/-- The number of points handed over from one flush to the next is always below the limit. `n` points were
handed over since the last flush. -/
def burstsBelow (limit : Nat) : Nat → List (Op × Bool) → Prop
  | _, [] => True
  | n, (op, flushed) :: l =>
    n + op.recs.length < limit ∧ burstsBelow limit (if flushed then 0 else n + op.recs.length) l

instance decBursts (limit : Nat) : (n : Nat) → (l : List (Op × Bool)) → Decidable (burstsBelow limit n l)
  | _, [] => isTrue trivial
  | n, (op, flushed) :: l =>
    have := decBursts limit (if flushed then 0 else n + op.recs.length) l
    inferInstanceAs (Decidable (n + op.recs.length < limit
      ∧ burstsBelow limit (if flushed then 0 else n + op.recs.length) l))

end TsFile.Spec
