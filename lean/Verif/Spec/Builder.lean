import Verif.Model.Types
/-! # Definitions in the order in which they are made -/

namespace TsFile.Spec

/-- The last definition of a name. -/
def lastDef {α : Type} (defs : List (Bytes × α)) (k : Bytes) : Option α :=
  (defs.reverse.find? (fun e => decide (e.1 = k))).map Prod.snd

/-- The entry for a name in a map. -/
def entry {α : Type} (m : List (Bytes × α)) (k : Bytes) : Option α :=
  (m.find? (fun e => decide (e.1 = k))).map Prod.snd

/-- The map holds exactly the last definition of every name, once. -/
structure HoldsLast {α : Type} (defs m : List (Bytes × α)) : Prop where
  once : (m.map Prod.fst).Nodup
  last : ∀ k, entry m k = lastDef defs k

/-- A call of a builder of schemas. -/
inductive BuilderCall
  | add (device : Bytes) (group : List (Bytes × MeasurementSchema))
  | build

/-- The definitions made before each `build`. -/
def builtFrom : List (Bytes × List (Bytes × MeasurementSchema)) → List BuilderCall →
    List (List (Bytes × List (Bytes × MeasurementSchema)))
  | _, [] => []
  | defs, .add d g :: cs => builtFrom (defs ++ [(d, g)]) cs
  | defs, .build :: cs => defs :: builtFrom defs cs

end TsFile.Spec
