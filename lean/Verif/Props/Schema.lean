import Verif.Model.SchemaBuilder
import Verif.Model.EnvStd
import Verif.Spec.Builder
import Verif.Spec.Assumptions
import Mathlib.Data.List.Forall2
/-! # Property C39: the schema builders -/

namespace TsFile
open Spec

theorem hashInsert_keys {α : Type} (k : Bytes) (v : α) (m : List (Bytes × α)) (h : (m.map Prod.fst).Nodup) :
    ((hashInsert k v m).map Prod.fst).Nodup ∧ ∀ x, x ∈ (hashInsert k v m).map Prod.fst ↔ x = k ∨ x ∈ m.map Prod.fst := by
  induction m with
  | nil => exact ⟨by simp [hashInsert], by simp [hashInsert]⟩
  | cons e m ih =>
    rw [List.map_cons, List.nodup_cons] at h
    obtain ⟨h1, h2⟩ := ih h.2
    rw [hashInsert]
    by_cases he : e.1 = k
    · rw [if_pos he]
      refine ⟨?_, ?_⟩
      · rw [List.map_cons, List.nodup_cons]
        exact ⟨he ▸ h.1, h.2⟩
      · intro x
        simp only [List.map_cons, List.mem_cons, he]
        tauto
    · rw [if_neg he]
      refine ⟨?_, ?_⟩
      · rw [List.map_cons, List.nodup_cons]
        refine ⟨fun hm => ?_, h1⟩
        rcases (h2 _).1 hm with hk | hm
        · exact he hk
        · exact h.1 hm
      · intro x
        simp only [List.map_cons, List.mem_cons, h2]
        tauto

theorem entry_cons {α : Type} (e : Bytes × α) (m : List (Bytes × α)) (k : Bytes) :
    entry (e :: m) k = if e.1 = k then some e.2 else entry m k := by
  rw [entry, List.find?_cons]
  by_cases he : e.1 = k
  · simp only [he, decide_true, if_true, Option.map_some]
  · simp only [he, decide_false, if_false]
    rfl

theorem entry_hashInsert {α : Type} (k : Bytes) (v : α) (m : List (Bytes × α)) (x : Bytes) :
    entry (hashInsert k v m) x = if k = x then some v else entry m x := by
  induction m with
  | nil => rw [hashInsert, entry_cons]
  | cons e m ih =>
    rw [hashInsert]
    by_cases he : e.1 = k
    · rw [if_pos he, entry_cons, entry_cons, he]
      by_cases hx : k = x
      · simp only [hx, if_true]
      · simp only [hx, if_false]
    · rw [if_neg he, entry_cons, entry_cons, ih]
      by_cases hx : k = x
      · subst hx
        simp only [he, if_false, if_true]
      · simp only [hx, if_false]

theorem lastDef_concat {α : Type} (defs : List (Bytes × α)) (e : Bytes × α) (k : Bytes) :
    lastDef (defs ++ [e]) k = if e.1 = k then some e.2 else lastDef defs k := by
  rw [lastDef, List.reverse_append, List.reverse_cons, List.reverse_nil, List.nil_append, List.singleton_append, List.find?_cons]
  by_cases he : e.1 = k
  · simp only [he, decide_true, if_true, Option.map_some]
  · simp only [he, decide_false, if_false]
    rfl

theorem Spec.HoldsLast.nil {α : Type} : HoldsLast ([] : List (Bytes × α)) [] := ⟨List.nodup_nil, fun _ => rfl⟩

theorem Spec.HoldsLast.insert {α : Type} {defs m : List (Bytes × α)} (h : HoldsLast defs m) (k : Bytes) (v : α) :
    HoldsLast (defs ++ [(k, v)]) (hashInsert k v m) := by
  refine ⟨(hashInsert_keys k v m h.once).1, fun x => ?_⟩
  rw [entry_hashInsert, lastDef_concat, h.last]

theorem entry_eq_some {α : Type} {m : List (Bytes × α)} (h : (m.map Prod.fst).Nodup) (k : Bytes) (v : α) :
    entry m k = some v ↔ (k, v) ∈ m := by
  induction m with
  | nil => simp [entry]
  | cons e m ih =>
    rw [List.map_cons, List.nodup_cons] at h
    rw [entry_cons, List.mem_cons]
    by_cases he : e.1 = k
    · rw [if_pos he]
      constructor
      · intro hv; left; rw [← he, ← Option.some.inj hv]
      · rintro (hv | hv)
        · rw [← hv]
        · exact absurd (he ▸ List.mem_map_of_mem (f := Prod.fst) hv) h.1
    · rw [if_neg he, ih h.2]
      constructor
      · exact Or.inr
      · rintro (hv | hv)
        · exact absurd (by rw [← hv]) he
        · exact hv

theorem entry_perm {α : Type} {m m' : List (Bytes × α)} (h : (m.map Prod.fst).Nodup) (hp : m'.Perm m) (k : Bytes) :
    entry m' k = entry m k := by
  have h' : (m'.map Prod.fst).Nodup := (hp.map Prod.fst).nodup_iff.2 h
  apply Option.ext
  intro v
  rw [entry_eq_some h', entry_eq_some h, hp.mem_iff]

theorem Spec.HoldsLast.foldl {α : Type} (l : List (Bytes × α)) {defs m : List (Bytes × α)} (h : HoldsLast defs m) :
    HoldsLast (defs ++ l) (l.foldl (fun c e => hashInsert e.1 e.2 c) m) := by
  induction l generalizing defs m with
  | nil => rw [List.append_nil]; exact h
  | cons e l ih =>
    have := ih (h.insert e.1 e.2)
    rw [List.append_assoc] at this
    exact this

theorem lastDef_nodup {α : Type} {m : List (Bytes × α)} (h : (m.map Prod.fst).Nodup) (k : Bytes) : lastDef m k = entry m k := by
  have : lastDef m k = entry m.reverse k := rfl
  rw [this]
  exact entry_perm h (List.reverse_perm m) k

theorem Spec.HoldsLast.copy {α : Type} {order : IterOrder α} (ho : ∀ l, (order l).Perm l) {defs m : List (Bytes × α)}
    (h : HoldsLast defs m) : HoldsLast defs (hashCopy order m) := by
  have hf := HoldsLast.foldl (order m) (HoldsLast.nil (α := α))
  rw [List.nil_append] at hf
  refine ⟨hf.once, fun k => ?_⟩
  have hn : ((order m).map Prod.fst).Nodup := ((ho m).map Prod.fst).nodup_iff.2 h.once
  rw [hashCopy, hf.last, lastDef_nodup hn, entry_perm h.once (ho m), h.last]

/-! ## The theorems -/

/-- The calls of `add` on a builder of devices. -/
def DeviceBuilder.adds (b : DeviceBuilder) : List (Bytes × MeasurementSchema) → DeviceBuilder
  | [] => b
  | (m, s) :: defs => (b.add m s.dataType s.encoding s.compression).adds defs

theorem DeviceBuilder.adds_holds (l : List (Bytes × MeasurementSchema)) {b : DeviceBuilder}
    {defs : List (Bytes × MeasurementSchema)} (h : HoldsLast defs b.measurementGroupsMap) :
    HoldsLast (defs ++ l) (b.adds l).measurementGroupsMap := by
  induction l generalizing b defs with
  | nil => rw [List.append_nil]; exact h
  | cons e l ih =>
    obtain ⟨m, s⟩ := e
    have := ih (b := b.add m s.dataType s.encoding s.compression) (h.insert m s)
    rw [List.append_assoc] at this
    exact this

/-- **C39**, devices: whatever was added, in whatever order hash maps are iterated, `build` gives the last definition of
every measurement and nothing else, and leaves the builder as it was; without any definition it aborts. -/
theorem C39_device {order : IterOrder MeasurementSchema} (ho : ∀ l, (order l).Perm l)
    (defs : List (Bytes × MeasurementSchema)) :
    (defs = [] ∧ (DeviceBuilder.new.adds defs).build order = none)
    ∨ (defs ≠ [] ∧ ∃ group, (DeviceBuilder.new.adds defs).build order = some (DeviceBuilder.new.adds defs, group)
        ∧ HoldsLast defs group) := by
  have h := DeviceBuilder.adds_holds defs (b := DeviceBuilder.new) (HoldsLast.nil)
  rw [List.nil_append] at h
  cases hd : defs with
  | nil => exact Or.inl ⟨rfl, rfl⟩
  | cons e defs' =>
    rw [← hd]
    refine Or.inr ⟨by rw [hd]; simp, hashCopy order (DeviceBuilder.new.adds defs).measurementGroupsMap, ?_, h.copy ho⟩
    rw [DeviceBuilder.build, if_neg]
    intro he
    have h0 : (DeviceBuilder.new.adds defs).measurementGroupsMap = [] := List.isEmpty_iff.1 he
    rw [h0] at h
    obtain ⟨l, x, hx⟩ : ∃ l x, defs = l ++ [x] := ⟨_, _, (List.dropLast_append_getLast (l := defs) (by rw [hd]; simp)).symm⟩
    have h1 := h.last x.1
    rw [hx, lastDef_concat, if_pos rfl] at h1
    exact absurd h1 (by simp [entry])

/-- The calls of a builder of schemas: the schemas it built. Every call has an iteration order of its own (numbered by the
calls still to come). -/
def SchemaBuilder.run (order : Nat → IterOrder (List (Bytes × MeasurementSchema))) (b : SchemaBuilder) :
    List BuilderCall → List Schema
  | [] => []
  | .add d g :: cs => (b.add d g).run order cs
  | .build :: cs => (b.build (order cs.length)).2 :: (b.build (order cs.length)).1.run order cs

/-- **C39**, schemas: in every sequence of calls, in whatever order hash maps are iterated, each `build` gives the last
group of every device added so far and nothing else. -/
theorem C39_schema {order : Nat → IterOrder (List (Bytes × MeasurementSchema))} (ho : ∀ n l, (order n l).Perm l)
    (cs : List BuilderCall) :
    List.Forall₂ HoldsLast (builtFrom [] cs) (SchemaBuilder.new.run order cs) := by
  suffices h : ∀ (b : SchemaBuilder) (defs : List (Bytes × List (Bytes × MeasurementSchema))),
      HoldsLast defs b.measurementGroupsMap → List.Forall₂ HoldsLast (builtFrom defs cs) (b.run order cs) from
    h SchemaBuilder.new [] HoldsLast.nil
  induction cs with
  | nil => intro b defs _; exact .nil
  | cons c cs ih =>
    intro b defs h
    cases c with
    | add d g => exact ih _ _ (h.insert d g)
    | build => exact .cons (h.copy (ho _)) (ih _ _ h)

/-- A schema built from built groups satisfies the assumption that the other theorems make about schemas. -/
theorem C39_wf {defs : List (Bytes × List (Bytes × MeasurementSchema))} {schema : Schema} (h : HoldsLast defs schema)
    (hg : ∀ e ∈ defs, ∃ ds, HoldsLast ds e.2) : schema.WF := by
  refine ⟨h.once, fun e he => ?_⟩
  have h1 : entry schema e.1 = some e.2 := (entry_eq_some h.once e.1 e.2).2 he
  rw [h.last, lastDef] at h1
  obtain ⟨x, hx, hx2⟩ := Option.map_eq_some_iff.1 h1
  have hm : x ∈ defs := List.mem_reverse.1 (List.mem_of_find?_eq_some hx)
  obtain ⟨ds, hds⟩ := hg x hm
  rw [← hx2]
  exact hds.once

/-- **C39**, `Schema::simple`: one device with one series. -/
theorem C39_simple (d m : Bytes) (dt : TSDataType) (e : TSEncoding) (c : CompressionType) :
    Schema.simple d m dt e c = [(d, [(m, ⟨dt, e, c⟩)])] := rfl

/-- A builder that defines a device twice, and is used again after `build`. -/
example : (SchemaBuilder.new.run (fun _ => List.reverse)
      [.add (str "d1") [(str "s1", ⟨.INT32, .PLAIN, .SNAPPY⟩)], .add (str "d2") [(str "s2", ⟨.FLOAT, .PLAIN, .SNAPPY⟩)], .build,
       .add (str "d1") [(str "s3", ⟨.INT64, .TS2DIFF, .SNAPPY⟩)], .build])
    = [[(str "d2", [(str "s2", ⟨.FLOAT, .PLAIN, .SNAPPY⟩)]), (str "d1", [(str "s1", ⟨.INT32, .PLAIN, .SNAPPY⟩)])],
       [(str "d2", [(str "s2", ⟨.FLOAT, .PLAIN, .SNAPPY⟩)]), (str "d1", [(str "s3", ⟨.INT64, .TS2DIFF, .SNAPPY⟩)])]] := by
  decide

-- a builder with one measurement defined twice
example : ∃ group, (DeviceBuilder.new.adds [(str "s1", ⟨.INT32, .PLAIN, .SNAPPY⟩), (str "s1", ⟨.INT64, .PLAIN, .SNAPPY⟩)]).build List.reverse
      = some (DeviceBuilder.new.adds [(str "s1", ⟨.INT32, .PLAIN, .SNAPPY⟩), (str "s1", ⟨.INT64, .PLAIN, .SNAPPY⟩)], group)
    ∧ HoldsLast [(str "s1", (⟨.INT32, .PLAIN, .SNAPPY⟩ : MeasurementSchema)), (str "s1", ⟨.INT64, .PLAIN, .SNAPPY⟩)] group := by
  rcases C39_device (order := List.reverse) List.reverse_perm
    [(str "s1", ⟨.INT32, .PLAIN, .SNAPPY⟩), (str "s1", ⟨.INT64, .PLAIN, .SNAPPY⟩)] with ⟨h, _⟩ | ⟨_, h⟩
  · cases h
  · exact h

example : List.Forall₂ HoldsLast (builtFrom [] [.add (str "d1") [(str "s1", ⟨.INT32, .PLAIN, .SNAPPY⟩)], .build])
    (SchemaBuilder.new.run (fun _ => List.reverse) [.add (str "d1") [(str "s1", ⟨.INT32, .PLAIN, .SNAPPY⟩)], .build]) :=
  C39_schema (order := fun _ => List.reverse) (fun _ => List.reverse_perm) _

example : HoldsLast [(str "s1", (⟨.INT32, .PLAIN, .SNAPPY⟩ : MeasurementSchema)), (str "s1", ⟨.INT64, .PLAIN, .SNAPPY⟩)]
    [(str "s1", ⟨.INT64, .PLAIN, .SNAPPY⟩)] := by
  have := DeviceBuilder.adds_holds [(str "s1", (⟨.INT32, .PLAIN, .SNAPPY⟩ : MeasurementSchema)), (str "s1", ⟨.INT64, .PLAIN, .SNAPPY⟩)]
    (b := DeviceBuilder.new) HoldsLast.nil
  exact this

end TsFile
