import Verif.Props.Sync
/-! # The names in the metadata log: C69 -/

namespace TsFile
open Spec

/-- **C69**, partial: the metadata log that is sent creates a series for each series of the schema, and its name is the name of
the series in the data file with the storage group and a dot in front. Not proved because it is false: that the names are the
same, see `C69_names_wrong`. -/
theorem C69_created_partial (env : SyncEnv) (filename sg : Bytes) (schema : Schema) {sent : List Request} {out : SyncOutcome}
    (h : sync env filename sg schema = (sent, out)) (hl : 3 < sent.length) (hs : sg.length + 13 < 2 ^ 31)
    (hp : ((plansOf sg schema).map Plan.size).sum < 2 ^ 31) :
    ∃ bytes log, sent[3]? = some (.syncData bytes) ∧ readLog env.crc bytes = some log
      ∧ createdBy log = (namesOf schema).map (fun name => sg ++ [46] ++ name) := by
  obtain ⟨⟨t, ht⟩, _, _, _⟩ := C36_order_partial env filename sg schema h
  refine ⟨writeMlog env.crc sg schema, _, ?_, C34_schema env.crc sg schema hs hp, ?_⟩
  · have h1 := congrArg (fun l => l[3]?) ht
    rw [List.getElem?_append_left hl] at h1
    rw [h1]
    rfl
  · simp [createdBy, plansOf, namesOf, List.map_flatMap, Function.comp_def, List.filterMap_flatMap]

/-- **C69** is violated for every schema that has a series, and every storage group: there is a series of the data file that
the metadata log does not create under its name. -/
theorem C69_names_wrong (env : SyncEnv) (filename sg : Bytes) (schema : Schema) {sent : List Request} {out : SyncOutcome}
    (h : sync env filename sg schema = (sent, out)) (hl : 3 < sent.length) (hs : sg.length + 13 < 2 ^ 31)
    (hp : ((plansOf sg schema).map Plan.size).sum < 2 ^ 31) (hne : namesOf schema ≠ []) :
    ∃ bytes log, sent[3]? = some (.syncData bytes) ∧ readLog env.crc bytes = some log
      ∧ ∃ name ∈ namesOf schema, name ∉ createdBy log := by
  obtain ⟨bytes, log, h1, h2, h3⟩ := C69_created_partial env filename sg schema h hl hs hp
  refine ⟨bytes, log, h1, h2, ?_⟩
  -- the shortest name
  obtain ⟨name, hn, hmin⟩ : ∃ name ∈ namesOf schema, ∀ x ∈ namesOf schema, name.length ≤ x.length := by
    have : ∀ l : List Bytes, l ≠ [] → ∃ a ∈ l, ∀ x ∈ l, a.length ≤ x.length := by
      intro l
      induction l with
      | nil => simp
      | cons y l ih =>
        intro _
        by_cases hl : l = []
        · subst hl; exact ⟨y, by simp, by simp⟩
        · obtain ⟨a, ha, hm⟩ := ih hl
          by_cases hya : y.length ≤ a.length
          · refine ⟨y, by simp, fun x hx => ?_⟩
            rcases List.mem_cons.1 hx with rfl | hx
            · exact Nat.le_refl _
            · exact Nat.le_trans hya (hm x hx)
          · refine ⟨a, by simp [ha], fun x hx => ?_⟩
            rcases List.mem_cons.1 hx with rfl | hx
            · omega
            · exact hm x hx
    exact this _ hne
  refine ⟨name, hn, fun hc => ?_⟩
  rw [h3] at hc
  obtain ⟨x, hx, e⟩ := List.mem_map.1 hc
  have := hmin x hx
  have := congrArg List.length e
  simp only [List.length_append, List.length_singleton] at this
  omega

/-! ## The hypotheses are met -/

example : (sync Demo.failing (str "f") (str "root.sg") Demo.syncSchema).1.length = 9
    ∧ createdBy [[.setStorageGroup (str "root.sg")], plansOf (str "root.sg") Demo.syncSchema]
      = [str "root.sg.d1.s1", str "root.sg.d1.s2", str "root.sg.d2.s1"]
    ∧ namesOf Demo.syncSchema = [str "d1.s1", str "d1.s2", str "d2.s1"] := by decide +kernel
example : ∃ bytes log, (sync Demo.failing (str "f") (str "root.sg") Demo.syncSchema).1[3]? = some (.syncData bytes)
    ∧ readLog Demo.failing.crc bytes = some log
    ∧ createdBy log = (namesOf Demo.syncSchema).map (fun name => str "root.sg" ++ [46] ++ name) :=
  C69_created_partial Demo.failing (str "f") (str "root.sg") Demo.syncSchema rfl (by decide +kernel) (by decide +kernel) (by decide +kernel)
example := C69_names_wrong Demo.failing (str "f") (str "root.sg") Demo.syncSchema rfl (by decide +kernel) (by decide +kernel)
  (by decide +kernel) (by decide +kernel)

end TsFile
