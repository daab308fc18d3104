import Verif.Proofs.Coarse
import Verif.Spec.Isolated
/-! # Reading the series of one device through the index, for any schema

The conditions of `Layout` concern the whole schema. Here they concern only the device that is read. -/

namespace TsFile
open Spec

section
variable {env : Env} {unsnap : Bytes → Option Bytes} {schema : Schema} {groups : List GGroup}
  {paths : List Bytes} {F : Bytes}

/-- Reading the metadata of a series of an isolated device. -/
theorem Coarse.readSeriesMeta {d : Bytes} (hsch : schema.IndexableAt d) (hok : GroupsOk env unsnap schema groups)
    (L : Coarse env groups paths F) (hf : L.Fits) (m : Bytes) :
    ((NoDot m → locsOf env groups d m = []) ∧ readSeriesMeta F d m = some none)
    ∨ (∃ ms s, NoDot m ∧ locsOf env groups d m ≠ [] ∧ look d schema = some ms ∧ look m ms = some s
        ∧ readSeriesMeta F d m = some (some (seriesMeta env m s.dataType (locsOf env groups d m)))) :=
  Sparse.readSeriesMeta hsch hok.locs L hf m

theorem Coarse.locsOf_ok (hsch : schema.Named) (hok : GroupsOk env unsnap schema groups)
    (L : Coarse env groups paths F) (hf : L.Fits) (d m : Bytes) :
    ∀ l ∈ locsOf env groups d m, At F l.1 (l.2.bytes env) ∧ l.2.name = m ∧ l.2.name.length < 2 ^ 31
      ∧ l.2.Ok env unsnap ∧ (pagesBytes env l.2.ms.dataType l.2.pages).length < 2 ^ 32 :=
  Sparse.locsIn_ok hsch hok.locs L hf d m

/-- Reading a series of an isolated device through the index. -/
theorem Coarse.readSeries {d : Bytes} (hsch : schema.IndexableAt d) (hok : GroupsOk env unsnap schema groups)
    (L : Coarse env groups paths F) (hf : L.Fits) (m : Bytes) :
    readSeries unsnap F d m = some (if NoDot m then filePts groups d m else []) := by
  rw [filePts_eq_locs env]
  exact Sparse.readSeries hsch hok.locs L hf m

end

/-- In an indexable schema, the conditions hold for every device. -/
theorem Schema.Indexable.at {schema : Schema} (h : schema.Indexable) (d : Bytes) : schema.IndexableAt d := by
  refine ⟨h.toNamed, fun e he x hx m hm hp => ?_, fun e he _ => ?_⟩
  · exact (seriesPath_inj (h.noDot e he x hx) hm hp).1
  · exact Nat.le_trans (List.length_filter_le _ _) (h.few e he)

end TsFile
