import Verif.Props.ReadBack
import Verif.Proofs.Snappy
/-! # Property theorems: files read with a decoder of the Snappy format

The other theorems about whole files have a decompressor `unsnap` that is only known to invert the compressor. Here it is the decoder
of the Snappy format (`Spec/Snappy.lean`), and of the compressor it is assumed only that it puts elements of the format together that
mean the data. -/

namespace TsFile
open Spec

/-- A compressor for the Snappy format: the length, and elements within the limits of the format that add up to the data, not longer
than `max_compress_len` of the crate `snap`. -/
def WritesSnappy (env : Env) : Prop :=
  ∀ x : Bytes, x.length < 2 ^ 31 → ∃ es : List Snappy.Element, (∀ e ∈ es, e.Fits) ∧ Snappy.adds [] es = some x
    ∧ env.snappy x = some (Ref.varint x.length ++ es.flatMap Snappy.Element.bytes)
    ∧ (Ref.varint x.length ++ es.flatMap Snappy.Element.bytes).length ≤ 32 + x.length + x.length / 6

theorem WritesSnappy.ok {env : Env} (h : WritesSnappy env) : SnappyOk env Snappy.decode := by
  intro x hx
  obtain ⟨es, h1, h2, h3, h4⟩ := h x hx
  refine ⟨_, h3, ?_, h4⟩
  rw [← varint_u32 (by omega)]
  exact Snappy.decode_elements es h1 x h2 (by omega)

/-- **C01**, partial, for any compressor of the Snappy format: reading a closed file through its index, with a decoder of that format,
gives exactly the stored points. Missing: as in `C01_index_read_back_partial`. -/
theorem C01_snappy_partial {env : Env} (hz : WritesSnappy env) (ho : HashOrderOk env) {schema : Schema} (hsch : schema.Indexable)
    {ops : List Op} {s : Session} (hs : session env schema ops = some s) (hw : s.Within ops) (d m : Bytes) :
    readSeries Snappy.decode s.file d m = some (series (storedBy schema ops s.grown) d m) :=
  (C01_index_read_back_partial ⟨hz.ok, ho⟩ hsch hs hw).2 d m

/-- **C02**, for any compressor of the Snappy format: scanning a closed file, with a decoder of that format, finds exactly the stored
points. -/
theorem C02_snappy {env : Env} (hz : WritesSnappy env) (ho : HashOrderOk env) {schema : Schema} (hsch : schema.Named)
    {ops : List Op} {s : Session} (hs : session env schema ops = some s) (hw : s.Within ops) :
    ∃ items footer, readFooter s.file = some footer ∧ scan Snappy.decode s.file = some (items, footer.metaOffset)
      ∧ ∀ d m, scanPoints d m none items = series (storedBy schema ops s.grown) d m := by
  obtain ⟨items, footer, h1, h2, _, h3⟩ := C02_scan ⟨hz.ok, ho⟩ hsch hs hw
  exact ⟨items, footer, h1, h2, h3⟩

/-! ## A compressor -/

/-- The small compressor of `Spec/Snappy.lean`. -/
def Demo.zipEnv : Env := Env.std (fun b => some (Snappy.compress b))

theorem Demo.writesSnappy : WritesSnappy Demo.zipEnv := by
  intro x hx
  obtain ⟨h1, h2, h3⟩ := Snappy.blocks_adds x.length [] [] x (Nat.le_refl _)
  have e := varint_u32 (n := x.length) (by omega)
  refine ⟨_, h2, h1, by rw [← e]; rfl, ?_⟩
  rw [← e, List.length_append]
  have : (writeVarU32 (u32 x.length)).length ≤ 6 := length_writeVarU32_le _
  omega

/-- A series with 20 equal values. -/
def Demo.zipSchema : Schema := [(str "root.sg.d1", [(str "s1", ⟨.INT64, .PLAIN, .SNAPPY⟩)])]

def Demo.zipOps : List Op := (List.range 20).map (fun i => .write (str "root.sg.d1") (str "s1") (BitVec.ofNat 64 i) (.LONG 0))

def Demo.zipResult : Session := (session Demo.zipEnv Demo.zipSchema Demo.zipOps).getD ⟨[], [], 0, []⟩

theorem Demo.zip_session : session Demo.zipEnv Demo.zipSchema Demo.zipOps = some Demo.zipResult := by
  have : (session zipEnv zipSchema zipOps).isSome = true := by decide +kernel
  rw [zipResult]
  cases h : session zipEnv zipSchema zipOps with
  | none => rw [h] at this; simp at this
  | some s => rfl

theorem Demo.zip_indexable : Demo.zipSchema.Indexable :=
  ⟨⟨⟨by decide +kernel, by decide +kernel⟩, by decide +kernel, by decide +kernel⟩, by decide +kernel, by decide +kernel⟩

theorem Demo.zip_within : Demo.zipResult.Within Demo.zipOps :=
  ⟨by decide +kernel, by decide +kernel, by decide +kernel, by decide +kernel⟩

/-- The hypotheses can be met, and the page is indeed compressed: the file is shorter than without compression. -/
example : readSeries Snappy.decode Demo.zipResult.file (str "root.sg.d1") (str "s1")
      = some (series (storedBy Demo.zipSchema Demo.zipOps Demo.zipResult.grown) (str "root.sg.d1") (str "s1"))
    ∧ (series (storedBy Demo.zipSchema Demo.zipOps Demo.zipResult.grown) (str "root.sg.d1") (str "s1")).length = 20
    ∧ Demo.zipResult.file.length + 100 < (((session Demo.env Demo.zipSchema Demo.zipOps).map Session.file).getD []).length :=
  ⟨C01_snappy_partial Demo.writesSnappy (fun l => List.Perm.refl l) Demo.zip_indexable Demo.zip_session Demo.zip_within _ _,
    by decide +kernel, by decide +kernel⟩

example := C02_snappy Demo.writesSnappy (fun l => List.Perm.refl l) Demo.zip_indexable.toNamed Demo.zip_session Demo.zip_within

end TsFile
