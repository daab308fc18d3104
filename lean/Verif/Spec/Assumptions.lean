import Verif.Model.Types
/-! # The hypotheses of the theorems about whole files -/

namespace TsFile

/-- The assumption on the Snappy implementation: `compress` succeeds on inputs shorter than 2^31 bytes,
`unsnap` inverts it, and the output is not longer than `max_compress_len` of the `snap` crate. -/
def SnappyOk (env : Env) (unsnap : Bytes → Option Bytes) : Prop :=
  ∀ x : Bytes, x.length < 2 ^ 31 → ∃ y, env.snappy x = some y ∧ unsnap y = some x
    ∧ y.length ≤ 32 + x.length + x.length / 6

/-- The assumption on hash maps: they are iterated in some order. -/
def HashOrderOk (env : Env) : Prop := ∀ l, (env.hashOrder l).Perm l

/-- What is assumed about the parts of the environment that are not modelled. -/
structure EnvOk (env : Env) (unsnap : Bytes → Option Bytes) : Prop where
  snappy : SnappyOk env unsnap
  order : HashOrderOk env

/-- A schema as the builder produces it: the keys of the hash maps are distinct (property C39). -/
def Schema.WF (schema : Schema) : Prop :=
  (schema.map Prod.fst).Nodup ∧ ∀ e ∈ schema, (e.2.map Prod.fst).Nodup

/-- The name contains no dot. -/
def NoDot (m : Bytes) : Prop := (0x2e : UInt8) ∉ m

instance (m : Bytes) : Decidable (NoDot m) := inferInstanceAs (Decidable (¬ _))

/-- A schema whose series paths (device, dot, measurement) are shorter than 2^31 bytes, so that the length of every name in
the file fits into its field. -/
structure Schema.Named (schema : Schema) : Prop where
  wf : schema.WF
  devices : ∀ d ∈ schema, d.1.length < 2 ^ 31
  paths : ∀ d ∈ schema, ∀ m ∈ d.2, d.1.length + 1 + m.1.length < 2 ^ 31

theorem Schema.Named.names {schema : Schema} (h : schema.Named) :
    ∀ d ∈ schema, d.1.length < 2 ^ 31 ∧ ∀ m ∈ d.2, m.1.length < 2 ^ 31 := by
  intro d hd
  refine ⟨h.devices d hd, fun m hm => ?_⟩
  have := h.paths d hd m hm
  omega

/-- What is assumed about a schema for the index to be correct: measurement names have no dots (see C01 and C23 for
what happens otherwise), and no device has more than 65536 measurements (see C33). -/
structure Schema.Indexable (schema : Schema) : Prop extends schema.Named where
  noDot : ∀ d ∈ schema, ∀ m ∈ d.2, NoDot m.1
  few : ∀ d ∈ schema, d.2.length ≤ 65536

end TsFile
