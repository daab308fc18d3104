import Verif.Spec.Size
import Verif.Proofs.Bloom
import Verif.Proofs.Coarse
import Verif.Proofs.CloseOk
import Verif.Props.Example
import Mathlib.Data.List.Perm.Subperm
/-! # Bloom filter: C26, C27, C44 -/

namespace TsFile
open Spec

/-- **C44.** The hash of a path is the sum of the two halves of the reference MurmurHash3 x64 128, cut to 32
bits, for every byte string and seed; no index is out of range. -/
theorem C44_murmur (path : Bytes) (seed : W32) :
    Murmur128.hash path seed
      = some (((Murmur3.hash128 path (seed.signExtend 64)).1
          + (Murmur3.hash128 path (seed.signExtend 64)).2).setWidth 32) := by
  rw [Murmur128.hash, Murmur128.innerHash_eq]
  rfl

-- 17 bytes: one block and a tail
example : Murmur128.hash (str "root.sg.d1.sensor") 5 = some 0x63b52dc5#32 := by decide +kernel

/-! ## C26 -/

theorem paths_le {env : Env} {unsnap : Bytes → Option Bytes} {schema : Schema} {ops : List Op} {s : Session}
    (c : Outlined env unsnap schema ops s) : c.paths.length ≤ schema.size := by
  have hsub : c.paths ⊆ schema.flatMap (fun d => d.2.map (fun m => IoWriter.seriesPath d.1 m.1)) := by
    intro p hp
    obtain ⟨l, hl, rfl⟩ := (c.path p).1 hp
    obtain ⟨g, hg, hg1, hg2⟩ := fileLocs_mem hl
    obtain ⟨ms, h1, h2⟩ := c.ok g hg
    rw [List.mem_flatMap]
    refine ⟨(g.1, ms), look_mem h1, List.mem_map.2 ⟨(l.2.2.name, l.2.2.ms), look_mem (h2.1 _ hg2).1, ?_⟩⟩
    simp only [hg1]
  have := (List.subperm_of_subset c.nodup hsub).length_le
  refine Nat.le_trans this (Nat.le_of_eq ?_)
  simp [Schema.size, List.length_flatMap]

/-- **C26.** A reader that asks the Bloom filter of the file for a series with stored points is told that
the file may contain it. (The number of bits must fit an `i32`, as the crate assumes.) -/
theorem C26_bloom {env : Env} {unsnap : Bytes → Option Bytes} (he : EnvOk env unsnap) {schema : Schema}
    (hsch : schema.Named) {ops : List Op} {s : Session} (hs : session env schema ops = some s)
    (hw : s.Within ops) (hsize : ∀ n, n ≤ schema.size → env.bloomSize n < 2 ^ 31) :
    ∃ footer, readFooter s.file = some footer
      ∧ ∀ d m, series (storedBy schema ops s.grown) d m ≠ [] → footer.bloom.mayContain (d ++ str "." ++ m) = true := by
  obtain ⟨c⟩ := session_outlined he hsch hs hw
  obtain ⟨bits, hb, hf⟩ := c.layout.readFooter c.fits
  refine ⟨_, hf, fun d m hne => ?_⟩
  have hfs : c.layout.filter.size < 2 ^ 31 := by
    have h := c.layout.filter_eq
    rw [BloomFilter.build] at h
    rw [(BloomFilter.addAll_spec h).2.1]
    have h1 := hsize _ (paths_le c)
    have h2 : (BloomFilter.emptyFilter env c.paths.length).size = max (env.bloomSize c.paths.length) 256 := rfl
    rw [h2]
    omega
  refine BloomFilter.build_mayContain c.layout.filter_eq hfs hb _ ((c.path _).2 ?_)
  rw [← c.pts, filePts_eq_locs env] at hne
  obtain ⟨l, hl⟩ : ∃ l, l ∈ locsOf env c.groups d m := by
    apply List.exists_mem_of_ne_nil
    intro h
    rw [h] at hne
    exact hne rfl
  obtain ⟨h1, h2⟩ := locsOf_mem hl
  exact ⟨_, h1, by simp only [h2]; rfl⟩

theorem Demo.bloomSize : ∀ n, n ≤ schema.size → env.bloomSize n < 2 ^ 31 := by decide +kernel

example : ∃ footer, readFooter Demo.result.file = some footer
    ∧ footer.bloom.mayContain (str "root.sg.d1" ++ str "." ++ str "s1") = true := by
  obtain ⟨f, h1, h2⟩ := C26_bloom Demo.envOk Demo.indexable.toNamed Demo.session_eq Demo.within Demo.bloomSize
  exact ⟨f, h1, h2 _ _ (by decide +kernel)⟩

-- the filter is not full: it excludes other paths
example : (readFooter Demo.result.file).map (fun f => f.bloom.mayContain (str "root.sg.d7.s1")) = some false := by
  decide +kernel

/-- **C75.** The filter of the file describes the stored series and nothing else: a bit is set exactly if it is one of the
positions of the path of a series with stored points. -/
theorem C75_exact {env : Env} {unsnap : Bytes → Option Bytes} (he : EnvOk env unsnap) {schema : Schema}
    (hsch : schema.Named) {ops : List Op} {s : Session} (hs : session env schema ops = some s)
    (hw : s.Within ops) (hsize : ∀ n, n ≤ schema.size → env.bloomSize n < 2 ^ 31) :
    ∃ footer, readFooter s.file = some footer
      ∧ ∀ i, storedBit footer.bloom.bits i = true ↔ ∃ d m, series (storedBy schema ops s.grown) d m ≠ []
          ∧ ∃ seed ∈ bloomSeedsSpec.take footer.bloom.hashes, i = (pathHash (d ++ str "." ++ m) seed).natAbs % footer.bloom.size := by
  obtain ⟨c⟩ := session_outlined he hsch hs hw
  obtain ⟨bits, hb, hf⟩ := c.layout.readFooter c.fits
  refine ⟨_, hf, fun i => ?_⟩
  have hfs : c.layout.filter.size < 2 ^ 31 := by
    have h := c.layout.filter_eq
    rw [BloomFilter.build] at h
    rw [(BloomFilter.addAll_spec h).2.1]
    have h1 := hsize _ (paths_le c)
    have h2 : (BloomFilter.emptyFilter env c.paths.length).size = max (env.bloomSize c.paths.length) 256 := rfl
    rw [h2]
    omega
  rw [BloomFilter.build_exact c.layout.filter_eq hfs hb i]
  constructor
  · rintro ⟨path, hp, hx⟩
    obtain ⟨l, hl, rfl⟩ := (c.path _).1 hp
    refine ⟨l.1, l.2.2.name, ?_, hx⟩
    rw [← c.pts]
    refine (locsOf_ne_nil c.ok _ _).1 (List.ne_nil_of_mem (a := l.2) ?_)
    exact List.mem_map.2 ⟨l, List.mem_filter.2 ⟨hl, by simp⟩, rfl⟩
  · rintro ⟨d, m, hne, hx⟩
    refine ⟨d ++ str "." ++ m, (c.path _).2 ?_, hx⟩
    rw [← c.pts] at hne
    obtain ⟨l, hl⟩ := List.exists_mem_of_ne_nil _ ((locsOf_ne_nil c.ok _ _).2 hne)
    obtain ⟨h1, h2⟩ := locsOf_mem hl
    exact ⟨_, h1, by simp only [h2]; rfl⟩

example := C75_exact Demo.envOk Demo.indexable.toNamed Demo.session_eq Demo.within Demo.bloomSize

/-- **C75**, the size of the filter: it is chosen for the number of different series paths with stored points, and at least 256
bits; the number of hash functions does not depend on the content. -/
theorem C75_size {env : Env} {unsnap : Bytes → Option Bytes} (he : EnvOk env unsnap) {schema : Schema}
    (hsch : schema.Named) {ops : List Op} {s : Session} (hs : session env schema ops = some s)
    (hw : s.Within ops) (hsize : ∀ n, n ≤ schema.size → env.bloomSize n < 2 ^ 31) :
    ∃ (footer : Footer) (paths : List Bytes), readFooter s.file = some footer ∧ paths.Nodup
      ∧ (∀ p : Bytes, p ∈ paths ↔ ∃ d m, series (storedBy schema ops s.grown) d m ≠ [] ∧ p = d ++ str "." ++ m)
      ∧ footer.bloom.size = max (env.bloomSize paths.length) 256 ∧ footer.bloom.hashes = min env.bloomHashes 8 := by
  obtain ⟨c⟩ := session_outlined he hsch hs hw
  obtain ⟨bits, hb, hf⟩ := c.layout.readFooter c.fits
  have h := c.layout.filter_eq
  rw [BloomFilter.build] at h
  have h1 := hsize _ (paths_le c)
  refine ⟨_, c.paths, hf, c.nodup, fun p => ?_, ?_, ?_⟩
  · rw [c.path]
    constructor
    · rintro ⟨l, hl, rfl⟩
      refine ⟨l.1, l.2.2.name, ?_, rfl⟩
      rw [← c.pts]
      refine (locsOf_ne_nil c.ok _ _).1 (List.ne_nil_of_mem (a := l.2) ?_)
      exact List.mem_map.2 ⟨l, List.mem_filter.2 ⟨hl, by simp⟩, rfl⟩
    · rintro ⟨d, m, hne, rfl⟩
      rw [← c.pts] at hne
      obtain ⟨l, hl⟩ := List.exists_mem_of_ne_nil _ ((locsOf_ne_nil c.ok _ _).2 hne)
      obtain ⟨h1, h2⟩ := locsOf_mem hl
      exact ⟨_, h1, by simp only [h2]; rfl⟩
  · show (u32 c.layout.filter.size).toNat = _
    rw [(BloomFilter.addAll_spec h).2.1]
    have h2 : (BloomFilter.emptyFilter env c.paths.length).size = max (env.bloomSize c.paths.length) 256 := rfl
    rw [h2, u32_toNat _ (by omega)]
  · show (u32 c.layout.filter.hashFunctionSize).toNat = _
    rw [(BloomFilter.addAll_spec h).2.2.2.1]
    have h2 : (BloomFilter.emptyFilter env c.paths.length).hashFunctionSize = min env.bloomHashes 8 := rfl
    rw [h2, u32_toNat _ (by omega)]

example := C75_size Demo.envOk Demo.indexable.toNamed Demo.session_eq Demo.within Demo.bloomSize

/-- **C75**, for a file without points: its filter excludes every path. -/
theorem C75_empty {env : Env} {unsnap : Bytes → Option Bytes} (he : EnvOk env unsnap) (hk : 0 < env.bloomHashes) {schema : Schema}
    (hsch : schema.Named) {ops : List Op} {s : Session} (hs : session env schema ops = some s)
    (hw : s.Within ops) (hsize : ∀ n, n ≤ schema.size → env.bloomSize n < 2 ^ 31)
    (hempty : storedBy schema ops s.grown = []) :
    ∃ footer, readFooter s.file = some footer ∧ ∀ path, footer.bloom.mayContain path = false := by
  obtain ⟨c⟩ := session_outlined he hsch hs hw
  obtain ⟨footer, hf, hx⟩ := C75_exact he hsch hs hw hsize
  refine ⟨footer, hf, fun path => ?_⟩
  obtain ⟨bits, hb, hf'⟩ := c.layout.readFooter c.fits
  rw [hf, Option.some.injEq] at hf'
  have hh : 0 < footer.bloom.hashes := by
    rw [hf']
    have h := c.layout.filter_eq
    rw [BloomFilter.build] at h
    show 0 < (u32 c.layout.filter.hashFunctionSize).toNat
    rw [(BloomFilter.addAll_spec h).2.2.2.1]
    have h2 : (BloomFilter.emptyFilter env c.paths.length).hashFunctionSize = min env.bloomHashes 8 := rfl
    rw [h2, u32_toNat _ (by omega)]
    omega
  have h0 : ∀ i, storedBit footer.bloom.bits i = false := by
    intro i
    rw [Bool.eq_false_iff, ne_eq, hx i, hempty]
    rintro ⟨d, m, hne, _⟩
    exact hne rfl
  rw [Bloom.mayContain]
  obtain ⟨k, hk'⟩ : ∃ k, footer.bloom.hashes = k + 1 := ⟨footer.bloom.hashes - 1, by omega⟩
  rw [hk', bloomSeedsSpec, List.take_succ_cons, List.all_cons, h0, Bool.false_and]

/-- Only a rejected call. -/
def Demo.rejectedOps : List Op := [.write (str "root.sg.d9") (str "s1") 1 (.INT 1)]

def Demo.rejectedResult : Session := (session Demo.env Demo.schema Demo.rejectedOps).getD ⟨[], [], 0, []⟩

theorem Demo.rejected_eq : session Demo.env Demo.schema Demo.rejectedOps = some Demo.rejectedResult := by
  have : (session Demo.env Demo.schema Demo.rejectedOps).isSome = true := by decide +kernel
  rw [Demo.rejectedResult]
  cases h : session Demo.env Demo.schema Demo.rejectedOps with
  | none => rw [h] at this; simp at this
  | some s => rfl

example := C75_empty Demo.envOk (by decide) Demo.indexable.toNamed Demo.rejected_eq
  ⟨by decide +kernel, by decide +kernel, by decide +kernel, by decide +kernel⟩ Demo.bloomSize (by decide +kernel)

/-! ## C27 -/

/-- **C27**, what holds: the bits are serialised unless their number leaves remainder 1, 2 or 3 when divided
by eight, and then the bytes describe exactly the bits. Missing: the remainders 1, 2, 3, see
`C27_serialise_fails`. -/
theorem C27_serialise_partial (f : BloomFilter) :
    (f.serializeBits = none ↔ f.bitSet.length % 8 = 1 ∨ f.bitSet.length % 8 = 2 ∨ f.bitSet.length % 8 = 3)
    ∧ ∀ bytes, f.serializeBits = some bytes → ∀ i, storedBit bytes i = (f.bitSet[i]?).getD false := by
  by_cases h : f.bitSet.length % 8 = 0 ∨ 4 ≤ f.bitSet.length % 8
  · obtain ⟨b, h1, h2⟩ := BloomFilter.serializeBits_some f h
    refine ⟨?_, ?_⟩
    · rw [h1]
      simp only [reduceCtorEq, false_iff]
      omega
    · intro bytes hb
      rw [h1] at hb
      cases hb
      exact h2
  · have h1 := BloomFilter.serializeBits_none f (by omega) (by omega)
    rw [h1]
    exact ⟨⟨fun _ => by omega, fun _ => rfl⟩, by simp⟩

example : (BloomFilter.mk 13 5 [] ((List.replicate 12 false) ++ [true])).serializeBits = some [0, 16] := by decide

namespace Demo

/-- One device with 44 measurements. -/
def schema44 : Schema :=
  [(str "d", (List.range 44).map (fun i => ([0x73, UInt8.ofNat (48 + i)], ⟨.INT32, .PLAIN, .UNCOMPRESSED⟩)))]

/-- One point for each. -/
def ops44 : List Op := (List.range 44).map (fun i => .write (str "d") [0x73, UInt8.ofNat (48 + i)] 1 (.INT 1))

end Demo

/-- **C27** fails: with 44 series of one device, every call succeeds but `close` panics. -/
theorem C27_serialise_fails :
    (match Writer.new Demo.env Demo.schema44 ⟨[], none⟩ with
      | .ok w => decide ((w.run Demo.env Demo.ops44).2 = List.replicate 44 (.ok ()))
          && ((w.run Demo.env Demo.ops44).1.close Demo.env).isNone
      | .error _ => false) = true
    ∧ session Demo.env Demo.schema44 Demo.ops44 = none := by
  constructor <;> decide +kernel

end TsFile
