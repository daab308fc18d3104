import Verif.Props.ReadBack
/-! # C40: closing without data -/

namespace TsFile
open Spec

/-- What stays the same in a writer that has accepted nothing. -/
structure Writer.Idle (io : IoWriter) (w : Writer) : Prop where
  io_eq : w.io = io
  count : w.recordCount = 0
  check : w.recordCountForNextMemCheck = 100

theorem idle_step {env : Env} {io : IoWriter} {w : Writer} (h : w.Idle io) (op : Op)
    (hp : (w.step env op).2 ≠ .panic) (ha : (w.step env op).2 = .ok () → op.recs = []) :
    (w.step env op).1.Idle io := by
  obtain ⟨h1, h2, h3⟩ := h
  cases op with
  | write d m t v =>
    have hne : (w.step env (.write d m t v)).2 ≠ .ok () := fun e => by simpa [Op.recs] using ha e
    simp only [Writer.step, Writer.write] at hp hne ⊢
    split
    · exact ⟨h1, h2, h3⟩
    · next g hg =>
      rw [hg] at hp hne
      simp only at hp hne
      split
      · exact ⟨h1, h2, h3⟩
      · exact ⟨h1, h2, h3⟩
      · next hw =>
        rw [hw] at hp hne
        simp only at hp hne
        split at hp
        · simp at hp
        · next hc => rw [hc] at hne; simp at hne
  | writeMany d t vs =>
    simp only [Writer.step, Writer.writeMany] at hp ha ⊢
    split
    · exact ⟨h1, h2, h3⟩
    · next g hg =>
      rw [hg] at hp ha
      simp only at hp ha
      split
      · exact ⟨h1, h2, h3⟩
      · exact ⟨h1, h2, h3⟩
      · next g' n hw =>
        rw [hw] at hp ha
        simp only at hp ha
        have hvs : vs = [] := by
          split at hp
          · simp at hp
          · next hc =>
            rw [hc] at ha
            simpa [Op.recs] using ha rfl
        subst hvs
        simp only [GroupWriter.writeMany, Prod.mk.injEq, Res.ok.injEq] at hw
        obtain ⟨rfl, rfl⟩ := hw
        rw [Writer.checkMemorySize, if_neg (by simp [h2, h3])]
        exact ⟨h1, by simp [h2], h3⟩

theorem idle_run {env : Env} {io : IoWriter} (ops : List Op) {w : Writer} (h : w.Idle io)
    (hp : .panic ∉ (w.run env ops).2) (ha : accepted ops (w.run env ops).2 = []) : (w.run env ops).1.Idle io := by
  induction ops generalizing w with
  | nil => exact h
  | cons op ops ih =>
    simp only [Writer.run, List.mem_cons, not_or, accepted, List.append_eq_nil_iff] at hp ha ⊢
    refine ih (idle_step h op (fun e => hp.1 e.symm) (fun e => ?_)) hp.2 ha.2
    rw [if_pos e] at ha
    exact ha.1

/-- The file with no data; `h` is the number of hash functions of the Bloom filter. -/
def emptyFile (h : Nat) : Bytes :=
  head ++ [2] ++ [0] ++ [0, 0, 0, 0, 0, 0, 0, 8] ++ [1] ++ [0, 0, 0, 0, 0, 0, 0, 7] ++ [0] ++ [0x80, 2] ++ [UInt8.ofNat h]
    ++ [0, 0, 0, 22] ++ tailMagic

/-- An index without entries, a data part without chunk groups. -/
theorem emptyFile_read (unsnap : Bytes → Option Bytes) {h : Nat} (hh : h ≤ 8) :
    readFooter (emptyFile h) = some ⟨⟨[], 8, 1⟩, 7, ⟨[], 256, h⟩⟩ ∧ listIndex (emptyFile h) = some []
      ∧ scan unsnap (emptyFile h) = some ([], 7) := by
  have h1 : ∀ h : Fin 9, readFooter (emptyFile h) = some ⟨⟨[], 8, 1⟩, 7, ⟨[], 256, h⟩⟩
      ∧ listIndex (emptyFile h) = some [] := by decide +kernel
  have := h1 ⟨h, by omega⟩
  exact ⟨this.1, this.2, rfl⟩

theorem endFile_empty {env : Env} (ho : HashOrderOk env) (hb : env.bloomSize 0 ≤ 256) :
    IoWriter.endFile env ⟨⟨magic ++ [3], none⟩, none, [], none, [], []⟩
      = some ⟨⟨emptyFile (min env.bloomHashes 8), none⟩, none, [], none, [], []⟩ := by
  have hord : env.hashOrder [] = [] := (ho []).eq_nil
  have hmax : max (env.bloomSize 0) bloomMinimalSize = 256 := by
    have : bloomMinimalSize = 256 := rfl
    omega
  have hmin : min env.bloomHashes bloomMaxHashes = min env.bloomHashes 8 := rfl
  have hbuild : BloomFilter.build env [] = some (BloomFilter.new 256 (min env.bloomHashes 8)) := by
    simp only [BloomFilter.build, BloomFilter.addAll, BloomFilter.emptyFilter, List.length_nil, hmax, hmin]
  have hser : ∀ h : Fin 9, (BloomFilter.new 256 h).serialize = some ([0] ++ [0x80, 2] ++ [UInt8.ofNat h]) := by
    decide +kernel
  have hser' := hser ⟨min env.bloomHashes 8, by omega⟩
  simp only at hser'
  simp only [IoWriter.endFile, IoWriter.chunkMetadataMap, IoWriter.flushIndexLoop, List.foldl_nil, List.map_nil,
    constructMetadataIndex, devicesLoop, hord, writeDeviceNodes, hbuild, hser', List.length_nil, Nat.zero_le, if_true]
  have hlt : min env.bloomHashes 8 < 9 := by omega
  generalize min env.bloomHashes 8 = k at hlt
  clear hser' hbuild hmin hmax hord hser hb ho
  revert k
  decide +kernel

/-- **C40.** Whatever the schema: if no call panics and no point is accepted, closing succeeds and the file is
complete: it has a footer, the index has no devices, and a scan finds no data. (`env.bloomSize 0` is 1 in the
program, `env.hashOrder` is the iteration order of a hash map.) -/
theorem C40_empty_close {env : Env} {unsnap : Bytes → Option Bytes} (ho : HashOrderOk env) (hb : env.bloomSize 0 ≤ 256)
    {schema : Schema} {ops : List Op} {w : Writer} (hn : Writer.new env schema ⟨[], none⟩ = .ok w)
    (hp : .panic ∉ (w.run env ops).2) (ha : accepted ops (w.run env ops).2 = []) :
    ∃ s footer, session env schema ops = some s ∧ s.results = (w.run env ops).2
      ∧ readFooter s.file = some footer ∧ footer.root.entries = [] ∧ footer.metaOffset = 7
      ∧ listIndex s.file = some [] ∧ scan unsnap s.file = some ([], 7)
      ∧ ∀ d m, readSeriesMeta s.file d m = some none := by
  have hio : w.Idle ⟨⟨magic ++ [3], none⟩, none, [], none, [], []⟩ := by
    simp only [Writer.new, IoWriter.new, Sink.ok, Sink.write, List.nil_append, if_true, Except.ok.injEq] at hn
    subst hn
    exact ⟨rfl, rfl, rfl⟩
  have hi := idle_run ops hio hp ha
  have hflush : (w.run env ops).1.flushAllChunkGroups env = some ((w.run env ops).1, none) := by
    rw [Writer.flushAllChunkGroups, if_neg (by rw [hi.count]; decide)]
  have hclose : (w.run env ops).1.close env = some { (w.run env ops).1 with
      io := ⟨⟨emptyFile (min env.bloomHashes 8), none⟩, none, [], none, [], []⟩ } := by
    rw [Writer.close, hflush]
    simp only
    rw [hi.io_eq, endFile_empty ho hb]
  obtain ⟨h1, h2, h3⟩ := emptyFile_read unsnap (h := min env.bloomHashes 8) (by omega)
  have hs : session env schema ops = some ⟨(w.run env ops).2, w.grown env ops,
      (emptyFile (min env.bloomHashes 8)).length - (w.run env ops).1.io.out.bytes.length,
      emptyFile (min env.bloomHashes 8)⟩ := by
    rw [session, hn]
    simp only
    rw [if_neg hp, hclose]
  refine ⟨_, _, hs, rfl, h1, rfl, rfl, h2, h3, ?_⟩
  intro d m
  simp only [readSeriesMeta, h1]
  rfl

/-- All calls are rejected; the `write_many` without points is accepted. -/
def Demo.idleOps : List Op :=
  [.write (str "root.sg.d3") (str "s1") 1 (.INT 1), .write (str "root.sg.d1") (str "s1") (-5) (.INT 1),
   .writeMany (str "root.sg.d1") 5 [], .writeMany (str "root.sg.d1") 5 [(str "s1", .INT 1), (str "s9", .INT 1)]]

example : ∃ w, Writer.new Demo.env Demo.schema ⟨[], none⟩ = .ok w ∧ .panic ∉ (w.run Demo.env Demo.idleOps).2
    ∧ accepted Demo.idleOps (w.run Demo.env Demo.idleOps).2 = [] ∧ HashOrderOk Demo.env
    ∧ Demo.env.bloomSize 0 ≤ 256 ∧ .ok () ∈ (w.run Demo.env Demo.idleOps).2 :=
  ⟨_, rfl, by decide +kernel, by decide +kernel, fun l => List.Perm.refl l, by decide +kernel, by decide +kernel⟩

end TsFile
