import Verif.Proofs.Room
import Verif.Props.Faults
import Verif.Props.Size

/-!
# Failures of the output that nobody is told of

C32 is false for every program: if the output gets full only in `close`, then every call returns what it returns on an
unlimited output, and a `close` that returns leaves a file that is cut.
-/

namespace TsFile

open Spec

theorem open_limit {env : Env} {schema : Schema} {n : Nat} {u : Writer} (hu : openOn env schema none = .ok u) (hn : 7 ≤ n) :
    openOn env schema (some n) = .ok (u.limit n) ∧ u.io.out.cap = none := by
  obtain ⟨c, hc⟩ := (C32_create_partial env schema n).2 hn
  cases open_rel hu hc with
  | sync cap le eq => exact ⟨by rw [hc, eq]; rfl, cap⟩
  | lag h =>
    have h7 : u.io.out.bytes.length = 7 := by
      simp only [openOn, Writer.new, IoWriter.new, Sink.ok, if_true] at hu
      cases hu
      rfl
    exact absurd h.over (by omega)

/-- **C32** is false for every session and every output that has room for what is written before `close`, and not for the
whole file: every call returns what it returns on an unlimited output, and if `close` returns, then the output holds a file
that is cut. -/
theorem C32_calls_wrong {env : Env} {schema : Schema} {ops : List Op} {u : Writer} {s : Session}
    (hs : session env schema ops = some s) (hu : openOn env schema none = .ok u) {n : Nat}
    (hn : (u.run env ops).1.io.out.bytes.length ≤ n) (hlt : n < s.file.length) :
    ∃ c, openOn env schema (some n) = .ok c ∧ (c.run env ops).2 = s.results
      ∧ ∀ c', (c.run env ops).1.close env = some c' → c'.io.out.bytes = s.file.take n ∧ c'.io.out.bytes ≠ s.file := by
  have hg := Grows.run env ops u
  have h7 : 7 ≤ u.io.out.bytes.length := by
    have hu' := hu
    simp only [openOn, Writer.new, IoWriter.new, Sink.ok, if_true] at hu'
    cases hu'
    exact Nat.le_refl _
  have hn7 : 7 ≤ n := Nat.le_trans h7 (hg.fits hn)
  obtain ⟨hc, cap⟩ := open_limit hu hn7
  have hres : .panic ∉ (u.run env ops).2 ∧ s.results = (u.run env ops).2 := by
    rw [session] at hs
    rw [openOn] at hu
    rw [hu] at hs
    simp only at hs
    split at hs
    · simp at hs
    · next hp =>
      split at hs
      · simp at hs
      · cases hs; exact ⟨hp, rfl⟩
  have hrun := run_room ops cap hres.1 hn
  have hr2 : ((u.limit n).run env ops).2 = (u.run env ops).2 := by rw [hrun]
  refine ⟨u.limit n, hc, hr2.trans hres.2.symm, fun c' hcl => ?_⟩
  have ht := C31_full_disk_close hs hc (by rw [hr2]; exact hres.1) hcl
  refine ⟨ht, fun he => ?_⟩
  have := congrArg List.length (ht.symm.trans he)
  rw [List.length_take] at this
  omega

/-- If there is also room for all the data, and only not for the whole index, then `close` returns: the program ends as if
all was well, on every such output. -/
theorem C32_index_wrong {env : Env} {schema : Schema} {ops : List Op} {u v : Writer} {e : Option TsFileError} {s : Session}
    (hs : session env schema ops = some s) (hu : openOn env schema none = .ok u)
    (hv : (u.run env ops).1.flushAllChunkGroups env = some (v, e)) {n : Nat}
    (hn : v.io.out.bytes.length ≤ n) (hlt : n < s.file.length) :
    ∃ c c', openOn env schema (some n) = .ok c ∧ (c.run env ops).2 = s.results
      ∧ (c.run env ops).1.close env = some c' ∧ c'.io.out.bytes = s.file.take n ∧ c'.io.out.bytes ≠ s.file := by
  have hgv := Grows.flushAll env _ hv
  have hn1 := hgv.fits hn
  obtain ⟨c, hc, hr, hcut⟩ := C32_calls_wrong hs hu hn1 hlt
  have h7 : 7 ≤ n := by
    by_contra h
    have := (C32_create env schema n).2 (by omega)
    rw [hc] at this
    simp at this
  obtain ⟨hc2, cap⟩ := open_limit hu h7
  rw [hc] at hc2
  cases hc2
  have hp : .panic ∉ (u.run env ops).2 := by
    intro hp
    rw [session] at hs
    rw [openOn] at hu
    rw [hu] at hs
    simp only [if_pos hp] at hs
    simp at hs
  have hcl : ∃ i, v.io.endFile env = some i := by
    rw [session] at hs
    rw [openOn] at hu
    rw [hu] at hs
    simp only [if_neg hp] at hs
    rw [Writer.close, hv] at hs
    simp only at hs
    cases hi : v.io.endFile env with
    | none => rw [hi] at hs; simp at hs
    | some i => exact ⟨i, rfl⟩
  obtain ⟨i, hi⟩ := hcl
  have hrun := run_room ops cap hp hn1
  have hcap : (u.run env ops).1.io.out.cap = none := (Grows.run env ops u).cap.trans cap
  have hf := flushAll_room hcap hv hn
  obtain ⟨j, hj, _⟩ := IoRel.endFile_sync env (hgv.cap.trans hcap) hn hi
  have hclose : ∃ c', ((u.limit n).run env ops).1.close env = some c' := by
    rw [hrun, Writer.close, hf]
    simp only [Writer.limit]
    rw [hj]
    exact ⟨_, rfl⟩
  obtain ⟨c', hc'⟩ := hclose
  exact ⟨_, c', hc, hr, hc', hcut c' hc'⟩

/-- **C32** is false for every short program, whatever it writes and however much room the output has beyond the seven
bytes of the head of the file: no call tells that there is no room for the file. -/
theorem C32_short_wrong {env : Env} {unsnap : Bytes → Option Bytes} (hsn : SnappyOk env unsnap) {schema : Schema}
    (hwf : schema.WF) {ops : List Op} {s : Session} (hs : session env schema ops = some s)
    (hlen : handed ops + 6 * schema.size ≤ 6100805) {n : Nat} (hn : 7 ≤ n) (hlt : n < s.file.length) :
    ∃ c, openOn env schema (some n) = .ok c ∧ (c.run env ops).2 = s.results
      ∧ ∀ c', (c.run env ops).1.close env = some c' → c'.io.out.bytes = s.file.take n ∧ c'.io.out.bytes ≠ s.file := by
  have h := hs
  rw [session] at h
  cases hu : Writer.new env schema { bytes := [], cap := none } with
  | error e => rw [hu] at h; simp at h
  | ok u =>
    rw [hu] at h
    simp only at h
    split at h
    · simp at h
    · next hp =>
      refine C32_calls_wrong hs hu ?_ hlt
      rw [C66_short hsn hwf hu hp hlen]
      exact hn

/-- The hypotheses are met by the demo session with room for 100 bytes. -/
example : ∃ c, openOn Demo.env Demo.schema (some 100) = .ok c ∧ (c.run Demo.env Demo.ops).2 = Demo.result.results :=
  (C32_short_wrong Demo.envOk.snappy Demo.indexable.wf Demo.session_eq (by decide +kernel) (n := 100) (by decide)
    (by decide +kernel)).imp fun _ h => ⟨h.1, h.2.1⟩

/-- The last byte of the demo session does not fit: `close` returns all the same. -/
example : ∃ c c', openOn Demo.env Demo.schema (some (Demo.result.file.length - 1)) = .ok c
    ∧ (c.run Demo.env Demo.ops).1.close Demo.env = some c'
    ∧ c'.io.out.bytes = Demo.result.file.take (Demo.result.file.length - 1) := by
  have hv : ((Demo.w0.run Demo.env Demo.ops).1.flushAllChunkGroups Demo.env).any
      (fun x => decide (x.1.io.out.bytes.length ≤ Demo.result.file.length - 1)) = true := by decide +kernel
  obtain ⟨⟨v, e⟩, h1, h2⟩ := (Option.any_eq_true _ _).1 hv
  obtain ⟨c, c', a1, _, a3, a4, _⟩ := C32_index_wrong Demo.session_eq Demo.reached.new h1 (of_decide_eq_true h2)
    (by decide +kernel)
  exact ⟨c, c', a1, a3, a4⟩

end TsFile
