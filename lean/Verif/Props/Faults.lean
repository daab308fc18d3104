import Verif.Proofs.Fault
import Verif.Proofs.Output
import Verif.Props.Example
/-! # Properties C30, C31, C32, C47, C51: crashes, full disks, short writes -/

namespace TsFile
open Spec

/-! ## C30: the file is append-only -/

private theorem run_append_state (env : Env) (a b : List Op) (w : Writer) :
    (w.run env (a ++ b)).1 = ((w.run env a).1.run env b).1 := by
  induction a generalizing w with
  | nil => rfl
  | cons op a ih => exact ih _

/-- On any output, with or without limit: what was written before some calls is still there, at the same place, after
them and after `close`. Panicking calls included. -/
theorem C30_append_only {env : Env} {schema : Schema} {out : Sink} {w : Writer} (_ : Writer.new env schema out = .ok w)
    (before after : List Op) :
    (w.run env before).1.io.out.bytes <+: (w.run env (before ++ after)).1.io.out.bytes
    ∧ ∀ w', (w.run env (before ++ after)).1.close env = some w' →
        (w.run env before).1.io.out.bytes <+: w'.io.out.bytes := by
  have h := Grows.run env after (w.run env before).1
  rw [← run_append_state] at h
  exact ⟨h.pre, fun w' hw' => h.pre.trans (Grows.close env _ hw').pre⟩

/-- Seen on sessions: a session that stops after some of the calls has left a beginning of the final file. -/
theorem C30_crash_prefix {env : Env} {schema : Schema} {before after : List Op} {s : Session} {w : Writer}
    (hs : session env schema (before ++ after) = some s) (hw : Writer.new env schema ⟨[], none⟩ = .ok w) :
    (w.run env before).1.io.out.bytes <+: s.file := by
  rw [session, hw] at hs
  simp only at hs
  split at hs
  · simp at hs
  · split at hs
    · simp at hs
    · next hc =>
      cases hs
      exact (C30_append_only hw before after).2 _ hc

-- the demo, stopped after each of its calls
example (k : Nat) (w : Writer) (hw : Writer.new Demo.env Demo.schema ⟨[], none⟩ = .ok w) :
    (w.run Demo.env (Demo.ops.take k)).1.io.out.bytes <+: Demo.result.file :=
  C30_crash_prefix (by rw [List.take_append_drop k]; exact Demo.session_eq) hw

/-! ## C31: a full disk truncates -/

/-- The writer on an output without limit. -/
def openOn (env : Env) (schema : Schema) (room : Option Nat) : Except TsFileError Writer :=
  Writer.new env schema { bytes := [], cap := room }

/-- An output with room for `n` bytes: creation fails exactly if the header does not fit. -/
theorem C32_create (env : Env) (schema : Schema) (n : Nat) :
    openOn env schema (some n) = .error .ioError ↔ n < 7 := by
  simp only [openOn, Writer.new, IoWriter.new]
  by_cases hn : n < 7
  · have : (⟨[], some n⟩ : Sink).ok (magic ++ [3]) = false := by
      simp only [Sink.ok, magic, List.length_nil]
      exact decide_eq_false (by simp; omega)
    simp [this, hn]
  · have : (⟨[], some n⟩ : Sink).ok (magic ++ [3]) = true := by
      simp only [Sink.ok, magic, List.length_nil]
      exact decide_eq_true (by simp; omega)
    simp [this, hn]

theorem open_rel {env : Env} {schema : Schema} {n : Nat} {u c : Writer} (hu : openOn env schema none = .ok u)
    (hc : openOn env schema (some n) = .ok c) : WRel n u c := by
  have hn : ¬ n < 7 := fun h => by
    have := (C32_create env schema n).2 h
    rw [hc] at this
    simp at this
  have hn7 : 7 ≤ n := by omega
  have hok : (⟨[], some n⟩ : Sink).ok (magic ++ [3]) = true := by
    simp only [Sink.ok, magic, List.length_nil]
    exact decide_eq_true (by simp; omega)
  simp only [openOn, Writer.new, IoWriter.new] at hu hc
  rw [hok] at hc
  simp only [Sink.ok, if_true] at hu hc
  simp only [Except.ok.injEq] at hu hc
  subst hu hc
  refine .sync rfl ?_ ?_
  · simp only [Sink.write, List.nil_append, magic, List.length_append, List.length_cons, List.length_nil]
    omega
  · simp only [IoWriter.limit, Sink.write, List.nil_append]
    rw [List.take_of_length_le]
    simp only [magic, List.length_append, List.length_cons, List.length_nil]
    omega

/-- An output that stops taking bytes after `n` bytes: whatever calls are made, it holds the first `n` bytes of what an
unlimited output would hold, as long as no call of the two runs aborts the program. -/
theorem C31_full_disk {env : Env} {schema : Schema} {n : Nat} {u c : Writer} (hu : openOn env schema none = .ok u)
    (hc : openOn env schema (some n) = .ok c) {ops : List Op} (hpu : .panic ∉ (u.run env ops).2)
    (hpc : .panic ∉ (c.run env ops).2) :
    (c.run env ops).1.io.out.bytes = (u.run env ops).1.io.out.bytes.take n :=
  ((open_rel hu hc).run ops hpu hpc).take

/-- The same for the closed file: if `close` returns on both outputs, the limited one holds the first `n` bytes of the
file of the session. -/
theorem C31_full_disk_close {env : Env} {schema : Schema} {n : Nat} {c : Writer} {ops : List Op} {s : Session}
    (hs : session env schema ops = some s) (hc : openOn env schema (some n) = .ok c)
    (hpc : .panic ∉ (c.run env ops).2) {c' : Writer} (hcc : (c.run env ops).1.close env = some c') :
    c'.io.out.bytes = s.file.take n := by
  rw [session] at hs
  cases hu : Writer.new env schema { bytes := [], cap := none } with
  | error e => rw [hu] at hs; simp at hs
  | ok u =>
    rw [hu] at hs
    simp only at hs
    split at hs
    · simp at hs
    · next hpu =>
      cases hcu : (u.run env ops).1.close env with
      | none => rw [hcu] at hs; simp at hs
      | some u' =>
        rw [hcu] at hs
        simp only [Option.some.injEq] at hs
        subst hs
        have hr := (open_rel (schema := schema) hu hc).run ops hpu hpc
        rw [Writer.close] at hcu hcc
        cases hfu : (u.run env ops).1.flushAllChunkGroups env with
        | none => rw [hfu] at hcu; simp at hcu
        | some xu =>
          cases hfc : (c.run env ops).1.flushAllChunkGroups env with
          | none => rw [hfc] at hcc; simp at hcc
          | some xc =>
            rw [hfu] at hcu
            rw [hfc] at hcc
            have hr2 := hr.flushAll (e := xu.2) (e' := xc.2) hfu hfc
            simp only at hcu hcc
            cases heu : xu.1.io.endFile env with
            | none => rw [heu] at hcu; simp at hcu
            | some iu =>
              cases hec : xc.1.io.endFile env with
              | none => rw [hec] at hcc; simp at hcc
              | some ic =>
                rw [heu] at hcu
                rw [hec] at hcc
                cases hcu
                cases hcc
                exact (WRel.endFile env hr2 heu).1 _ hec

/-- If `close` aborts while it writes the index on the limited output, then the output was full before, with the first
`n` bytes of the file of the session. -/
theorem C31_full_disk_abort {env : Env} {schema : Schema} {n : Nat} {c : Writer} {ops : List Op} {s : Session}
    (hs : session env schema ops = some s) (hc : openOn env schema (some n) = .ok c)
    (hpc : .panic ∉ (c.run env ops).2) {c2 : Writer} {e : Option TsFileError}
    (hf : (c.run env ops).1.flushAllChunkGroups env = some (c2, e)) (hcc : (c.run env ops).1.close env = none) :
    c2.io.out.bytes = s.file.take n := by
  rw [session] at hs
  cases hu : Writer.new env schema { bytes := [], cap := none } with
  | error e => rw [hu] at hs; simp at hs
  | ok u =>
    rw [hu] at hs
    simp only at hs
    split at hs
    · simp at hs
    · next hpu =>
      cases hcu : (u.run env ops).1.close env with
      | none => rw [hcu] at hs; simp at hs
      | some u' =>
        rw [hcu] at hs
        simp only [Option.some.injEq] at hs
        subst hs
        have hr := (open_rel (schema := schema) hu hc).run ops hpu hpc
        rw [Writer.close] at hcu hcc
        rw [hf] at hcc
        cases hfu : (u.run env ops).1.flushAllChunkGroups env with
        | none => rw [hfu] at hcu; simp at hcu
        | some xu =>
          rw [hfu] at hcu
          have hr2 := hr.flushAll (e := xu.2) hfu hf
          simp only at hcu hcc
          cases heu : xu.1.io.endFile env with
          | none => rw [heu] at hcu; simp at hcu
          | some iu =>
            rw [heu] at hcu
            cases hcu
            refine (WRel.endFile env hr2 heu).2 ?_
            cases hec : c2.io.endFile env with
            | none => rfl
            | some x => rw [hec] at hcc; simp at hcc

namespace Demo

/-- The demo session on an output with room for `n` bytes: the results, and the content at the end. -/
def onLimit (n : Nat) : Option (List (Res Unit) × Bytes) :=
  match openOn env schema (some n) with
  | .error _ => none
  | .ok w =>
    match (w.run env ops).1.close env with
    | none => none
    | some w' => some ((w.run env ops).2, w'.io.out.bytes)

/-- With room for 100 of its bytes. -/
theorem onLimit_100 : (onLimit 100).any (fun x =>
    decide (x.1 = result.results ∧ .panic ∉ x.1 ∧ x.2 = result.file.take 100 ∧ 100 < result.file.length)) = true := by
  decide +kernel

end Demo

/-- The hypotheses of `C31_full_disk_close` are met by the demo session with room for 100 bytes. -/
example : ∃ c c', openOn Demo.env Demo.schema (some 100) = .ok c ∧ .panic ∉ (c.run Demo.env Demo.ops).2
    ∧ (c.run Demo.env Demo.ops).1.close Demo.env = some c' := by
  obtain ⟨x, hx, hx2⟩ := (Option.any_eq_true _ _).1 Demo.onLimit_100
  have hx2 := of_decide_eq_true hx2
  rw [Demo.onLimit] at hx
  cases hc : openOn Demo.env Demo.schema (some 100) with
  | error e => rw [hc] at hx; simp at hx
  | ok c =>
    rw [hc] at hx
    simp only at hx
    cases hcl : (c.run Demo.env Demo.ops).1.close Demo.env with
    | none => rw [hcl] at hx; simp at hx
    | some c' =>
      rw [hcl] at hx
      simp only [Option.some.injEq] at hx
      subst hx
      exact ⟨c, c', rfl, hx2.2.1, hcl⟩

example (u c : Writer) (hu : openOn Demo.env Demo.schema none = .ok u) (hc : openOn Demo.env Demo.schema (some 100) = .ok c)
    (hp : .panic ∉ (u.run Demo.env Demo.ops).2) (hp' : .panic ∉ (c.run Demo.env Demo.ops).2) :
    (c.run Demo.env Demo.ops).1.io.out.bytes = (u.run Demo.env Demo.ops).1.io.out.bytes.take 100 :=
  C31_full_disk hu hc hp hp'

/-! ## C32: output errors are not reported -/

/-- In no state does a call report an output error. -/
theorem C32_never_reported (env : Env) (w : Writer) (op : Op) (e : TsFileError) (h : (w.step env op).2 = .err e) :
    e = .outOfOrderData ∨ ∃ text, e = .illegalState text := by
  have hg : ∀ (g : GroupWriter) m t v e, (g.write env m t v).2 = .err e → e = .outOfOrderData ∨ ∃ text, e = .illegalState text := by
    intro g m t v e h
    rw [GroupWriter.write] at h
    rcases hc : g.checkIsHistoryData m t with ⟨g', b⟩
    rw [hc] at h
    cases b with
    | false => simp only [Res.err.injEq] at h; exact Or.inl h.symm
    | true =>
      simp only at h
      cases hm : g'.chunkWriters.get? m with
      | none => rw [hm] at h; simp only [Res.err.injEq] at h; exact Or.inr ⟨_, h.symm⟩
      | some c =>
        rw [hm] at h
        simp only at h
        cases hw : c.write env t v <;> rw [hw] at h <;> simp at h
  have hm : ∀ vs k (g : GroupWriter) t e, (GroupWriter.writeMany env t vs k g).2 = .err e →
      e = .outOfOrderData ∨ ∃ text, e = .illegalState text := by
    intro vs
    induction vs with
    | nil => intro k g t e h; simp [GroupWriter.writeMany] at h
    | cons p vs ih =>
      intro k g t e h
      rw [GroupWriter.writeMany] at h
      rcases hw : g.write env p.1 t p.2 with ⟨g', r⟩
      rw [hw] at h
      cases r with
      | panic => simp at h
      | ok n => exact ih _ _ _ _ h
      | err e' =>
        simp only [Res.err.injEq] at h
        subst h
        exact hg g p.1 t p.2 _ (by rw [hw])
  cases op with
  | write d m t v =>
    rw [Writer.step, Writer.write] at h
    cases hd : w.groupWriters.get? d with
    | none => rw [hd] at h; simp only [Res.err.injEq] at h; exact Or.inr ⟨_, h.symm⟩
    | some g =>
      rw [hd] at h
      simp only at h
      rcases hw : g.write env m t v with ⟨g', r⟩
      rw [hw] at h
      cases r with
      | panic => simp at h
      | err e' =>
        simp only [Res.err.injEq] at h
        subst h
        exact hg g m t v _ (by rw [hw])
      | ok n =>
        simp only at h
        split at h <;> simp at h
  | writeMany d t vs =>
    rw [Writer.step, Writer.writeMany] at h
    cases hd : w.groupWriters.get? d with
    | none => rw [hd] at h; simp only [Res.err.injEq] at h; exact Or.inr ⟨_, h.symm⟩
    | some g =>
      rw [hd] at h
      simp only at h
      rcases hw : g.writeMany env t vs 0 with ⟨g', r⟩
      rw [hw] at h
      cases r with
      | panic => simp at h
      | err e' =>
        simp only [Res.err.injEq] at h
        subst h
        exact hm vs 0 g t _ (by rw [hw])
      | ok n =>
        simp only at h
        split at h <;> simp at h

/-- The property is violated: an output with room for 100 bytes takes only a part of the file, and all the calls and
`close` have the same results as on an unlimited output. -/
theorem C32_silent_wrong : ∃ (schema : Schema) (ops : List Op) (n : Nat) (s : Session) (c c' : Writer),
    session Demo.env schema ops = some s
    ∧ openOn Demo.env schema (some n) = .ok c
    ∧ (c.run Demo.env ops).2 = s.results
    ∧ (c.run Demo.env ops).1.close Demo.env = some c'
    ∧ c'.io.out.bytes ≠ s.file := by
  obtain ⟨x, hx, hx2⟩ := (Option.any_eq_true _ _).1 Demo.onLimit_100
  have hx2 := of_decide_eq_true hx2
  rw [Demo.onLimit] at hx
  cases hc : openOn Demo.env Demo.schema (some 100) with
  | error e => rw [hc] at hx; simp at hx
  | ok c =>
    rw [hc] at hx
    simp only at hx
    cases hcl : (c.run Demo.env Demo.ops).1.close Demo.env with
    | none => rw [hcl] at hx; simp at hx
    | some c' =>
      rw [hcl] at hx
      simp only [Option.some.injEq] at hx
      subst hx
      refine ⟨_, _, 100, _, c, c', Demo.session_eq, hc, hx2.1, hcl, fun h => ?_⟩
      have h1 := hx2.2.2.1
      have h2 := congrArg List.length (h.symm.trans h1)
      have h3 := hx2.2.2.2
      simp only [List.length_take] at h2
      omega

/-- What holds of C32: the creation of the writer reports that the header does not fit; later failures are never
reported, see `C32_never_reported` and `C32_silent_wrong`. -/
theorem C32_create_partial (env : Env) (schema : Schema) (n : Nat) :
    (n < 7 → openOn env schema (some n) = .error .ioError) ∧ (7 ≤ n → ∃ w, openOn env schema (some n) = .ok w) := by
  refine ⟨(C32_create env schema n).2, fun h => ?_⟩
  cases hc : openOn env schema (some n) with
  | ok w => exact ⟨w, rfl⟩
  | error e =>
    exfalso
    have he : e = .ioError := by
      simp only [openOn, Writer.new, IoWriter.new] at hc
      split at hc
      · next h1 =>
        split at h1
        · simp at h1
        · cases h1; cases hc; rfl
      · simp at hc
    subst he
    have := (C32_create env schema n).1 hc
    omega

/-! ## C47: the position of the output -/

/-- Some calls of `write` on the wrapper. -/
def WriteWrapper.writes {σ : Type} (dev : Device σ) (w : WriteWrapper σ) : List Bytes → WriteWrapper σ × List (Except IoErr Nat)
  | [] => (w, [])
  | b :: bs => (((w.write dev b).1.writes dev bs).1, (w.write dev b).2 :: ((w.write dev b).1.writes dev bs).2)

/-- For every inner writer and every sequence of writes: the inner writer gets the same calls as without the wrapper, the
caller gets its answers, and the position is the number of bytes taken (as a 64 bit number). -/
theorem C47_position {σ : Type} (dev : Device σ) (s : σ) (bufs : List Bytes) :
    ((WriteWrapper.new s).writes dev bufs).1.writer = (calls dev s bufs).1
    ∧ ((WriteWrapper.new s).writes dev bufs).2 = (calls dev s bufs).2
    ∧ ((WriteWrapper.new s).writes dev bufs).1.getPosition = BitVec.ofNat 64 (taken (calls dev s bufs).2) := by
  suffices h : ∀ (bufs : List Bytes) (w : WriteWrapper σ),
      (w.writes dev bufs).1.writer = (calls dev w.writer bufs).1
      ∧ (w.writes dev bufs).2 = (calls dev w.writer bufs).2
      ∧ (w.writes dev bufs).1.position = w.position + BitVec.ofNat 64 (taken (calls dev w.writer bufs).2) by
    have := h bufs (WriteWrapper.new s)
    exact ⟨this.1, this.2.1, this.2.2.trans (BitVec.zero_add _)⟩
  intro bufs
  induction bufs with
  | nil => intro w; exact ⟨rfl, rfl, by simp [WriteWrapper.writes, calls, taken]⟩
  | cons b bs ih =>
    intro w
    simp only [WriteWrapper.writes, calls]
    obtain ⟨h1, h2, h3⟩ := ih (w.write dev b).1
    obtain ⟨h4, h5⟩ := WriteWrapper.write_inner (dev := dev) w b
    rw [h4] at h1 h2 h3
    refine ⟨h1, by rw [h2, h5], ?_⟩
    rw [h3]
    cases hr : (dev w.writer b).2 with
    | ok n =>
      rw [WriteWrapper.write_ok hr, taken, BitVec.ofNat_add, BitVec.add_assoc]
    | error e =>
      rw [WriteWrapper.write_error hr, taken]

/-- The same for `write_all`: if the inner writer stores what it says it takes, then at every time the position is the
length of what it stores; `write_all` returns `Ok` only if all was stored, and else a beginning of the bytes was. -/
theorem C47_write_all {σ : Type} {dev : Device σ} {content : σ → Bytes} (hd : Stores dev content) (fuel : Nat)
    {w w' : WriteWrapper σ} (hw : w.getPosition = BitVec.ofNat 64 (content w.writer).length) (buf : Bytes)
    {r : Except IoErr Unit} (h : w.writeAll dev fuel buf = some (w', r)) :
    w'.getPosition = BitVec.ofNat 64 (content w'.writer).length
    ∧ (r = .ok () → content w'.writer = content w.writer ++ buf)
    ∧ ∃ c, c <+: buf ∧ content w'.writer = content w.writer ++ c :=
  WriteWrapper.writeAll_spec hd fuel hw buf h

/-- A writer that takes two bytes, then nothing because of an interrupt, and so on. -/
def Demo.bumpy : Device (Bytes × Nat) := fun s b =>
  if s.2 % 2 = 0 then ((s.1 ++ b.take 2, s.2 + 1), .ok (b.take 2).length) else ((s.1, s.2 + 1), .error .interrupted)

example : ((WriteWrapper.new ([], 0)).writes Demo.bumpy [[1, 2, 3], [4], [5, 6]]).1.getPosition = 4 := by decide

example : (WriteWrapper.new ([], 0)).writeAll Demo.bumpy 20 [1, 2, 3, 4, 5] = some (⟨5, ([1, 2, 3, 4, 5], 5)⟩, .ok ()) := by decide

/-! ## C51: the file does not depend on how the output splits the writes -/

/-- What goes through `write_all` arrives complete on every output that never fails, however few bytes it takes at a
time. -/
theorem C51_write_all {σ : Type} {dev : Device σ} {content : σ → Bytes} (hd : Stores dev content) (ha : Accepts dev)
    (w : WriteWrapper σ) (buf : Bytes) :
    ∃ w', w.writeAll dev buf.length buf = some (w', .ok ()) ∧ content w'.writer = content w.writer ++ buf := by
  obtain ⟨w', h⟩ := WriteWrapper.writeAll_accepts ha buf.length w buf (Nat.le_refl _)
  refine ⟨w', h, ?_⟩
  -- the position plays no role for the content
  suffices hs : ∀ fuel (w : WriteWrapper σ) buf w', w.writeAll dev fuel buf = some (w', .ok ()) →
      content w'.writer = content w.writer ++ buf from hs _ _ _ _ h
  intro fuel
  induction fuel with
  | zero =>
    intro w buf w' h
    rw [WriteWrapper.writeAll.eq_def] at h
    dsimp only at h
    by_cases hb : buf.isEmpty
    · rw [if_pos hb] at h
      cases h
      rw [List.isEmpty_iff.1 hb, List.append_nil]
    · rw [if_neg hb] at h; simp at h
  | succ fuel ih =>
    intro w buf w' h
    rw [WriteWrapper.writeAll.eq_def] at h
    dsimp only at h
    by_cases hb : buf.isEmpty
    · rw [if_pos hb] at h
      cases h
      rw [List.isEmpty_iff.1 hb, List.append_nil]
    · rw [if_neg hb] at h
      obtain ⟨n, hn⟩ := ha w.writer buf (fun h => hb (List.isEmpty_iff.2 h))
      rw [WriteWrapper.write_ok hn] at h
      simp only at h
      rw [ih _ _ _ h]
      simp only
      rw [(hd.ok _ _ _ hn).2, List.append_assoc, List.take_append_drop]

/-- The property is violated: the nodes of the index are written with single calls of `write`. On an output that never
fails and takes up to four bytes at a time, the file gets other bytes than on an output that takes everything. -/
theorem C51_short_writes_wrong : ∃ (dev : Device Bytes) (n : IndexNode) (w : WriteWrapper Bytes),
    Stores dev id ∧ Accepts dev
    ∧ (WriteWrapper.new []).writeNode dev 100 n = some w
    ∧ w.writer ≠ n.serialize := by
  refine ⟨chunked 4, ⟨[⟨str "s1", 7⟩], 30, .leafMeasurement⟩, ⟨13, [1, 4, 0x73, 0x31, 0, 0, 0, 0, 0, 0, 0, 0, 3]⟩,
    chunked_stores 4, chunked_accepts (by omega), by decide +kernel, by decide +kernel⟩

/-- On outputs that take everything they are offered, the nodes of the index arrive complete. -/
theorem C51_short_writes_partial {σ : Type} {dev : Device σ} {content : σ → Bytes} (hd : Stores dev content)
    (ht : TakesAll dev) (w : WriteWrapper σ) (n : IndexNode) :
    ∃ w', w.writeNode dev 1 n = some w' ∧ content w'.writer = content w.writer ++ n.serialize :=
  WriteWrapper.writeNode_takesAll hd ht Nat.one_pos w n

-- an output that takes up to four bytes at a time
example : ∃ w', (WriteWrapper.new []).writeAll (chunked 4) 7 [1, 2, 3, 4, 5, 6, 7] = some (w', .ok ())
    ∧ w'.writer = [1, 2, 3, 4, 5, 6, 7] :=
  C51_write_all (chunked_stores 4) (chunked_accepts (by omega)) _ [1, 2, 3, 4, 5, 6, 7]

/-- Such an output: `Vec<u8>`. -/
example : Stores (fun (s : Bytes) b => (s ++ b, .ok b.length)) id
    ∧ TakesAll (fun (s : Bytes) b => (s ++ b, .ok b.length)) := by
  refine ⟨⟨?_, ?_⟩, fun _ _ => rfl⟩
  · intro s b n h
    simp only [Except.ok.injEq] at h
    subst h
    exact ⟨Nat.le_refl _, by simp only [id, List.take_length]⟩
  · intro s b e h
    simp at h

/-- The model of the output used for the theorems on whole files agrees with `write_all` on an output with room for `n`
bytes. -/
theorem sink_is_write_all (n : Nat) (pos : W64) (s b : Bytes) :
    ∃ pos', (⟨pos, s⟩ : WriteWrapper Bytes).writeAll (limited n) 2 b
      = some (⟨pos', ((⟨s, some n⟩ : Sink).write b).bytes⟩, if (⟨s, some n⟩ : Sink).ok b then .ok () else .error .other) :=
  sink_limited n pos s b

end TsFile
