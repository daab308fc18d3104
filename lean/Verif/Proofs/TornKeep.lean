import Verif.Proofs.TornClose
/-! # Once the output works again, nothing more is lost -/

namespace TsFile
open Spec

section
variable {σ : Type} {p : Port σ} {content : σ → Bytes} {env : Env} {unsnap : Bytes → Option Bytes} {schema : Schema} {bad : Bool}

theorem flushAll_kept (hsn : SnappyOk env unsnap) (hwf : schema.WF) (hf : Faithful p content) {w w' : Stream.Writer σ}
    {locs : List ChunkLoc} {buf : Bytes → Bytes → List Point} {n : Bytes → Bytes → Nat}
    (h : Torn env unsnap bad schema content w locs buf n) (hn : bad = true → ∀ d m, n d m < 3000)
    (hlen : ∀ d m, (buf d m).length < 2 ^ 32) {e : Option TsFileError}
    (hw : w.flushAllChunkGroups env p = some (w', e)) (hF : (content w'.io.out.writer).length < 2 ^ 64) :
    (w.recordCount = 0 ∧ w' = w)
    ∨ (w'.recordCount = 0 ∧ ∃ new, Torn env unsnap false schema content w' (locs ++ new) (fun _ _ => []) (fun _ _ => 0)
        ∧ (∀ d m, schema.Has d m → locPts new d m = buf d m)) := by
  rw [Stream.Writer.flushAllChunkGroups] at hw
  split at hw
  · cases h1 : Stream.Writer.flushLoop env p w.groupWriters w.io w.nonAlignedLastTimeMap with
    | none => rw [h1] at hw; cases hw
    | some r =>
      obtain ⟨gs, io, lm, e1⟩ := r
      rw [h1] at hw
      cases e1 with
      | some e1 =>
        cases hw
        obtain ⟨_, _, _, _, _, _, _, j6, _⟩ := flushLoop_any hsn hf.toKeeps hn hlen _ h.sorted h.devices h.io h1 hF
        cases (j6 _ hf.buffering).1
      | none =>
        cases hw
        obtain ⟨new, buf', j1, _, _, _, _, _, j7⟩ := flushLoop_any hsn hf.toKeeps hn hlen _ h.sorted h.devices h.io h1 hF
        obtain ⟨k1, k2, k3⟩ := newGroupWriters_torn (env := env) (unsnap := unsnap) (bad := false) hwf (fun _ _ => 0)
        refine .inr ⟨rfl, new, ⟨h.schema_eq, j1, ?_, ?_, ?_⟩, ?_⟩
        · simp only [Stream.Writer.reset, h.schema_eq]; exact k1
        · simp only [Stream.Writer.reset, h.schema_eq]; exact k2
        · simp only [Stream.Writer.reset, h.schema_eq]; exact k3
        · intro d m hm
          refine j7 hf d ((h.keys d).2 ?_) m hm
          obtain ⟨ms, _, q1, _⟩ := hm
          rw [q1]; rfl
  · rename_i hz
    cases hw
    refine .inl ⟨?_, rfl⟩
    apply BitVec.eq_of_toNat_eq
    simpa using hz

/-- A step of memory checking: nothing but the time of the next check changes, or everything is flushed. -/
theorem checkMemory_kept (hsn : SnappyOk env unsnap) (hwf : schema.WF) (hf : Faithful p content) {w w' : Stream.Writer σ}
    {locs : List ChunkLoc} {buf : Bytes → Bytes → List Point} {n : Bytes → Bytes → Nat}
    (h : Torn env unsnap bad schema content w locs buf n) (hn : bad = true → ∀ d m, n d m < 3000)
    (hlen : ∀ d m, (buf d m).length < 2 ^ 32)
    (hw : w.checkMemorySize env p = some w') (hF : (content w'.io.out.writer).length < 2 ^ 64) :
    (w'.recordCount = w.recordCount ∧ w'.io = w.io ∧ Torn env unsnap bad schema content w' locs buf n)
    ∨ (w'.recordCount = 0 ∧ ∃ new, Torn env unsnap false schema content w' (locs ++ new) (fun _ _ => []) (fun _ _ => 0)
        ∧ (∀ d m, schema.Has d m → locPts new d m = buf d m)) := by
  have triv : ∀ k, (Stream.Writer.recordCount { w with recordCountForNextMemCheck := k }) = w.recordCount
      ∧ (Stream.Writer.io { w with recordCountForNextMemCheck := k }) = w.io
      ∧ Torn env unsnap bad schema content { w with recordCountForNextMemCheck := k } locs buf n :=
    fun k => ⟨rfl, rfl, h.schema_eq, h.io, h.sorted, h.keys, h.devices⟩
  rw [Stream.Writer.checkMemorySize] at hw
  split at hw
  · simp only at hw
    split at hw
    · cases hw
    · generalize TsFile.Writer.nextMemCheck w.recordCountForNextMemCheck w.memSize = k at hw
      split at hw
      · rw [Option.map_eq_some_iff] at hw
        obtain ⟨⟨w1, e⟩, h1, h5⟩ := hw
        dsimp only at h5
        subst h5
        have h3 := flushAll_kept hsn hwf hf (triv k).2.2 hn hlen h1 hF
        rcases h3 with ⟨a, b⟩ | h3
        · left
          rw [b]
          exact triv k
        · exact .inr h3
      · rw [Option.some.injEq] at hw
        left
        rw [← hw]
        exact triv k
  · rw [Option.some.injEq] at hw
    left
    rw [← hw]
    exact ⟨rfl, rfl, h⟩

/-- What a call stored. -/
def acceptedBy (op : Op) (r : Res Unit) : List Rec := if r = .ok () then op.recs else []

theorem accepted_cons (op : Op) (ops : List Op) (r : Res Unit) (rs : List (Res Unit)) :
    accepted (op :: ops) (r :: rs) = acceptedBy op r ++ accepted ops rs := rfl

/-- A row that is taken as a whole has only series of the schema, and counts them all. -/
theorem group_write_count {d : Bytes} {g g' : GroupWriter} {buf : Bytes → Bytes → List Point} {n : Bytes → Bytes → Nat}
    (h : LooseDev env unsnap bad schema buf n (d, g)) {m : Bytes} {t : W64} {v : IoTDBValue} {k : W32}
    (hw : g.write env m t v = (g', .ok k)) : k = 1 ∧ schema.Has d m := by
  have hcw := checkIsHistory_chunks g m t
  rw [GroupWriter.write] at hw
  rcases hck : g.checkIsHistoryData m t with ⟨g1, b⟩
  rw [hck] at hcw hw
  simp only at hcw
  cases b with
  | false => cases hw
  | true =>
    simp only at hw
    cases hg : BMap.get? m g1.chunkWriters with
    | none => rw [hg] at hw; cases hw
    | some c =>
      rw [hg] at hw
      simp only at hw
      cases hc : c.write env t v with
      | err e => rw [hc] at hw; cases hw
      | panic => rw [hc] at hw; cases hw
      | ok r =>
        obtain ⟨c', k'⟩ := r
        rw [hc] at hw
        cases hw
        obtain ⟨ms, a1, a2, a3, a4⟩ := h
        simp only at a1 a4
        refine ⟨?_, ?_⟩
        · rw [ChunkWriter.write] at hc
          split at hc
          · cases hc
          · split at hc
            · cases hc
            · split at hc
              · cases hc
              · cases hc; rfl
        · have hk := (a4 m).1 (List.mem_map.2 ⟨_, BMap.mem_of_get? (by rw [hcw] at hg; exact hg), rfl⟩)
          obtain ⟨sch, hs⟩ := Option.isSome_iff_exists.1 hk
          exact ⟨ms, sch, a1, hs⟩


theorem group_writeMany_kept (hsn : SnappyOk env unsnap) {d : Bytes} (t : W64) (vs : List (Bytes × IoTDBValue)) {g g' : GroupWriter}
    {buf : Bytes → Bytes → List Point} {n : Bytes → Bytes → Nat} (h : LooseDev env unsnap bad schema buf n (d, g))
    (hn : bad = true → ∀ d' m', more n (vs.map (fun q => ⟨d, q.1, t, q.2⟩)) d' m' < 3000) {k k' : W32}
    (hw : GroupWriter.writeMany env t vs k g = (g', .ok k')) :
    LooseDev env unsnap bad schema (plus buf (vs.map (fun q => ⟨d, q.1, t, q.2⟩))) (more n (vs.map (fun q => ⟨d, q.1, t, q.2⟩))) (d, g')
      ∧ k' = k + BitVec.ofNat 32 vs.length ∧ ∀ q ∈ vs, schema.Has d q.1 := by
  induction vs generalizing g buf n k with
  | nil =>
    rw [GroupWriter.writeMany] at hw
    cases hw
    refine ⟨?_, by simp, by simp⟩
    rw [List.map_nil, plus_nil]
    exact h.mono (fun d m => more_le n _ d m)
  | cons e vs ih =>
    obtain ⟨m, v⟩ := e
    have hn1 : bad = true → ∀ d' m', more n [⟨d, m, t, v⟩] d' m' < 3000 := by
      intro hb d' m'
      have := hn hb d' m'
      rw [List.map_cons, ← List.singleton_append, ← more_append] at this
      exact Nat.lt_of_le_of_lt (more_le _ _ d' m') this
    have h1 := group_write_any hsn h m t v hn1
    rw [GroupWriter.writeMany] at hw
    rcases hg : g.write env m t v with ⟨g1, r⟩
    rw [hg] at h1 hw
    cases r with
    | ok k1 =>
      obtain ⟨c1, c2⟩ := group_write_count h hg
      simp only at h1 hw
      have h2 := ih h1 (by
        intro hb d' m'
        have := hn hb d' m'
        rw [List.map_cons, ← List.singleton_append, ← more_append] at this
        exact this) hw
      obtain ⟨l1, l2, l3⟩ := h2
      rw [plus_append, more_append] at l1
      refine ⟨l1, ?_, ?_⟩
      · rw [l2, c1, List.length_cons, BitVec.add_assoc]
        congr 1
        apply BitVec.eq_of_toNat_eq
        simp [BitVec.toNat_add, Nat.add_comm]
      · intro q hq
        rcases List.mem_cons.1 hq with rfl | hq
        · exact c2
        · exact l3 q hq
    | err e => cases hw
    | panic => cases hw

/-- A call on an output that works: its points are taken (all of them if the call succeeds), and either they are held with the
others, or everything held is now in the file. -/
theorem step_kept (hsn : SnappyOk env unsnap) (hwf : schema.WF) (hf : Faithful p content) {w : Stream.Writer σ}
    {locs : List ChunkLoc} {buf : Bytes → Bytes → List Point} {n : Bytes → Bytes → Nat}
    (h : Torn env unsnap bad schema content w locs buf n) (op : Op) (hn : bad = true → ∀ d m, more n op.recs d m < 3000)
    (hlen : ∀ d m, (plus buf op.recs d m).length < 2 ^ 32)
    (hp : (w.step env p op).2 ≠ .panic) (hF : (content (w.step env p op).1.io.out.writer).length < 2 ^ 64) :
    ∃ l, (acceptedBy op (w.step env p op).2).Sublist l ∧ l.Sublist (handedBy op (w.step env p op).2)
      ∧ (∀ r ∈ acceptedBy op (w.step env p op).2, schema.Has r.device r.measurement)
      ∧ (((w.step env p op).1.io = w.io ∧ Torn env unsnap bad schema content (w.step env p op).1 locs (plus buf l) (more n op.recs)
          ∧ (w.step env p op).1.recordCount = w.recordCount + BitVec.ofNat 32 (acceptedBy op (w.step env p op).2).length)
        ∨ ((w.step env p op).1.recordCount = 0 ∧ ∃ new, Torn env unsnap false schema content (w.step env p op).1 (locs ++ new) (fun _ _ => []) (fun _ _ => 0)
          ∧ ∀ d m, schema.Has d m → locPts new d m = plus buf l d m)) := by
  have hmono : Torn env unsnap bad schema content w locs (plus buf []) (more n op.recs) := by
    rw [plus_nil]; exact h.mono (fun d m => more_le n _ d m)
  cases op with
  | write d m t v =>
    simp only [Stream.Writer.step, Stream.Writer.write] at hp hF ⊢
    cases hg : BMap.get? d w.groupWriters with
    | none => exact ⟨[], by simp [acceptedBy], List.nil_sublist _, by simp [acceptedBy], .inl ⟨rfl, hmono, by simp [acceptedBy]⟩⟩
    | some g =>
      rw [hg] at hp hF
      simp only at hp hF ⊢
      have h1 := group_write_any hsn (h.devices _ (BMap.mem_of_get? hg)) m t v hn
      rcases hgw : g.write env m t v with ⟨g', r⟩
      rw [hgw] at h1 hp hF
      cases r with
      | panic => exact absurd rfl hp
      | err e =>
        simp only at h1 hp hF ⊢
        have h2 := h.insert hg (l := []) (by simp) (g' := g') (by rw [plus_nil]; exact h1.mono (fun d m => more_le n _ d m)) w.recordCount
        have h3 := h2.mono (n' := more n [⟨d, m, t, v⟩]) (fun d m => by simp only [more, series]; simp)
        refine ⟨[], by simp [acceptedBy], List.nil_sublist _, by simp [acceptedBy], .inl ⟨?_, h3, by simp [acceptedBy]⟩⟩
        trivial
      | ok k =>
        obtain ⟨hcnt, hhas⟩ := group_write_count (h.devices _ (BMap.mem_of_get? hg)) hgw
        simp only at h1 hp hF ⊢
        have h2 := h.insert hg (l := [⟨d, m, t, v⟩]) (by simp) h1 (w.recordCount + k)
        cases hc : Stream.Writer.checkMemorySize env p { w with groupWriters := w.groupWriters.insert d g', recordCount := w.recordCount + k } with
        | none => rw [hc] at hp; exact absurd rfl hp
        | some w2 =>
          rw [hc] at hF
          simp only at hF ⊢
          have h3 := checkMemory_kept hsn hwf hf h2 hn hlen hc hF
          refine ⟨[⟨d, m, t, v⟩], by simp [acceptedBy, Op.recs], by simp [handedBy], by simpa [acceptedBy, Op.recs] using hhas, ?_⟩
          rcases h3 with ⟨a1, a2, a3⟩ | h3
          · refine .inl ⟨a2, a3, ?_⟩
            rw [a1, hcnt]
            simp [acceptedBy, Op.recs]
          · exact .inr h3
  | writeMany d t vs =>
    simp only [Stream.Writer.step, Stream.Writer.writeMany] at hp hF ⊢
    cases hg : BMap.get? d w.groupWriters with
    | none => exact ⟨[], by simp [acceptedBy], List.nil_sublist _, by simp [acceptedBy], .inl ⟨rfl, hmono, by simp [acceptedBy]⟩⟩
    | some g =>
      rw [hg] at hp hF
      simp only at hp hF ⊢
      have hp1 : (GroupWriter.writeMany env t vs 0 g).2 ≠ .panic := by
        intro hc
        rcases hgw : GroupWriter.writeMany env t vs 0 g with ⟨g', r⟩
        rw [hgw] at hc hp
        simp only at hc
        subst hc
        exact hp rfl
      obtain ⟨l, l1, l2⟩ := group_writeMany_any hsn t vs (h.devices _ (BMap.mem_of_get? hg)) hn 0 hp1
      have hle : ∀ d' m', more n l d' m' ≤ more n (Op.writeMany d t vs).recs d' m' := by
        intro d' m'
        exact Nat.add_le_add_left (series_sublist l1.sublist d' m').length_le _
      have hdev : ∀ r ∈ l, r.device = d := by
        intro r hr
        obtain ⟨q, _, rfl⟩ := List.mem_map.1 (l1.subset hr)
        rfl
      rcases hgw : GroupWriter.writeMany env t vs 0 g with ⟨g', r⟩
      rw [hgw] at l2 hp hF
      cases r with
      | panic => exact absurd rfl hp
      | err e =>
        simp only at l2 hp hF ⊢
        have h2 := (h.insert hg (l := l) hdev l2 w.recordCount).mono hle
        refine ⟨l, by simp [acceptedBy], l1.sublist, by simp [acceptedBy], .inl ⟨?_, h2, by simp [acceptedBy]⟩⟩
        trivial
      | ok k =>
        obtain ⟨m1, m2, m3⟩ := group_writeMany_kept hsn t vs (h.devices _ (BMap.mem_of_get? hg)) hn hgw
        simp only at hp hF ⊢
        have h2 := h.insert hg (l := vs.map (fun q => (⟨d, q.1, t, q.2⟩ : Rec))) (by
          intro r hr
          obtain ⟨q, _, rfl⟩ := List.mem_map.1 hr
          rfl) m1 (w.recordCount + k)
        cases hc : Stream.Writer.checkMemorySize env p { w with groupWriters := w.groupWriters.insert d g', recordCount := w.recordCount + k } with
        | none => rw [hc] at hp; exact absurd rfl hp
        | some w2 =>
          rw [hc] at hF
          simp only at hF ⊢
          have h3 := checkMemory_kept hsn hwf hf h2 hn hlen hc hF
          refine ⟨vs.map (fun q => (⟨d, q.1, t, q.2⟩ : Rec)), by simp [acceptedBy, Op.recs], by simp [handedBy, Op.recs], by
            simp only [acceptedBy, Op.recs, if_true]
            intro r hr
            obtain ⟨q, hq, rfl⟩ := List.mem_map.1 hr
            exact m3 q hq, ?_⟩
          rcases h3 with ⟨a1, a2, a3⟩ | h3
          · refine .inl ⟨a2, a3, ?_⟩
            rw [a1, m2]
            simp [acceptedBy, Op.recs]
          · exact .inr h3

/-! ## The count of records -/

theorem write_ok_one (g : GroupWriter) (m : Bytes) (t : W64) (v : IoTDBValue) {g' : GroupWriter} {k : W32}
    (hw : g.write env m t v = (g', .ok k)) : k = 1 := by
  rw [GroupWriter.write] at hw
  rcases hck : g.checkIsHistoryData m t with ⟨g1, b⟩
  rw [hck] at hw
  cases b with
  | false => cases hw
  | true =>
    simp only at hw
    cases hg : BMap.get? m g1.chunkWriters with
    | none => rw [hg] at hw; cases hw
    | some c =>
      rw [hg] at hw
      simp only at hw
      cases hc : c.write env t v with
      | err e => rw [hc] at hw; cases hw
      | panic => rw [hc] at hw; cases hw
      | ok r =>
        obtain ⟨c', k'⟩ := r
        rw [hc] at hw
        cases hw
        rw [ChunkWriter.write] at hc
        split at hc
        · cases hc
        · split at hc
          · cases hc
          · split at hc
            · cases hc
            · cases hc; rfl

theorem writeMany_ok_count (t : W64) (vs : List (Bytes × IoTDBValue)) (g : GroupWriter) {g' : GroupWriter} {k k' : W32}
    (hw : GroupWriter.writeMany env t vs k g = (g', .ok k')) : k'.toNat ≤ k.toNat + vs.length := by
  induction vs generalizing g k with
  | nil => rw [GroupWriter.writeMany] at hw; cases hw; simp
  | cons e vs ih =>
    obtain ⟨m, v⟩ := e
    rw [GroupWriter.writeMany] at hw
    rcases hg : g.write env m t v with ⟨g1, r⟩
    rw [hg] at hw
    cases r with
    | ok k1 =>
      have h1 := write_ok_one g m t v hg
      have h2 := ih g1 hw
      subst h1
      rw [BitVec.toNat_add] at h2
      have h3 := Nat.mod_le (k.toNat + (1 : W32).toNat) (2 ^ 32)
      have h4 : (1 : W32).toNat = 1 := rfl
      rw [List.length_cons]
      omega
    | err e => cases hw
    | panic => cases hw

theorem flushAll_count {w w' : Stream.Writer σ} {e : Option TsFileError} (hw : w.flushAllChunkGroups env p = some (w', e)) :
    w'.recordCount.toNat ≤ w.recordCount.toNat := by
  rw [Stream.Writer.flushAllChunkGroups] at hw
  split at hw
  · cases h1 : Stream.Writer.flushLoop env p w.groupWriters w.io w.nonAlignedLastTimeMap with
    | none => rw [h1] at hw; cases hw
    | some r =>
      obtain ⟨gs, io, lm, e1⟩ := r
      rw [h1] at hw
      cases e1 with
      | some e1 => cases hw; exact Nat.le_refl _
      | none => cases hw; exact Nat.zero_le _
  · cases hw; exact Nat.le_refl _

theorem checkMemory_count {w w' : Stream.Writer σ} (hw : w.checkMemorySize env p = some w') :
    w'.recordCount.toNat ≤ w.recordCount.toNat := by
  rw [Stream.Writer.checkMemorySize] at hw
  split at hw
  · simp only at hw
    split at hw
    · cases hw
    · generalize TsFile.Writer.nextMemCheck w.recordCountForNextMemCheck w.memSize = k at hw
      split at hw
      · rw [Option.map_eq_some_iff] at hw
        obtain ⟨⟨w1, e⟩, h1, h5⟩ := hw
        dsimp only at h5
        subst h5
        have h2 := flushAll_count h1
        exact h2
      · rw [Option.some.injEq] at hw
        rw [← hw]
        exact Nat.le_refl _
  · rw [Option.some.injEq] at hw
    rw [← hw]
    exact Nat.le_refl _

theorem step_count (w : Stream.Writer σ) (op : Op) :
    (w.step env p op).1.recordCount.toNat ≤ w.recordCount.toNat + op.recs.length := by
  cases op with
  | write d m t v =>
    simp only [Stream.Writer.step, Stream.Writer.write]
    cases hg : BMap.get? d w.groupWriters with
    | none => exact Nat.le_add_right _ _
    | some g =>
      simp only
      rcases hgw : g.write env m t v with ⟨g', r⟩
      cases r with
      | panic => exact Nat.le_add_right _ _
      | err e => exact Nat.le_add_right _ _
      | ok k =>
        have h1 := write_ok_one g m t v hgw
        simp only [Op.recs, List.length_cons, List.length_nil]
        have h2 : (w.recordCount + k).toNat ≤ w.recordCount.toNat + 1 := by
          subst h1
          rw [BitVec.toNat_add]
          exact Nat.mod_le _ _
        cases hc : Stream.Writer.checkMemorySize env p { w with groupWriters := w.groupWriters.insert d g', recordCount := w.recordCount + k } with
        | none => exact h2
        | some w2 =>
          have h3 := checkMemory_count hc
          exact Nat.le_trans h3 h2
  | writeMany d t vs =>
    simp only [Stream.Writer.step, Stream.Writer.writeMany]
    cases hg : BMap.get? d w.groupWriters with
    | none => exact Nat.le_add_right _ _
    | some g =>
      simp only
      rcases hgw : GroupWriter.writeMany env t vs 0 g with ⟨g', r⟩
      cases r with
      | panic => exact Nat.le_add_right _ _
      | err e => exact Nat.le_add_right _ _
      | ok k =>
        have h1 := writeMany_ok_count t vs g hgw
        simp only [Op.recs, List.length_map]
        have h2 : (w.recordCount + k).toNat ≤ w.recordCount.toNat + vs.length := by
          rw [BitVec.toNat_add]
          have := Nat.mod_le (w.recordCount.toNat + k.toNat) (2 ^ 32)
          have h0 : (0 : W32).toNat = 0 := rfl
          omega
        cases hc : Stream.Writer.checkMemorySize env p { w with groupWriters := w.groupWriters.insert d g', recordCount := w.recordCount + k } with
        | none => exact h2
        | some w2 =>
          have h3 := checkMemory_count hc
          exact Nat.le_trans h3 h2

theorem run_count (ops : List Op) (w : Stream.Writer σ) :
    (w.run env p ops).1.recordCount.toNat ≤ w.recordCount.toNat + (ops.flatMap Op.recs).length := by
  induction ops generalizing w with
  | nil => simp [Stream.Writer.run]
  | cons op ops ih =>
    simp only [Stream.Writer.run, List.flatMap_cons, List.length_append]
    have h1 := step_count (env := env) (p := p) w op
    have h2 := ih (w.step env p op).1
    omega

/-! ## A phase on an output that works -/

/-- What a phase did to the points: `base` is what was held when it began, `new` the chunks it wrote, `buf` what is held now,
`acc` the points of the successful calls, `off` those handed over. -/
structure Kept (schema : Schema) (base buf : Bytes → Bytes → List Point) (count : W32) (new : List ChunkLoc) (acc off : List Rec) : Prop where
  has : ∀ r ∈ acc, schema.Has r.device r.measurement
  total : ∀ d m, schema.Has d m → ∃ x, locPts new d m ++ buf d m = base d m ++ x ∧ (series acc d m).Sublist x ∧ x.Sublist (series off d m)
  idle : count = 0 → ∀ d m, schema.Has d m → ∃ a b, locPts new d m = a ++ b ∧ a.Sublist (base d m) ∧ (series acc d m).Sublist b
    ∧ b.Sublist (series off d m)

theorem locPts_nil (d m : Bytes) : locPts [] d m = [] := by simp [locPts, locsIn]

theorem Kept.start (base : Bytes → Bytes → List Point) (count : W32) : Kept schema base base count [] [] [] :=
  ⟨by simp, fun d m _ => ⟨[], by simp [locPts_nil], by simp [series], by simp [series]⟩,
    fun _ d m _ => ⟨[], [], by simp [locPts_nil], by simp, by simp [series], by simp [series]⟩⟩

/-- The points are held. -/
theorem Kept.hold {base buf : Bytes → Bytes → List Point} {count : W32} {new : List ChunkLoc} {acc off : List Rec}
    (h : Kept schema base buf count new acc off) {a l o : List Rec} (hal : a.Sublist l) (hlo : l.Sublist o)
    (ha : ∀ r ∈ a, schema.Has r.device r.measurement) (hc : count.toNat + a.length < 2 ^ 32) :
    Kept schema base (plus buf l) (count + BitVec.ofNat 32 a.length) new (acc ++ a) (off ++ o) := by
  refine ⟨?_, ?_, ?_⟩
  · intro r hr
    rcases List.mem_append.1 hr with hr | hr
    · exact h.has r hr
    · exact ha r hr
  · intro d m hm
    obtain ⟨x, x1, x2, x3⟩ := h.total d m hm
    refine ⟨x ++ series l d m, ?_, ?_, ?_⟩
    · rw [plus, ← List.append_assoc, x1, List.append_assoc]
    · rw [series_append]; exact x2.append (series_sublist hal d m)
    · rw [series_append]; exact x3.append (series_sublist hlo d m)
  · intro h0 d m hm
    have h1 := congrArg BitVec.toNat h0
    rw [BitVec.toNat_add, BitVec.toNat_ofNat, Nat.mod_eq_of_lt (a := a.length) (by omega), Nat.mod_eq_of_lt hc] at h1
    have h2 : (0 : W32).toNat = 0 := rfl
    rw [h2] at h1
    have ha0 : a = [] := List.length_eq_zero_iff.1 (by omega)
    have hc0 : count = 0 := BitVec.eq_of_toNat_eq (by rw [h2]; omega)
    obtain ⟨x, y, x1, x2, x3, x4⟩ := h.idle hc0 d m hm
    refine ⟨x, y, x1, x2, ?_, ?_⟩
    · rw [ha0, List.append_nil]; exact x3
    · rw [series_append]; exact x4.trans (List.sublist_append_left _ _)

/-- Everything held goes to the file. -/
theorem Kept.flushed {base buf : Bytes → Bytes → List Point} {count : W32} {new : List ChunkLoc} {acc off : List Rec}
    (h : Kept schema base buf count new acc off) {new' : List ChunkLoc} (hn : ∀ d m, schema.Has d m → locPts new' d m = buf d m) (c : W32) :
    Kept schema base (fun _ _ => []) c (new ++ new') acc off := by
  have ht : ∀ d m, schema.Has d m → ∃ x, locPts (new ++ new') d m = base d m ++ x ∧ (series acc d m).Sublist x ∧ x.Sublist (series off d m) := by
    intro d m hm
    obtain ⟨x, x1, x2⟩ := h.total d m hm
    refine ⟨x, ?_, x2⟩
    rw [locPts_append, hn d m hm, x1]
  refine ⟨h.has, ?_, ?_⟩
  · intro d m hm
    obtain ⟨x, x1, x2⟩ := ht d m hm
    exact ⟨x, by rw [List.append_nil]; exact x1, x2⟩
  · intro _ d m hm
    obtain ⟨x, x1, x2, x3⟩ := ht d m hm
    exact ⟨_, x, x1, List.Sublist.refl _, x2, x3⟩

theorem run_kept (hsn : SnappyOk env unsnap) (hwf : schema.WF) (hf : Faithful p content) (ops : List Op) {w : Stream.Writer σ}
    {locs new0 : List ChunkLoc} {base buf : Bytes → Bytes → List Point} {n : Bytes → Bytes → Nat} {acc off : List Rec}
    (h : Torn env unsnap bad schema content w (locs ++ new0) buf n)
    (hk : Kept schema base buf w.recordCount new0 acc off)
    (hn : bad = true → ∀ d m, more n (ops.flatMap Op.recs) d m < 3000)
    (hc : w.recordCount.toNat + (ops.flatMap Op.recs).length < 2 ^ 32)
    (hlen : ∀ d m, (plus buf (ops.flatMap Op.recs) d m).length < 2 ^ 32)
    (hp : Res.panic ∉ (w.run env p ops).2) (hF : (content (w.run env p ops).1.io.out.writer).length < 2 ^ 64) :
    ∃ new buf' b', Torn env unsnap b' schema content (w.run env p ops).1 (locs ++ new) buf' (more n (ops.flatMap Op.recs))
      ∧ (b' = false ∨ b' = bad ∧ (w.run env p ops).1.io = w.io)
      ∧ Kept schema base buf' (w.run env p ops).1.recordCount new (acc ++ accepted ops (w.run env p ops).2)
          (off ++ offered ops (w.run env p ops).2)
      ∧ (∀ d m, (buf' d m).length ≤ (plus buf (ops.flatMap Op.recs) d m).length) := by
  induction ops generalizing w new0 buf n acc off bad with
  | nil =>
    refine ⟨new0, buf, bad, ?_, .inr ⟨rfl, rfl⟩, ?_, ?_⟩
    · simpa [Stream.Writer.run] using h.mono (fun d m => more_le n _ d m)
    · simpa [Stream.Writer.run, accepted, offered] using hk
    · intro d m; simp [plus]
  | cons op ops ih =>
    simp only [Stream.Writer.run, List.mem_cons, not_or] at hp hF ⊢
    rw [List.flatMap_cons] at hn hlen hc ⊢
    rw [List.length_append] at hc
    rw [← more_append] at hn ⊢
    have hg := run_grows (env := env) hf.toKeeps ops (w.step env p op).1
    have hc1 := (step_grows (env := env) hf.toKeeps w op h.io.counts).1
    have hl1 := (hg hc1).2.length_le
    have hcnt := step_count (env := env) (p := p) w op
    have hacc : (acceptedBy op (w.step env p op).2).length ≤ op.recs.length := by
      rw [acceptedBy]; split <;> simp
    rw [offered_cons, accepted_cons, ← List.append_assoc, ← List.append_assoc]
    obtain ⟨l, l1, l2, l3, l4⟩ := step_kept hsn hwf hf h op (fun hb d m => Nat.lt_of_le_of_lt (more_le _ _ d m) (hn hb d m))
      (fun d m => by
        have := hlen d m
        simp only [plus, series_append, List.length_append] at this ⊢
        omega) (fun hc => hp.1 hc.symm) (by omega)
    have hlr : l.Sublist op.recs := l2.trans (handedBy_sublist op _)
    have hlm : ∀ d m, (plus buf l d m).length ≤ (plus buf op.recs d m).length := by
      intro d m
      simp only [plus, List.length_append]
      exact Nat.add_le_add_left (series_sublist hlr d m).length_le _
    have hk1 := hk.hold l1 l2 l3 (by omega)
    rcases l4 with ⟨a1, a2, a3⟩ | ⟨a1, new, a2, a3⟩
    · rw [← a3] at hk1
      obtain ⟨new, buf', b', b1, b2, b3, b4⟩ := ih a2 hk1 hn (by omega) (fun d m => by
          have h1 := hlen d m
          have h2 := hlm d m
          simp only [plus, series_append, List.length_append] at h1 h2 ⊢
          omega) hp.2 hF
      refine ⟨new, buf', b', b1, ?_, b3, ?_⟩
      · rcases b2 with b2 | ⟨b2, b5⟩
        · exact .inl b2
        · exact .inr ⟨b2, b5.trans a1⟩
      · intro d m
        have h1 := b4 d m
        have h2 := hlm d m
        simp only [plus, series_append, List.length_append] at h1 h2 ⊢
        omega
    · have hk2 := hk1.flushed a3 (w.step env p op).1.recordCount
      have a2' : Torn env unsnap false schema content (w.step env p op).1 (locs ++ (new0 ++ new)) (fun _ _ => []) (more n op.recs) := by
        rw [← List.append_assoc]; exact a2.good
      obtain ⟨new2, buf', b', b1, b2, b3, b4⟩ := ih a2' hk2 (by simp) (by omega) (fun d m => by
          have h1 := hlen d m
          simp only [plus, series_append, List.length_append, List.length_nil] at h1 ⊢
          omega) hp.2 hF
      refine ⟨new2, buf', b', b1, ?_, b3, ?_⟩
      · rcases b2 with b2 | ⟨b2, b5⟩
        · exact .inl b2
        · exact .inl b2
      · intro d m
        have h1 := b4 d m
        simp only [plus, series_append, List.length_append, List.length_nil] at h1 ⊢
        omega

/-- The flush of `close`: afterwards the chunks hold a part of what was held when the phase began, then the points of the phase. -/
theorem Kept.closed (hsn : SnappyOk env unsnap) (hwf : schema.WF) (hf : Faithful p content) {w w' : Stream.Writer σ}
    {locs new : List ChunkLoc} {base buf : Bytes → Bytes → List Point} {n : Bytes → Bytes → Nat} {acc off : List Rec}
    (h : Torn env unsnap bad schema content w (locs ++ new) buf n) (hk : Kept schema base buf w.recordCount new acc off)
    (hn : bad = true → ∀ d m, n d m < 3000) (hlen : ∀ d m, (buf d m).length < 2 ^ 32) {e : Option TsFileError}
    (hw : w.flushAllChunkGroups env p = some (w', e)) (hF : (content w'.io.out.writer).length < 2 ^ 64) :
    ∃ new', IoOk env unsnap schema content w'.io (locs ++ new')
      ∧ ∀ d m, ∃ a b, locPts new' d m = a ++ b ∧ a.Sublist (base d m) ∧ (series acc d m).Sublist b ∧ b.Sublist (series off d m) := by
  have hnot : ∀ (new' : List ChunkLoc), LocsOk env unsnap schema (content w'.io.out.writer) (locs ++ new') → ∀ d m, ¬ schema.Has d m →
      ∃ a b, locPts new' d m = a ++ b ∧ a.Sublist (base d m) ∧ (series acc d m).Sublist b ∧ b.Sublist (series off d m) := by
    intro new' hok d m hm
    refine ⟨[], [], ?_, List.nil_sublist _, ?_, List.nil_sublist _⟩
    · rw [List.append_nil, locPts, List.flatMap_eq_nil_iff]
      intro x hx
      exfalso
      apply hm
      simp only [locsIn, List.mem_map, List.mem_filter, decide_eq_true_eq] at hx
      obtain ⟨l, ⟨hl, e1, e2⟩, -⟩ := hx
      obtain ⟨ms, q1, q2, -⟩ := hok l (List.mem_append_right _ hl)
      rw [e1] at q1
      rw [e2] at q2
      exact ⟨ms, _, q1, q2⟩
    · have : series acc d m = [] := by
        simp only [series, List.map_eq_nil_iff, List.filter_eq_nil_iff, decide_eq_true_eq]
        intro r hr hc
        apply hm
        have := hk.has r hr
        rw [hc.1, hc.2] at this
        exact this
      rw [this]
  rcases flushAll_kept hsn hwf hf h hn hlen hw hF with ⟨a, b⟩ | ⟨_, new', a, b⟩
  · rw [b] at hnot ⊢
    refine ⟨new, h.io, fun d m => ?_⟩
    by_cases hm : schema.Has d m
    · exact hk.idle a d m hm
    · exact hnot new h.io.ok d m hm
  · have hk2 := hk.flushed b 0
    have hio := a.io
    rw [List.append_assoc] at hio
    refine ⟨new ++ new', hio, fun d m => ?_⟩
    by_cases hm : schema.Has d m
    · exact hk2.idle rfl d m hm
    · exact hnot _ hio.ok d m hm

end

end TsFile
