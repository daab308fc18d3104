import Verif.Proofs.TornClose
/-! # Outputs with a buffer -/

namespace TsFile
open Spec

section
variable {σ : Type} {p : Port σ} {content disk : σ → Bytes} {env : Env} {unsnap : Bytes → Option Bytes} {schema : Schema}

/-- A scan of whole groups with an end marker and anything after it. -/
theorem scan_groups (hsch : schema.Named) {groups : List GGroup} (hok : GroupsOk env unsnap schema groups)
    (hl : ∀ g ∈ groups, ∀ c ∈ g.2, (pagesBytes env c.ms.dataType c.pages).length < 2 ^ 32) (r : Bytes) :
    scan unsnap (fileBytes env groups ++ 2 :: r) = some (groups.flatMap (groupItems env), (fileBytes env groups).length) := by
  have htake : (fileBytes env groups ++ 2 :: r).take 7 = head := rfl
  have hdrop : (fileBytes env groups ++ 2 :: r).drop 7 = groups.flatMap (groupBytes env) ++ 2 :: r := rfl
  rw [Spec.scan, if_pos htake, hdrop, scanFuel_groups]
  · simp only [Option.map_some, Option.some.injEq, Prod.mk.injEq, true_and]
    simp only [List.length_append, List.length_cons]
    omega
  · intro g hg
    have := hok.names hsch g hg
    exact ⟨this.1, fun c hc => ⟨(this.2 c hc).1, (this.2 c hc).2, hl g hg c hc⟩⟩
  · rw [List.length_append, fileBytes_length]
    simp only [List.length_cons]
    omega

theorem filePts_empty {b : List GGroup} (h : ∀ g ∈ b, g.2 = []) (d m : Bytes) : filePts b d m = [] := by
  rw [filePts, List.flatMap_eq_nil_iff]
  intro g hg
  rw [h g hg]
  split <;> rfl

/-- What is on the disk between two calls, with anything after it, holds all the points that were handed to the output. -/
theorem Whole.at_least {io : Stream.Io σ} {locs : List ChunkLoc} (h : Whole env unsnap schema content disk io locs)
    (hsch : schema.Named) (hl : ∀ l ∈ locs, (pagesBytes env l.2.2.ms.dataType l.2.2.pages).length < 2 ^ 32)
    {left : Bytes} (h1 : disk io.out.writer <+: left) (d m : Bytes) :
    locPts locs d m <+: Spec.recovered unsnap left d m := by
  obtain ⟨groups, e1, rfl, e2, a, b, rfl, e3, e4⟩ := h
  have hb : ∀ g ∈ a ++ b, ∀ c ∈ g.2, (pagesBytes env c.ms.dataType c.pages).length < 2 ^ 32 := fun g hg c hc => by
    obtain ⟨off, hm⟩ := mem_fileLocs env hg hc 7
    exact hl _ hm
  have hp : filePts (a ++ b) d m = locPts (fileLocs env 7 (a ++ b)) d m := filePts_eq_locs env _ d m
  have hab : filePts (a ++ b) d m = filePts a d m := by
    rw [filePts, List.flatMap_append]
    have := filePts_empty e3 d m
    rw [filePts] at this
    rw [this, List.append_nil]
    rfl
  rw [← hp, hab]
  rcases e4 with rfl | e4
  · exact List.nil_prefix
  · have q2 := scanPoints_prefix d m _ _ (recover_all (scan_groups hsch (groups := a) (fun g hg => e2 g (by simp [hg]))
      (fun g hg => hb g (by simp [hg])) []) (e4.trans h1)) none
    rw [scanPoints_groups] at q2
    exact q2

/-- What is handed to the output, up to the end marker and beyond, holds no more. -/
theorem Whole.at_most {io : Stream.Io σ} {locs : List ChunkLoc} (h : Whole env unsnap schema content disk io locs)
    (hsch : schema.Named) (hl : ∀ l ∈ locs, (pagesBytes env l.2.2.ms.dataType l.2.2.pages).length < 2 ^ 32)
    {left r : Bytes} (h2 : left <+: content io.out.writer ++ 2 :: r) (d m : Bytes) :
    Spec.recovered unsnap left d m <+: locPts locs d m := by
  obtain ⟨groups, e1, rfl, e2, _⟩ := h
  have hb : ∀ g ∈ groups, ∀ c ∈ g.2, (pagesBytes env c.ms.dataType c.pages).length < 2 ^ 32 := fun g hg c hc => by
    obtain ⟨off, hm⟩ := mem_fileLocs env hg hc 7
    exact hl _ hm
  have hp : filePts groups d m = locPts (fileLocs env 7 groups) d m := filePts_eq_locs env _ d m
  rw [e1] at h2
  have q1 := scanPoints_prefix d m _ _ (recover_prefix (scan_groups hsch e2 hb r) h2) none
  rw [scanPoints_groups] at q1
  rw [← hp]
  exact q1

theorem Whole.on_disk {io : Stream.Io σ} {locs : List ChunkLoc} (h : Whole env unsnap schema content disk io locs)
    (hsch : schema.Named) (hl : ∀ l ∈ locs, (pagesBytes env l.2.2.ms.dataType l.2.2.pages).length < 2 ^ 32)
    {left r : Bytes} (h1 : disk io.out.writer <+: left) (h2 : left <+: content io.out.writer ++ 2 :: r) (d m : Bytes) :
    Spec.recovered unsnap left d m = locPts locs d m :=
  (h.at_most hsch hl h2 d m).eq_of_length_le (h.at_least hsch hl h1 d m).length_le

/-- Short chunks. -/
theorem chunks_short {D : Bytes} {locs : List ChunkLoc} (h : LocsOk env unsnap schema D locs) {k : Nat}
    (hk : ∀ d m, (locPts locs d m).length ≤ k) (hk' : k ≤ 190000000) :
    ∀ l ∈ locs, (pagesBytes env l.2.2.ms.dataType l.2.2.pages).length < 2 ^ 32 := by
  intro l hl
  obtain ⟨_, _, _, hc, _⟩ := h l hl
  have e1 := pagesBytes_le env hc.pages hc.full
  have e2 := hk l.1 l.2.2.name
  have e3 : l.2.2.points.length ≤ (locPts locs l.1 l.2.2.name).length := by
    have hm : l.2 ∈ locsIn locs l.1 l.2.2.name := List.mem_map.2 ⟨l, List.mem_filter.2 ⟨hl, by simp⟩, rfl⟩
    rw [locPts, List.length_flatMap]
    exact le_sum_of_mem (fun l : Nat × GChunk => l.2.points.length) hm
  rw [GChunk.points] at e3
  omega

/-- The marker after the data. -/
theorem endFile_marker (hf : Faithful p content) {io io' : Stream.Io σ} (hc : io.out.Counts content)
    (h : io.endFile env p = some io') : ∃ r, content io'.out.writer = content io.out.writer ++ 2 :: r := by
  obtain ⟨out, h1, h2⟩ := endFile_after hf.buffering.along h
  have h3 := perform_faithful hf _ (by simp [Call.Small]) hc h1
  obtain ⟨r, hr⟩ := h2
  exact ⟨r, by rw [← hr, h3]; simp [Call.bytes]⟩

theorem offered_sublist_recs (ops : List Op) : ∀ rs, (offered ops rs).Sublist (ops.flatMap Op.recs) := by
  induction ops with
  | nil => intro rs; cases rs <;> exact List.nil_sublist _
  | cons op ops ih =>
    intro rs
    cases rs with
    | nil => cases op <;> exact List.nil_sublist _
    | cons r rs =>
      rw [offered_cons, List.flatMap_cons]
      exact (handedBy_sublist op r).append (ih rs)

/-- The writer between two calls, on an output with a buffer. -/
theorem run_buffered (hsn : SnappyOk env unsnap) (hwf : schema.WF) (hp : Buffering p content disk) {s0 : σ} (h0 : content s0 = [])
    {w0 : Stream.Writer σ} (hnew : Stream.Writer.new env p schema s0 = some (.ok w0)) (ops : List Op)
    (hpan : Res.panic ∉ (w0.run env p ops).2) (hall : (ops.flatMap Op.recs).length ≤ 190000000)
    (hF : (content (w0.run env p ops).1.io.out.writer).length < 2 ^ 64) :
    ∃ locs buf, Torn env unsnap false schema content (w0.run env p ops).1 locs buf (fun _ _ => 0)
      ∧ Whole env unsnap schema content disk (w0.run env p ops).1.io locs
      ∧ (∀ d m, (locPts locs d m ++ buf d m).length ≤ 190000000) := by
  obtain ⟨t0, o0⟩ := new_torn (unsnap := unsnap) hwf hp.toFaithful h0 hnew (fun _ _ => 0)
  obtain ⟨new1, buf1, t1, s1, o1⟩ := run_any hsn hwf hp.toKeeps ops t0 (by simp) (fun _ => hp.toFaithful)
    (fun d m => by
      have : (series (ops.flatMap Op.recs) d m).length ≤ (ops.flatMap Op.recs).length := by
        rw [series_length]; exact List.length_filter_le _ _
      simp only [plus, List.nil_append]
      omega) hpan hF
  rw [List.nil_append] at t1
  refine ⟨new1, buf1, t1.good, by simpa using o1 disk hp (o0 disk), fun d m => ?_⟩
  have e1 := (s1 d m).length_le
  have e2 := (offered_sublist_recs ops (w0.run env p ops).2).length_le
  have e3 : (series (offered ops (w0.run env p ops).2) d m).length ≤ (offered ops (w0.run env p ops).2).length := by
    rw [series_length]; exact List.length_filter_le _ _
  simp only [plus, List.nil_append] at e1
  omega

/-- The same when `close` has moved everything to the output. -/
theorem flush_buffered (hsn : SnappyOk env unsnap) (hwf : schema.WF) (hp : Buffering p content disk) {w w' : Stream.Writer σ}
    {locs : List ChunkLoc} {buf : Bytes → Bytes → List Point} (ht : Torn env unsnap false schema content w locs buf (fun _ _ => 0))
    (ho : Whole env unsnap schema content disk w.io locs) (hb : ∀ d m, (locPts locs d m ++ buf d m).length ≤ 190000000)
    {e : Option TsFileError} (hw : w.flushAllChunkGroups env p = some (w', e))
    (hF : (content w'.io.out.writer).length < 2 ^ 64) :
    ∃ locs' buf', Torn env unsnap false schema content w' locs' buf' (fun _ _ => 0)
      ∧ Whole env unsnap schema content disk w'.io locs' ∧ (∀ d m, (locPts locs' d m ++ buf' d m).length ≤ 190000000) := by
  obtain ⟨new, buf', t, s, o⟩ := flushAll_any hsn hwf hp.toKeeps ht (by simp) (fun _ => hp.toFaithful)
    (fun d m => by
      have := hb d m
      rw [List.length_append] at this
      omega) hw hF
  refine ⟨_, buf', t, o disk hp ho, fun d m => ?_⟩
  have e1 := (s d m).length_le
  have e2 := hb d m
  rw [locPts_append]
  simp only [List.length_append] at e1 e2 ⊢
  omega

end

end TsFile
