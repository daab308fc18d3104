import Verif.Proofs.Coarse
import Verif.Proofs.Index
import Verif.Proofs.RefStats
import Verif.Props.Blocks
/-! # The groups of a file are those of the reference writer -/

namespace TsFile
open Spec

/-! ## order -/

theorem place_perm {α : Type} (e : Bytes × α) (l : List (Bytes × α)) : (Ref.place e l).Perm (e :: l) := by
  induction l with
  | nil => exact .refl _
  | cons x l ih =>
    rw [Ref.place]
    split
    · exact .refl _
    · exact (ih.cons x).trans (.swap _ _ _)

theorem byName_perm {α : Type} (l : List (Bytes × α)) : (Ref.byName l).Perm l := by
  induction l with
  | nil => exact .refl _
  | cons x l ih => exact (place_perm x _).trans (ih.cons x)

theorem place_sorted {α : Type} (e : Bytes × α) (l : List (Bytes × α)) (h : (l.map Prod.fst).Pairwise (· < ·))
    (hne : e.1 ∉ l.map Prod.fst) : ((Ref.place e l).map Prod.fst).Pairwise (· < ·) := by
  induction l with
  | nil => simp [Ref.place]
  | cons x l ih =>
    rw [List.map_cons, List.pairwise_cons] at h
    rw [List.map_cons, List.mem_cons, not_or] at hne
    rw [Ref.place]
    split
    · next hlt =>
      rw [List.map_cons, List.pairwise_cons]
      refine ⟨?_, by rw [List.map_cons, List.pairwise_cons]; exact h⟩
      intro k hk
      rcases List.mem_cons.1 hk with rfl | hk
      · exact hlt
      · exact (bytesLt_iff _ _).1 (bytesLt_trans ((bytesLt_iff _ _).2 hlt) ((bytesLt_iff _ _).2 (h.1 k hk)))
    · next hlt =>
      rw [List.map_cons, List.pairwise_cons]
      refine ⟨?_, ih h.2 hne.2⟩
      intro k hk
      have hk' := ((place_perm e l).map Prod.fst).mem_iff.1 hk
      rw [List.map_cons, List.mem_cons] at hk'
      rcases hk' with rfl | hk'
      · by_contra hc
        refine hne.1 (bytesLt_total ?_ ?_)
        · rw [← Bool.not_eq_true, bytesLt_iff]; exact hlt
        · rw [← Bool.not_eq_true, bytesLt_iff]; exact hc
      · exact h.1 k hk'

theorem byName_sorted {α : Type} (l : List (Bytes × α)) (h : (l.map Prod.fst).Nodup) :
    ((Ref.byName l).map Prod.fst).Pairwise (· < ·) := by
  induction l with
  | nil => simp [Ref.byName]
  | cons x l ih =>
    rw [List.map_cons, List.nodup_cons] at h
    exact place_sorted x _ (ih h.2) (fun hm => h.1 (((byName_perm l).map Prod.fst).mem_iff.1 hm))

theorem sorted_ext {l l' : List Bytes} (h : l.Pairwise (· < ·)) (h' : l'.Pairwise (· < ·)) (hm : ∀ x, x ∈ l ↔ x ∈ l') : l = l' := by
  have hn : ∀ {l : List Bytes}, l.Pairwise (· < ·) → l.Nodup := fun h =>
    h.imp (fun hab => bytesLt_ne ((bytesLt_iff _ _).2 hab))
  refine List.Perm.eq_of_pairwise ?_ h h' ((List.perm_ext_iff_of_nodup (hn h) (hn h')).2 hm)
  intro a b _ _ h1 h2
  have := bytesLt_asymm ((bytesLt_iff _ _).2 h1)
  rw [(bytesLt_iff _ _).2 h2] at this
  cases this

theorem look_of_nodup {α : Type} {l : List (Bytes × α)} (h : (l.map Prod.fst).Nodup) {e : Bytes × α} (he : e ∈ l) :
    look e.1 l = some e.2 := by
  induction l with
  | nil => simp at he
  | cons x l ih =>
    obtain ⟨k, v⟩ := x
    rw [List.map_cons, List.nodup_cons] at h
    rw [look]
    rcases List.mem_cons.1 he with rfl | he
    · rw [if_pos rfl]
    · rw [if_neg (fun hk => h.1 (by rw [hk]; exact List.mem_map.2 ⟨e, he, rfl⟩)), ih h.2 he]

theorem assoc_ext {α : Type} {m l l' : List (Bytes × α)} (hk : l.map Prod.fst = l'.map Prod.fst)
    (h : ∀ e ∈ l, look e.1 m = some e.2) (h' : ∀ e ∈ l', look e.1 m = some e.2) : l = l' := by
  induction l generalizing l' with
  | nil => cases l' with
    | nil => rfl
    | cons _ _ => simp at hk
  | cons x l ih => cases l' with
    | nil => simp at hk
    | cons y l' =>
      rw [List.map_cons, List.map_cons, List.cons.injEq] at hk
      have h1 := h x (by simp)
      rw [hk.1, h' y (by simp), Option.some.injEq] at h1
      rw [ih hk.2 (fun e he => h e (by simp [he])) (fun e he => h' e (by simp [he]))]
      congr 1
      exact Prod.ext hk.1 h1.symm

/-! ## canonical groups -/

/-- The page of some points. -/
def gpage (env : Env) (ms : MeasurementSchema) (pts : List Point) : GPage :=
  ⟨pts, Ref.pageContent ms pts, (Ref.compressed env ms.compression (Ref.pageContent ms pts)).getD []⟩

/-- The chunk of some points. -/
def gchunk (env : Env) (pts : Bytes → List Point) (m : Bytes × MeasurementSchema) : GChunk :=
  ⟨m.1, m.2, (Ref.pages env m.2 (pts m.1)).map (gpage env m.2)⟩

/-- The chunk group of a device. -/
def ggroup (env : Env) (b : List Rec) (d : Bytes × List (Bytes × MeasurementSchema)) : GGroup :=
  (d.1, ((Ref.byName d.2).filter (fun m => !(series b d.1 m.1).isEmpty)).map (gchunk env (series b d.1)))

/-- The groups of a flush. -/
def gburst (env : Env) (schema : Schema) (b : List Rec) : List GGroup := (Ref.byName schema).map (ggroup env b)

variable {env : Env} {unsnap : Bytes → Option Bytes}

theorem GChunk.eq_gchunk {c : GChunk} (h : c.Ok env unsnap) (he : c.Exact env) {pts : Bytes → List Point} (hp : c.points = pts c.name) :
    c = gchunk env pts (c.name, c.ms) := by
  have hpage : ∀ g ∈ c.pages, gpage env c.ms g.pts = g := by
    intro g hg
    have h1 := (h.pages g hg).content
    have h2 := he.data g hg
    rw [h1] at h2
    obtain ⟨p, r, d⟩ := g
    simp only at h1 h2
    subst h1
    simp only [gpage, h2, Option.getD_some]
  have : c.pages = (Ref.pages env c.ms (pts c.name)).map (gpage env c.ms) := by
    rw [← hp, ← he.pages, List.map_map]
    conv_lhs => rw [← List.map_id c.pages]
    exact List.map_congr_left (fun g hg => (hpage g hg).symm)
  obtain ⟨n, ms, pages⟩ := c
  simp only at this
  simp only [gchunk, ← this]

theorem eq_gburst {schema : Schema} (hwf : schema.WF) {part : List GGroup} (hok : GroupsOk env unsnap schema part)
    (hex : ∀ g ∈ part, ∀ c ∈ g.2, c.Exact env) {b : List Rec}
    (hn : part.map Prod.fst = (Writer.newGroupWriters env schema).map Prod.fst)
    (hp : ∀ d m, filePts part d m = series b d m) : part = gburst env schema b := by
  have hib := isBlock_of_part hwf hok hn hp
  obtain ⟨h1, h2⟩ := newGroupWriters_devices env hwf
  have hnd : (part.map Prod.fst).Nodup := by rw [hn]; exact h1.nodup_iff.2 hwf.1
  have hkeys : part.map Prod.fst = (Ref.byName schema).map Prod.fst := by
    rw [hn]
    refine sorted_ext h2 (byName_sorted schema hwf.1) fun x => ?_
    rw [h1.mem_iff, ((byName_perm schema).map Prod.fst).mem_iff]
  have hone : ∀ g ∈ part, ∀ ms, look g.1 schema = some ms → g = ggroup env b (g.1, ms) := by
    intro g hg ms hms
    obtain ⟨ms', e1, e2, e3⟩ := hok g hg
    rw [hms] at e1
    cases e1
    have hnm : (ms.map Prod.fst).Nodup := hwf.2 _ (look_mem hms)
    have hpt : ∀ c ∈ g.2, c.points = series b g.1 c.name := by
      intro c hc
      rw [← hp, filePts_unique hnd hg, chunkPts_unique e3 hc]
    have hfst : g.2.map (fun c => (c.name, c.ms)) = (Ref.byName ms).filter (fun m => !(series b g.1 m.1).isEmpty) := by
      refine assoc_ext (m := ms) ?_ ?_ ?_
      · refine sorted_ext ?_ ?_ ?_
        · rw [List.map_map]
          exact e3.imp (fun h => (bytesLt_iff _ _).1 h)
        · exact ((byName_sorted ms hnm).sublist (List.filter_sublist.map _))
        · intro x
          rw [List.map_map, List.mem_map, List.mem_map]
          constructor
          · rintro ⟨c, hc, rfl⟩
            refine ⟨(c.name, c.ms), List.mem_filter.2 ⟨(byName_perm ms).mem_iff.2 (look_mem (e2 c hc).1), ?_⟩, rfl⟩
            have hne := (hib.points _ (List.mem_map.2 ⟨g, hg, rfl⟩) _ (List.mem_map.2 ⟨c, hc, rfl⟩)).2
            rw [GChunk.toSpec_points, hpt c hc] at hne
            simpa using hne
          · rintro ⟨e, he, rfl⟩
            obtain ⟨he1, he2⟩ := List.mem_filter.1 he
            have hne : series b g.1 e.1 ≠ [] := by simpa using he2
            rw [← hp, filePts_unique hnd hg] at hne
            obtain ⟨q, hq⟩ := List.exists_mem_of_ne_nil _ hne
            rw [chunkPts, List.mem_flatMap] at hq
            obtain ⟨c, hc, hq⟩ := hq
            split at hq
            · next hcn => exact ⟨c, hc, hcn⟩
            · simp at hq
      · intro e he
        obtain ⟨c, hc, rfl⟩ := List.mem_map.1 he
        exact (e2 c hc).1
      · intro e he
        exact look_of_nodup hnm ((byName_perm ms).mem_iff.1 (List.mem_filter.1 he).1)
    have : g.2 = ((Ref.byName ms).filter (fun m => !(series b g.1 m.1).isEmpty)).map (gchunk env (series b g.1)) := by
      rw [← hfst, List.map_map]
      conv_lhs => rw [← List.map_id g.2]
      exact List.map_congr_left (fun c hc => GChunk.eq_gchunk (e2 c hc).2 (hex g hg c hc) (hpt c hc))
    obtain ⟨d, cs⟩ := g
    simp only at this
    simp only [ggroup, ← this]
  have hall : part.map (fun g => (g.1, (look g.1 schema).getD [])) = Ref.byName schema := by
    refine assoc_ext (m := schema) (by rw [List.map_map]; exact hkeys) ?_ ?_
    · intro e he
      obtain ⟨g, hg, rfl⟩ := List.mem_map.1 he
      obtain ⟨ms, e1, _⟩ := hok g hg
      rw [e1]; rfl
    · intro e he
      exact look_of_nodup hwf.1 ((byName_perm schema).mem_iff.1 he)
  rw [gburst, ← hall, List.map_map]
  conv_lhs => rw [← List.map_id part]
  refine List.map_congr_left (fun g hg => ?_)
  obtain ⟨ms, e1, _⟩ := hok g hg
  have := hone g hg ms e1
  simp only [Function.comp_apply, e1, Option.getD_some, id]
  exact this

/-- The groups of the flushes. -/
theorem flatten_gburst {schema : Schema} (hwf : schema.WF) {groups : List GGroup} {bs : List (List Rec)}
    (hok : GroupsOk env unsnap schema groups) (hex : ∀ g ∈ groups, ∀ c ∈ g.2, c.Exact env)
    (hb : ∃ parts : List (List GGroup), groups = parts.flatten
      ∧ List.Forall₂ (fun part b => part.map Prod.fst = (Writer.newGroupWriters env schema).map Prod.fst
        ∧ ∀ d m, filePts part d m = series b d m) parts bs) :
    groups = bs.flatMap (gburst env schema) := by
  obtain ⟨parts, hg, hf⟩ := hb
  have hok : ∀ part ∈ parts, GroupsOk env unsnap schema part ∧ ∀ g ∈ part, ∀ x ∈ g.2, x.Exact env := by
    intro part hpart
    have : ∀ g ∈ part, g ∈ groups := fun g hgp => by rw [hg]; exact List.mem_flatten.2 ⟨part, hpart, hgp⟩
    exact ⟨fun g hgp => hok g (this g hgp), fun g hgp => hex g (this g hgp)⟩
  rw [hg]
  clear hg hex
  induction hf with
  | nil => rfl
  | @cons part b ps bs h _ ih =>
    obtain ⟨h1, h2⟩ := hok part (by simp)
    rw [List.flatten_cons, List.flatMap_cons, ih (fun p hp => hok p (by simp [hp])), ← eq_gburst hwf h1 h2 h.1 h.2]

/-- The groups of a closed file. -/
theorem Outlined.groups_eq {schema : Schema} {ops : List Op} {s : Session} (hwf : schema.WF) (c : Outlined env unsnap schema ops s) :
    c.groups = (burstsBy schema ops s.grown).flatMap (gburst env schema) := flatten_gburst hwf c.ok c.exact c.blocks

/-! ## independence of the order -/

theorem byName_congr {α : Type} {l l' : List (Bytes × α)} (h : (l.map Prod.fst).Nodup) (h' : (l'.map Prod.fst).Nodup)
    (hl : ∀ k, look k l = look k l') : Ref.byName l = Ref.byName l' := by
  have hmem : ∀ {l : List (Bytes × α)} (k : Bytes), k ∈ (Ref.byName l).map Prod.fst ↔ (look k l).isSome := by
    intro l k
    rw [((byName_perm l).map Prod.fst).mem_iff, look_eq, BMap.get?_isSome_iff]
  refine assoc_ext (m := l) (sorted_ext (byName_sorted l h) (byName_sorted l' h') fun k => ?_) ?_ ?_
  · rw [hmem, hmem, hl]
  · intro e he
    exact look_of_nodup h ((byName_perm l).mem_iff.1 he)
  · intro e he
    rw [hl]
    exact look_of_nodup h' ((byName_perm l').mem_iff.1 he)

theorem gburst_congr {schema schema' : Schema} (hwf : schema.WF) (hwf' : schema'.WF)
    (hd : ∀ d, (look d schema).isSome = (look d schema').isSome)
    (hm : ∀ d m, (look d schema).bind (look m) = (look d schema').bind (look m)) {b b' : List Rec}
    (hb : ∀ d m, series b d m = series b' d m) : gburst env schema b = gburst env schema' b' := by
  have hsb : series b = series b' := by funext d m; exact hb d m
  have hkeys : (Ref.byName schema).map Prod.fst = (Ref.byName schema').map Prod.fst := by
    refine sorted_ext (byName_sorted _ hwf.1) (byName_sorted _ hwf'.1) fun k => ?_
    rw [((byName_perm schema).map Prod.fst).mem_iff, ((byName_perm schema').map Prod.fst).mem_iff, ← BMap.get?_isSome_iff,
      ← BMap.get?_isSome_iff, ← look_eq, ← look_eq, hd]
  have hone : ∀ e ∈ schema, ∀ e' ∈ schema', e.1 = e'.1 → ggroup env b e = ggroup env b' e' := by
    rintro ⟨d, ms⟩ he ⟨d', ms'⟩ he' hde
    simp only at hde
    subst hde
    have h1 := look_of_nodup hwf.1 he
    have h2 := look_of_nodup hwf'.1 he'
    have : Ref.byName ms = Ref.byName ms' := byName_congr (hwf.2 _ he) (hwf'.2 _ he') fun m => by
      have := hm d m
      rw [h1, h2] at this
      exact this
    simp only [ggroup, this, hsb]
  rw [gburst, gburst]
  have hsub : ∀ e ∈ Ref.byName schema, e ∈ schema := fun e he => (byName_perm schema).mem_iff.1 he
  have hsub' : ∀ e ∈ Ref.byName schema', e ∈ schema' := fun e he => (byName_perm schema').mem_iff.1 he
  revert hkeys hsub hsub'
  generalize Ref.byName schema = l
  generalize Ref.byName schema' = l'
  intro hkeys hsub hsub'
  induction l generalizing l' with
  | nil => cases l' with
    | nil => rfl
    | cons _ _ => simp at hkeys
  | cons x l ih => cases l' with
    | nil => simp at hkeys
    | cons y l' =>
      rw [List.map_cons, List.map_cons, List.cons.injEq] at hkeys
      rw [List.map_cons, List.map_cons, hone x (hsub x (by simp)) y (hsub' y (by simp)) hkeys.1,
        ih l' hkeys.2 (fun e he => hsub e (by simp [he])) (fun e he => hsub' e (by simp [he]))]

theorem flatMap_gburst {schema schema' : Schema} (hwf : schema.WF) (hwf' : schema'.WF)
    (hd : ∀ d, (look d schema).isSome = (look d schema').isSome)
    (hm : ∀ d m, (look d schema).bind (look m) = (look d schema').bind (look m)) {bs bs' : List (List Rec)}
    (hb : List.Forall₂ (fun b b' => ∀ d m, series b d m = series b' d m) bs bs') :
    bs.flatMap (gburst env schema) = bs'.flatMap (gburst env schema') := by
  induction hb with
  | nil => rfl
  | cons h _ ih => rw [List.flatMap_cons, List.flatMap_cons, ih, gburst_congr hwf hwf' hd hm h]

/-! ## bytes -/

theorem mapM_some {α β γ : Type} {f : β → Option γ} {k : α → β} {g : α → γ} {l : List α} (h : ∀ x ∈ l, f (k x) = some (g x)) :
    (l.map k).mapM f = some (l.map g) := by
  induction l with
  | nil => rfl
  | cons x l ih =>
    rw [List.map_cons, List.mapM_cons, h x (by simp), ih (fun y hy => h y (by simp [hy]))]
    rfl

theorem page_bytes {ms : MeasurementSchema} {g : GPage} (h : g.Ok unsnap ms)
    (he : Ref.compressed env ms.compression g.raw = some g.data) (b : Bool) :
    Ref.page env ms b g.pts = some (g.bytes env ms.dataType b) := by
  rw [Ref.page, ← h.content, he, Option.map_some, GPage.bytes, GPage.hdr, varint_u32 h.rawLen, varint_u32 h.dataLen,
    ← statsOf_summary env ms.dataType g.pts h.typed]
  have := summary_bytes env (statsOf env ms.dataType g.pts)
  rw [statsOf_type] at this
  rw [this]

theorem chunk_bytes {c : GChunk} (h : c.Ok env unsnap) (he : c.Exact env) (hname : c.name.length < 2 ^ 31)
    (hlen : (pagesBytes env c.ms.dataType c.pages).length < 2 ^ 32) :
    Ref.chunk env c.name c.ms c.points = some (c.bytes env) := by
  have hpb : (c.pages.map (GPage.bytes env c.ms.dataType (decide (1 < c.pages.length)))).flatten = pagesBytes env c.ms.dataType c.pages := by
    obtain ⟨n, ms, pages⟩ := c
    match pages, h with
    | [], h => exact absurd rfl h.ne
    | [g], h => simp [pagesBytes]
    | g0 :: g1 :: rest, h => simp [pagesBytes, List.flatMap]
  have hps : (Ref.pages env c.ms c.points).mapM (Ref.page env c.ms (decide (1 < (Ref.pages env c.ms c.points).length)))
      = some (c.pages.map (GPage.bytes env c.ms.dataType (decide (1 < c.pages.length)))) := by
    rw [← he.pages, List.length_map]
    exact mapM_some (fun g hg => page_bytes (h.pages g hg) (he.data g hg) _)
  simp only [Ref.chunk]
  rw [hps, Option.map_some, hpb, ← he.pages, List.length_map, GChunk.bytes, GChunk.header, ChunkHeader.serialize, string_eq hname,
    varint_u32 hlen]
  have hm : ∀ m : UInt8, m ||| 0 = m := by intro m; simp
  have hmark : (if 1 < c.pages.length then ([1] : Bytes) else [5]) = [if c.pages.length ≤ 1 then 5 else 1] := by
    by_cases h1 : 1 < c.pages.length
    · rw [if_pos h1, if_neg (by omega)]
    · rw [if_neg h1, if_pos (by omega)]
  simp only [hm, hmark]
  cases c.ms.dataType <;> cases c.ms.compression <;> cases c.ms.encoding <;> rfl

theorem paging_flatten (env : Env) (ms : MeasurementSchema) (pts : List Point) :
    (Ref.paging env ms pts).full.flatten ++ (Ref.paging env ms pts).opened = pts := by
  have key : ∀ (pts : List Point) (s : Ref.Paging), (pts.foldl (Ref.Paging.add env ms) s).full.flatten
      ++ (pts.foldl (Ref.Paging.add env ms) s).opened = s.full.flatten ++ s.opened ++ pts := by
    intro pts
    induction pts with
    | nil => intro s; simp
    | cons p pts ih =>
      intro s
      rw [List.foldl_cons, ih]
      have : (Ref.Paging.add env ms s p).full.flatten ++ (Ref.Paging.add env ms s p).opened = s.full.flatten ++ s.opened ++ [p] := by
        simp only [Ref.Paging.add]
        split
        · simp
        · split
          · split <;> simp
          · simp
      rw [this]
      simp
  have := key pts ⟨[], [], 7989⟩
  simpa [Ref.paging] using this

/-- The pages of the reference hold the points. -/
theorem pages_flatten (env : Env) (ms : MeasurementSchema) (pts : List Point) : (Ref.pages env ms pts).flatten = pts := by
  have h := paging_flatten env ms pts
  simp only [Ref.pages]
  split
  · next he =>
    have : (Ref.paging env ms pts).opened = [] := by simpa using he
    rw [this, List.append_nil] at h
    exact h
  · rw [List.flatten_append]; simpa using h

theorem gchunk_points (env : Env) (pts : Bytes → List Point) (m : Bytes × MeasurementSchema) : (gchunk env pts m).points = pts m.1 := by
  rw [GChunk.points, pagesPoints, gchunk, List.map_map]
  have : GPage.pts ∘ gpage env m.2 = id := rfl
  rw [this, List.map_id]
  exact pages_flatten env m.2 (pts m.1)

/-- What is asked of the groups for their bytes to be those of the reference. -/
structure Fitting (env : Env) (unsnap : Bytes → Option Bytes) (g : GGroup) : Prop where
  device : g.1.length < 2 ^ 31
  chunks : ∀ c ∈ g.2, c.name.length < 2 ^ 31 ∧ c.Ok env unsnap ∧ c.Exact env ∧ (pagesBytes env c.ms.dataType c.pages).length < 2 ^ 32

theorem group_bytes {b : List Rec} {d : Bytes × List (Bytes × MeasurementSchema)} (h : Fitting env unsnap (ggroup env b d)) :
    Ref.group env d.1 d.2 (series b d.1) = some (groupBytes env (ggroup env b d)) := by
  have h1 := h.device
  have h2 := h.chunks
  simp only [ggroup] at h1 h2
  rw [Ref.group]
  conv_lhs => rw [← List.map_id ((Ref.byName d.2).filter (fun m => !(series b d.1 m.1).isEmpty))]
  rw [mapM_some (g := fun m => (gchunk env (series b d.1) m).bytes env) ?_]
  · rw [Option.map_some, groupBytes, ggroup, chunkGroupHeader, string_eq h1, List.flatMap_map, List.flatMap]
  · intro m hm
    obtain ⟨e1, e2, e3, e4⟩ := h2 _ (List.mem_map.2 ⟨m, hm, rfl⟩)
    have := chunk_bytes e2 e3 e1 e4
    rw [gchunk_points] at this
    exact this

theorem burst_bytes {schema : Schema} {b : List Rec} (h : ∀ g ∈ gburst env schema b, Fitting env unsnap g) :
    Ref.burst env schema b = some ((gburst env schema b).flatMap (groupBytes env)) := by
  rw [Ref.burst]
  conv_lhs => rw [← List.map_id (Ref.byName schema)]
  rw [mapM_some (g := fun d => groupBytes env (ggroup env b d)) ?_]
  · rw [Option.map_some, gburst, List.flatMap_map, List.flatMap]
  · intro d hd
    exact group_bytes (h _ (List.mem_map.2 ⟨d, hd, rfl⟩))

theorem data_bytes {schema : Schema} {bs : List (List Rec)} (h : ∀ b ∈ bs, ∀ g ∈ gburst env schema b, Fitting env unsnap g) :
    Ref.data env schema bs = some (fileBytes env (bs.flatMap (gburst env schema))) := by
  rw [Ref.data]
  conv_lhs => rw [← List.map_id bs]
  rw [mapM_some (k := id) (g := fun b => (gburst env schema b).flatMap (groupBytes env)) (fun b hb => burst_bytes (h b hb)), Option.map_some,
    fileBytes, List.flatMap_assoc, List.flatMap, magic]

/-- The data part of a closed file is that of the reference. -/
theorem Outlined.data {schema : Schema} {ops : List Op} {s : Session} (hsch : schema.Named) (c : Outlined env unsnap schema ops s) :
    Ref.data env schema (burstsBy schema ops s.grown) = some (fileBytes env c.groups) := by
  have hg := c.groups_eq hsch.wf
  rw [hg]
  refine data_bytes (unsnap := unsnap) fun b hb g hgb => ?_
  have hgm : g ∈ c.groups := by rw [hg]; exact List.mem_flatMap.2 ⟨b, hb, hgb⟩
  have hn := c.ok.names hsch g hgm
  exact ⟨hn.1, fun x hx => ⟨(hn.2 x hx).1, (hn.2 x hx).2, c.exact g hgm x hx, Coarse.fits_chunk c.fits hgm hx⟩⟩

/-- Closing depends only on the groups. -/
theorem endFile_map {io io2 : IoWriter} (h1 : io.out = io2.out) (h2 : io.chunkGroupMetadataList = io2.chunkGroupMetadataList)
    (h3 : io.timeseriesMetadataMap = io2.timeseriesMetadataMap) :
    (io.endFile env).map IoWriter.out = (io2.endFile env).map IoWriter.out := by
  have hc : io.chunkMetadataMap = io2.chunkMetadataMap := by rw [IoWriter.chunkMetadataMap, h2]; rfl
  simp only [IoWriter.endFile]
  rw [hc, h1, h3]
  split
  · rfl
  · split
    · rfl
    · split
      · rfl
      · split <;> rfl

theorem endFile_congr {io io2 a b : IoWriter} (h1 : io.out = io2.out) (h2 : io.chunkGroupMetadataList = io2.chunkGroupMetadataList)
    (h3 : io.timeseriesMetadataMap = io2.timeseriesMetadataMap) (ha : io.endFile env = some a) (hb : io2.endFile env = some b) :
    a.out = b.out := by
  have key := endFile_map (env := env) h1 h2 h3
  rw [ha, hb] at key
  simpa using key

end TsFile
