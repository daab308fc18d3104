import Verif.Spec.Blocks
import Verif.Props.ReadBack
import Verif.Proofs.CloseAny
/-! # The blocks of a file: C68 -/

namespace TsFile
open Spec

theorem newGroupWriters_devices (env : Env) {schema : Schema} (hwf : schema.WF) :
    ((Writer.newGroupWriters env schema).map Prod.fst).Perm (schema.map Prod.fst)
    ∧ ((Writer.newGroupWriters env schema).map Prod.fst).Pairwise (· < ·) := by
  have hs : BMap.Sorted (Writer.newGroupWriters env schema) := BMap.sorted_ofList _
  constructor
  · refine (List.perm_ext_iff_of_nodup hs.nodup hwf.1).2 fun d => ?_
    obtain ⟨_, h2, _⟩ := newGroupWriters_rep env some schema hwf AState.init rfl rfl
    rw [h2, look_eq, BMap.get?_isSome_iff]
  · rw [List.pairwise_map]
    exact hs.imp (fun h => (bytesLt_iff _ _).1 h)

theorem mem_series {l : List Rec} {r : Rec} (h : r ∈ l) : (r.timestamp, r.value) ∈ series l r.device r.measurement := by
  rw [series]
  exact List.mem_map.2 ⟨r, List.mem_filter.2 ⟨h, by simp⟩, rfl⟩

theorem chunkPts_unique {cs : List GChunk} (h : (cs.map GChunk.name).Pairwise (fun a b => bytesLt a b = true)) {c : GChunk}
    (hc : c ∈ cs) : chunkPts cs c.name = c.points := by
  induction cs with
  | nil => simp at hc
  | cons x cs ih =>
    rw [List.map_cons, List.pairwise_cons] at h
    have hsplit : chunkPts (x :: cs) c.name = (if x.name = c.name then x.points else []) ++ chunkPts cs c.name := by
      simp [chunkPts]
    rw [hsplit]
    rcases List.mem_cons.1 hc with rfl | hc
    · rw [if_pos rfl]
      have : chunkPts cs c.name = [] := by
        rw [chunkPts, List.flatMap_eq_nil_iff]
        intro y hy
        rw [if_neg]
        intro e
        exact bytesLt_ne (h.1 _ (List.mem_map.2 ⟨y, hy, rfl⟩)) e.symm
      rw [this, List.append_nil]
    · rw [if_neg (bytesLt_ne (h.1 _ (List.mem_map.2 ⟨c, hc, rfl⟩))), ih h.2 hc]
      rfl

theorem filePts_unique {gs : List GGroup} (h : (gs.map Prod.fst).Nodup) {g : GGroup} (hg : g ∈ gs) (m : Bytes) :
    filePts gs g.1 m = chunkPts g.2 m := by
  induction gs with
  | nil => simp at hg
  | cons x gs ih =>
    rw [List.map_cons, List.nodup_cons] at h
    have hsplit : filePts (x :: gs) g.1 m = (if x.1 = g.1 then chunkPts x.2 m else []) ++ filePts gs g.1 m := by
      simp [filePts]
    rw [hsplit]
    rcases List.mem_cons.1 hg with rfl | hg
    · rw [if_pos rfl]
      have : filePts gs g.1 m = [] := by
        rw [filePts, List.flatMap_eq_nil_iff]
        intro y hy
        rw [if_neg]
        intro e
        exact h.1 (List.mem_map.2 ⟨y, hy, e⟩)
      rw [this, List.append_nil]
    · rw [if_neg (fun e => h.1 (List.mem_map.2 ⟨g, hg, e.symm⟩)), ih h.2 hg]
      rfl

/-- The groups of a flush are a block. -/
theorem isBlock_of_part {env : Env} {unsnap : Bytes → Option Bytes} {schema : Schema} (hwf : schema.WF) {part : List GGroup}
    (hok : GroupsOk env unsnap schema part) {b : List Rec}
    (hn : part.map Prod.fst = (Writer.newGroupWriters env schema).map Prod.fst)
    (hp : ∀ d m, filePts part d m = series b d m) :
    IsBlock schema b (part.map (fun g => (g.1, g.2.map (GChunk.toSpec env)))) := by
  obtain ⟨h1, h2⟩ := newGroupWriters_devices env hwf
  have hm : (part.map (fun g => (g.1, g.2.map (GChunk.toSpec env)))).map Prod.fst = part.map Prod.fst := by
    simp [Function.comp_def]
  have hnd : (part.map Prod.fst).Nodup := by rw [hn]; exact h1.nodup_iff.2 hwf.1
  refine ⟨by rw [hm, hn]; exact h1, by rw [hm, hn]; exact h2, ?_, ?_, ?_⟩
  · intro g' hg'
    obtain ⟨g, hg, rfl⟩ := List.mem_map.1 hg'
    obtain ⟨ms, _, _, h5⟩ := hok g hg
    have : (g.2.map (GChunk.toSpec env)).map Chunk.measurement = g.2.map GChunk.name := by
      rw [List.map_map]; rfl
    rw [this]
    exact h5.imp (fun h => (bytesLt_iff _ _).1 h)
  · intro g' hg' c' hc'
    obtain ⟨g, hg, rfl⟩ := List.mem_map.1 hg'
    obtain ⟨c, hc, rfl⟩ := List.mem_map.1 hc'
    obtain ⟨ms, _, h4, h5⟩ := hok g hg
    rw [GChunk.toSpec_points]
    constructor
    · rw [← hp]
      show c.points = filePts part g.1 c.name
      rw [filePts_unique hnd hg, chunkPts_unique h5 hc]
    · have hk := (h4 c hc).2
      obtain ⟨pg, hpg⟩ := List.exists_mem_of_ne_nil _ hk.ne
      have hpn := (hk.pages pg hpg).ne
      obtain ⟨q, hq⟩ := List.exists_mem_of_ne_nil _ hpn
      intro e
      have : q ∈ c.points := List.mem_flatten.2 ⟨pg.pts, List.mem_map.2 ⟨pg, hpg, rfl⟩, hq⟩
      rw [e] at this
      simp at this
  · intro r hr
    have h3 := mem_series hr
    rw [← hp, filePts, List.mem_flatMap] at h3
    obtain ⟨g, hg, h4⟩ := h3
    split at h4
    · next e =>
      rw [chunkPts, List.mem_flatMap] at h4
      obtain ⟨c, hc, h5⟩ := h4
      split at h5
      · next e' => exact ⟨_, List.mem_map.2 ⟨g, hg, rfl⟩, e, _, List.mem_map.2 ⟨c, hc, rfl⟩, e'⟩
      · simp at h5
    · simp at h4

namespace Spec

/-- The bursts of a state. -/
structure AState.Flat (a : AState) : Prop where
  flat : a.bursts.flatten = a.stored
  ne : ∀ b ∈ a.bursts, b ≠ []
  le : a.counted ≤ a.pending.length

theorem AState.Flat.flush {a : AState} (h : a.Flat) : a.flush.Flat := by
  rw [AState.flush]
  split
  · exact h
  · next h0 =>
    refine ⟨by simp [h.flat], fun b hb => ?_, Nat.le_refl _⟩
    rcases List.mem_append.1 hb with hb | hb
    · exact h.ne b hb
    · rw [List.mem_singleton.1 hb]
      intro e
      have := h.le
      rw [e] at this
      simp at this
      exact h0 this

theorem AState.run_flat (schema : Schema) (l : List (Op × Bool)) (a : AState) (h : a.Flat) : (a.run schema l).1.Flat := by
  induction l generalizing a with
  | nil => exact h
  | cons e l ih =>
    obtain ⟨op, f⟩ := e
    rw [AState.run]
    refine ih _ ?_
    have hx : (a.exec schema op).1.Flat := by
      refine ⟨by rw [exec_bursts, h.flat, (exec_cases schema a op).1], by rw [exec_bursts]; exact h.ne, ?_⟩
      have hle := h.le
      rcases (exec_cases schema a op).2 with ⟨_, h1, h2⟩ | ⟨_, h1, h2⟩
      · rw [h1, h2, List.length_append]; omega
      · rw [h1]
        cases op with
        | write d m t v =>
          have h2 : (a.exec schema (.write d m t v)).1.pending = a.pending := h2
          rw [h2]; exact hle
        | writeMany d t vs =>
          obtain ⟨k, _, h2⟩ : ∃ k, k ≤ vs.length ∧ (a.exec schema (.writeMany d t vs)).1.pending
            = a.pending ++ (Op.writeMany d t (vs.take k)).recs := h2
          rw [h2, List.length_append]; omega
    rw [AState.step]
    cases f
    · exact hx
    · exact hx.flush

end Spec

section
variable {env : Env} {unsnap : Bytes → Option Bytes} {schema : Schema} {ops : List Op} {s : Session}

/-- **C68.** A scan of a closed file finds a sequence of blocks, one for each flush, and each with the points of that flush. -/
theorem C68_blocks (he : EnvOk env unsnap) (hsch : schema.Named) (hs : session env schema ops = some s) (hw : s.Within ops) :
    ∃ items stop blocks, scan unsnap s.file = some (items, stop)
      ∧ items = blocks.flatten.flatMap Group.items
      ∧ List.Forall₂ (IsBlock schema) (burstsBy schema ops s.grown) blocks := by
  obtain ⟨c⟩ := session_outlined he hsch hs hw
  obtain ⟨parts, hg, hf⟩ := c.blocks
  refine ⟨_, _, parts.map (fun part => part.map (fun g => (g.1, g.2.map (GChunk.toSpec env)))),
    c.layout.scan hsch c.ok c.fits, ?_, ?_⟩
  · rw [hg, ← List.map_flatten, List.flatMap_map]
    congr 1
    funext g
    simp [groupItems, Group.items]
  · have hok : ∀ part ∈ parts, GroupsOk env unsnap schema part := by
      intro part hpart g hgp
      exact c.ok g (by rw [hg]; exact List.mem_flatten.2 ⟨part, hpart, hgp⟩)
    clear hg
    revert hf hok
    generalize burstsBy schema ops s.grown = bs
    intro hf hok
    induction hf with
    | nil => exact .nil
    | cons h _ ih =>
      rw [List.map_cons]
      exact .cons (isBlock_of_part hsch.wf (hok _ (by simp)) h.1 h.2) (ih (fun p hp => hok p (by simp [hp])))

/-- **C68**, what is flushed at a time: the bursts together are the stored points, in order, and none of them is empty. -/
theorem C68_bursts (schema : Schema) (ops : List Op) (grown : List Nat) :
    (burstsBy schema ops grown).flatten = storedBy schema ops grown ∧ ∀ b ∈ burstsBy schema ops grown, b ≠ [] := by
  rw [burstsBy, storedBy]
  have h := AState.run_flat schema (ops.zip (grown.map (fun n => decide (0 < n)))) AState.init
    ⟨rfl, fun b hb => absurd hb (by simp [AState.init]), Nat.le_refl _⟩
  exact ⟨h.flush.flat, h.flush.ne⟩

/-- **C68**, what a user may not expect: a flush writes a chunk group also for the devices that have no points; such a group
has no chunks. -/
theorem C68_empty_groups (he : EnvOk env unsnap) (hsch : schema.Named) (hs : session env schema ops = some s)
    (hw : s.Within ops) {d : Bytes} (hd : d ∈ schema.map Prod.fst) {b : List Rec} (hb : b ∈ burstsBy schema ops s.grown)
    (hno : ∀ r ∈ b, r.device ≠ d) :
    ∃ items stop before after, scan unsnap s.file = some (items, stop) ∧ items = before ++ .group d :: after
      ∧ ∀ c, after.head? ≠ some (.chunk c) := by
  obtain ⟨items, stop, blocks, h1, h2, h3⟩ := C68_blocks he hsch hs hw
  obtain ⟨block, hbl, his⟩ : ∃ block ∈ blocks, IsBlock schema b block := by
    clear h2
    revert hb h3
    generalize burstsBy schema ops s.grown = bs
    intro hb h3
    revert hb
    induction h3 with
    | nil => simp
    | cons h _ ih =>
      intro hb
      rcases List.mem_cons.1 hb with rfl | hb
      · exact ⟨_, by simp, h⟩
      · obtain ⟨x, hx, h⟩ := ih hb
        exact ⟨x, by simp [hx], h⟩
  obtain ⟨g, hg, hgd⟩ := List.mem_map.1 (his.devices.mem_iff.2 hd)
  subst hgd
  have hnil : g.2 = [] := by
    by_contra hne
    obtain ⟨c, hc⟩ := List.exists_mem_of_ne_nil _ hne
    obtain ⟨e1, e2⟩ := his.points g hg c hc
    refine e2 ?_
    rw [e1, series, List.map_eq_nil_iff, List.filter_eq_nil_iff]
    intro r hr
    simp [hno r hr]
  obtain ⟨pre, post, hsplit⟩ := List.append_of_mem (List.mem_flatten.2 ⟨block, hbl, hg⟩)
  refine ⟨items, stop, pre.flatMap Group.items, post.flatMap Group.items, h1, ?_, ?_⟩
  · rw [h2, hsplit]
    simp [Group.items, hnil]
  · intro c
    cases post with
    | nil => simp
    | cons x post => simp [Group.items]

end

/-! ## The hypotheses are met -/

example := C68_blocks Demo.envOk Demo.indexable.toNamed Demo.session_eq Demo.within

/-- One flush; two devices. -/
example : (burstsBy Demo.schema Demo.ops Demo.result.grown).length = 1 := by decide +kernel

namespace Demo

/-- Only one of the two devices is written. -/
def oneOps : List Op := [.write (str "root.sg.d1") (str "s1") 10 (.INT 7)]
def oneResult : Session := (session env schema oneOps).getD ⟨[], [], 0, []⟩
theorem oneSession_eq : session env schema oneOps = some oneResult := by
  have : (session env schema oneOps).isSome = true := by decide +kernel
  rw [oneResult]
  cases h : session env schema oneOps with
  | none => rw [h] at this; simp at this
  | some s => rfl
theorem oneWithin : oneResult.Within oneOps := ⟨by decide +kernel, by decide +kernel, by decide +kernel, by decide +kernel⟩

end Demo

example : ∃ items stop before after, scan some Demo.oneResult.file = some (items, stop)
    ∧ items = before ++ .group (str "root.sg.d2") :: after ∧ ∀ c, after.head? ≠ some (.chunk c) :=
  C68_empty_groups Demo.envOk Demo.indexable.toNamed Demo.oneSession_eq Demo.oneWithin
    (b := [⟨str "root.sg.d1", str "s1", 10, .INT 7⟩]) (by decide +kernel) (by decide +kernel) (by decide +kernel)

example : (scan some Demo.oneResult.file).map (fun r => r.1.map (fun i => match i with | .group d => some d | .chunk _ => none))
    = some [some (str "root.sg.d1"), none, some (str "root.sg.d2")] := by decide +kernel

end TsFile
