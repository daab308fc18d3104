import Verif.Proofs.Main
import Verif.Proofs.Memory
import Verif.Proofs.RefFile
import Verif.Spec.Unused
import Mathlib.Algebra.BigOperators.Group.Finset.Basic
/-! # Lemmas for C99: the writers of two schemas that differ in what no call names

The estimate of the memory in use does not see a series that no call names, so both writers flush at the same calls. -/

namespace TsFile
open Spec

/-! ## The abstract writer -/

theorem put_congr {ms ms' : List (Bytes × MeasurementSchema)} {m : Bytes} (h : look m ms = look m ms') (a : AState) (d : Bytes) (t : W64)
    (v : IoTDBValue) : a.put ms d m t v = a.put ms' d m t v := by
  unfold AState.put; rw [h]

theorem putMany_congr {ms ms' : List (Bytes × MeasurementSchema)} (vs : List (Bytes × IoTDBValue))
    (h : ∀ p ∈ vs, look p.1 ms = look p.1 ms') (a : AState) (d : Bytes) (t : W64) :
    AState.putMany ms d t vs a = AState.putMany ms' d t vs a := by
  induction vs generalizing a with
  | nil => rfl
  | cons p vs ih =>
    obtain ⟨m, v⟩ := p
    unfold AState.putMany
    rw [put_congr (h (m, v) (by simp)) a d t v]
    cases a.put ms' d m t v with
    | mk a1 r => cases r with
      | ok u => exact ih (fun p hp => h p (by simp [hp])) a1
      | err e => rfl
      | panic => rfl

theorem exec_congr {schema schema' : Schema} {op : Op} (hop : Op.SameFor schema schema' op) (a : AState) :
    a.exec schema op = a.exec schema' op := by
  obtain ⟨hd, hm⟩ := hop
  cases op with
  | write d m t v =>
    simp only [Op.device] at hd
    have hm := hm ⟨d, m, t, v⟩ (by simp [Op.recs])
    simp only [AState.exec]
    cases h1 : look d schema with
    | none => rw [h1] at hd; cases h2 : look d schema' with
      | none => rfl
      | some ms' => rw [h2] at hd; simp at hd
    | some ms => rw [h1] at hd; cases h2 : look d schema' with
      | none => rw [h2] at hd; simp at hd
      | some ms' =>
        have hm : look m ms = look m ms' := by simpa only [h1, h2, Option.bind_some] using hm
        simp only
        rw [put_congr hm a d t v]
  | writeMany d t vs =>
    simp only [Op.device] at hd
    simp only [AState.exec]
    cases h1 : look d schema with
    | none => rw [h1] at hd; cases h2 : look d schema' with
      | none => rfl
      | some ms' => rw [h2] at hd; simp at hd
    | some ms => rw [h1] at hd; cases h2 : look d schema' with
      | none => rw [h2] at hd; simp at hd
      | some ms' =>
        have hm : ∀ p ∈ vs, look p.1 ms = look p.1 ms' := by
          intro p hp
          have := hm ⟨d, p.1, t, p.2⟩ (List.mem_map.2 ⟨p, hp, rfl⟩)
          simpa only [h1, h2, Option.bind_some] using this
        simp only
        rw [putMany_congr vs hm a d t]

theorem run_congr {schema schema' : Schema} (l : List (Op × Bool)) (h : ∀ e ∈ l, Op.SameFor schema schema' e.1)
    (a : AState) : a.run schema l = a.run schema' l := by
  induction l generalizing a with
  | nil => rfl
  | cons e l ih =>
    obtain ⟨op, fl⟩ := e
    have h1 := exec_congr (h (op, fl) (by simp)) a
    simp only [AState.run, AState.step]
    rw [h1, ih (fun e he => h e (by simp [he]))]

/-! Stored points are points of the calls. -/

theorem put_of {P : Rec → Prop} {ms : List (Bytes × MeasurementSchema)} {a : AState} (h : ∀ r ∈ a.stored ++ a.pending, P r)
    {d m : Bytes} {t : W64} {v : IoTDBValue} (hp : P ⟨d, m, t, v⟩) :
    ∀ r ∈ (a.put ms d m t v).1.stored ++ (a.put ms d m t v).1.pending, P r := by
  unfold AState.put
  split
  · exact h
  · split
    · exact h
    · split
      · intro r hr
        simp only [← List.append_assoc, List.mem_append, List.mem_singleton] at hr
        rcases hr with hr | hr
        · exact h r (List.mem_append.2 hr)
        · exact hr ▸ hp
      · exact h

theorem putMany_of {P : Rec → Prop} {ms : List (Bytes × MeasurementSchema)} {d : Bytes} {t : W64} (vs : List (Bytes × IoTDBValue))
    (hp : ∀ p ∈ vs, P ⟨d, p.1, t, p.2⟩) : ∀ {a : AState}, (∀ r ∈ a.stored ++ a.pending, P r) →
    ∀ r ∈ (AState.putMany ms d t vs a).1.stored ++ (AState.putMany ms d t vs a).1.pending, P r := by
  induction vs with
  | nil => intro a h; exact h
  | cons p vs ih =>
    intro a h
    obtain ⟨m, v⟩ := p
    have h1 := put_of (ms := ms) h (hp (m, v) (by simp))
    rw [AState.putMany]
    rcases hr : a.put ms d m t v with ⟨a', r⟩
    rw [hr] at h1
    cases r with
    | ok _ => exact ih (fun p hm => hp p (by simp [hm])) h1
    | err _ => exact h1
    | panic => exact h1

theorem exec_of {P : Rec → Prop} {schema : Schema} {op : Op} (hop : ∀ r ∈ Op.recs op, P r) {a : AState}
    (h : ∀ r ∈ a.stored ++ a.pending, P r) :
    ∀ r ∈ (a.exec schema op).1.stored ++ (a.exec schema op).1.pending, P r := by
  cases op with
  | write d m t v =>
    rw [AState.exec]
    cases hd : look d schema with
    | none => exact h
    | some ms =>
      have h2 := put_of (ms := ms) h (hop ⟨d, m, t, v⟩ (by simp [Op.recs]))
      dsimp only
      rcases hr : a.put ms d m t v with ⟨a', r⟩
      rw [hr] at h2
      cases r <;> exact h2
  | writeMany d t vs =>
    rw [AState.exec]
    cases hd : look d schema with
    | none => exact h
    | some ms =>
      have h2 := putMany_of (ms := ms) (d := d) (t := t) vs (fun p hm => hop _ (List.mem_map.2 ⟨p, hm, rfl⟩)) h
      dsimp only
      rcases hr : AState.putMany ms d t vs a with ⟨a', r⟩
      rw [hr] at h2
      cases r <;> exact h2

theorem flush_of {P : Rec → Prop} {a : AState} (h : ∀ r ∈ a.stored ++ a.pending, P r) :
    ∀ r ∈ a.flush.stored ++ a.flush.pending, P r := by
  rw [AState.flush]
  split
  · exact h
  · simpa using h

theorem run_of {P : Rec → Prop} {schema : Schema} (l : List (Op × Bool)) (hp : ∀ e ∈ l, ∀ r ∈ Op.recs e.1, P r) :
    ∀ {a : AState}, (∀ r ∈ a.stored ++ a.pending, P r) →
    ∀ r ∈ (a.run schema l).1.flush.stored, P r := by
  induction l with
  | nil => intro a h r hr; exact flush_of h r (List.mem_append_left _ hr)
  | cons e l ih =>
    intro a h
    obtain ⟨op, fl⟩ := e
    rw [AState.run]
    refine ih (fun e he => hp e (by simp [he])) ?_
    have h1 : ∀ r ∈ (a.exec schema op).1.stored ++ (a.exec schema op).1.pending, P r := exec_of (hp (op, fl) (by simp)) h
    rw [AState.step]
    dsimp only
    split
    · exact flush_of h1
    · exact h1

theorem mem_storedBy {schema : Schema} {ops : List Op} {grown : List Nat} {r : Rec} (h : r ∈ storedBy schema ops grown) :
    ∃ op ∈ ops, r ∈ Op.recs op :=
  run_of (P := fun r => ∃ op ∈ ops, r ∈ Op.recs op) _ (fun e he r hr => ⟨e.1, (List.of_mem_zip he).1, hr⟩)
    (by simp [AState.init]) r h

/-! ## The groups of a flush -/

/-- The chunks of a device depend on the series with points only. -/
theorem filter_byName_congr {l l' : List (Bytes × MeasurementSchema)} (h : (l.map Prod.fst).Nodup) (h' : (l'.map Prod.fst).Nodup)
    (p : Bytes → Bool) (hl : ∀ k, p k = true → look k l = look k l') :
    (Ref.byName l).filter (fun m => p m.1) = (Ref.byName l').filter (fun m => p m.1) := by
  have hmem : ∀ {l : List (Bytes × MeasurementSchema)} (k : Bytes),
      k ∈ ((Ref.byName l).filter (fun m => p m.1)).map Prod.fst ↔ p k = true ∧ (look k l).isSome := by
    intro l k
    rw [look_eq, BMap.get?_isSome_iff, ← ((byName_perm l).map Prod.fst).mem_iff]
    simp only [List.mem_map, List.mem_filter]
    constructor
    · rintro ⟨e, ⟨h1, h2⟩, rfl⟩; exact ⟨h2, e, h1, rfl⟩
    · rintro ⟨h2, e, h1, rfl⟩; exact ⟨e, ⟨h1, h2⟩, rfl⟩
  refine assoc_ext (m := l) (sorted_ext ?_ ?_ fun k => ?_) ?_ ?_
  · exact (byName_sorted l h).sublist (List.filter_sublist.map _)
  · exact (byName_sorted l' h').sublist (List.filter_sublist.map _)
  · rw [hmem, hmem]
    constructor
    · rintro ⟨h1, h2⟩; exact ⟨h1, by rw [← hl k h1]; exact h2⟩
    · rintro ⟨h1, h2⟩; exact ⟨h1, by rw [hl k h1]; exact h2⟩
  · intro e he
    exact look_of_nodup h ((byName_perm l).mem_iff.1 (List.mem_filter.1 he).1)
  · intro e he
    rw [hl _ (by simpa using (List.mem_filter.1 he).2)]
    exact look_of_nodup h' ((byName_perm l').mem_iff.1 (List.mem_filter.1 he).1)

theorem gburst_less {env : Env} {schema schema' : Schema} (hwf : schema.WF) (hwf' : schema'.WF)
    (hd : ∀ d, (look d schema).isSome = (look d schema').isSome) {b : List Rec}
    (hm : ∀ d m, series b d m ≠ [] → (look d schema).bind (look m) = (look d schema').bind (look m)) :
    gburst env schema b = gburst env schema' b := by
  have hkeys : (Ref.byName schema).map Prod.fst = (Ref.byName schema').map Prod.fst := by
    refine sorted_ext (byName_sorted _ hwf.1) (byName_sorted _ hwf'.1) fun k => ?_
    rw [((byName_perm schema).map Prod.fst).mem_iff, ((byName_perm schema').map Prod.fst).mem_iff, ← BMap.get?_isSome_iff,
      ← BMap.get?_isSome_iff, ← look_eq, ← look_eq, hd]
  have hone : ∀ e ∈ schema, ∀ e' ∈ schema', e.1 = e'.1 → ggroup env b e = ggroup env b e' := by
    rintro ⟨d, ms⟩ he ⟨d', ms'⟩ he' hde
    simp only at hde
    subst hde
    have h1 := look_of_nodup hwf.1 he
    have h2 := look_of_nodup hwf'.1 he'
    have := filter_byName_congr (hwf.2 _ he) (hwf'.2 _ he') (fun m => !(series b d m).isEmpty) fun m hp => by
      have := hm d m (by intro h0; rw [h0] at hp; simp at hp)
      rw [h1, h2] at this
      exact this
    simp only [ggroup, this]
  rw [gburst, gburst]
  have hsub : ∀ e ∈ Ref.byName schema, e ∈ schema := fun e he => (byName_perm schema).mem_iff.1 he
  have hsub' : ∀ e ∈ Ref.byName schema', e ∈ schema' := fun e he => (byName_perm schema').mem_iff.1 he
  revert hkeys hsub hsub'
  generalize Ref.byName schema = l
  generalize Ref.byName schema' = l'
  intro hkeys hsub hsub'
  induction l generalizing l' with
  | nil => cases l' with
    | nil => rfl
    | cons _ _ => simp at hkeys
  | cons x l ih => cases l' with
    | nil => simp at hkeys
    | cons y l' =>
      rw [List.map_cons, List.map_cons, List.cons.injEq] at hkeys
      rw [List.map_cons, List.map_cons, hone x (hsub x (by simp)) y (hsub' y (by simp)) hkeys.1,
        ih l' hkeys.2 (fun e he => hsub e (by simp [he])) (fun e he => hsub' e (by simp [he]))]

/-! ## Sums over maps -/

theorem sum_keys {α : Type} (f : α → Nat) {l : BMap α} (hn : (l.map Prod.fst).Nodup) (S : Finset Bytes) (hS : (l.map Prod.fst).toFinset ⊆ S) :
    (l.map (fun e => f e.2)).sum = ∑ k ∈ S, ((BMap.get? k l).map f).getD 0 := by
  have h1 : l.map (fun e => f e.2) = (l.map Prod.fst).map (fun k => ((BMap.get? k l).map f).getD 0) := by
    rw [List.map_map]
    refine List.map_congr_left fun e he => ?_
    simp only [Function.comp_apply]
    rw [BMap.get?_of_nodup hn (k := e.1) (v := e.2) he]
    rfl
  rw [h1, ← List.sum_toFinset _ hn]
  refine Finset.sum_subset hS fun k _ hk => ?_
  cases hg : BMap.get? k l with
  | none => rfl
  | some v => exact absurd (by simpa using (BMap.get?_isSome_iff l k).1 (by rw [hg]; rfl)) (by simpa using hk)

theorem sum_ext {α : Type} (f : α → Nat) {l l' : BMap α} (hn : (l.map Prod.fst).Nodup) (hn' : (l'.map Prod.fst).Nodup)
    (h : ∀ k, ((BMap.get? k l).map f).getD 0 = ((BMap.get? k l').map f).getD 0) :
    (l.map (fun e => f e.2)).sum = (l'.map (fun e => f e.2)).sum := by
  rw [sum_keys f hn ((l.map Prod.fst).toFinset ∪ (l'.map Prod.fst).toFinset) Finset.subset_union_left,
    sum_keys f hn' ((l.map Prod.fst).toFinset ∪ (l'.map Prod.fst).toFinset) Finset.subset_union_right]
  exact Finset.sum_congr rfl fun k _ => h k

/-! ## Devices -/

/-- Nothing was written to the series outside `K`. -/
def Idle (K : Bytes → Prop) (g : GroupWriter) : Prop :=
  ∀ m c, ¬ K m → BMap.get? m g.chunkWriters = some c → c.currentPageWriter = none

/-- Two group writers that are the same for the series in `K`; nothing was written to the others. -/
structure GLike (K : Bytes → Prop) (g g' : GroupWriter) : Prop where
  last : g.lastTimeMap = g'.lastTimeMap
  same : ∀ m, K m → BMap.get? m g.chunkWriters = BMap.get? m g'.chunkWriters
  idle : Idle K g
  idle' : Idle K g'

theorem Idle.none {K : Bytes → Prop} {g : GroupWriter} (h : Idle K g) {m : Bytes} (hm : ¬ K m) :
    ((BMap.get? m g.chunkWriters).map ChunkWriter.memN).getD 0 = 0 := by
  cases hg : BMap.get? m g.chunkWriters with
  | none => rfl
  | some c => simp only [Option.map_some, Option.getD_some, ChunkWriter.memN, h m c hm hg]

theorem GLike.mem {K : Bytes → Prop} {g g' : GroupWriter} (h : GLike K g g') (hs : BMap.Sorted g.chunkWriters)
    (hs' : BMap.Sorted g'.chunkWriters) : g.memN = g'.memN := by
  refine sum_ext ChunkWriter.memN (sorted_nodup hs) (sorted_nodup hs') fun m => ?_
  by_cases hm : K m
  · rw [h.same m hm]
  · rw [h.idle.none hm, h.idle'.none hm]

theorem Idle.mem {g : GroupWriter} (h : Idle (fun _ => False) g) (hs : BMap.Sorted g.chunkWriters) : g.memN = 0 := by
  have := sum_ext ChunkWriter.memN (l' := []) (sorted_nodup hs) (by simp) fun m => by
    rw [h.none (m := m) (by simp)]; rfl
  exact this

theorem GLike.insert {K : Bytes → Prop} {g g' : GroupWriter} (h : GLike K g g') {m : Bytes} (hm : K m) (c : ChunkWriter) (l : BMap W64) :
    GLike K { g with chunkWriters := g.chunkWriters.insert m c, lastTimeMap := l }
      { g' with chunkWriters := g'.chunkWriters.insert m c, lastTimeMap := l } := by
  refine ⟨rfl, fun k hk => ?_, fun k x hk hx => ?_, fun k x hk hx => ?_⟩
  · simp only [BMap.get?_insert]
    rw [h.same k hk]
  · simp only [BMap.get?_insert] at hx
    rw [if_neg (by rintro rfl; exact hk hm)] at hx
    exact h.idle k x hk hx
  · simp only [BMap.get?_insert] at hx
    rw [if_neg (by rintro rfl; exact hk hm)] at hx
    exact h.idle' k x hk hx

theorem GLike.setLast {K : Bytes → Prop} {g g' : GroupWriter} (h : GLike K g g') (l : BMap W64) :
    GLike K { g with lastTimeMap := l } { g' with lastTimeMap := l } := ⟨rfl, h.same, h.idle, h.idle'⟩

theorem GLike.history {K : Bytes → Prop} {g g' : GroupWriter} (h : GLike K g g') (m : Bytes) (t : W64) :
    (g.checkIsHistoryData m t).2 = (g'.checkIsHistoryData m t).2
    ∧ GLike K (g.checkIsHistoryData m t).1 (g'.checkIsHistoryData m t).1 := by
  unfold GroupWriter.checkIsHistoryData
  rw [← h.last]
  cases BMap.get? m g.lastTimeMap with
  | none => exact ⟨rfl, h.setLast _⟩
  | some last => exact ⟨rfl, h⟩

theorem GLike.write {env : Env} {K : Bytes → Prop} {g g' : GroupWriter} (h : GLike K g g') {m : Bytes} (hm : K m) (t : W64) (v : IoTDBValue) :
    (g.write env m t v).2 = (g'.write env m t v).2 ∧ GLike K (g.write env m t v).1 (g'.write env m t v).1 := by
  obtain ⟨h1, h2⟩ := h.history m t
  unfold GroupWriter.write
  rcases hc : g.checkIsHistoryData m t with ⟨g1, b⟩
  rcases hc' : g'.checkIsHistoryData m t with ⟨g1', b'⟩
  rw [hc, hc'] at h1 h2
  simp only at h1 h2
  subst h1
  cases b with
  | false => exact ⟨rfl, h2⟩
  | true =>
    simp only
    rw [← h2.same m hm]
    cases BMap.get? m g1.chunkWriters with
    | none => exact ⟨rfl, h2⟩
    | some c =>
      simp only
      cases c.write env t v with
      | panic => exact ⟨rfl, h2⟩
      | err e => exact ⟨rfl, h2⟩
      | ok r =>
        obtain ⟨c1, n⟩ := r
        refine ⟨rfl, ?_⟩
        dsimp only
        rw [← h2.last]
        exact h2.insert hm c1 _

theorem GLike.writeMany {env : Env} {K : Bytes → Prop} {t : W64} (vs : List (Bytes × IoTDBValue)) (hv : ∀ p ∈ vs, K p.1) :
    ∀ {g g' : GroupWriter} (_ : GLike K g g') (n : W32),
    (g.writeMany env t vs n).2 = (g'.writeMany env t vs n).2 ∧ GLike K (g.writeMany env t vs n).1 (g'.writeMany env t vs n).1 := by
  induction vs with
  | nil => intro g g' h n; exact ⟨rfl, h⟩
  | cons p vs ih =>
    intro g g' h n
    obtain ⟨m, v⟩ := p
    obtain ⟨h1, h2⟩ := h.write (env := env) (hv (m, v) (by simp)) t v
    unfold GroupWriter.writeMany
    rcases hc : g.write env m t v with ⟨g1, b⟩
    rcases hc' : g'.write env m t v with ⟨g1', b'⟩
    rw [hc, hc'] at h1 h2
    simp only at h1 h2
    subst h1
    cases b with
    | ok k => exact ih (fun p hp => hv p (by simp [hp])) h2 _
    | err e => exact ⟨rfl, h2⟩
    | panic => exact ⟨rfl, h2⟩

/-! ## Writers -/

/-- Two group writers, or none. -/
def OLike (K : Bytes → Prop) : Option GroupWriter → Option GroupWriter → Prop
  | none, none => True
  | some g, some g' => GLike K g g'
  | _, _ => False

/-- Two writers that are the same for the devices in `D` and the series in `K`; nothing was written to the others. -/
structure WLike (D : Bytes → Prop) (K : Bytes → Bytes → Prop) (w w' : Writer) : Prop where
  next : w.recordCountForNextMemCheck = w'.recordCountForNextMemCheck
  same : ∀ d, D d → OLike (K d) (BMap.get? d w.groupWriters) (BMap.get? d w'.groupWriters)
  idle : ∀ d g, ¬ D d → BMap.get? d w.groupWriters = some g → Idle (fun _ => False) g
  idle' : ∀ d g, ¬ D d → BMap.get? d w'.groupWriters = some g → Idle (fun _ => False) g

theorem WLike.insert {D : Bytes → Prop} {K : Bytes → Bytes → Prop} {w w' : Writer} (h : WLike D K w w') {d : Bytes} (hd : D d)
    {g g' : GroupWriter} (hg : GLike (K d) g g') (n n' : W32) :
    WLike D K { w with groupWriters := w.groupWriters.insert d g, recordCount := n }
      { w' with groupWriters := w'.groupWriters.insert d g', recordCount := n' } := by
  refine ⟨h.next, fun k hk => ?_, fun k x hk hx => ?_, fun k x hk hx => ?_⟩
  · simp only [BMap.get?_insert]
    by_cases he : d = k
    · subst he; rw [if_pos rfl, if_pos rfl]; exact hg
    · rw [if_neg he, if_neg he]; exact h.same k hk
  · simp only [BMap.get?_insert] at hx
    rw [if_neg (by rintro rfl; exact hk hd)] at hx
    exact h.idle k x hk hx
  · simp only [BMap.get?_insert] at hx
    rw [if_neg (by rintro rfl; exact hk hd)] at hx
    exact h.idle' k x hk hx

theorem Sim.group_sorted {env : Env} {unsnap : Bytes → Option Bytes} {schema : Schema} {w : Writer} {a : AState} {groups : List GGroup}
    (h : Sim env unsnap schema w a groups) {d : Bytes} {g : GroupWriter} (hg : BMap.get? d w.groupWriters = some g) :
    BMap.Sorted g.chunkWriters := by
  obtain ⟨_, _, hs⟩ := h.devices (d, g) (BMap.mem_of_get? hg)
  exact hs.sorted

theorem WLike.mem {env : Env} {unsnap : Bytes → Option Bytes} {schema schema' : Schema} {D : Bytes → Prop} {K : Bytes → Bytes → Prop}
    {w w' : Writer} {a a' : AState} {groups groups' : List GGroup} (h : WLike D K w w') (hs : Sim env unsnap schema w a groups)
    (hs' : Sim env unsnap schema' w' a' groups') : w.memSize = w'.memSize := by
  rw [Writer.memN_eq, Writer.memN_eq]
  congr 1
  refine sum_ext GroupWriter.memN (sorted_nodup hs.sorted) (sorted_nodup hs'.sorted) fun d => ?_
  by_cases hd : D d
  · have := h.same d hd
    cases hg : BMap.get? d w.groupWriters with
    | none => cases hg' : BMap.get? d w'.groupWriters with
      | none => rfl
      | some g' => rw [hg, hg'] at this; exact this.elim
    | some g => cases hg' : BMap.get? d w'.groupWriters with
      | none => rw [hg, hg'] at this; exact this.elim
      | some g' =>
        rw [hg, hg'] at this
        exact GLike.mem this (hs.group_sorted hg) (hs'.group_sorted hg')
  · have key : ∀ {w : Writer}, (∀ g, BMap.get? d w.groupWriters = some g → Idle (fun _ => False) g ∧ BMap.Sorted g.chunkWriters) →
        ((BMap.get? d w.groupWriters).map GroupWriter.memN).getD 0 = 0 := by
      intro w hw
      cases hg : BMap.get? d w.groupWriters with
      | none => rfl
      | some g => exact (hw g hg).1.mem (hw g hg).2
    rw [key fun g hg => ⟨h.idle d g hd hg, hs.group_sorted hg⟩, key fun g hg => ⟨h.idle' d g hd hg, hs'.group_sorted hg⟩]

/-- Fresh group writers. -/
theorem new_like (env : Env) {schema schema' : Schema} (hwf : schema.WF) (hwf' : schema'.WF) {D : Bytes → Prop} {K : Bytes → Bytes → Prop}
    (hD : ∀ d, D d → (look d schema).isSome = (look d schema').isSome)
    (hK : ∀ d m, K d m → (look d schema).bind (look m) = (look d schema').bind (look m)) {w w' : Writer}
    (hn : w.recordCountForNextMemCheck = w'.recordCountForNextMemCheck)
    (hw : w.groupWriters = Writer.newGroupWriters env schema) (hw' : w'.groupWriters = Writer.newGroupWriters env schema') :
    WLike D K w w' := by
  have hget : ∀ {schema : Schema}, schema.WF → ∀ d, BMap.get? d (Writer.newGroupWriters env schema)
      = (look d schema).map (fun ms => GroupWriter.new env d ms) := by
    intro schema hwf d
    rw [Writer.newGroupWriters, BMap.get?_ofList _ _ (by simpa [Function.comp_def] using hwf.1), look_eq]
    exact BMap.get?_map schema (fun d ms => GroupWriter.new env d ms) d
  have hgetc : ∀ {schema : Schema}, schema.WF → ∀ {d ms}, look d schema = some ms → ∀ m, BMap.get? m (GroupWriter.new env d ms).chunkWriters
      = (look m ms).map (fun s => ChunkWriter.new env m s.dataType s.compression s.encoding) := by
    intro schema hwf d ms hs m
    have hnd : (ms.map Prod.fst).Nodup := by
      rw [look_eq] at hs
      exact hwf.2 _ (BMap.mem_of_get? hs)
    simp only [GroupWriter.new]
    rw [BMap.get?_ofList _ _ (by simpa [Function.comp_def] using hnd), look_eq]
    exact BMap.get?_map ms (fun m s => ChunkWriter.new env m s.dataType s.compression s.encoding) m
  have hidle : ∀ {schema : Schema}, schema.WF → ∀ {d ms}, look d schema = some ms → ∀ P, Idle P (GroupWriter.new env d ms) := by
    intro schema hwf d ms hs P m c _ hc
    rw [hgetc hwf hs] at hc
    obtain ⟨x, _, rfl⟩ := Option.map_eq_some_iff.1 hc
    rfl
  refine ⟨hn, fun d hd => ?_, fun d g _ hg => ?_, fun d g _ hg => ?_⟩
  · rw [hw, hw', hget hwf, hget hwf']
    have := hD d hd
    cases h1 : look d schema with
    | none => cases h2 : look d schema' with
      | none => trivial
      | some _ => rw [h1, h2] at this; simp at this
    | some ms => cases h2 : look d schema' with
      | none => rw [h1, h2] at this; simp at this
      | some ms' =>
        refine (show GLike (K d) _ _ from ⟨rfl, fun m hm => ?_, hidle hwf h1 _, hidle hwf' h2 _⟩)
        have := hK d m hm
        rw [h1, h2] at this
        have this : look m ms = look m ms' := this
        rw [hgetc hwf h1, hgetc hwf' h2, this]
  · rw [hw, hget hwf] at hg
    obtain ⟨ms, h1, rfl⟩ := Option.map_eq_some_iff.1 hg
    exact hidle hwf h1 _
  · rw [hw', hget hwf'] at hg
    obtain ⟨ms, h1, rfl⟩ := Option.map_eq_some_iff.1 hg
    exact hidle hwf' h1 _

/-- One call, up to the memory check. -/
theorem like_op {env : Env} {D : Bytes → Prop} {K : Bytes → Bytes → Prop} {w w' : Writer} (h : WLike D K w w') {op : Op}
    (hd : D (Op.device op)) (hk : ∀ r ∈ Op.recs op, K r.device r.measurement) :
    (∃ w1 w1', w.handed env op = some w1 ∧ w'.handed env op = some w1' ∧ w.step env op = w1.afterOk env
      ∧ w'.step env op = w1'.afterOk env ∧ WLike D K w1 w1')
    ∨ (∃ w1 w1' r, w.handed env op = none ∧ w'.handed env op = none ∧ w.step env op = (w1, r) ∧ w'.step env op = (w1', r)
      ∧ WLike D K w1 w1') := by
  cases op with
  | write d m t v =>
    have hd : D d := hd
    have hdev := h.same d hd
    simp only [Writer.handed, Writer.step, Writer.write]
    cases hg : BMap.get? d w.groupWriters with
    | none => cases hg' : BMap.get? d w'.groupWriters with
      | none => exact .inr ⟨w, w', _, rfl, rfl, rfl, rfl, h⟩
      | some g' => rw [hg, hg'] at hdev; exact hdev.elim
    | some g => cases hg' : BMap.get? d w'.groupWriters with
      | none => rw [hg, hg'] at hdev; exact hdev.elim
      | some g' =>
        rw [hg, hg'] at hdev
        obtain ⟨h1, h2⟩ := GLike.write (env := env) hdev (hk ⟨d, m, t, v⟩ (by simp [Op.recs])) t v
        rcases hc : g.write env m t v with ⟨g1, b⟩
        rcases hc' : g'.write env m t v with ⟨g1', b'⟩
        rw [hc, hc'] at h1 h2
        simp only at h1 h2
        subst h1
        simp only [hc, hc']
        cases b with
        | ok n => exact .inl ⟨_, _, rfl, rfl, rfl, rfl, h.insert hd h2 _ _⟩
        | err e => exact .inr ⟨_, _, _, rfl, rfl, rfl, rfl, h.insert hd h2 _ _⟩
        | panic => exact .inr ⟨_, _, _, rfl, rfl, rfl, rfl, h.insert hd h2 _ _⟩
  | writeMany d t vs =>
    have hd : D d := hd
    have hdev := h.same d hd
    simp only [Writer.handed, Writer.step, Writer.writeMany]
    cases hg : BMap.get? d w.groupWriters with
    | none => cases hg' : BMap.get? d w'.groupWriters with
      | none => exact .inr ⟨w, w', _, rfl, rfl, rfl, rfl, h⟩
      | some g' => rw [hg, hg'] at hdev; exact hdev.elim
    | some g => cases hg' : BMap.get? d w'.groupWriters with
      | none => rw [hg, hg'] at hdev; exact hdev.elim
      | some g' =>
        rw [hg, hg'] at hdev
        obtain ⟨h1, h2⟩ := GLike.writeMany (env := env) (t := t) vs (fun p hp => hk ⟨d, p.1, t, p.2⟩ (List.mem_map.2 ⟨p, hp, rfl⟩)) hdev 0
        rcases hc : g.writeMany env t vs 0 with ⟨g1, b⟩
        rcases hc' : g'.writeMany env t vs 0 with ⟨g1', b'⟩
        rw [hc, hc'] at h1 h2
        simp only at h1 h2
        subst h1
        simp only [hc, hc']
        cases b with
        | ok n => exact .inl ⟨_, _, rfl, rfl, rfl, rfl, h.insert hd h2 _ _⟩
        | err e => exact .inr ⟨_, _, _, rfl, rfl, rfl, rfl, h.insert hd h2 _ _⟩
        | panic => exact .inr ⟨_, _, _, rfl, rfl, rfl, rfl, h.insert hd h2 _ _⟩

/-- A flush leaves fresh group writers. -/
theorem flush_fresh {env : Env} {w w2 : Writer} (h : w.flushAllChunkGroups env = some (w2, none)) (h0 : 0 < w.recordCount.toNat) :
    w2.groupWriters = Writer.newGroupWriters env w.schema ∧ w2.recordCountForNextMemCheck = w.recordCountForNextMemCheck := by
  rw [Writer.flushAllChunkGroups, if_pos h0] at h
  split at h
  · simp at h
  · simp at h
  · simp only [Option.some.injEq, Prod.mk.injEq, and_true] at h
    subst h
    exact ⟨rfl, rfl⟩

theorem flush_nothing {env : Env} {w w2 : Writer} (h : w.flushAllChunkGroups env = some (w2, none)) (h0 : ¬ 0 < w.recordCount.toNat) :
    w2 = w := by
  rw [Writer.flushAllChunkGroups, if_neg h0] at h
  simpa using h.symm

section
variable {env : Env} {unsnap : Bytes → Option Bytes} {schema schema' : Schema} {D : Bytes → Prop} {K : Bytes → Bytes → Prop}

/-- The memory check. -/
theorem like_check (hsn : SnappyOk env unsnap) (hwf : schema.WF) (hwf' : schema'.WF)
    (hD : ∀ d, D d → (look d schema).isSome = (look d schema').isSome)
    (hK : ∀ d m, K d m → (look d schema).bind (look m) = (look d schema').bind (look m)) {w w' : Writer} {a : AState} {groups groups' : List GGroup}
    (hs : Sim env unsnap schema w a groups) (hs' : Sim env unsnap schema' w' a groups') (h : WLike D K w w')
    (hlen : a.pending.length < 2 ^ 32) {w2 : Writer} (hck : w.checkMemorySize env = some w2) :
    ∃ w2' new new', w'.checkMemorySize env = some w2' ∧ (new = [] ↔ new' = []) ∧ (new ≠ [] → a.counted ≠ 0)
      ∧ Sim env unsnap schema w2 (if new = [] then a else a.flush) (groups ++ new)
      ∧ Sim env unsnap schema' w2' (if new = [] then a else a.flush) (groups' ++ new') ∧ WLike D K w2 w2' := by
  have hset : ∀ n, Sim env unsnap schema { w with recordCountForNextMemCheck := n } a groups :=
    fun n => ⟨hs.schema_eq, hs.file, hs.stored, hs.sorted, hs.keys, hs.devices, hs.pend, hs.count, hs.counted_le, hs.names, hs.blocks, hs.exact⟩
  have hset' : ∀ n, Sim env unsnap schema' { w' with recordCountForNextMemCheck := n } a groups' :=
    fun n => ⟨hs'.schema_eq, hs'.file, hs'.stored, hs'.sorted, hs'.keys, hs'.devices, hs'.pend, hs'.count, hs'.counted_le, hs'.names, hs'.blocks,
      hs'.exact⟩
  have hrc : w.recordCount = w'.recordCount := by rw [hs.count, hs'.count]
  have hmem := h.mem hs hs'
  rw [Writer.checkMemorySize] at hck ⊢
  rw [← hrc, ← h.next, ← hmem]
  split at hck
  · next hge =>
    rw [if_pos hge]
    simp only at hck ⊢
    split at hck
    · simp at hck
    · next hz =>
      rw [if_neg hz]
      split at hck
      · next hgt =>
        rw [if_pos hgt]
        obtain ⟨x, new, hf, hx, h0⟩ :=
          sim_flush hsn hwf (hset (Writer.nextMemCheck w.recordCountForNextMemCheck w.memSize)) hlen
        obtain ⟨x', new', hf', hx', h0'⟩ :=
          sim_flush hsn hwf' (hset' (Writer.nextMemCheck w.recordCountForNextMemCheck w.memSize)) hlen
        rw [hf] at hck
        simp only [Option.map_some, Option.some.injEq] at hck
        subst hck
        have hlike : WLike D K x x' := by
          by_cases hp : 0 < w.recordCount.toNat
          · obtain ⟨a1, a2⟩ := flush_fresh hf hp
            obtain ⟨b1, b2⟩ := flush_fresh hf' (by rw [← hrc]; exact hp)
            exact new_like env hwf hwf' hD hK (by rw [a2, b2]) (by rw [a1]; simp only [hs.schema_eq]) (by rw [b1]; simp only [hs'.schema_eq])
          · rw [flush_nothing hf hp, flush_nothing hf' (by rw [← hrc]; exact hp)]
            exact ⟨rfl, h.same, h.idle, h.idle'⟩
        refine ⟨x', new, new', by rw [← hrc] at hf'; rw [hf']; rfl, by rw [h0, h0'], fun hn => (not_congr h0).1 hn, ?_, ?_, hlike⟩
        · by_cases hn : new = []
          · rw [if_pos hn]
            rwa [AState.flush, if_pos (h0.1 hn)] at hx
          · rw [if_neg hn]; exact hx
        · by_cases hn : new = []
          · rw [if_pos hn]
            rwa [AState.flush, if_pos (h0.1 hn)] at hx'
          · rw [if_neg hn]; exact hx'
      · next hgt =>
        rw [if_neg hgt]
        simp only [Option.some.injEq] at hck
        subst hck
        exact ⟨_, [], [], rfl, Iff.rfl, by simp, by simpa using hset _, by rw [hrc]; simpa using hset' _, ⟨rfl, h.same, h.idle, h.idle'⟩⟩
  · next hge =>
    rw [if_neg hge]
    simp only [Option.some.injEq] at hck
    subst hck
    exact ⟨_, [], [], rfl, Iff.rfl, by simp, by simpa using hs, by simpa using hs', h⟩

/-- One call. -/
theorem like_step (hsn : SnappyOk env unsnap) (hwf : schema.WF) (hwf' : schema'.WF)
    (hD : ∀ d, D d → (look d schema).isSome = (look d schema').isSome)
    (hK : ∀ d m, K d m → (look d schema).bind (look m) = (look d schema').bind (look m)) {w w' : Writer} {a : AState} {groups groups' : List GGroup}
    (hs : Sim env unsnap schema w a groups) (hs' : Sim env unsnap schema' w' a groups') (h : WLike D K w w') {op : Op}
    (hd : D (Op.device op)) (hk : ∀ r ∈ Op.recs op, K r.device r.measurement)
    (hlen : a.pending.length + op.recs.length < 2 ^ 32) (hnp : (w.step env op).2 ≠ .panic) :
    ∃ new new' : List GGroup, (w'.step env op).2 = (w.step env op).2 ∧ (new = [] ↔ new' = [])
      ∧ Sim env unsnap schema (w.step env op).1 (a.step schema op (decide (new ≠ []))).1 (groups ++ new)
      ∧ Sim env unsnap schema' (w'.step env op).1 (a.step schema op (decide (new ≠ []))).1 (groups' ++ new')
      ∧ WLike D K (w.step env op).1 (w'.step env op).1
      ∧ (a.step schema op (decide (new ≠ []))).1.pending.length
        ≤ (if decide (new ≠ []) then 0 else a.pending.length + op.recs.length) := by
  have hex : a.exec schema' op = a.exec schema op :=
    (exec_congr ⟨hD _ hd, fun r hr => hK _ _ (hk r hr)⟩ a).symm
  obtain ⟨hle, hc⟩ := sim_exec hsn hs op
  obtain ⟨_, hc'⟩ := sim_exec hsn hs' op
  rw [hex] at hc'
  rcases like_op (env := env) h hd hk with ⟨w1, w1', e1, e1', e2, e2', hl⟩ | ⟨w1, w1', r, e1, e1', e2, e2', hl⟩
  · -- accepted
    have hs1 : Sim env unsnap schema w1 (a.exec schema op).1 groups := by
      rcases hc with ⟨_, x, hx, _, _, hh, _⟩ | ⟨e, x, _, _, hst⟩ | ⟨_, hst⟩
      · rw [e1, Option.some.injEq] at hh; subst hh; exact hx
      · rw [e2, Writer.afterOk] at hst
        split at hst <;> simp at hst
      · exact absurd hst hnp
    rw [e2] at hnp
    rw [e2, e2']
    rw [Writer.afterOk] at hnp
    cases hck : w1.checkMemorySize env with
    | none => rw [hck] at hnp; simp at hnp
    | some w2 =>
      have hs1' : Sim env unsnap schema' w1' (a.exec schema op).1 groups' := by
        rcases hc' with ⟨_, x, hx, _, _, hh, _⟩ | ⟨e, x, _, _, hst⟩ | ⟨hp, hst⟩
        · rw [e1', Option.some.injEq] at hh; subst hh; exact hx
        · rw [e2', Writer.afterOk] at hst
          split at hst <;> simp at hst
        · rcases hc with ⟨hok, _⟩ | ⟨e, _, he, _⟩ | ⟨_, hst⟩
          · rw [hp] at hok; simp at hok
          · rw [hp] at he; simp at he
          · rw [e2, Writer.afterOk, hck] at hst; simp at hst
      obtain ⟨w2', new, new', hck', hnn, hcnt, hx, hx', hl2⟩ := like_check hsn hwf hwf' hD hK hs1 hs1' hl (by omega) hck
      have hstep : (a.step schema op (decide (new ≠ []))).1
          = if new = [] then (a.exec schema op).1 else (a.exec schema op).1.flush := by
        simp only [AState.step]
        by_cases hn : new = [] <;> simp [hn]
      have f1 : w1.afterOk env = (w2, .ok ()) := by rw [Writer.afterOk, hck]
      have f2 : w1'.afterOk env = (w2', .ok ()) := by rw [Writer.afterOk, hck']
      rw [f1, f2]
      refine ⟨new, new', rfl, hnn, ?_⟩
      · rw [hstep]
        refine ⟨hx, hx', hl2, ?_⟩
        by_cases hn : new = []
        · simpa [hn] using hle
        · simp [hn, AState.flush, hcnt hn]
  · -- refused
    rw [e2] at hnp
    have hnp : r ≠ .panic := hnp
    have hs1 : Sim env unsnap schema w1 (a.exec schema op).1 groups := by
      rcases hc with ⟨_, x, hx, _, _, hh, _⟩ | ⟨e, x, _, hx, hst⟩ | ⟨_, hst⟩
      · rw [e1] at hh; simp at hh
      · rw [e2, Prod.mk.injEq] at hst; rw [hst.1]; exact hx
      · rw [e2] at hst; exact absurd hst hnp
    have hs1' : Sim env unsnap schema' w1' (a.exec schema op).1 groups' := by
      rcases hc' with ⟨_, x, hx, _, _, hh, _⟩ | ⟨e, x, _, hx, hst⟩ | ⟨_, hst⟩
      · rw [e1'] at hh; simp at hh
      · rw [e2', Prod.mk.injEq] at hst; rw [hst.1]; exact hx
      · rw [e2'] at hst; exact absurd hst hnp
    have hstep : (a.step schema op (decide (([] : List GGroup) ≠ []))).1 = (a.exec schema op).1 := by
      simp [AState.step]
    rw [e2, e2']
    refine ⟨[], [], rfl, Iff.rfl, ?_⟩
    rw [hstep]
    exact ⟨by simpa using hs1, by simpa using hs1', hl, by simpa using hle⟩

/-- A history of calls: the same results, and flushes at the same calls. -/
theorem like_run (hsn : SnappyOk env unsnap) (hwf : schema.WF) (hwf' : schema'.WF)
    (hD : ∀ d, D d → (look d schema).isSome = (look d schema').isSome)
    (hK : ∀ d m, K d m → (look d schema).bind (look m) = (look d schema').bind (look m)) (ops : List Op)
    (hops : ∀ op ∈ ops, D (Op.device op) ∧ ∀ r ∈ Op.recs op, K r.device r.measurement)
    {w w' : Writer} {a : AState} {groups groups' : List GGroup}
    (hs : Sim env unsnap schema w a groups) (hs' : Sim env unsnap schema' w' a groups') (h : WLike D K w w') (n : Nat)
    (hn : a.pending.length ≤ n) (hlen : burstsBelow (2 ^ 32) n (ops.zip ((w.grown env ops).map (fun n => decide (0 < n)))))
    (hnp : .panic ∉ (w.run env ops).2) :
    (w'.run env ops).2 = (w.run env ops).2
    ∧ (w'.grown env ops).map (fun n => decide (0 < n)) = (w.grown env ops).map (fun n => decide (0 < n)) := by
  induction ops generalizing w w' a groups groups' n with
  | nil => exact ⟨rfl, rfl⟩
  | cons op ops ih =>
    simp only [Writer.grown, List.map_cons, List.zip_cons_cons, burstsBelow] at hlen
    simp only [Writer.run, List.mem_cons, not_or] at hnp ⊢
    obtain ⟨new, new', hres, hnn, hx, hx', hl, hp⟩ := like_step hsn hwf hwf' hD hK hs hs' h (hops op (by simp)).1 (hops op (by simp)).2
      (by omega) (fun hc => hnp.1 hc.symm)
    have hg := grows_iff hs.file hx.file
    have hg' := grows_iff hs'.file hx'.file
    rw [hg.2] at hlen
    obtain ⟨i1, i2⟩ := ih (fun o ho => hops o (by simp [ho])) hx hx' hl (if decide (new ≠ []) then 0 else n + op.recs.length)
      (by split at hp <;> simp_all; omega) hlen.2 hnp.2
    refine ⟨by rw [hres, i1], ?_⟩
    simp only [Writer.grown, List.map_cons]
    rw [i2, hg.2, hg'.2]
    congr 1
    simp only [ne_eq, hnn]

/-! ## The same devices -/

/-- All points are of series in `K`. -/
def Among (K : Bytes → Bytes → Prop) (a : AState) : Prop :=
  (∀ r ∈ a.stored ++ a.pending, K r.device r.measurement) ∧ ∀ b ∈ a.bursts, ∀ r ∈ b, K r.device r.measurement

theorem Among.flush {a : AState} (h : Among K a) : Among K a.flush := by
  refine ⟨flush_of h.1, ?_⟩
  rw [AState.flush]
  split
  · exact h.2
  · intro b hb r hr
    rcases List.mem_append.1 hb with hb | hb
    · exact h.2 b hb r hr
    · rw [List.mem_singleton] at hb
      subst hb
      exact h.1 r (List.mem_append_right _ hr)

theorem Among.step {a : AState} (h : Among K a) {op : Op} (hk : ∀ r ∈ Op.recs op, K r.device r.measurement) (fl : Bool) :
    Among K (a.step schema op fl).1 := by
  have h1 : Among K (a.exec schema op).1 := ⟨exec_of hk h.1, by rw [exec_bursts]; exact h.2⟩
  rw [AState.step]
  dsimp only
  split
  · exact h1.flush
  · exact h1

/-- The content of the file. -/
theorem groups_same (hwf : schema.WF) (hwf' : schema'.WF) (hd : ∀ d, (look d schema).isSome = (look d schema').isSome)
    (hK : ∀ d m, K d m → (look d schema).bind (look m) = (look d schema').bind (look m)) {w w' : Writer} {a : AState} {groups groups' : List GGroup}
    (hs : Sim env unsnap schema w a groups) (hs' : Sim env unsnap schema' w' a groups') (ha : Among K a) : groups' = groups := by
  rw [flatten_gburst hwf hs.file.ok hs.exact hs.blocks, flatten_gburst hwf' hs'.file.ok hs'.exact hs'.blocks]
  refine List.flatMap_congr fun b hb => (gburst_less hwf hwf' hd fun d m hne => ?_).symm
  obtain ⟨r, hr, rfl, rfl⟩ := series_ne_nil.1 hne
  exact hK _ _ (ha.2 b hb r hr)

theorem like_bytes (hsn : SnappyOk env unsnap) (hwf : schema.WF) (hwf' : schema'.WF)
    (hd : ∀ d, (look d schema).isSome = (look d schema').isSome)
    (hK : ∀ d m, K d m → (look d schema).bind (look m) = (look d schema').bind (look m)) (ops : List Op)
    (hops : ∀ op ∈ ops, D (Op.device op) ∧ ∀ r ∈ Op.recs op, K r.device r.measurement)
    {w w' : Writer} {a : AState} {groups : List GGroup}
    (hs : Sim env unsnap schema w a groups) (hs' : Sim env unsnap schema' w' a groups) (h : WLike D K w w') (ha : Among K a) (n : Nat)
    (hn : a.pending.length ≤ n) (hn2 : a.pending.length < 2 ^ 32)
    (hlen : burstsBelow (2 ^ 32) n (ops.zip ((w.grown env ops).map (fun n => decide (0 < n)))))
    (hnp : .panic ∉ (w.run env ops).2) :
    (w'.run env ops).2 = (w.run env ops).2 ∧ w'.grown env ops = w.grown env ops
    ∧ ∃ b gs, Sim env unsnap schema (w.run env ops).1 b gs ∧ Sim env unsnap schema' (w'.run env ops).1 b gs ∧ Among K b
      ∧ b.pending.length < 2 ^ 32 := by
  induction ops generalizing w w' a groups n with
  | nil => exact ⟨rfl, rfl, a, groups, hs, hs', ha, hn2⟩
  | cons op ops ih =>
    simp only [Writer.grown, List.map_cons, List.zip_cons_cons, burstsBelow] at hlen
    simp only [Writer.run, List.mem_cons, not_or] at hnp ⊢
    obtain ⟨new, new', hres, hnn, hx, hx', hl, hp⟩ := like_step hsn hwf hwf' (fun d _ => hd d) hK hs hs' h (hops op (by simp)).1
      (hops op (by simp)).2 (by omega) (fun hc => hnp.1 hc.symm)
    have ha1 : Among K (a.step schema op (decide (new ≠ []))).1 := ha.step (hops op (by simp)).2 _
    have hsame := groups_same hwf hwf' hd hK hx hx' ha1
    have hnew : new' = new := List.append_cancel_left hsame
    subst hnew
    have hg := grows_iff hs.file hx.file
    have hg' := grows_iff hs'.file hx'.file
    rw [hg.2] at hlen
    obtain ⟨i1, i2, i3⟩ := ih (fun o ho => hops o (by simp [ho])) hx hx' hl ha1 (if decide (new' ≠ []) then 0 else n + op.recs.length)
      (by split at hp <;> simp_all; omega) (by split at hp <;> omega) hlen.2 hnp.2
    refine ⟨by rw [hres, i1], ?_, i3⟩
    simp only [Writer.grown]
    rw [i2, hg.1, hg'.1]

end

end TsFile
