import Verif.Proofs.Limits
import Verif.Proofs.RefFile
import Mathlib.Data.List.Perm.Subperm
/-! # Points that take little room, and what the memory check makes of them

Points at even distances with the same value take less than half a byte each in TS_2DIFF. A memory check that sees many of them
puts the next check very far away. -/

namespace TsFile
open Spec

/-! ## even distances -/

/-- All neighbours have the same difference. -/
def Even {w : Nat} (s : BitVec w) (vs : List (BitVec w)) : Prop := ∀ x ∈ Ref.differences vs, x = s

theorem differences_right {w : Nat} (m r : List (BitVec w)) (x : BitVec w) (h : x ∈ Ref.differences m) : x ∈ Ref.differences (m ++ r) := by
  induction m with
  | nil => simp [Ref.differences] at h
  | cons a m ih =>
    cases m with
    | nil => simp [Ref.differences] at h
    | cons b m =>
      simp only [List.cons_append, Ref.differences, List.mem_cons] at *
      exact h.imp id ih

theorem differences_left {w : Nat} (l m : List (BitVec w)) (x : BitVec w) (h : x ∈ Ref.differences m) : x ∈ Ref.differences (l ++ m) := by
  induction l with
  | nil => exact h
  | cons a l ih =>
    rw [List.cons_append]
    cases hl : l ++ m with
    | nil => rw [hl] at ih; simp [Ref.differences] at ih
    | cons b l' => rw [hl] at ih; simp only [Ref.differences, List.mem_cons]; exact .inr ih

theorem Even.mid {w : Nat} {s : BitVec w} {l m r : List (BitVec w)} (h : Even s (l ++ m ++ r)) : Even s m :=
  fun x hx => h x (differences_right _ _ _ (differences_left _ _ _ hx))

theorem Even.part {w : Nat} {s : BitVec w} {vs : List (BitVec w)} (h : Even s vs) (i n : Nat) : Even s ((vs.drop i).take n) := by
  refine Even.mid (l := vs.take i) (r := (vs.drop i).drop n) ?_
  rw [List.append_assoc, List.take_append_drop, List.take_append_drop]
  exact h

theorem least_same {w : Nat} {s : BitVec w} (ds : List (BitVec w)) (h : ∀ x ∈ ds, x = s) (hne : ds ≠ []) (hw : 0 < w) : Ref.least ds = s := by
  have key : ∀ (l : List (BitVec w)), (∀ x ∈ l, x = s) → l.foldl (fun a d => if d.toInt < a.toInt then d else a) s = s := by
    intro l
    induction l with
    | nil => intro _; rfl
    | cons x l ih =>
      intro h
      rw [List.foldl_cons, h x (by simp), if_neg (by omega)]
      exact ih fun y hy => h y (by simp [hy])
  cases ds with
  | nil => exact absurd rfl hne
  | cons x l =>
    have hx := h x (by simp)
    subst hx
    rw [Ref.least, List.foldl_cons]
    have : (if x.toInt < (BitVec.intMax w).toInt then x else BitVec.intMax w) = x := by
      split
      · rfl
      · next hge =>
        apply BitVec.eq_of_toInt_eq
        have h1 := BitVec.toInt_le (x := x)
        have h2 : (BitVec.intMax w).toInt = 2 ^ (w - 1) - 1 := by
          rw [BitVec.toInt_intMax]
        omega
    rw [this]
    exact key l fun y hy => h y (by simp [hy])

theorem block_even {w : Nat} {s : BitVec w} {vs : List (BitVec w)} (h : Even s vs) (hw : 0 < w) : (Ref.block vs).length ≤ 8 + 2 * (w / 8) := by
  cases vs with
  | nil => simp [Ref.block]
  | cons f rest =>
    have hw0 : (((Ref.differences (f :: rest)).map (fun d => (d - Ref.least (Ref.differences (f :: rest))).toNat)).map Ref.digits).foldl max 0 = 0 := by
      have : ∀ x ∈ ((Ref.differences (f :: rest)).map (fun d => (d - Ref.least (Ref.differences (f :: rest))).toNat)).map Ref.digits, x = 0 := by
        intro x hx
        obtain ⟨y, hy, rfl⟩ := List.mem_map.1 hx
        obtain ⟨d, hd, rfl⟩ := List.mem_map.1 hy
        rw [least_same _ h (List.ne_nil_of_mem hd) hw, h d hd]
        simp [Ref.digits]
      generalize ((Ref.differences (f :: rest)).map (fun d => (d - Ref.least (Ref.differences (f :: rest))).toNat)).map Ref.digits = l at this
      induction l with
      | nil => rfl
      | cons x l ih => rw [List.foldl_cons, this x (by simp)]; exact ih fun y hy => this y (by simp [hy])
    rw [Ref.block]
    simp only [hw0, Ref.packed, List.length_append, length_big, Nat.mul_zero]
    omega

theorem blocks_even {w : Nat} {s : BitVec w} {vs : List (BitVec w)} (h : Even s vs) (hw : 0 < w) (k : Nat) :
    (Ref.blocks k vs).length ≤ k * (8 + 2 * (w / 8)) := by
  induction k with
  | zero => simp [Ref.blocks]
  | succ k ih =>
    rw [blocks_succ, List.length_append, Nat.add_mul]
    have := block_even (h.part (129 * k) 129) hw
    omega

/-- The room that the writer estimates for such values. -/
theorem room_even {s : W64} {vs : List W64} (h : Even s vs) : Ref.room vs ≤ 24 * (vs.length / 129) + 1048 := by
  rw [Ref.room]
  have := blocks_even h (by omega) (vs.length / 129)
  omega

theorem even_const {w : Nat} (v : BitVec w) (vs : List (BitVec w)) (h : ∀ x ∈ vs, x = v) : Even 0 vs := by
  induction vs with
  | nil => intro x hx; simp [Ref.differences] at hx
  | cons a vs ih =>
    cases vs with
    | nil => intro x hx; simp [Ref.differences] at hx
    | cons b vs =>
      intro x hx
      simp only [Ref.differences, List.mem_cons] at hx
      rcases hx with rfl | hx
      · rw [h a (by simp), h b (by simp)]; simp
      · exact ih (fun y hy => h y (by simp [hy])) x hx

theorem add_sub_self (x y : W64) : x + y - x = y := by
  rw [BitVec.sub_eq_add_neg, BitVec.add_comm x, BitVec.add_assoc, ← BitVec.sub_eq_add_neg, BitVec.sub_self, BitVec.add_zero]

theorem even_range (t n : Nat) : Even (1 : W64) ((List.range' t n).map (BitVec.ofNat 64)) := by
  induction n generalizing t with
  | zero => intro x hx; simp [Ref.differences] at hx
  | succ n ih =>
    rw [List.range'_succ, List.map_cons]
    cases n with
    | zero => intro x hx; simp [Ref.differences] at hx
    | succ n =>
      have := ih (t + 1)
      rw [List.range'_succ, List.map_cons] at this ⊢
      intro x hx
      simp only [Ref.differences, List.mem_cons] at hx
      rcases hx with rfl | hx
      · rw [BitVec.ofNat_add]; exact add_sub_self _ _
      · exact this x hx

/-! ## the memory of a series of such points -/

/-- INT64, TS_2DIFF, not compressed. -/
def smooth : MeasurementSchema := ⟨.INT64, .TS2DIFF, .UNCOMPRESSED⟩

/-- Points at even distances with the value 0. -/
structure Flat (pts : List Point) : Prop where
  times : Even 1 (pts.map Prod.fst)
  values : ∀ q ∈ pts, q.2 = .LONG 0

theorem Flat.mid {l m r : List Point} (h : Flat (l ++ m ++ r)) : Flat m := by
  refine ⟨?_, fun q hq => h.values q (by simp [hq])⟩
  have := h.times
  rw [List.map_append, List.map_append] at this
  exact this.mid

theorem Flat.longs {pts : List Point} (h : Flat pts) : Even 0 (Ref.longs (pts.map Prod.snd)) := by
  refine even_const 0 _ fun x hx => ?_
  rw [Ref.longs, List.mem_filterMap] at hx
  obtain ⟨v, hv, hx⟩ := hx
  obtain ⟨q, hq, rfl⟩ := List.mem_map.1 hv
  rw [h.values q hq] at hx
  simpa using hx.symm

theorem Flat.length_longs {pts : List Point} (h : Flat pts) : (Ref.longs (pts.map Prod.snd)).length = pts.length := by
  have := h.values
  clear h
  induction pts with
  | nil => rfl
  | cons q pts ih =>
    have hq := this q (by simp)
    have := ih fun q hq => this q (by simp [hq])
    simp only [Ref.longs, List.map_cons, List.filterMap_cons, hq, List.length_cons] at *
    omega

theorem length_varint_le (n : Nat) : (Ref.varint n).length ≤ 5 := by
  have : ∀ k n, (Ref.varFuel k n).length ≤ k + 1 := by
    intro k
    induction k with
    | zero => intro n; simp [Ref.varFuel]
    | succ k ih =>
      intro n
      rw [Ref.varFuel]
      split
      · simp
      · rw [List.length_cons]; have := ih (n / 128); omega
  exact this 4 n

theorem Flat.content {pts : List Point} (h : Flat pts) : (Ref.pageContent smooth pts).length ≤ 5 + 48 * ((pts.length + 128) / 129) := by
  have h1 := blocks_even h.times (by omega) (((pts.map Prod.fst).length + 128) / 129)
  have h2 := blocks_even h.longs (by omega) (((Ref.longs (pts.map Prod.snd)).length + 128) / 129)
  rw [h.length_longs] at h2
  rw [List.length_map] at h1
  have h3 := length_varint_le (Ref.ts2diff (pts.map Prod.fst)).length
  simp only [Ref.pageContent, smooth, Ref.values, List.length_append] at *
  simp only [Ref.ts2diff, List.length_map, h.length_longs] at *
  omega

theorem Flat.page_le {unsnap : Bytes → Option Bytes} {env : Env} {g : GPage} (hg : g.Ok unsnap smooth) (h : Flat g.pts) (b : Bool) :
    (g.bytes env .INT64 b).length ≤ 127 + 48 * (g.pts.length / 129) := by
  have h1 := h.content
  have e2 : g.data = g.raw := by simpa [decompress, smooth] using hg.dec
  rw [← hg.content, ← e2] at h1
  have h4 := length_writeVarU32_le (u32 g.raw.length)
  have h5 := length_writeVarU32_le (u32 g.data.length)
  have h6 := (statsOf env .INT64 g.pts).sizeN_le
  have h7 := (statsOf env .INT64 g.pts).serialize_length env
  simp only [GPage.bytes, GPage.hdr, List.length_append]
  cases b <;> simp <;> omega

theorem Flat.pages_le {unsnap : Bytes → Option Bytes} {env : Env} {pages : List GPage} (hok : ∀ g ∈ pages, g.Ok unsnap smooth)
    (hf : FullPages pages) (h : ∀ g ∈ pages, Flat g.pts) : 2 * (pagesBytes env .INT64 pages).length ≤ (pagesPoints pages).length := by
  have h1 : ∀ g ∈ pages, ∀ b, 2 * (g.bytes env .INT64 b).length ≤ g.pts.length := by
    intro g hg b
    have := (h g hg).page_le (env := env) (hok g hg) b
    have := hf g hg
    omega
  have hall : ∀ (l : List GPage), (∀ g ∈ l, ∀ b, 2 * (g.bytes env .INT64 b).length ≤ g.pts.length) →
      2 * (l.flatMap (GPage.bytes env .INT64 true)).length ≤ (pagesPoints l).length := by
    intro l
    induction l with
    | nil => simp [pagesPoints]
    | cons g l ih =>
      intro hl
      have h2 := hl g (by simp) true
      have h3 := ih (fun g hg => hl g (by simp [hg]))
      simp only [List.flatMap_cons, List.length_append, pagesPoints, List.map_cons, List.flatten_cons] at *
      omega
  match pages, h1 with
  | [g], h1 =>
    have := h1 g (by simp) false
    simpa [pagesBytes, pagesPoints] using this
  | [], _ => simp [pagesBytes]
  | a :: b :: l, h1 => exact hall _ h1

/-- Half a byte for each point. -/
theorem ChunkRep.smooth_le {env : Env} {unsnap : Bytes → Option Bytes} {id : Bytes} {c : ChunkWriter} {pages : List GPage}
    {cur : List Point} (h : ChunkRep env unsnap id smooth c pages cur) (hf : FullPages pages)
    (hfl : Flat (pagesPoints pages ++ cur)) : c.memN ≤ (pagesPoints pages ++ cur).length / 2 + 2200 := by
  have hcur : Flat cur := by
    refine Flat.mid (l := pagesPoints pages) (r := []) ?_
    rwa [List.append_nil]
  have hpg : ∀ g ∈ pages, Flat g.pts := by
    intro g hg
    obtain ⟨x, y, rfl⟩ := List.append_of_mem hg
    refine Flat.mid (l := pagesPoints x) (r := pagesPoints y ++ cur) ?_
    simpa [pagesPoints] using hfl
  have h1 := Flat.pages_le (env := env) h.ok hf hpg
  have hb := h.buffer
  have hp := h.page
  rw [ChunkWriter.memN]
  split
  · next p hc =>
    rw [hc] at hp
    have h3 := p.statistics.sizeN_le
    have h4 := hp.time.exact.room
    have h5 := room_even hcur.times
    rw [List.length_map] at h5
    have h6 : p.valueEncoder.memN ≤ 24 * (cur.length / 129) + 1048 := by
      have hv := hp.value
      have h7 := room_even hcur.longs
      rw [hcur.length_longs] at h7
      generalize p.valueEncoder = e at hv
      generalize hvs : cur.map Prod.snd = vs at hv h7
      cases hv with
      | long e xs hx =>
        have h8 := hx.exact.room
        have h9 : Ref.longs (xs.map IoTDBValue.LONG) = xs := by
          rw [Ref.longs, List.filterMap_map]
          exact List.filterMap_some
        rw [h9] at h7
        simp only [ValueEncoder.memN]
        omega
    rw [List.length_append, PageWriter.memN, hb]
    have hs : smooth.dataType = .INT64 := rfl
    rw [hs]
    omega
  · omega

/-! ## a device with two series -/

theorem sum_sublist {α : Type} (f : α → Nat) {l l' : List α} (h : l.Sublist l') : (l.map f).sum ≤ (l'.map f).sum := by
  induction h with
  | slnil => simp
  | cons a _ ih => simp only [List.map_cons, List.sum_cons]; omega
  | cons_cons a _ ih => simp only [List.map_cons, List.sum_cons]; omega

theorem sum_subset {α : Type} (f : α → Nat) {l l' : List α} (hn : l.Nodup) (h : l ⊆ l') : (l.map f).sum ≤ (l'.map f).sum := by
  obtain ⟨k, hp, hs⟩ := List.subperm_of_subset hn h
  rw [← (hp.map f).sum_nat]
  exact sum_sublist f hs

/-- One series of each kind. -/
def twoSchema (d a b : Bytes) : Schema := [(d, [(a, smooth), (b, wide)])]

theorem two_wf {d a b : Bytes} (h : a ≠ b) : (twoSchema d a b).WF := by
  refine ⟨by simp [twoSchema], by simp [twoSchema, h]⟩

theorem Sim.smooth_le {env : Env} {unsnap : Bytes → Option Bytes} {d a b : Bytes} (hab : a ≠ b) {w : Writer} {st : AState}
    {groups : List GGroup} (h : Sim env unsnap (twoSchema d a b) w st groups) (hfl : Flat (series st.pending d a)) :
    w.memN ≤ (series st.pending d a).length / 2 + 2200 + (22 * (series st.pending d b).length + 120) := by
  let f : Bytes → Nat := fun m => if m = a then (series st.pending d a).length / 2 + 2200 else 22 * (series st.pending d m).length + 120
  have h1 : w.memN ≤ (w.groupWriters.map (fun e => (fun _ : Bytes => ([a, b].map f).sum) e.1)).sum := by
    apply sum_map_le
    intro e he
    obtain ⟨ms, hms, hg⟩ := h.devices e he
    simp only [twoSchema, look] at hms
    split at hms
    · next hd =>
      simp only [Option.some.injEq] at hms
      subst hms
      have h2 : e.2.memN ≤ (e.2.chunkWriters.map (fun c => f c.1)).sum := by
        apply sum_map_le
        intro c hc
        obtain ⟨sch, pages, cur, hl, hrep, _, hbuf, hfp⟩ := hg.chunks c hc
        rw [← hd] at hbuf
        simp only [look] at hl
        simp only [f]
        by_cases hca : c.1 = a
        · rw [if_pos hca.symm] at hl
          cases hl
          rw [hca] at hbuf
          rw [if_pos hca, ← hbuf]
          exact hrep.smooth_le hfp.full (by rw [hbuf]; exact hfl)
        · rw [if_neg hca, ← hbuf]
          exact hrep.mem_le hfp.full
      refine Nat.le_trans h2 ?_
      have h3 := sum_subset f (sorted_nodup hg.sorted) (l' := [a, b]) (by
        intro m hm
        have := (hg.keys m).1 hm
        simp only [look] at this
        by_cases h1 : a = m
        · simp [h1]
        · by_cases h2 : b = m
          · simp [h2]
          · simp [h1, h2] at this)
      rw [List.map_map] at h3
      exact h3
    · simp at hms
  have h4 := sum_subset (fun _ : Bytes => ([a, b].map f).sum) (sorted_nodup h.sorted) (l' := [d]) (by
    intro x hx
    have := (h.keys x).1 hx
    simp only [twoSchema, look] at this
    by_cases h1 : d = x
    · simp [h1]
    · simp [h1] at this)
  rw [List.map_map] at h4
  refine Nat.le_trans h1 (Nat.le_trans h4 ?_)
  simp [f, hab.symm]

/-- So many points of each series wait, all counted, with the timestamps 0, 1, 2, ... -/
structure Two (d a b : Bytes) (na nb : Nat) (st : AState) : Prop where
  pts : series st.pending d a = (List.range' 0 na).map (fun i => (BitVec.ofNat 64 i, .LONG 0))
  number : (series st.pending d b).length = nb
  all : st.pending.length = na + nb
  counted : st.counted = na + nb
  lastA : (st.last d a).toInt < na
  lastB : (st.last d b).toInt < nb

theorem Two.init (d a b : Bytes) : Two d a b 0 0 AState.init :=
  ⟨rfl, rfl, rfl, rfl, by simp [AState.init], by simp [AState.init]⟩

theorem Two.flat {d a b : Bytes} {na nb : Nat} {st : AState} (h : Two d a b na nb st) : Flat (series st.pending d a) := by
  rw [h.pts]
  refine ⟨?_, ?_⟩
  · rw [List.map_map]
    exact even_range 0 na
  · intro q hq
    obtain ⟨i, _, rfl⟩ := List.mem_map.1 hq
    rfl

theorem Two.a {d a b : Bytes} (hab : a ≠ b) {na nb : Nat} {st : AState} (h : Two d a b na nb st) (hn : na < 2 ^ 62) :
    (st.exec (twoSchema d a b) (.write d a (BitVec.ofNat 64 na) (.LONG 0))).2 = .ok ()
    ∧ Two d a b (na + 1) nb (st.exec (twoSchema d a b) (.write d a (BitVec.ofNat 64 na) (.LONG 0))).1 := by
  have htt : (BitVec.ofNat 64 na).toInt = na := by
    rw [BitVec.toInt_eq_toNat_of_lt] <;> rw [BitVec.toNat_ofNat, Nat.mod_eq_of_lt] <;> omega
  have hexec : st.exec (twoSchema d a b) (.write d a (BitVec.ofNat 64 na) (.LONG 0))
      = ({ st with pending := st.pending ++ [⟨d, a, BitVec.ofNat 64 na, .LONG 0⟩],
                   last := fun d' m' => if d' = d ∧ m' = a then BitVec.ofNat 64 na else st.last d' m',
                   counted := st.counted + 1 }, .ok ()) := by
    have := h.lastA
    simp only [AState.exec, twoSchema, look, if_true, AState.put]
    rw [if_neg (by rw [htt]; omega)]
    rfl
  rw [hexec]
  refine ⟨rfl, ?_, ?_, ?_, ?_, ?_, ?_⟩
  · simp only
    rw [series_append, series_single, if_pos ⟨rfl, rfl⟩, h.pts, List.range'_concat, List.map_append]
    simp
  · simp only
    rw [series_append, series_single, if_neg (by simp [hab]), List.append_nil, h.number]
  · simp only [List.length_append, h.all, List.length_cons, List.length_nil]; omega
  · simp only [h.counted]; omega
  · simp only [true_and, if_true]; rw [htt]; omega
  · simp only [true_and]; rw [if_neg (fun hc => hab hc.symm)]; exact h.lastB

theorem Two.b {d a b : Bytes} (hab : a ≠ b) {na nb : Nat} {st : AState} (h : Two d a b na nb st) (hn : nb < 2 ^ 62) :
    (st.exec (twoSchema d a b) (.write d b (BitVec.ofNat 64 nb) (.LONG 0))).2 = .ok ()
    ∧ Two d a b na (nb + 1) (st.exec (twoSchema d a b) (.write d b (BitVec.ofNat 64 nb) (.LONG 0))).1 := by
  have htt : (BitVec.ofNat 64 nb).toInt = nb := by
    rw [BitVec.toInt_eq_toNat_of_lt] <;> rw [BitVec.toNat_ofNat, Nat.mod_eq_of_lt] <;> omega
  have hexec : st.exec (twoSchema d a b) (.write d b (BitVec.ofNat 64 nb) (.LONG 0))
      = ({ st with pending := st.pending ++ [⟨d, b, BitVec.ofNat 64 nb, .LONG 0⟩],
                   last := fun d' m' => if d' = d ∧ m' = b then BitVec.ofNat 64 nb else st.last d' m',
                   counted := st.counted + 1 }, .ok ()) := by
    have := h.lastB
    simp only [AState.exec, twoSchema, look, if_true, AState.put, hab, if_false]
    rw [if_neg (by rw [htt]; omega)]
    rfl
  rw [hexec]
  refine ⟨rfl, ?_, ?_, ?_, ?_, ?_, ?_⟩
  · simp only
    rw [series_append, series_single, if_neg (by simp [hab.symm]), List.append_nil, h.pts]
  · simp only
    rw [series_append, series_single, if_pos ⟨rfl, rfl⟩, List.length_append, h.number]
    rfl
  · simp only [List.length_append, h.all, List.length_cons, List.length_nil]; omega
  · simp only [h.counted]; omega
  · simp only [true_and]; rw [if_neg hab]; exact h.lastA
  · simp only [true_and, if_true]; rw [htt]; omega

/-- A call that does not reach the next check. -/
theorem step_unchecked {env : Env} {unsnap : Bytes → Option Bytes} (hsn : SnappyOk env unsnap) {schema : Schema} {w : Writer}
    {st : AState} {groups : List GGroup} (h : Sim env unsnap schema w st groups) {op : Op} (hr : (st.exec schema op).2 = .ok ())
    (hc : (st.exec schema op).1.counted < w.recordCountForNextMemCheck.toNat) :
    (w.step env op).2 = .ok () ∧ Sim env unsnap schema (w.step env op).1 (st.exec schema op).1 groups
    ∧ (w.step env op).1.recordCountForNextMemCheck = w.recordCountForNextMemCheck := by
  obtain ⟨_, ⟨_, w1, hs1, hst, hn1, _⟩ | ⟨e, w1, hr', _⟩ | ⟨hr', _⟩⟩ := sim_exec hsn h op
  · have hlt := w.recordCountForNextMemCheck.isLt
    have hcm : w1.checkMemorySize env = some w1 := by
      rw [Writer.checkMemorySize, if_neg]
      rw [hs1.count, u32_toNat _ (by omega), hn1]
      omega
    rw [hst, Writer.afterOk, hcm]
    exact ⟨rfl, hs1, hn1⟩
  · rw [hr] at hr'; simp at hr'
  · rw [hr] at hr'; simp at hr'

/-- A call that reaches the next check and finds little memory in use. -/
theorem step_check {env : Env} {unsnap : Bytes → Option Bytes} (hsn : SnappyOk env unsnap) {schema : Schema} {w : Writer}
    {st : AState} {groups : List GGroup} (h : Sim env unsnap schema w st groups) {op : Op} (hr : (st.exec schema op).2 = .ok ())
    (hc : (st.exec schema op).1.counted = w.recordCountForNextMemCheck.toNat) (lo hi : Nat) (hlo : 0 < lo) (hhi : hi ≤ chunkGroupSizeThreshold)
    (hmem : ∀ w1, Sim env unsnap schema w1 (st.exec schema op).1 groups → lo ≤ w1.memN ∧ w1.memN ≤ hi)
    (hbig : w.recordCountForNextMemCheck.toNat * chunkGroupSizeThreshold / lo < 2 ^ 32) :
    (w.step env op).2 = .ok () ∧ Sim env unsnap schema (w.step env op).1 (st.exec schema op).1 groups
    ∧ w.recordCountForNextMemCheck.toNat * chunkGroupSizeThreshold / hi ≤ (w.step env op).1.recordCountForNextMemCheck.toNat
    ∧ (w.step env op).1.recordCountForNextMemCheck.toNat ≤ w.recordCountForNextMemCheck.toNat * chunkGroupSizeThreshold / lo := by
  obtain ⟨_, ⟨_, w1, hs1, hst, hn1, _⟩ | ⟨e, w1, hr', _⟩ | ⟨hr', _⟩⟩ := sim_exec hsn h op
  · have hlt := w.recordCountForNextMemCheck.isLt
    obtain ⟨hm1, hm2⟩ := hmem w1 hs1
    have hT : chunkGroupSizeThreshold < 2 ^ 32 := by decide
    have hm : w1.memSize.toNat = w1.memN := by rw [w1.memN_eq, u32_toNat _ (by omega)]
    have hcm : w1.checkMemorySize env = some { w1 with recordCountForNextMemCheck := Writer.nextMemCheck w1.recordCountForNextMemCheck w1.memSize } := by
      rw [Writer.checkMemorySize, if_pos]
      · simp only
        rw [if_neg (by omega), if_neg (by omega)]
      · rw [hs1.count, u32_toNat _ (by omega), hn1]
        omega
    have h1 : w.recordCountForNextMemCheck.toNat * chunkGroupSizeThreshold / w1.memN ≤ w.recordCountForNextMemCheck.toNat * chunkGroupSizeThreshold / lo :=
      Nat.div_le_div_left hm1 hlo
    have h2 : w.recordCountForNextMemCheck.toNat * chunkGroupSizeThreshold / hi ≤ w.recordCountForNextMemCheck.toNat * chunkGroupSizeThreshold / w1.memN :=
      Nat.div_le_div_left hm2 (by omega)
    have h3 : (Writer.nextMemCheck w1.recordCountForNextMemCheck w1.memSize).toNat = w.recordCountForNextMemCheck.toNat * chunkGroupSizeThreshold / w1.memN := by
      rw [Writer.nextMemCheck, hm, hn1, u32_toNat _ (by omega)]
    rw [hst, Writer.afterOk, hcm]
    generalize Writer.nextMemCheck w1.recordCountForNextMemCheck w1.memSize = nx at h3 ⊢
    simp only
    rw [h3]
    exact ⟨trivial, ⟨hs1.schema_eq, hs1.file, hs1.stored, hs1.sorted, hs1.keys, hs1.devices, hs1.pend, hs1.count, hs1.counted_le, hs1.names, hs1.blocks, hs1.exact⟩, h2, h1⟩
  · rw [hr] at hr'; simp at hr'
  · rw [hr] at hr'; simp at hr'

theorem run_a {env : Env} {unsnap : Bytes → Option Bytes} (hsn : SnappyOk env unsnap) {d a b : Bytes} (hab : a ≠ b) (n : Nat)
    {w : Writer} {st : AState} {groups : List GGroup} (h : Sim env unsnap (twoSchema d a b) w st groups) {na nb : Nat}
    (ht : Two d a b na nb st) (hn : na + nb + n < w.recordCountForNextMemCheck.toNat) :
    (∀ r ∈ (w.run env (wideOps d a na n)).2, r = .ok ())
    ∧ (w.run env (wideOps d a na n)).1.recordCountForNextMemCheck = w.recordCountForNextMemCheck
    ∧ ∃ st', Sim env unsnap (twoSchema d a b) (w.run env (wideOps d a na n)).1 st' groups ∧ Two d a b (na + n) nb st' := by
  induction n generalizing w st na with
  | zero => exact ⟨by simp [wideOps, Writer.run], rfl, st, by simpa [wideOps, Writer.run] using h, ht⟩
  | succ n ih =>
    have hlt := w.recordCountForNextMemCheck.isLt
    obtain ⟨hr, ht1⟩ := ht.a hab (by omega)
    obtain ⟨h1, h2, h3⟩ := step_unchecked hsn h hr (by rw [ht1.counted]; omega)
    rw [wideOps_succ]
    simp only [Writer.run, List.mem_cons, forall_eq_or_imp]
    obtain ⟨q1, q2, st', q3, q4⟩ := ih h2 ht1 (by rw [h3]; omega)
    refine ⟨⟨h1, q1⟩, q2.trans h3, st', q3, ?_⟩
    rw [show na + (n + 1) = na + 1 + n by omega]
    exact q4

theorem run_b {env : Env} {unsnap : Bytes → Option Bytes} (hsn : SnappyOk env unsnap) {d a b : Bytes} (hab : a ≠ b) (n : Nat)
    {w : Writer} {st : AState} {groups : List GGroup} (h : Sim env unsnap (twoSchema d a b) w st groups) {na nb : Nat}
    (ht : Two d a b na nb st) (hn : na + nb + n < w.recordCountForNextMemCheck.toNat) :
    (∀ r ∈ (w.run env (wideOps d b nb n)).2, r = .ok ())
    ∧ (w.run env (wideOps d b nb n)).1.recordCountForNextMemCheck = w.recordCountForNextMemCheck
    ∧ ∃ st', Sim env unsnap (twoSchema d a b) (w.run env (wideOps d b nb n)).1 st' groups ∧ Two d a b na (nb + n) st' := by
  induction n generalizing w st nb with
  | zero => exact ⟨by simp [wideOps, Writer.run], rfl, st, by simpa [wideOps, Writer.run] using h, ht⟩
  | succ n ih =>
    have hlt := w.recordCountForNextMemCheck.isLt
    obtain ⟨hr, ht1⟩ := ht.b hab (by omega)
    obtain ⟨h1, h2, h3⟩ := step_unchecked hsn h hr (by rw [ht1.counted]; omega)
    rw [wideOps_succ]
    simp only [Writer.run, List.mem_cons, forall_eq_or_imp]
    obtain ⟨q1, q2, st', q3, q4⟩ := ih h2 ht1 (by rw [h3]; omega)
    refine ⟨⟨h1, q1⟩, q2.trans h3, st', q3, ?_⟩
    rw [show nb + (n + 1) = nb + 1 + n by omega]
    exact q4

/-- The memory of this device. -/
theorem Sim.two_le {env : Env} {unsnap : Bytes → Option Bytes} {d a b : Bytes} (hab : a ≠ b) {w : Writer} {st : AState}
    {groups : List GGroup} (h : Sim env unsnap (twoSchema d a b) w st groups) {na nb : Nat} (ht : Two d a b na nb st) :
    8 * nb ≤ w.memN ∧ w.memN ≤ na / 2 + 22 * nb + 2320 ∧ w.memN ≤ 22 * (na + nb) + 240 := by
  have h1 := h.smooth_le hab ht.flat
  have h2 := h.mem_ge (d := d) (m := b) (ms := [(a, smooth), (b, wide)]) (by simp [twoSchema, look]) (by simp [look, hab])
  have h3 := h.mem_le
  have h4 : (twoSchema d a b).size = 2 := rfl
  rw [ht.pts, List.length_map, List.length_range', ht.number] at h1
  rw [ht.number] at h2
  rw [ht.all, h4] at h3
  omega

/-- A write to the second series that reaches the check. -/
theorem check_b {env : Env} {unsnap : Bytes → Option Bytes} (hsn : SnappyOk env unsnap) {d a b : Bytes} (hab : a ≠ b) {w : Writer}
    {st : AState} {groups : List GGroup} (h : Sim env unsnap (twoSchema d a b) w st groups) {na nb : Nat} (ht : Two d a b na nb st)
    (hn : na + nb + 1 = w.recordCountForNextMemCheck.toNat) (hi : Nat) (hhi : hi ≤ chunkGroupSizeThreshold)
    (hm : na / 2 + 22 * (nb + 1) + 2320 ≤ hi ∨ 22 * (na + nb + 1) + 240 ≤ hi)
    (hbig : w.recordCountForNextMemCheck.toNat * chunkGroupSizeThreshold / (8 * (nb + 1)) < 2 ^ 32) :
    (w.step env (.write d b (BitVec.ofNat 64 nb) (.LONG 0))).2 = .ok ()
    ∧ ∃ st', Sim env unsnap (twoSchema d a b) (w.step env (.write d b (BitVec.ofNat 64 nb) (.LONG 0))).1 st' groups
    ∧ Two d a b na (nb + 1) st'
    ∧ w.recordCountForNextMemCheck.toNat * chunkGroupSizeThreshold / hi ≤ (w.step env (.write d b (BitVec.ofNat 64 nb) (.LONG 0))).1.recordCountForNextMemCheck.toNat
    ∧ (w.step env (.write d b (BitVec.ofNat 64 nb) (.LONG 0))).1.recordCountForNextMemCheck.toNat
      ≤ w.recordCountForNextMemCheck.toNat * chunkGroupSizeThreshold / (8 * (nb + 1)) := by
  have hlt := w.recordCountForNextMemCheck.isLt
  obtain ⟨hr, ht1⟩ := ht.b hab (by omega)
  obtain ⟨h1, h2, h3⟩ := step_check hsn h hr (by rw [ht1.counted]; omega) (8 * (nb + 1)) hi (by omega) hhi
    (fun w1 hs1 => by have := hs1.two_le hab ht1; omega) hbig
  exact ⟨h1, _, h2, ht1, h3⟩

end TsFile
