import Verif.Spec.Aggregate
import Verif.Proofs.Query
import Mathlib.Data.List.Forall2
/-! # Aggregates computed from the statistics: they are those of the points -/

namespace TsFile
open Spec

/-- Results that are correct for a list of points, `R`: what is computed from points is correct, and so is what is put together
from correct results of two parts. -/
structure Spec.Aggregate.Good {α : Type} (agg : Aggregate α) (R : List Point → α → Prop) : Prop where
  points : ∀ l, R l (agg.ofPoints l)
  join : ∀ l l' a a', R l a → R l' a' → R (l ++ l') (agg.join a a')

/-- What statistics give is correct. -/
def Spec.Query.Right {α : Type} (q : Query) (agg : Aggregate α) (R : List Point → α → Prop) (st : Option Stats)
    (pts : List Point) : Prop :=
  ∀ s a, st = some s → q.known agg s = some a → R (pts.filter q.wants) a

theorem aggPage_rel {α : Type} {unsnap : Bytes → Option Bytes} {q : Query} {agg : Aggregate α} {R : List Point → α → Prop}
    (hg : agg.Good R) {dt : TSDataType} {comp : CompressionType} {enc : TSEncoding} {withStats : Bool} {b rest : Bytes}
    {st : Option Stats} {pts : List Point} (h : pPage unsnap dt comp enc withStats b = some ((st, pts), rest))
    (hs : q.Right agg R st pts) :
    ∃ a, aggPage unsnap q agg dt comp enc withStats b = some (a, rest) ∧ R (pts.filter q.wants) a := by
  obtain ⟨u, b1, c, b2, b3, data, b4, raw, h1, h2, h3, h4, h5, hl, h6, rfl⟩ := pPage_inv h
  have goal : ∀ (x : Option (Option Stats × Bytes)), x = some (st, b3) → ∃ a, (x.bind fun r => (pTake c r.2).bind fun t =>
      match r.1.bind (q.known agg) with
      | some a => some (a, t.2)
      | none => (decompress unsnap comp t.1).bind fun raw => if raw.length = u then (decodePage dt enc raw).bind fun pts =>
        some (agg.ofPoints (pts.filter q.wants), t.2) else none) = some (a, b4) ∧ R (pts.filter q.wants) a := by
    rintro _ rfl
    simp only [Option.bind_some, h4]
    cases ha : st.bind (q.known agg) with
    | some a =>
      simp only [Option.bind_eq_some_iff] at ha
      obtain ⟨s, rfl, hk⟩ := ha
      exact ⟨a, rfl, hs s a rfl hk⟩
    | none =>
      refine ⟨_, ?_, hg.points _⟩
      simp only [h5, Option.bind_some, if_pos hl, h6]
  cases withStats <;>
  · simp only [aggPage, Option.bind_eq_bind, h1, h2, Option.bind_some, if_true, Bool.false_eq_true, if_false] at h3 ⊢
    exact goal _ h3

theorem pAll_rel {α β : Type} {p : Parser α} {p' : Parser β} {P : α → β → Prop} {good : α → Prop}
    (hp : ∀ b a r, p b = some (a, r) → good a → ∃ a', p' b = some (a', r) ∧ P a a') {b : Bytes} {l : List α}
    (h : pAll p b = some l) (hg : ∀ a ∈ l, good a) : ∃ l', pAll p' b = some l' ∧ List.Forall₂ P l l' := by
  have : ∀ (n : Nat) (b : Bytes) (l : List α), pAllFuel p n b = some l → (∀ a ∈ l, good a) →
      ∃ l', pAllFuel p' n b = some l' ∧ List.Forall₂ P l l' := by
    intro n
    induction n with
    | zero =>
      intro b l h hg
      cases b with
      | nil => simp only [pAllFuel, Option.some.injEq] at h ⊢; subst h; exact ⟨[], rfl, .nil⟩
      | cons x xs => simp [pAllFuel] at h
    | succ n ih =>
      intro b l h hg
      cases b with
      | nil => simp only [pAllFuel, Option.some.injEq] at h ⊢; subst h; exact ⟨[], rfl, .nil⟩
      | cons x xs =>
        simp only [pAllFuel] at h ⊢
        cases h1 : p (x :: xs) with
        | none => rw [h1] at h; simp at h
        | some a =>
          obtain ⟨a, r⟩ := a
          rw [h1] at h
          dsimp only at h
          cases h2 : pAllFuel p n r with
          | none => rw [h2] at h; simp at h
          | some l' =>
            rw [h2] at h
            simp only [Option.some.injEq] at h
            subst h
            obtain ⟨a', ha, hpa⟩ := hp _ _ _ h1 (hg a (by simp))
            obtain ⟨l'', hl, hpl⟩ := ih r l' h2 (fun a ha => hg a (by simp [ha]))
            exact ⟨a' :: l'', by rw [ha]; dsimp only; rw [hl], .cons hpa hpl⟩
  exact this _ b l h hg

theorem Spec.Aggregate.Good.flatten {α : Type} {agg : Aggregate α} {R : List Point → α → Prop} (hg : agg.Good R)
    {ls : List (List Point)} {as : List α} (h : List.Forall₂ R ls as) : R ls.flatten (as.foldr agg.join (agg.ofPoints [])) := by
  induction h with
  | nil => exact hg.points []
  | cons h1 _ ih => exact hg.join _ _ _ _ h1 ih

theorem aggChunk_rel {α : Type} {unsnap : Bytes → Option Bytes} {q : Query} {agg : Aggregate α} {R : List Point → α → Prop}
    (hg : agg.Good R) {b rest : Bytes} {c : Chunk} (h : pChunk unsnap b = some (c, rest))
    (hs : ∀ pg ∈ c.pages, q.Right agg R pg.1 pg.2) :
    ∃ a, aggChunk unsnap q agg b = some (c.measurement, a) ∧ R (c.points.filter q.wants) a := by
  simp only [pChunk, Option.bind_eq_bind, Option.bind_eq_some_iff] at h
  obtain ⟨⟨marker, b1⟩, h1, ⟨meas, b2⟩, h2, ⟨size, b3⟩, h3, ⟨x, b4⟩, h4, ⟨y, b5⟩, h5, ⟨z, b6⟩, h6, dt, h7, comp, h8, enc, h9,
    ⟨data, b7⟩, h10, h11⟩ := h
  simp only [aggChunk, Option.bind_eq_bind, h1, h2, h3, h4, h5, h6, h7, h8, h9, h10, Option.bind_some]
  dsimp only at h11
  split at h11
  · rename_i hm
    simp only [Option.bind_eq_some_iff] at h11
    obtain ⟨⟨⟨st, pts⟩, r⟩, h12, h13⟩ := h11
    dsimp only at h13
    split at h13
    · rename_i hr
      simp only [Option.some.injEq, Prod.mk.injEq] at h13
      obtain ⟨rfl, rfl⟩ := h13
      obtain ⟨a, ha, hR⟩ := aggPage_rel hg h12 (hs (st, pts) (by simp))
      exact ⟨a, by simp [hm, ha, hr], by simpa [Chunk.points] using hR⟩
    · simp at h13
  · rename_i hm5
    split at h11
    · rename_i hm
      simp only [Option.bind_eq_some_iff, Option.some.injEq, Prod.mk.injEq] at h11
      obtain ⟨pages, h12, rfl, rfl⟩ := h11
      obtain ⟨as, ha, hR⟩ := pAll_rel (P := fun (pg : Option Stats × List Point) a => R (pg.2.filter q.wants) a)
        (good := fun pg => q.Right agg R pg.1 pg.2) (p' := aggPage unsnap q agg dt comp enc true)
        (fun b a r h hgd => aggPage_rel hg (st := a.1) (pts := a.2) h hgd) h12 hs
      refine ⟨as.foldr agg.join (agg.ofPoints []), ?_, ?_⟩
      · rw [if_neg hm5, if_pos hm, ha]
        rfl
      · have := hg.flatten (ls := pages.map (fun pg => pg.2.filter q.wants)) (as := as) (by
          rw [List.forall₂_map_left_iff]; exact hR)
        rw [Chunk.points, List.filter_flatten, List.map_map]
        exact this
    · simp at h11

theorem aggChunks_rel {α : Type} {unsnap : Bytes → Option Bytes} {q : Query} {agg : Aggregate α} {R : List Point → α → Prop}
    (hg : agg.Good R) {F m : Bytes} :
    ∀ {cs : List ChunkMeta} {chunks : List Chunk}, readChunks unsnap F m cs = some chunks →
    (∀ c ∈ cs, ∀ chunk ∈ chunks, ∀ rest, pChunk unsnap (F.drop c.offset) = some (chunk, rest) →
      q.Right agg R c.stats chunk.points ∧ ∀ pg ∈ chunk.pages, q.Right agg R pg.1 pg.2) →
    ∃ a, aggChunks unsnap q agg F m cs = some a ∧ R ((chunks.flatMap Chunk.points).filter q.wants) a := by
  intro cs
  induction cs with
  | nil =>
    intro chunks h _
    simp only [readChunks, Option.some.injEq] at h
    subst h
    exact ⟨_, rfl, hg.points []⟩
  | cons c cs ih =>
    intro chunks h hs
    simp only [readChunks] at h
    cases h1 : pChunk unsnap (F.drop c.offset) with
    | none => rw [h1] at h; simp at h
    | some r =>
      obtain ⟨chunk, rest⟩ := r
      rw [h1] at h
      dsimp only at h
      split at h
      · rename_i hm
        simp only [Option.map_eq_some_iff] at h
        obtain ⟨chunks', h2, rfl⟩ := h
        obtain ⟨a, hrec, hR⟩ := ih h2 (fun c hc chunk hch => hs c (by simp [hc]) chunk (by simp [hch]))
        obtain ⟨hc1, hc2⟩ := hs c (by simp) chunk (by simp) rest h1
        simp only [aggChunks, List.flatMap_cons, List.filter_append, hrec]
        cases ha : c.stats.bind (q.known agg) with
        | some a' =>
          simp only [Option.bind_eq_some_iff] at ha
          obtain ⟨st, hst, hk⟩ := ha
          exact ⟨_, rfl, hg.join _ _ _ _ (hc1 st a' hst hk) hR⟩
        | none =>
          obtain ⟨a', ha', hR'⟩ := aggChunk_rel hg h1 hc2
          refine ⟨agg.join a' a, ?_, hg.join _ _ _ _ hR' hR⟩
          rw [ha']
          dsimp only
          rw [if_pos hm]
          rfl
      · simp at h

/-- Values of parts are put together to the value of the whole. -/
def Spec.Aggregate.Joins {α : Type} (agg : Aggregate α) : Prop :=
  ∀ l l', agg.ofPoints (l ++ l') = agg.join (agg.ofPoints l) (agg.ofPoints l')

theorem Spec.Aggregate.Joins.good {α : Type} {agg : Aggregate α} (hj : agg.Joins) : agg.Good (fun l a => a = agg.ofPoints l) :=
  ⟨fun _ => rfl, fun l l' a a' h h' => by rw [h, h', hj]⟩

/-! ## The aggregates join -/

theorem count_joins : Aggregate.count.Joins := fun l l' => List.length_append

theorem sum_joins : Aggregate.sum.Joins := fun l l' => by simp [Aggregate.sum, List.filterMap_append, List.sum_append]

theorem min?_append_merge (l l' : List Int) : (l ++ l').min? = Option.merge min l.min? l'.min? := by
  induction l with
  | nil => simp
  | cons x l ih =>
    rw [List.cons_append, List.min?_cons, List.min?_cons, ih]
    cases l.min? <;> cases l'.min? <;> simp [Option.merge, Int.min_assoc]

theorem max?_append_merge (l l' : List Int) : (l ++ l').max? = Option.merge max l.max? l'.max? := by
  induction l with
  | nil => simp
  | cons x l ih =>
    rw [List.cons_append, List.max?_cons, List.max?_cons, ih]
    cases l.max? <;> cases l'.max? <;> simp [Option.merge, Int.max_assoc]

theorem firstTime_joins : Aggregate.firstTime.Joins := fun l l' => by
  simp only [Aggregate.firstTime, List.map_append, min?_append_merge]

theorem lastTime_joins : Aggregate.lastTime.Joins := fun l l' => by
  simp only [Aggregate.lastTime, List.map_append, max?_append_merge]

theorem smallest_joins : Aggregate.smallest.Joins := fun l l' => by
  simp only [Aggregate.smallest, List.filterMap_append, min?_append_merge]

theorem largest_joins : Aggregate.largest.Joins := fun l l' => by
  simp only [Aggregate.largest, List.filterMap_append, max?_append_merge]

theorem latest_later {l l' : List Point} {a a' : Option Point} (h : Latest l a) (h' : Latest l' a') :
    Latest (l ++ l') (later a a') := by
  cases a with
  | none => simp only [Latest] at h; subst h; exact h'
  | some p =>
    cases a' with
    | none => simp only [Latest] at h'; subst h'; simpa [later] using h
    | some r =>
      simp only [Latest] at h h'
      simp only [later]
      split
      · refine ⟨by simp [h'.1], fun x hx => ?_⟩
        rcases List.mem_append.1 hx with hx | hx
        · have := h.2 x hx; omega
        · exact h'.2 x hx
      · refine ⟨by simp [h.1], fun x hx => ?_⟩
        rcases List.mem_append.1 hx with hx | hx
        · exact h.2 x hx
        · have := h'.2 x hx; omega

theorem earliest_earlier {l l' : List Point} {a a' : Option Point} (h : Earliest l a) (h' : Earliest l' a') :
    Earliest (l ++ l') (earlier a a') := by
  cases a with
  | none => simp only [Earliest] at h; subst h; exact h'
  | some p =>
    cases a' with
    | none => simp only [Earliest] at h'; subst h'; simpa [earlier] using h
    | some r =>
      simp only [Earliest] at h h'
      simp only [earlier]
      split
      · refine ⟨by simp [h.1], fun x hx => ?_⟩
        rcases List.mem_append.1 hx with hx | hx
        · exact h.2 x hx
        · have := h'.2 x hx; omega
      · refine ⟨by simp [h'.1], fun x hx => ?_⟩
        rcases List.mem_append.1 hx with hx | hx
        · have := h.2 x hx; omega
        · exact h'.2 x hx

theorem last_good : Aggregate.last.Good Latest := by
  refine ⟨fun l => ?_, fun l l' a a' => latest_later⟩
  induction l with
  | nil => rfl
  | cons x l ih => exact latest_later (l := [x]) (a := some x) (by simp [Latest]) ih

theorem first_good : Aggregate.first.Good Earliest := by
  refine ⟨fun l => ?_, fun l l' a a' => earliest_earlier⟩
  induction l with
  | nil => rfl
  | cons x l ih => exact earliest_earlier (l := [x]) (a := some x) (by simp [Earliest]) ih

/-- The time of the given point is the smallest one, and the point is one of the given ones if its time is not 2^63 - 1. -/
def EarliestTime (l : List Point) : Option Point → Prop
  | none => l = []
  | some p => (∃ x ∈ l, x.1 = p.1) ∧ (∀ x ∈ l, p.1.toInt ≤ x.1.toInt) ∧ (p.1.toInt < 2 ^ 63 - 1 → p ∈ l)

theorem earliestTime_earlier {l l' : List Point} {a a' : Option Point} (h : EarliestTime l a) (h' : EarliestTime l' a') :
    EarliestTime (l ++ l') (earlier a a') := by
  cases a with
  | none => simp only [EarliestTime] at h; subst h; exact h'
  | some p =>
    cases a' with
    | none => simp only [EarliestTime] at h'; subst h'; simpa [earlier, EarliestTime] using h
    | some r =>
      simp only [EarliestTime] at h h'
      simp only [earlier]
      obtain ⟨⟨x, hx, hx'⟩, h2, h3⟩ := h
      obtain ⟨⟨y, hy, hy'⟩, h4, h5⟩ := h'
      split
      · refine ⟨⟨x, List.mem_append_left _ hx, hx'⟩, fun z hz => ?_, fun hp => List.mem_append_left _ (h3 hp)⟩
        rcases List.mem_append.1 hz with hz | hz
        · exact h2 z hz
        · have := h4 z hz; omega
      · refine ⟨⟨y, List.mem_append_right _ hy, hy'⟩, fun z hz => ?_, fun hp => List.mem_append_right _ (h5 hp)⟩
        rcases List.mem_append.1 hz with hz | hz
        · have := h2 z hz; omega
        · exact h4 z hz

theorem first_good_time : Aggregate.first.Good EarliestTime := by
  refine ⟨fun l => ?_, fun l l' a a' => earliestTime_earlier⟩
  induction l with
  | nil => rfl
  | cons x l ih => exact earliestTime_earlier (l := [x]) (a := some x) (by simp [EarliestTime]) ih

/-- `a` is at most all of the numbers, and it is one of them or `big`. -/
def LeastUpTo (big : Int) (l : List Int) (a : Option Int) : Prop :=
  (∀ v ∈ l, ∃ x, a = some x ∧ x ≤ v) ∧ ∀ x, a = some x → x ∈ l ∨ x = big

/-- `a` is at least all of the numbers, and it is one of them or `small`. -/
def GreatestUpTo (small : Int) (l : List Int) (a : Option Int) : Prop :=
  (∀ v ∈ l, ∃ x, a = some x ∧ v ≤ x) ∧ ∀ x, a = some x → x ∈ l ∨ x = small

theorem leastUpTo_min? (big : Int) (l : List Int) : LeastUpTo big l l.min? := by
  cases h : l.min? with
  | none => rw [List.min?_eq_none_iff] at h; subst h; exact ⟨by simp, by simp⟩
  | some x =>
    rw [List.min?_eq_some_iff] at h
    exact ⟨fun v hv => ⟨x, rfl, h.2 v hv⟩, fun y hy => by cases hy; exact .inl h.1⟩

theorem greatestUpTo_max? (small : Int) (l : List Int) : GreatestUpTo small l l.max? := by
  cases h : l.max? with
  | none => rw [List.max?_eq_none_iff] at h; subst h; exact ⟨by simp, by simp⟩
  | some x =>
    rw [List.max?_eq_some_iff] at h
    exact ⟨fun v hv => ⟨x, rfl, h.2 v hv⟩, fun y hy => by cases hy; exact .inl h.1⟩

theorem leastUpTo_merge {big : Int} {l l' : List Int} {a a' : Option Int} (h : LeastUpTo big l a) (h' : LeastUpTo big l' a') :
    LeastUpTo big (l ++ l') (Option.merge min a a') := by
  obtain ⟨h1, h2⟩ := h
  obtain ⟨h3, h4⟩ := h'
  constructor
  · intro v hv
    rcases List.mem_append.1 hv with hv | hv
    · obtain ⟨x, rfl, hx⟩ := h1 v hv
      cases a' with
      | none => exact ⟨x, rfl, hx⟩
      | some y => exact ⟨min x y, rfl, by omega⟩
    · obtain ⟨x, rfl, hx⟩ := h3 v hv
      cases a with
      | none => exact ⟨x, rfl, hx⟩
      | some y => exact ⟨min y x, rfl, by omega⟩
  · intro x hx
    rw [List.mem_append]
    cases a with
    | none =>
      cases a' with
      | none => cases hx
      | some y => cases hx; rcases h4 _ rfl with h | h <;> simp [h]
    | some z =>
      cases a' with
      | none => cases hx; rcases h2 _ rfl with h | h <;> simp [h]
      | some y =>
        cases hx
        have h5 := h2 z rfl
        have h6 := h4 y rfl
        rcases Int.le_total z y with h | h
        · rw [Int.min_eq_left h]; rcases h5 with h | h <;> simp [h]
        · rw [Int.min_eq_right h]; rcases h6 with h | h <;> simp [h]

theorem greatestUpTo_merge {small : Int} {l l' : List Int} {a a' : Option Int} (h : GreatestUpTo small l a)
    (h' : GreatestUpTo small l' a') : GreatestUpTo small (l ++ l') (Option.merge max a a') := by
  obtain ⟨h1, h2⟩ := h
  obtain ⟨h3, h4⟩ := h'
  constructor
  · intro v hv
    rcases List.mem_append.1 hv with hv | hv
    · obtain ⟨x, rfl, hx⟩ := h1 v hv
      cases a' with
      | none => exact ⟨x, rfl, hx⟩
      | some y => exact ⟨max x y, rfl, by omega⟩
    · obtain ⟨x, rfl, hx⟩ := h3 v hv
      cases a with
      | none => exact ⟨x, rfl, hx⟩
      | some y => exact ⟨max y x, rfl, by omega⟩
  · intro x hx
    rw [List.mem_append]
    cases a with
    | none =>
      cases a' with
      | none => cases hx
      | some y => cases hx; rcases h4 _ rfl with h | h <;> simp [h]
    | some z =>
      cases a' with
      | none => cases hx; rcases h2 _ rfl with h | h <;> simp [h]
      | some y =>
        cases hx
        have h5 := h2 z rfl
        have h6 := h4 y rfl
        rcases Int.le_total z y with h | h
        · rw [Int.max_eq_right h]; rcases h6 with h | h <;> simp [h]
        · rw [Int.max_eq_left h]; rcases h5 with h | h <;> simp [h]

theorem smallest_good (big : Int) :
    Aggregate.smallest.Good (fun l a => LeastUpTo big (l.filterMap (fun p => number p.2)) a) :=
  ⟨fun _ => leastUpTo_min? big _, fun l l' a a' h h' => by rw [List.filterMap_append]; exact leastUpTo_merge h h'⟩

theorem largest_good (small : Int) :
    Aggregate.largest.Good (fun l a => GreatestUpTo small (l.filterMap (fun p => number p.2)) a) :=
  ⟨fun _ => greatestUpTo_max? small _, fun l l' a a' h h' => by rw [List.filterMap_append]; exact greatestUpTo_merge h h'⟩

end TsFile
