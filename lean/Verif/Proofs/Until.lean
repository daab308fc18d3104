import Verif.Spec.Until
import Verif.Proofs.Query
/-! # Readers that stop at the end of the range -/

namespace TsFile
open Spec

/-- Statistics from which such a reader concludes nothing wrong about these points. -/
def StartOk (st : Option Stats) (pts : List Point) : Prop :=
  ∀ x, st = some x → pts ≠ [] ∧ ∀ p ∈ pts, x.startTime.toInt ≤ p.1.toInt

theorem takeWhile_split {α : Type} (f : α → Bool) (a b : List α) :
    (a ++ b).takeWhile f = if a.any (fun x => !f x) then a.takeWhile f else a ++ b.takeWhile f := by
  induction a with
  | nil => rfl
  | cons x a ih =>
    simp only [List.cons_append, List.takeWhile_cons, List.any_cons]
    cases hf : f x
    · simp
    · simp only [Bool.not_true, Bool.false_or, if_true, ih]
      split <;> rfl

theorem takeWhile_after {pts rest : List Point} {till : Int} {x : Stats} (h : StartOk (some x) pts) (hx : till < x.startTime.toInt) :
    (pts ++ rest).takeWhile (fun p => decide (p.1.toInt ≤ till)) = []
    ∧ pts.any (fun p => decide (till < p.1.toInt)) = true := by
  obtain ⟨hne, hge⟩ := h x rfl
  cases pts with
  | nil => exact absurd rfl hne
  | cons p pts =>
    have := hge p (by simp)
    have h1 : ¬ p.1.toInt ≤ till := by omega
    have h2 : till < p.1.toInt := by omega
    simp [h1, h2]

theorem late_eq (till : Int) : (fun p : Point => !decide (p.1.toInt ≤ till)) = (fun p => decide (till < p.1.toInt)) := by
  funext p
  by_cases h : p.1.toInt ≤ till
  · simp [h]
  · simp [h, Int.not_le.1 h]

theorem untilPages_eq {q : Query} {pages : List (Option Stats × List Point)} (h : ∀ pg ∈ pages, StartOk pg.1 pg.2) :
    untilPages q pages = (((pages.map Prod.snd).flatten.takeWhile (fun p => decide (p.1.toInt ≤ q.till))).filter q.wants,
      (pages.map Prod.snd).flatten.any (fun p => decide (q.till < p.1.toInt))) := by
  induction pages with
  | nil => rfl
  | cons pg pages ih =>
    obtain ⟨st, pts⟩ := pg
    have hpg : StartOk st pts := h (st, pts) (by simp)
    rw [untilPages, ih (fun pg hp => h pg (by simp [hp]))]
    simp only [List.map_cons, List.flatten_cons, List.any_append]
    split
    · rename_i hany
      cases st with
      | none => simp at hany
      | some x =>
        obtain ⟨h1, h2⟩ := takeWhile_after (rest := (pages.map Prod.snd).flatten) hpg (of_decide_eq_true hany)
        rw [h1, h2]
        rfl
    · rw [takeWhile_split, late_eq]
      split
      · rename_i hl
        rw [hl]
        rfl
      · rename_i hl
        rw [Bool.not_eq_true] at hl
        rw [hl, List.filter_append, Bool.false_or]

theorem untilChunks_eq {unsnap : Bytes → Option Bytes} {q : Query} {F m : Bytes} : ∀ {cs : List ChunkMeta} {chunks : List Chunk},
    readChunks unsnap F m cs = some chunks →
    (∀ c ∈ cs, ∀ chunk rest, pChunk unsnap (F.drop c.offset) = some (chunk, rest) →
      StartOk c.stats chunk.points ∧ ∀ pg ∈ chunk.pages, StartOk pg.1 pg.2) →
    untilChunks unsnap q F m cs
      = some (((chunks.flatMap Chunk.points).takeWhile (fun p => decide (p.1.toInt ≤ q.till))).filter q.wants) := by
  intro cs
  induction cs with
  | nil => intro chunks h _; simp only [readChunks, Option.some.injEq] at h; subst h; rfl
  | cons c cs ih =>
    intro chunks h hs
    simp only [readChunks] at h
    cases h1 : pChunk unsnap (F.drop c.offset) with
    | none => rw [h1] at h; simp at h
    | some r =>
      obtain ⟨chunk, rest⟩ := r
      rw [h1] at h
      dsimp only at h
      split at h
      · rename_i hm
        simp only [Option.map_eq_some_iff] at h
        obtain ⟨chunks', h2, rfl⟩ := h
        have hrec := ih h2 (fun c hc => hs c (by simp [hc]))
        obtain ⟨hc1, hc2⟩ := hs c (by simp) chunk rest h1
        rw [untilChunks, List.flatMap_cons]
        split
        · rename_i hany
          cases hst : c.stats with
          | none => rw [hst] at hany; simp at hany
          | some x =>
            rw [hst] at hany hc1
            rw [(takeWhile_after hc1 (of_decide_eq_true hany)).1]
            rfl
        · rw [h1]
          simp only [if_pos hm]
          rw [untilPages_eq hc2, takeWhile_split, late_eq]
          have hp : chunk.points = (chunk.pages.map Prod.snd).flatten := rfl
          rw [← hp]
          cases hl : chunk.points.any (fun p => decide (q.till < p.1.toInt)) with
          | true => rfl
          | false =>
            have hall : chunk.points.takeWhile (fun p => decide (p.1.toInt ≤ q.till)) = chunk.points := by
              have := takeWhile_split (fun p : Point => decide (p.1.toInt ≤ q.till)) chunk.points []
              rw [late_eq, hl] at this
              simpa using this
            simp only [hrec, hall, Option.map_some, List.filter_append, Bool.false_eq_true, if_false]
      · simp at h

theorem takeWhile_filter_of_sorted {pts : List Point} (h : pts.Pairwise (fun p q => p.1.toInt ≤ q.1.toInt)) (q : Query) :
    (pts.takeWhile (fun p => decide (p.1.toInt ≤ q.till))).filter q.wants = pts.filter q.wants := by
  induction pts with
  | nil => rfl
  | cons p pts ih =>
    obtain ⟨h1, h2⟩ := List.pairwise_cons.1 h
    rw [List.takeWhile_cons]
    split
    · rw [List.filter_cons, List.filter_cons, ih h2]
    · rename_i hp
      have hp : ¬ p.1.toInt ≤ q.till := by simpa using hp
      symm
      rw [List.filter_nil, List.filter_eq_nil_iff]
      intro x hx hc
      simp only [Query.wants, Bool.and_eq_true, decide_eq_true_eq] at hc
      rcases List.mem_cons.1 hx with rfl | hx
      · exact hp hc.1.2
      · have := h1 x hx
        omega

theorem sorted_of_takeWhile {pts : List Point}
    (h : ∀ q : Query, (pts.takeWhile (fun p => decide (p.1.toInt ≤ q.till))).filter q.wants = pts.filter q.wants) :
    pts.Pairwise (fun p q => p.1.toInt ≤ q.1.toInt) := by
  induction pts with
  | nil => exact .nil
  | cons p pts ih =>
    refine List.pairwise_cons.2 ⟨fun x hx => ?_, ih fun q => ?_⟩
    · refine Decidable.byContradiction fun hlt => ?_
      have hq := h ⟨x.1.toInt, x.1.toInt, none⟩
      rw [List.takeWhile_cons, if_neg (by simpa using hlt), List.filter_nil] at hq
      have := List.filter_eq_nil_iff.1 hq.symm x (by simp [hx])
      simp [Query.wants] at this
    · -- shift the range so that the first point does not stop the reader: if it does, nothing is asked for in both
      have hq := h q
      rw [List.takeWhile_cons] at hq
      split at hq
      · rw [List.filter_cons, List.filter_cons] at hq
        split at hq
        · exact (List.cons.inj hq).2
        · exact hq
      · rename_i hp
        have hp : ¬ p.1.toInt ≤ q.till := by simpa using hp
        rw [List.filter_nil] at hq
        have hall := List.filter_eq_nil_iff.1 hq.symm
        have h2 : pts.filter q.wants = [] := List.filter_eq_nil_iff.2 fun x hx => hall x (by simp [hx])
        rw [h2, List.filter_eq_nil_iff]
        exact fun x hx => hall x (by simp [List.takeWhile_subset _ hx])

theorem le_sum_of_mem_nat {l : List Nat} {n : Nat} (h : n ∈ l) : n ≤ l.sum := by
  induction l with
  | nil => simp at h
  | cons a l ih =>
    rw [List.sum_cons]
    rcases List.mem_cons.1 h with rfl | h
    · omega
    · have := ih h
      omega

end TsFile
