import Verif.Spec.Query
/-! # Queries that skip: they find what reading everything finds -/

namespace TsFile
open Spec

/-- The statistics do not rule out a point that is asked for. -/
def Spec.Query.Sound (q : Query) (st : Option Stats) (pts : List Point) : Prop :=
  ∀ s, st = some s → q.mayMatch s = false → pts.filter q.wants = []

theorem pPage_inv {unsnap : Bytes → Option Bytes} {dt : TSDataType} {comp : CompressionType} {enc : TSEncoding}
    {withStats : Bool} {b rest : Bytes} {st : Option Stats} {pts : List Point}
    (h : pPage unsnap dt comp enc withStats b = some ((st, pts), rest)) :
    ∃ u b1 c b2 b3 data b4 raw, pVarU b = some (u, b1) ∧ pVarU b1 = some (c, b2)
      ∧ (if withStats = true then (pStats dt b2).map (fun r => (some r.1, r.2)) else some (none, b2)) = some (st, b3)
      ∧ pTake c b3 = some (data, b4) ∧ decompress unsnap comp data = some raw ∧ raw.length = u
      ∧ decodePage dt enc raw = some pts ∧ b4 = rest := by
  cases withStats <;>
  · simp only [pPage, Option.bind_eq_bind, Option.bind_eq_some_iff, if_true, Bool.false_eq_true, if_false] at h ⊢
    obtain ⟨⟨u, b1⟩, h1, ⟨c, b2⟩, h2, ⟨st', b3⟩, h3, ⟨data, b4⟩, h4, raw, h5, h6⟩ := h
    dsimp only at h3 h4 h5 h6
    split at h6
    · rename_i hl
      simp only [Option.bind_eq_some_iff, Option.some.injEq, Prod.mk.injEq] at h6
      obtain ⟨pts', h6, ⟨rfl, rfl⟩, rfl⟩ := h6
      exact ⟨u, b1, c, b2, b3, data, b4, raw, h1, h2, h3, h4, h5, hl, h6, rfl⟩
    · simp at h6

theorem queryPage_eq {unsnap : Bytes → Option Bytes} {q : Query} {dt : TSDataType} {comp : CompressionType} {enc : TSEncoding}
    {withStats : Bool} {b rest : Bytes} {st : Option Stats} {pts : List Point}
    (h : pPage unsnap dt comp enc withStats b = some ((st, pts), rest)) (hs : q.Sound st pts) :
    queryPage unsnap q dt comp enc withStats b = some (pts.filter q.wants, rest) := by
  obtain ⟨u, b1, c, b2, b3, data, b4, raw, h1, h2, h3, h4, h5, hl, h6, rfl⟩ := pPage_inv h
  have goal : ∀ (x : Option (Option Stats × Bytes)), x = some (st, b3) → (x.bind fun r => (pTake c r.2).bind fun t =>
      if r.1.any (fun st => !q.mayMatch st) = true then some ([], t.2)
      else (decompress unsnap comp t.1).bind fun raw => if raw.length = u then (decodePage dt enc raw).bind fun pts =>
        some (pts.filter q.wants, t.2) else none) = some (pts.filter q.wants, b4) := by
    rintro _ rfl
    simp only [Option.bind_some, h4]
    split
    · rename_i hany
      rw [Option.any_eq_true_iff_get] at hany
      obtain ⟨hi, hg⟩ := hany
      rw [hs _ (Option.some_get hi).symm (by simpa using hg)]
    · simp only [h5, Option.bind_some, if_pos hl, h6]
  cases withStats <;>
  · simp only [queryPage, Option.bind_eq_bind, h1, h2, Option.bind_some, if_true, Bool.false_eq_true, if_false] at h3 ⊢
    exact goal _ h3

theorem pAll_map {α β : Type} {p : Parser α} {p' : Parser β} {f : α → β} {good : α → Prop}
    (hp : ∀ b a r, p b = some (a, r) → good a → p' b = some (f a, r)) {b : Bytes} {l : List α} (h : pAll p b = some l)
    (hg : ∀ a ∈ l, good a) : pAll p' b = some (l.map f) := by
  have : ∀ (n : Nat) (b : Bytes) (l : List α), pAllFuel p n b = some l → (∀ a ∈ l, good a) → pAllFuel p' n b = some (l.map f) := by
    intro n
    induction n with
    | zero =>
      intro b l h hg
      cases b with
      | nil => simp only [pAllFuel, Option.some.injEq] at h ⊢; subst h; rfl
      | cons x xs => simp [pAllFuel] at h
    | succ n ih =>
      intro b l h hg
      cases b with
      | nil => simp only [pAllFuel, Option.some.injEq] at h ⊢; subst h; rfl
      | cons x xs =>
        simp only [pAllFuel] at h ⊢
        cases h1 : p (x :: xs) with
        | none => rw [h1] at h; simp at h
        | some a =>
          obtain ⟨a, r⟩ := a
          rw [h1] at h
          dsimp only at h
          cases h2 : pAllFuel p n r with
          | none => rw [h2] at h; simp at h
          | some l' =>
            rw [h2] at h
            simp only [Option.some.injEq] at h
            subst h
            rw [hp _ _ _ h1 (hg a (by simp))]
            dsimp only
            rw [ih r l' h2 (fun a ha => hg a (by simp [ha]))]
            rfl
  exact this _ _ _ h hg

theorem queryChunk_eq {unsnap : Bytes → Option Bytes} {q : Query} {b rest : Bytes} {c : Chunk}
    (h : pChunk unsnap b = some (c, rest)) (hs : ∀ pg ∈ c.pages, q.Sound pg.1 pg.2) :
    queryChunk unsnap q b = some (c.measurement, c.points.filter q.wants) := by
  simp only [pChunk, Option.bind_eq_bind, Option.bind_eq_some_iff] at h
  obtain ⟨⟨marker, b1⟩, h1, ⟨meas, b2⟩, h2, ⟨size, b3⟩, h3, ⟨x, b4⟩, h4, ⟨y, b5⟩, h5, ⟨z, b6⟩, h6, dt, h7, comp, h8, enc, h9,
    ⟨data, b7⟩, h10, h11⟩ := h
  simp only [queryChunk, Option.bind_eq_bind, h1, h2, h3, h4, h5, h6, h7, h8, h9, h10, Option.bind_some]
  dsimp only at h11
  split at h11
  · rename_i hm
    simp only [Option.bind_eq_some_iff] at h11
    obtain ⟨⟨⟨st, pts⟩, r⟩, h12, h13⟩ := h11
    dsimp only at h13
    split at h13
    · rename_i hr
      simp only [Option.some.injEq, Prod.mk.injEq] at h13
      obtain ⟨rfl, rfl⟩ := h13
      have := queryPage_eq h12 (hs (st, pts) (by simp))
      simp [hm, this, hr, Chunk.points]
    · simp at h13
  · rename_i hm5
    split at h11
    · rename_i hm
      simp only [Option.bind_eq_some_iff, Option.some.injEq, Prod.mk.injEq] at h11
      obtain ⟨pages, h12, rfl, rfl⟩ := h11
      have := pAll_map (f := fun pg : Option Stats × List Point => pg.2.filter q.wants) (good := fun pg => q.Sound pg.1 pg.2)
        (p' := queryPage unsnap q dt comp enc true) (fun b a r h hg => queryPage_eq (st := a.1) (pts := a.2) h hg) h12 hs
      rw [if_neg hm5, if_pos hm, this]
      simp only [Option.bind_some, Chunk.points, List.filter_flatten, List.map_map]
      rfl
    · simp at h11

theorem queryChunks_eq {unsnap : Bytes → Option Bytes} {q : Query} {F m : Bytes} : ∀ {cs : List ChunkMeta} {chunks : List Chunk},
    readChunks unsnap F m cs = some chunks →
    (∀ c ∈ cs, ∀ chunk rest, pChunk unsnap (F.drop c.offset) = some (chunk, rest) →
      q.Sound c.stats chunk.points ∧ ∀ pg ∈ chunk.pages, q.Sound pg.1 pg.2) →
    queryChunks unsnap q F m cs = some ((chunks.flatMap Chunk.points).filter q.wants) := by
  intro cs
  induction cs with
  | nil => intro chunks h _; simp only [readChunks, Option.some.injEq] at h; subst h; rfl
  | cons c cs ih =>
    intro chunks h hs
    simp only [readChunks] at h
    cases h1 : pChunk unsnap (F.drop c.offset) with
    | none => rw [h1] at h; simp at h
    | some r =>
      obtain ⟨chunk, rest⟩ := r
      rw [h1] at h
      dsimp only at h
      split at h
      · rename_i hm
        simp only [Option.map_eq_some_iff] at h
        obtain ⟨chunks', h2, rfl⟩ := h
        have hrec := ih h2 (fun c hc => hs c (by simp [hc]))
        obtain ⟨hc1, hc2⟩ := hs c (by simp) chunk rest h1
        simp only [queryChunks, List.flatMap_cons, List.filter_append]
        split
        · rename_i hany
          rw [Option.any_eq_true_iff_get] at hany
          obtain ⟨hi, hg⟩ := hany
          rw [hc1 _ (Option.some_get hi).symm (by simpa using hg), List.nil_append, hrec]
        · rw [queryChunk_eq h1 hc2]
          dsimp only
          rw [if_pos hm, hrec]
          rfl
      · simp at h

end TsFile
