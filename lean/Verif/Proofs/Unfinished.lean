import Verif.Proofs.Recover
/-! # Scanning a file that is cut off -/

namespace TsFile
open Spec

/-- A scan that comes to the end marker does not depend on what follows. -/
theorem scanFuel_extend (unsnap : Bytes → Option Bytes) (t : Bytes) : ∀ (f g : Nat) (b : Bytes) (items : List Item) (r : Bytes),
    scanFuel unsnap f b = some (items, r) → f ≤ g → scanFuel unsnap g (b ++ t) = some (items, r ++ t) := by
  intro f
  induction f with
  | zero => intro g b items r h; cases h
  | succ f ih =>
    intro g b items r h hg
    obtain ⟨g, rfl⟩ : ∃ k, g = k + 1 := ⟨g - 1, by omega⟩
    cases b with
    | nil => cases h
    | cons m b =>
      rw [scanFuel] at h
      rw [List.cons_append, scanFuel]
      by_cases hm : m = 2
      · rw [if_pos hm] at h ⊢
        simp only [Option.some.injEq, Prod.mk.injEq] at h
        rw [← h.1, ← h.2, List.cons_append]
      · rw [if_neg hm] at h ⊢
        by_cases h0 : m = 0
        · rw [if_pos h0] at h ⊢
          cases hs : pStr b with
          | none => rw [hs] at h; cases h
          | some q =>
            rw [hs] at h
            rw [pStr_local.extend hs]
            simp only [Option.map_eq_some_iff, Prod.mk.injEq] at h ⊢
            obtain ⟨⟨i, r'⟩, h1, h2, h3⟩ := h
            refine ⟨⟨i, r' ++ t⟩, ih _ _ _ _ h1 (by omega), h2, by simp only at h3 ⊢; rw [h3]⟩
        · rw [if_neg h0] at h ⊢
          cases hs : pChunk unsnap (m :: b) with
          | none => rw [hs] at h; cases h
          | some q =>
            rw [hs] at h
            rw [← List.cons_append, (pChunk_local unsnap).extend hs]
            simp only [Option.map_eq_some_iff, Prod.mk.injEq] at h ⊢
            obtain ⟨⟨i, r'⟩, h1, h2, h3⟩ := h
            refine ⟨⟨i, r' ++ t⟩, ih _ _ _ _ h1 (by omega), h2, by simp only at h3 ⊢; rw [h3]⟩

/-- A scan whose end marker is in front of the last bytes does not need them. -/
theorem scanFuel_shrink (unsnap : Bytes → Option Bytes) (t : Bytes) : ∀ (g f : Nat) (b : Bytes) (items : List Item) (r : Bytes),
    scanFuel unsnap g (b ++ t) = some (items, 2 :: r ++ t) → b.length ≤ f → scanFuel unsnap f b = some (items, 2 :: r) := by
  intro g
  induction g with
  | zero => intro f b items r h; cases h
  | succ g ih =>
    intro f b items r h hf
    cases b with
    | nil =>
      have := (scanFuel_suffix _ _ _ _ _ h).1.length_le
      simp only [List.nil_append, List.cons_append, List.length_cons, List.length_append] at this
      omega
    | cons m b =>
      obtain ⟨f, rfl⟩ : ∃ k, f = k + 1 := ⟨f - 1, by simp only [List.length_cons] at hf; omega⟩
      have hf' : b.length ≤ f := by simp only [List.length_cons] at hf; omega
      rw [List.cons_append, scanFuel] at h
      rw [scanFuel]
      by_cases hm : m = 2
      · rw [if_pos hm] at h ⊢
        simp only [Option.some.injEq, Prod.mk.injEq] at h ⊢
        refine ⟨h.1, ?_⟩
        rw [← List.cons_append] at h
        exact List.append_cancel_right h.2
      · rw [if_neg hm] at h ⊢
        by_cases h0 : m = 0
        · rw [if_pos h0] at h ⊢
          cases hs : pStr (b ++ t) with
          | none => rw [hs] at h; cases h
          | some q =>
            obtain ⟨d, rest⟩ := q
            rw [hs] at h
            simp only [Option.map_eq_some_iff, Prod.mk.injEq] at h
            obtain ⟨⟨i, r'⟩, h1, h2, h3⟩ := h
            simp only at h3 h1
            subst h3
            obtain ⟨x, hx⟩ := (scanFuel_suffix _ _ _ _ _ h1).1
            have hrest : rest = (x ++ 2 :: r) ++ t := by rw [← hx]; simp
            rw [hrest] at hs h1
            have hs' := pStr_local.shrink hs
            rw [hs']
            obtain ⟨c, hc, _⟩ := pStr_local _ _ _ hs'
            have hl : (x ++ 2 :: r).length ≤ f := by
              have := congrArg List.length hc
              rw [List.length_append] at this
              omega
            simp only
            rw [ih f _ _ _ h1 hl, Option.map_some]
            exact congrArg some (Prod.ext h2 rfl)
        · rw [if_neg h0] at h ⊢
          rw [← List.cons_append] at h
          cases hs : pChunk unsnap ((m :: b) ++ t) with
          | none => rw [hs] at h; cases h
          | some q =>
            obtain ⟨d, rest⟩ := q
            rw [hs] at h
            simp only [Option.map_eq_some_iff, Prod.mk.injEq] at h
            obtain ⟨⟨i, r'⟩, h1, h2, h3⟩ := h
            simp only at h3 h1
            subst h3
            obtain ⟨x, hx⟩ := (scanFuel_suffix _ _ _ _ _ h1).1
            have hrest : rest = (x ++ 2 :: r) ++ t := by rw [← hx]; simp
            rw [hrest] at hs h1
            have hs' := (pChunk_local unsnap).shrink hs
            rw [hs']
            have hl : (x ++ 2 :: r).length ≤ f := by
              obtain ⟨c, hc, hc'⟩ := pChunk_local unsnap _ _ _ hs'
              have hne : c ≠ [] := by
                rintro rfl
                have := hc' []
                simp [pChunk, pByte] at this
              have := congrArg List.length hc
              rw [List.length_append, List.length_cons] at this
              have := List.length_pos_iff.2 hne
              omega
            simp only
            rw [ih f _ _ _ h1 hl, Option.map_some]
            exact congrArg some (Prod.ext h2 rfl)

theorem scan_extend {unsnap : Bytes → Option Bytes} {left : Bytes} {items : List Item} {stop : Nat}
    (h : scan unsnap left = some (items, stop)) (t : Bytes) :
    scan unsnap (left ++ t) = some (items, stop) ∧ stop < left.length := by
  rw [scan] at h
  split at h
  case isFalse => cases h
  case isTrue hh =>
    have h7 : 7 ≤ left.length := by
      have := congrArg List.length hh
      rw [head_length, List.length_take] at this
      omega
    simp only [Option.map_eq_some_iff] at h
    obtain ⟨⟨i, r⟩, h1, h2⟩ := h
    simp only [Prod.mk.injEq] at h2
    obtain ⟨hs, r', hr⟩ := scanFuel_suffix _ _ _ _ _ h1
    have hle := hs.length_le
    rw [List.length_drop] at hle
    have hpos : 0 < r.length := by rw [hr]; simp
    refine ⟨?_, by omega⟩
    rw [scan, if_pos (by rw [List.take_append_of_le_length h7]; exact hh), List.drop_append_of_le_length h7,
      scanFuel_extend unsnap t _ (left ++ t).length _ _ _ h1 (by rw [List.length_append]; omega), Option.map_some, h2.1,
      List.length_append, List.length_append, Nat.add_sub_add_right, h2.2]

theorem scan_shrink {unsnap : Bytes → Option Bytes} {left t : Bytes} {items : List Item} {stop : Nat}
    (h : scan unsnap (left ++ t) = some (items, stop)) (hl : stop < left.length) : scan unsnap left = some (items, stop) := by
  rw [scan] at h
  split at h
  case isFalse => cases h
  case isTrue hh =>
    simp only [Option.map_eq_some_iff] at h
    obtain ⟨⟨i, r⟩, h1, h2⟩ := h
    simp only [Prod.mk.injEq, List.length_append] at h2
    obtain ⟨hs, r', hr⟩ := scanFuel_suffix _ _ _ _ _ h1
    have hle := hs.length_le
    have hh7 := congrArg List.length hh
    rw [List.length_drop, List.length_append] at hle
    rw [head_length, List.length_take, List.length_append] at hh7
    have h7 : 7 ≤ left.length := by omega
    rw [List.drop_append_of_le_length h7] at h1 hs
    rw [List.take_append_of_le_length h7] at hh
    obtain ⟨r0, hr0⟩ := List.suffix_of_suffix_length_le (List.suffix_append _ _) hs (show t.length ≤ r.length by omega)
    have hne : r0 ≠ [] := by
      rintro rfl
      rw [List.nil_append] at hr0
      have := congrArg List.length hr0
      omega
    obtain ⟨x, r1, rfl⟩ := List.exists_cons_of_ne_nil hne
    have hx : x = 2 := by
      rw [hr, List.cons_append] at hr0
      exact (List.cons.inj hr0).1
    subst hx
    rw [← hr0] at h1
    rw [scan, if_pos hh, scanFuel_shrink unsnap t _ left.length _ _ _ h1 (by rw [List.length_drop]; omega), Option.map_some, h2.1]
    have := h2.2
    rw [← hr0, List.length_append] at this
    refine congrArg some (Prod.ext rfl ?_)
    simp only
    omega

end TsFile
