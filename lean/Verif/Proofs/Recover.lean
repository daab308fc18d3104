import Verif.Spec.Recover
/-! # Parsers read only what they consume; recovery from a prefix -/

namespace TsFile
open Spec

/-- A parser that looks only at the bytes it consumes. -/
def LocalP {α : Type} (p : Parser α) : Prop :=
  ∀ b x r, p b = some (x, r) → ∃ c, b = c ++ r ∧ ∀ t, p (c ++ t) = some (x, t)

theorem pByte_local : LocalP pByte := by
  intro b x r h
  cases b with
  | nil => cases h
  | cons y b =>
    simp only [pByte, Option.some.injEq, Prod.mk.injEq] at h
    obtain ⟨rfl, rfl⟩ := h
    exact ⟨[y], rfl, fun t => rfl⟩

theorem pTake_local (n : Nat) : LocalP (pTake n) := by
  intro b x r h
  rw [pTake] at h
  split at h
  case isFalse => cases h
  case isTrue hn =>
    simp only [Option.some.injEq, Prod.mk.injEq] at h
    obtain ⟨rfl, rfl⟩ := h
    refine ⟨b.take n, (List.take_append_drop n b).symm, fun t => ?_⟩
    have hl : (b.take n).length = n := by rw [List.length_take]; omega
    rw [pTake, if_pos (by rw [List.length_append, hl]; omega), List.take_append_of_le_length (by omega),
      List.take_of_length_le (by omega), List.drop_append, List.drop_eq_nil_of_le (by omega), hl]
    simp

theorem pVarU_local : LocalP pVarU := by
  intro b
  induction b with
  | nil => intro x r h; cases h
  | cons y b ih =>
    intro x r h
    rw [pVarU] at h
    split at h
    case isTrue hy =>
      simp only [Option.some.injEq, Prod.mk.injEq] at h
      obtain ⟨rfl, rfl⟩ := h
      exact ⟨[y], rfl, fun t => by rw [List.singleton_append, pVarU, if_pos hy]⟩
    case isFalse hy =>
      cases hb : pVarU b with
      | none => rw [hb] at h; cases h
      | some q =>
        obtain ⟨n, r'⟩ := q
        rw [hb] at h
        simp only [Option.some.injEq, Prod.mk.injEq] at h
        obtain ⟨rfl, rfl⟩ := h
        obtain ⟨c, rfl, hc⟩ := ih _ _ hb
        exact ⟨y :: c, rfl, fun t => by rw [List.cons_append, pVarU, if_neg hy, hc]⟩

theorem pStr_local : LocalP pStr := by
  intro b x r h
  rw [pStr, pVarI] at h
  cases hb : pVarU b with
  | none => rw [hb] at h; cases h
  | some q =>
    obtain ⟨n, r'⟩ := q
    rw [hb] at h
    simp only at h
    split at h
    case isTrue => cases h
    case isFalse hn =>
      obtain ⟨c1, rfl, h1⟩ := pVarU_local _ _ _ hb
      obtain ⟨c2, rfl, h2⟩ := pTake_local _ _ _ _ h
      refine ⟨c1 ++ c2, by simp, fun t => ?_⟩
      rw [pStr, pVarI, List.append_assoc, h1]
      simp only
      rw [if_neg hn, h2]

theorem pChunk_local (unsnap : Bytes → Option Bytes) : LocalP (pChunk unsnap) := by
  intro b x r h
  simp only [pChunk, Option.bind_eq_bind, Option.bind_eq_some_iff, Prod.exists] at h
  obtain ⟨marker, b1, h1, name, b2, h2, size, b3, h3, dt, b4, h4, comp, b5, h5, enc, b6, h6, dt', h7, comp', h8, enc', h9,
    data, b7, h10, h⟩ := h
  have hr : b7 = r := by
    split at h
    · simp only [Option.bind_eq_some_iff, Prod.exists] at h
      obtain ⟨_, _, _, _, h⟩ := h
      split at h
      · simp only [Option.some.injEq, Prod.mk.injEq] at h; exact h.2
      · cases h
    · split at h
      · simp only [Option.bind_eq_some_iff] at h
        obtain ⟨_, _, h⟩ := h
        simp only [Option.some.injEq, Prod.mk.injEq] at h; exact h.2
      · cases h
  subst hr
  obtain ⟨c1, rfl, k1⟩ := pByte_local _ _ _ h1
  obtain ⟨c2, rfl, k2⟩ := pStr_local _ _ _ h2
  obtain ⟨c3, rfl, k3⟩ := pVarU_local _ _ _ h3
  obtain ⟨c4, rfl, k4⟩ := pByte_local _ _ _ h4
  obtain ⟨c5, rfl, k5⟩ := pByte_local _ _ _ h5
  obtain ⟨c6, rfl, k6⟩ := pByte_local _ _ _ h6
  obtain ⟨c7, rfl, k7⟩ := pTake_local _ _ _ _ h10
  refine ⟨c1 ++ (c2 ++ (c3 ++ (c4 ++ (c5 ++ (c6 ++ c7))))), by simp, fun t => ?_⟩
  simp only [List.append_assoc, pChunk, Option.bind_eq_bind, k1, k2, k3, k4, k5, k6, k7, h7, h8, h9, Option.bind_some]
  split at h
  case isTrue hm =>
    rw [if_pos hm]
    simp only [Option.bind_eq_some_iff, Prod.exists] at h ⊢
    obtain ⟨p, p', q, hp, h⟩ := h
    refine ⟨p, p', q, hp, ?_⟩
    split at h
    case isTrue hq =>
      rw [if_pos hq]
      simp only [Option.some.injEq, Prod.mk.injEq, and_true] at h ⊢
      exact h
    case isFalse => cases h
  case isFalse hm =>
    rw [if_neg hm]
    split at h
    case isTrue hm1 =>
      rw [if_pos hm1]
      simp only [Option.bind_eq_some_iff] at h ⊢
      obtain ⟨p, hp, h⟩ := h
      refine ⟨p, hp, ?_⟩
      simp only [Option.some.injEq, Prod.mk.injEq, and_true] at h ⊢
      exact h
    case isFalse => cases h

/-- Of two ways to read the beginning of the same bytes, a local parser that succeeds on a shorter prefix finds the
same thing. -/
theorem LocalP.extend {α : Type} {p : Parser α} (hp : LocalP p) {b x r} (h : p b = some (x, r)) (t : Bytes) :
    p (b ++ t) = some (x, r ++ t) := by
  obtain ⟨c, rfl, hc⟩ := hp _ _ _ h
  rw [List.append_assoc, hc]

/-- If the rest still ends with `t`, the parser did not need `t`. -/
theorem LocalP.shrink {α : Type} {p : Parser α} (hp : LocalP p) {b r t : Bytes} {y : α} (h : p (b ++ t) = some (y, r ++ t)) :
    p b = some (y, r) := by
  obtain ⟨c, hb, hc⟩ := hp _ _ _ h
  rw [← List.append_assoc] at hb
  rw [List.append_cancel_right hb, hc]

/-- The rest after a scan is a suffix. -/
theorem scanFuel_suffix (unsnap : Bytes → Option Bytes) : ∀ (f : Nat) (b : Bytes) (items : List Item) (r : Bytes),
    scanFuel unsnap f b = some (items, r) → r <:+ b ∧ ∃ r', r = 2 :: r' := by
  intro f
  induction f with
  | zero => intro b items r h; cases h
  | succ f ih =>
    intro b items r h
    cases b with
    | nil => cases h
    | cons m b =>
      rw [scanFuel] at h
      split at h
      case isTrue hm =>
        simp only [Option.some.injEq, Prod.mk.injEq] at h
        rw [← h.2, hm]
        exact ⟨List.suffix_rfl, _, rfl⟩
      case isFalse =>
        split at h
        case isTrue =>
          cases hs : pStr b with
          | none => rw [hs] at h; cases h
          | some q =>
            rw [hs] at h
            simp only [Option.map_eq_some_iff] at h
            obtain ⟨⟨i, r'⟩, h1, h2⟩ := h
            simp only [Prod.mk.injEq] at h2
            obtain ⟨c, hc, _⟩ := pStr_local _ _ _ hs
            have := ih _ _ _ h1
            rw [h2.2] at this
            exact ⟨(this.1.trans ⟨c, hc.symm⟩).trans (List.suffix_cons _ _), this.2⟩
        case isFalse =>
          cases hs : pChunk unsnap (m :: b) with
          | none => rw [hs] at h; cases h
          | some q =>
            rw [hs] at h
            simp only [Option.map_eq_some_iff] at h
            obtain ⟨⟨i, r'⟩, h1, h2⟩ := h
            simp only [Prod.mk.injEq] at h2
            obtain ⟨c, hc, _⟩ := pChunk_local _ _ _ _ hs
            have := ih _ _ _ h1
            rw [h2.2] at this
            exact ⟨this.1.trans ⟨c, hc.symm⟩, this.2⟩

/-- Recovery from a prefix finds a beginning of what a scan of the whole finds. -/
theorem recoverFuel_prefix (unsnap : Bytes → Option Bytes) : ∀ (f g : Nat) (b t : Bytes) (items : List Item) (r : Bytes),
    scanFuel unsnap g (b ++ t) = some (items, r) → recoverFuel unsnap f b <+: items := by
  intro f
  induction f with
  | zero => intro g b t items r _; exact List.nil_prefix
  | succ f ih =>
    intro g b t items r h
    cases b with
    | nil => exact List.nil_prefix
    | cons m b =>
      cases g with
      | zero => cases h
      | succ g =>
        rw [List.cons_append, scanFuel] at h
        rw [recoverFuel]
        by_cases hm : m = 2
        · rw [if_pos hm]; exact List.nil_prefix
        · rw [if_neg hm] at h ⊢
          by_cases h0 : m = 0
          · rw [if_pos h0] at h ⊢
            cases hs : pStr b with
            | none => exact List.nil_prefix
            | some q =>
              rw [pStr_local.extend hs] at h
              simp only [Option.map_eq_some_iff] at h
              obtain ⟨⟨i, r'⟩, h1, h2⟩ := h
              simp only [Prod.mk.injEq] at h2
              rw [← h2.1]
              exact List.prefix_cons_iff.2 (Or.inr ⟨_, rfl, ih _ _ _ _ _ h1⟩)
          · rw [if_neg h0] at h ⊢
            cases hs : pChunk unsnap (m :: b) with
            | none => exact List.nil_prefix
            | some q =>
              rw [← List.cons_append, (pChunk_local unsnap).extend hs] at h
              simp only [Option.map_eq_some_iff] at h
              obtain ⟨⟨i, r'⟩, h1, h2⟩ := h
              simp only [Prod.mk.injEq] at h2
              rw [← h2.1]
              exact List.prefix_cons_iff.2 (Or.inr ⟨_, rfl, ih _ _ _ _ _ h1⟩)

/-- Recovery finds all that a scan finds which stops at the end of the given bytes, whatever follows. -/
theorem recoverFuel_all (unsnap : Bytes → Option Bytes) : ∀ (g f : Nat) (b t u : Bytes) (items : List Item),
    scanFuel unsnap g (b ++ 2 :: u) = some (items, 2 :: u) → b.length ≤ f →
    items <+: recoverFuel unsnap f (b ++ t) := by
  intro g
  induction g with
  | zero => intro f b t u items h; cases h
  | succ g ih =>
    intro f b t u items h hf
    cases b with
    | nil =>
      rw [List.nil_append, scanFuel, if_pos rfl] at h
      simp only [Option.some.injEq, Prod.mk.injEq] at h
      rw [← h.1]; exact List.nil_prefix
    | cons m b =>
      rw [List.length_cons] at hf
      obtain ⟨f, rfl⟩ : ∃ k, f = k + 1 := ⟨f - 1, by omega⟩
      rw [List.cons_append, scanFuel] at h
      rw [List.cons_append, recoverFuel]
      by_cases hm : m = 2
      · rw [if_pos hm] at h
        simp only [Option.some.injEq, Prod.mk.injEq] at h
        have := congrArg List.length h.2
        simp only [List.length_cons, List.length_append] at this
        omega
      · rw [if_neg hm] at h ⊢
        by_cases h0 : m = 0
        · rw [if_pos h0] at h ⊢
          cases hs : pStr (b ++ 2 :: u) with
          | none => rw [hs] at h; cases h
          | some q =>
            obtain ⟨d, r⟩ := q
            rw [hs] at h
            simp only [Option.map_eq_some_iff] at h
            obtain ⟨⟨i, r'⟩, h1, h2⟩ := h
            simp only [Prod.mk.injEq] at h2
            obtain ⟨rfl, rfl⟩ := h2
            obtain ⟨r0, hr0⟩ := (scanFuel_suffix _ _ _ _ _ h1).1
            rw [← hr0] at hs h1
            have hb := pStr_local.shrink hs
            rw [pStr_local.extend hb]
            refine List.prefix_cons_iff.2 (Or.inr ⟨_, rfl, ih _ _ _ _ _ h1 ?_⟩)
            obtain ⟨c, rfl, _⟩ := pStr_local _ _ _ hb
            rw [List.length_append] at hf
            omega
        · rw [if_neg h0] at h ⊢
          rw [← List.cons_append] at h
          cases hs : pChunk unsnap (m :: b ++ 2 :: u) with
          | none => rw [hs] at h; cases h
          | some q =>
            obtain ⟨d, r⟩ := q
            rw [hs] at h
            simp only [Option.map_eq_some_iff] at h
            obtain ⟨⟨i, r'⟩, h1, h2⟩ := h
            simp only [Prod.mk.injEq] at h2
            obtain ⟨rfl, rfl⟩ := h2
            obtain ⟨r0, hr0⟩ := (scanFuel_suffix _ _ _ _ _ h1).1
            rw [← hr0] at hs h1
            have hb := (pChunk_local unsnap).shrink hs
            rw [← List.cons_append, (pChunk_local unsnap).extend hb]
            refine List.prefix_cons_iff.2 (Or.inr ⟨_, rfl, ih _ _ _ _ _ h1 ?_⟩)
            have hne : r0.length ≠ (m :: b).length := by
              intro he
              obtain ⟨c, hc, hc'⟩ := (pChunk_local unsnap) _ _ _ hb
              have hcl := congrArg List.length hc
              rw [List.length_append] at hcl
              have : c = [] := List.eq_nil_of_length_eq_zero (by omega)
              rw [this] at hc'
              have := hc' []
              simp [pChunk, pByte] at this
            obtain ⟨c, hc, _⟩ := (pChunk_local unsnap) _ _ _ hb
            have hcl := congrArg List.length hc
            rw [List.length_append] at hcl
            simp only [List.length_cons] at hcl hne
            omega

theorem head_length : head.length = 7 := by decide

/-- Every prefix of a file that can be scanned gives a beginning of what the scan finds. -/
theorem recover_prefix {unsnap : Bytes → Option Bytes} {F left : Bytes} {items : List Item} {pos : Nat}
    (h : scan unsnap F = some (items, pos)) (hp : left <+: F) : recover unsnap left <+: items := by
  rw [recover]
  split
  case isFalse => exact List.nil_prefix
  case isTrue hh =>
    obtain ⟨t, rfl⟩ := hp
    rw [scan] at h
    split at h
    case isFalse => cases h
    case isTrue =>
      simp only [Option.map_eq_some_iff] at h
      obtain ⟨⟨i, r⟩, h1, h2⟩ := h
      simp only [Prod.mk.injEq] at h2
      have h7 : 7 ≤ left.length := by
        have := congrArg List.length hh
        rw [head_length, List.length_take] at this
        omega
      rw [List.drop_append_of_le_length h7] at h1
      rw [← h2.1]
      exact recoverFuel_prefix _ _ _ _ _ _ _ h1

/-- Everything that begins with bytes that are a whole number of groups and chunks gives at least these. -/
theorem recover_all {unsnap : Bytes → Option Bytes} {O left : Bytes} {items : List Item}
    (h : scan unsnap (O ++ [2]) = some (items, O.length)) (hp : O <+: left) : items <+: recover unsnap left := by
  obtain ⟨t, rfl⟩ := hp
  rw [scan] at h
  split at h
  case isFalse => cases h
  case isTrue hh =>
    simp only [Option.map_eq_some_iff] at h
    obtain ⟨⟨i, r⟩, h1, h2⟩ := h
    simp only [Prod.mk.injEq, List.length_append, List.length_cons, List.length_nil] at h2
    have h7 : 7 ≤ O.length := by
      by_cases h7 : 7 ≤ O.length
      · exact h7
      · exfalso
        have hl := congrArg List.length hh
        rw [head_length, List.length_take, List.length_append] at hl
        simp only [List.length_cons, List.length_nil] at hl
        rw [List.drop_eq_nil_of_le (by simp only [List.length_append, List.length_cons, List.length_nil]; omega)] at h1
        simp only [List.length_append, List.length_cons, List.length_nil] at h1
        cases h1
    have hs := (scanFuel_suffix _ _ _ _ _ h1).1
    have hr : r = [2] := by
      obtain ⟨r', rfl⟩ := (scanFuel_suffix _ _ _ _ _ h1).2
      have := h2.2
      simp only [List.length_cons] at this
      have hle := hs.length_le
      rw [List.length_drop, List.length_append] at hle
      simp only [List.length_cons, List.length_nil] at hle
      rw [List.eq_nil_of_length_eq_zero (l := r') (by omega)]
    subst hr
    rw [List.drop_append_of_le_length h7] at h1
    rw [recover, if_pos (by rw [List.take_append_of_le_length h7] at hh ⊢; exact hh), List.drop_append_of_le_length h7,
      ← h2.1]
    apply recoverFuel_all unsnap _ _ _ t [] i h1
    rw [List.length_drop, List.length_append]
    omega

/-- Recovery from a file that can be scanned finds what the scan finds. -/
theorem recoverFuel_scan (unsnap : Bytes → Option Bytes) : ∀ (g : Nat) (b : Bytes) (items : List Item) (r : Bytes),
    scanFuel unsnap g b = some (items, r) → ∀ f, g ≤ f → recoverFuel unsnap f b = items := by
  intro g
  induction g with
  | zero => intro b items r h; cases h
  | succ g ih =>
    intro b items r h f hf
    obtain ⟨f, rfl⟩ : ∃ k, f = k + 1 := ⟨f - 1, by omega⟩
    cases b with
    | nil => cases h
    | cons m b =>
      rw [scanFuel] at h
      rw [recoverFuel]
      by_cases hm : m = 2
      · rw [if_pos hm] at h ⊢
        simp only [Option.some.injEq, Prod.mk.injEq] at h
        exact h.1
      · rw [if_neg hm] at h ⊢
        by_cases h0 : m = 0
        · rw [if_pos h0] at h ⊢
          cases hs : pStr b with
          | none => rw [hs] at h; cases h
          | some q =>
            rw [hs] at h
            simp only [Option.map_eq_some_iff] at h ⊢
            obtain ⟨⟨i, r'⟩, h1, h2⟩ := h
            simp only [Prod.mk.injEq] at h2
            rw [← h2.1, ih _ _ _ h1 f (by omega)]
        · rw [if_neg h0] at h ⊢
          cases hs : pChunk unsnap (m :: b) with
          | none => rw [hs] at h; cases h
          | some q =>
            rw [hs] at h
            simp only [Option.map_eq_some_iff] at h ⊢
            obtain ⟨⟨i, r'⟩, h1, h2⟩ := h
            simp only [Prod.mk.injEq] at h2
            rw [← h2.1, ih _ _ _ h1 f (by omega)]

theorem recover_scan {unsnap : Bytes → Option Bytes} {F : Bytes} {items : List Item} {pos : Nat}
    (h : scan unsnap F = some (items, pos)) : recover unsnap F = items := by
  rw [scan] at h
  split at h
  case isFalse => cases h
  case isTrue hh =>
    simp only [Option.map_eq_some_iff] at h
    obtain ⟨⟨i, r⟩, h1, h2⟩ := h
    simp only [Prod.mk.injEq] at h2
    rw [recover, if_pos hh, ← h2.1]
    exact recoverFuel_scan _ _ _ _ _ h1 _ (Nat.le_refl _)

theorem scanPoints_prefix (d m : Bytes) (l l' : List Item) (h : l <+: l') (cur : Option Bytes) :
    scanPoints d m cur l <+: scanPoints d m cur l' := by
  obtain ⟨t, rfl⟩ := h
  induction l generalizing cur with
  | nil => rw [scanPoints]; exact List.nil_prefix
  | cons i l ih =>
    cases i with
    | group d' => rw [List.cons_append, scanPoints, scanPoints]; exact ih _
    | chunk c =>
      rw [List.cons_append, scanPoints, scanPoints]
      exact (List.prefix_append_right_inj _).2 (ih _)

/-! ## Cutting at a byte -/

theorem pChunk_nil (unsnap : Bytes → Option Bytes) : pChunk unsnap [] = none := rfl

theorem pieceFuel_le (unsnap : Bytes → Option Bytes) (L : Nat) : ∀ (f : Nat) (b : Bytes),
    ∀ p ∈ pieceFuel unsnap L f b, p.2 ≤ L := by
  intro f
  induction f with
  | zero => intro b p hp; cases hp
  | succ f ih =>
    intro b p hp
    cases b with
    | nil => cases hp
    | cons m b =>
      rw [pieceFuel] at hp
      split at hp
      · cases hp
      · split at hp
        · cases hs : pStr b with
          | none => rw [hs] at hp; cases hp
          | some q =>
            rw [hs, List.mem_cons] at hp
            rcases hp with rfl | hp
            · simp only; omega
            · exact ih _ _ hp
        · cases hs : pChunk unsnap (m :: b) with
          | none => rw [hs] at hp; cases hp
          | some q =>
            rw [hs, List.mem_cons] at hp
            rcases hp with rfl | hp
            · simp only; omega
            · exact ih _ _ hp

theorem pieceFuel_items (unsnap : Bytes → Option Bytes) (L : Nat) : ∀ (f : Nat) (b : Bytes),
    (pieceFuel unsnap L f b).map Prod.fst = recoverFuel unsnap f b := by
  intro f
  induction f with
  | zero => intro b; rfl
  | succ f ih =>
    intro b
    cases b with
    | nil => rfl
    | cons m b =>
      rw [pieceFuel, recoverFuel]
      split
      · rfl
      · split
        · cases pStr b with
          | none => rfl
          | some q => simp only [List.map_cons, ih]
        · cases pChunk unsnap (m :: b) with
          | none => rfl
          | some q => simp only [List.map_cons, ih]

/-- A chunk has at least one byte. -/
theorem pChunk_consumes {unsnap : Bytes → Option Bytes} {b r : Bytes} {c : Chunk} (h : pChunk unsnap b = some (c, r)) :
    r.length < b.length := by
  obtain ⟨k, rfl, hk⟩ := pChunk_local _ _ _ _ h
  rw [List.length_append]
  cases k with
  | nil => have := hk []; rw [List.nil_append, pChunk_nil] at this; cases this
  | cons a k => rw [List.length_cons]; omega

/-- Pieces end after the beginning of what is read. -/
theorem pieceFuel_gt (unsnap : Bytes → Option Bytes) (L : Nat) : ∀ (f : Nat) (b : Bytes), b.length ≤ L →
    ∀ p ∈ pieceFuel unsnap L f b, L - b.length < p.2 := by
  intro f
  induction f with
  | zero => intro b _ p hp; cases hp
  | succ f ih =>
    intro b hb p hp
    cases b with
    | nil => cases hp
    | cons m b =>
      rw [pieceFuel] at hp
      split at hp
      · cases hp
      · split at hp
        · cases hs : pStr b with
          | none => rw [hs] at hp; cases hp
          | some q =>
            obtain ⟨x, r⟩ := q
            rw [hs] at hp
            obtain ⟨c, rfl, _⟩ := pStr_local _ _ _ hs
            rw [List.mem_cons] at hp
            rw [List.length_cons, List.length_append] at hb ⊢
            rcases hp with rfl | hp
            · simp only; omega
            · have := ih _ (by omega) _ hp; omega
        · cases hs : pChunk unsnap (m :: b) with
          | none => rw [hs] at hp; cases hp
          | some q =>
            obtain ⟨x, r⟩ := q
            rw [hs] at hp
            have hlt := pChunk_consumes hs
            rw [List.mem_cons] at hp
            rcases hp with rfl | hp
            · simp only; omega
            · have := ih _ (by omega) _ hp; omega

/-- If a parser fails on the bytes before the cut and succeeds on all, then what it reads ends after the cut. -/
theorem LocalP.after {α : Type} {p : Parser α} (hp : LocalP p) {b t r : Bytes} {x : α} (h : p b = none)
    (h' : p (b ++ t) = some (x, r)) : r.length < t.length := by
  obtain ⟨c, hc, hc'⟩ := hp _ _ _ h'
  by_cases hl : r.length < t.length
  · exact hl
  · exfalso
    have hle := congrArg List.length hc
    rw [List.length_append, List.length_append] at hle
    have h2 := congrArg (List.take b.length) hc
    rw [List.take_left, List.take_append, List.take_of_length_le (by omega)] at h2
    rw [h2, hc'] at h
    cases h

theorem recoverFuel_cut (unsnap : Bytes → Option Bytes) (L : Nat) (t : Bytes) : ∀ (f g : Nat) (b : Bytes),
    b.length ≤ f → (b ++ t).length ≤ g → (b ++ t).length ≤ L →
    recoverFuel unsnap f b
      = ((pieceFuel unsnap L g (b ++ t)).filter (fun p => decide (p.2 ≤ L - t.length))).map Prod.fst := by
  have hdrop : ∀ (r : Bytes) (g : Nat), r.length ≤ t.length → t.length ≤ L →
      (pieceFuel unsnap L g r).filter (fun p => decide (p.2 ≤ L - t.length)) = [] := by
    intro r g hr ht
    rw [List.filter_eq_nil_iff]
    intro p hp
    have := pieceFuel_gt unsnap L g r (by omega) p hp
    simp only [decide_eq_true_eq]
    omega
  intro f
  induction f with
  | zero =>
    intro g b hf hg hL
    have hb : b = [] := List.eq_nil_of_length_eq_zero (by omega)
    subst hb
    rw [List.nil_append] at hL ⊢
    rw [hdrop t g (Nat.le_refl _) hL]
    rfl
  | succ f ih =>
    intro g b hf hg hL
    cases b with
    | nil =>
      rw [List.nil_append] at hL ⊢
      rw [hdrop t g (Nat.le_refl _) hL]
      rfl
    | cons m b =>
      rw [List.cons_append, List.length_cons] at hg hL
      rw [List.length_cons] at hf
      have hLt : t.length ≤ L := by rw [List.length_append] at hL; omega
      obtain ⟨g, rfl⟩ : ∃ k, g = k + 1 := ⟨g - 1, by omega⟩
      rw [List.cons_append, pieceFuel, recoverFuel]
      by_cases hm : m = 2
      · rw [if_pos hm, if_pos hm]; rfl
      · rw [if_neg hm, if_neg hm]
        by_cases h0 : m = 0
        · rw [if_pos h0, if_pos h0]
          cases hs : pStr b with
          | none =>
            cases hs' : pStr (b ++ t) with
            | none => rfl
            | some q =>
              obtain ⟨x, r⟩ := q
              have hlt := pStr_local.after hs hs'
              simp only
              rw [List.filter_cons_of_neg (by simp only [decide_eq_true_eq]; omega), hdrop r g (by omega) hLt]
              rfl
          | some q =>
            obtain ⟨x, r⟩ := q
            rw [pStr_local.extend hs]
            simp only
            obtain ⟨c, hc, _⟩ := pStr_local _ _ _ hs
            have hcl := congrArg List.length hc
            rw [List.length_append] at hcl
            rw [List.length_append] at hg hL
            rw [List.filter_cons_of_pos (by simp only [List.length_append, decide_eq_true_eq]; omega), List.map_cons,
              ← ih g r (by omega) (by rw [List.length_append]; omega) (by rw [List.length_append]; omega)]
        · rw [if_neg h0, if_neg h0]
          cases hs : pChunk unsnap (m :: b) with
          | none =>
            cases hs' : pChunk unsnap (m :: (b ++ t)) with
            | none => rfl
            | some q =>
              obtain ⟨x, r⟩ := q
              have hlt := (pChunk_local unsnap).after hs hs'
              simp only
              rw [List.filter_cons_of_neg (by simp only [decide_eq_true_eq]; omega), hdrop r g (by omega) hLt]
              rfl
          | some q =>
            obtain ⟨x, r⟩ := q
            rw [← List.cons_append, (pChunk_local unsnap).extend hs]
            simp only
            have hcl := pChunk_consumes hs
            rw [List.length_cons] at hcl
            rw [List.length_append] at hg hL
            rw [List.filter_cons_of_pos (by simp only [List.length_append, decide_eq_true_eq]; omega), List.map_cons,
              ← ih g r (by omega) (by rw [List.length_append]; omega) (by rw [List.length_append]; omega)]

/-- From the first `k` bytes of any file, exactly the pieces that end within them are recovered. -/
theorem recover_cut (unsnap : Bytes → Option Bytes) (F : Bytes) (k : Nat) :
    recover unsnap (F.take k) = ((pieces unsnap F).filter (fun p => decide (p.2 ≤ k))).map Prod.fst := by
  by_cases hk : F.length ≤ k
  · rw [List.take_of_length_le hk, recover, pieces]
    by_cases hh : F.take 7 = head
    · rw [if_pos hh, if_pos hh]
      have := recoverFuel_cut unsnap F.length [] F.length F.length (F.drop 7) (by simp) (by simp) (by simp)
      rw [this, List.append_nil]
      have hle : ∀ p ∈ pieceFuel unsnap F.length F.length (F.drop 7), p.2 ≤ F.length := pieceFuel_le _ _ _ _
      congr 1
      apply List.filter_congr
      intro p hp
      have := hle p hp
      simp only [List.length_nil, Nat.sub_zero, decide_eq_decide]
      omega
    · rw [if_neg hh, if_neg hh]; rfl
  · have hlen : (F.take k).length = k := by rw [List.length_take]; omega
    by_cases h7 : 7 ≤ k
    · rw [recover, pieces]
      rw [List.take_take, Nat.min_eq_left h7]
      by_cases hh : F.take 7 = head
      · rw [if_pos hh, if_pos hh]
        have hsplit : F.drop 7 = (F.take k).drop 7 ++ F.drop k := by
          conv => lhs; rw [← List.take_append_drop k F]
          rw [List.drop_append_of_le_length (by omega)]
        have := recoverFuel_cut unsnap F.length (F.drop k) (F.take k).length F.length ((F.take k).drop 7) (by simp)
          (by rw [← hsplit]; simp) (by rw [← hsplit]; simp)
        rw [this, ← hsplit, List.length_drop]
        congr 2
        funext p
        simp only [decide_eq_decide]
        omega
      · rw [if_neg hh, if_neg hh]; rfl
    · have hr : recover unsnap (F.take k) = [] := by
        rw [recover, if_neg]
        intro he
        have := congrArg List.length he
        rw [head_length, List.length_take, hlen] at this
        omega
      rw [hr, pieces]
      symm
      rw [List.map_eq_nil_iff]
      split
      case isFalse => rfl
      case isTrue hh =>
        rw [List.filter_eq_nil_iff]
        intro p hp
        have h1 := pieceFuel_gt unsnap F.length _ _ (by simp) p hp
        have h7' := congrArg List.length hh
        rw [head_length, List.length_take] at h7'
        rw [List.length_drop] at h1
        simp only [decide_eq_true_eq]
        omega

theorem recover_pieces (unsnap : Bytes → Option Bytes) (F : Bytes) :
    (pieces unsnap F).map Prod.fst = recover unsnap F := by
  rw [pieces, recover]
  split
  · exact pieceFuel_items _ _ _ _
  · rfl

end TsFile
