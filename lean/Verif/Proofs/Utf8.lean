import Verif.Model.Wire
import Verif.Spec.Utf8
/-! # The check of `String::from_utf8` accepts exactly UTF-8 -/

namespace TsFile
open Spec (Utf8)

/-- The state between two characters. -/
def utf8Start : Option (Nat × UInt8 × UInt8) := some (0, 0x80, 0xBF)

theorem utf8_fold (v : Bytes) : utf8 v = true ↔ ∃ lo hi, v.foldl utf8Step utf8Start = some (0, lo, hi) := by
  unfold utf8
  rw [utf8Start]
  split
  · rename_i lo hi h
    exact ⟨fun _ => ⟨lo, hi, h⟩, fun _ => rfl⟩
  · rename_i h
    exact ⟨fun h' => absurd h' (by decide), fun ⟨lo, hi, h'⟩ => absurd h' (by intro hh; exact h lo hi hh)⟩

theorem fold_none (v : Bytes) : v.foldl utf8Step none = none := by
  induction v with
  | nil => rfl
  | cons x r ih => exact ih

/-- The table of the first byte of a character, in numbers. -/
theorem utf8_first (x : UInt8) : utf8Step utf8Start x =
    if x.toNat < 128 then some (0, 0x80, 0xBF)
    else if 194 ≤ x.toNat ∧ x.toNat ≤ 223 then some (1, 0x80, 0xBF)
    else if x.toNat = 224 then some (2, 0xA0, 0xBF)
    else if x.toNat = 237 then some (2, 0x80, 0x9F)
    else if 225 ≤ x.toNat ∧ x.toNat ≤ 239 then some (2, 0x80, 0xBF)
    else if x.toNat = 240 then some (3, 0x90, 0xBF)
    else if 241 ≤ x.toNat ∧ x.toNat ≤ 243 then some (3, 0x80, 0xBF)
    else if x.toNat = 244 then some (3, 0x80, 0x8F)
    else none := by
  have h : ∀ k : Fin 256, utf8Step utf8Start (UInt8.ofNat k.val) =
    if k.val < 128 then some (0, 0x80, 0xBF)
    else if 194 ≤ k.val ∧ k.val ≤ 223 then some (1, 0x80, 0xBF)
    else if k.val = 224 then some (2, 0xA0, 0xBF)
    else if k.val = 237 then some (2, 0x80, 0x9F)
    else if 225 ≤ k.val ∧ k.val ≤ 239 then some (2, 0x80, 0xBF)
    else if k.val = 240 then some (3, 0x90, 0xBF)
    else if 241 ≤ k.val ∧ k.val ≤ 243 then some (3, 0x80, 0xBF)
    else if k.val = 244 then some (3, 0x80, 0x8F)
    else none := by decide +kernel
  have := h ⟨x.toNat, x.toNat_lt⟩
  simpa using this

theorem utf8_next (n : Nat) (lo hi x : UInt8) : utf8Step (some (n + 1, lo, hi)) x =
    if lo.toNat ≤ x.toNat ∧ x.toNat ≤ hi.toNat then some (n, 0x80, 0xBF) else none := by
  simp only [utf8Step, UInt8.le_iff_toNat_le]

theorem toNat_ofNat8 {n : Nat} (h : n < 256) : (UInt8.ofNat n).toNat = n := by
  simp [UInt8.toNat_ofNat]; omega

/-- A character is accepted. -/
theorem fold_char (c : Char) : (String.utf8EncodeChar c).foldl utf8Step utf8Start = utf8Start := by
  have hv : c.val.toNat < 0xd800 ∨ (0xdfff < c.val.toNat ∧ c.val.toNat < 0x110000) := c.valid
  unfold String.utf8EncodeChar
  dsimp only
  generalize c.val.toNat = n at hv
  by_cases h1 : n ≤ 0x7f
  · rw [if_pos h1]
    simp only [List.foldl_cons, List.foldl_nil]
    rw [utf8_first, toNat_ofNat8 (by omega), if_pos (by omega)]
    rfl
  rw [if_neg h1]
  by_cases h2 : n ≤ 0x7ff
  · rw [if_pos h2]
    simp only [List.foldl_cons, List.foldl_nil]
    rw [utf8_first, toNat_ofNat8 (by omega), if_neg (by omega), if_pos (by omega), utf8_next, toNat_ofNat8 (by omega),
      if_pos ⟨by show 128 ≤ _; omega, by show _ ≤ 191; omega⟩]
    rfl
  rw [if_neg h2]
  by_cases h3 : n ≤ 0xffff
  · rw [if_pos h3]
    simp only [List.foldl_cons, List.foldl_nil]
    rw [utf8_first, toNat_ofNat8 (by omega), if_neg (by omega), if_neg (by omega)]
    by_cases e1 : n / 4096 % 16 + 224 = 224
    · rw [if_pos e1, utf8_next, toNat_ofNat8 (by omega), if_pos ⟨by show 160 ≤ _; omega, by show _ ≤ 191; omega⟩,
        utf8_next, toNat_ofNat8 (by omega), if_pos ⟨by show 128 ≤ _; omega, by show _ ≤ 191; omega⟩]
      rfl
    rw [if_neg e1]
    by_cases e2 : n / 4096 % 16 + 224 = 237
    · rw [if_pos e2, utf8_next, toNat_ofNat8 (by omega), if_pos ⟨by show 128 ≤ _; omega, by show _ ≤ 159; omega⟩,
        utf8_next, toNat_ofNat8 (by omega), if_pos ⟨by show 128 ≤ _; omega, by show _ ≤ 191; omega⟩]
      rfl
    rw [if_neg e2, if_pos (by omega), utf8_next, toNat_ofNat8 (by omega), if_pos ⟨by show 128 ≤ _; omega, by show _ ≤ 191; omega⟩,
        utf8_next, toNat_ofNat8 (by omega), if_pos ⟨by show 128 ≤ _; omega, by show _ ≤ 191; omega⟩]
    rfl
  rw [if_neg h3]
  simp only [List.foldl_cons, List.foldl_nil]
  rw [utf8_first, toNat_ofNat8 (by omega), if_neg (by omega), if_neg (by omega), if_neg (by omega), if_neg (by omega), if_neg (by omega)]
  by_cases e1 : n / 262144 % 8 + 240 = 240
  · rw [if_pos e1, utf8_next, toNat_ofNat8 (by omega), if_pos ⟨by show 144 ≤ _; omega, by show _ ≤ 191; omega⟩,
      utf8_next, toNat_ofNat8 (by omega), if_pos ⟨by show 128 ≤ _; omega, by show _ ≤ 191; omega⟩,
      utf8_next, toNat_ofNat8 (by omega), if_pos ⟨by show 128 ≤ _; omega, by show _ ≤ 191; omega⟩]
    rfl
  rw [if_neg e1]
  by_cases e2 : n / 262144 % 8 + 240 = 244
  · rw [if_neg (by omega), if_pos e2, utf8_next, toNat_ofNat8 (by omega), if_pos ⟨by show 128 ≤ _; omega, by show _ ≤ 143; omega⟩,
      utf8_next, toNat_ofNat8 (by omega), if_pos ⟨by show 128 ≤ _; omega, by show _ ≤ 191; omega⟩,
      utf8_next, toNat_ofNat8 (by omega), if_pos ⟨by show 128 ≤ _; omega, by show _ ≤ 191; omega⟩]
    rfl
  rw [if_pos (by omega), utf8_next, toNat_ofNat8 (by omega), if_pos ⟨by show 128 ≤ _; omega, by show _ ≤ 191; omega⟩,
      utf8_next, toNat_ofNat8 (by omega), if_pos ⟨by show 128 ≤ _; omega, by show _ ≤ 191; omega⟩,
      utf8_next, toNat_ofNat8 (by omega), if_pos ⟨by show 128 ≤ _; omega, by show _ ≤ 191; omega⟩]
  rfl

theorem fold_chars (cs : List Char) : (cs.flatMap String.utf8EncodeChar).foldl utf8Step utf8Start = utf8Start := by
  induction cs with
  | nil => rfl
  | cons c cs ih => rw [List.flatMap_cons, List.foldl_append, fold_char, ih]

/-- A character with a given number. -/
theorem char_of {n : Nat} (h : n < 0xd800 ∨ (0xdfff < n ∧ n < 0x110000)) : ∃ c : Char, c.val.toNat = n :=
  ⟨⟨UInt32.ofNat n, by
    show (UInt32.ofNat n).toNat.isValidChar
    have : (UInt32.ofNat n).toNat = n := by simp [UInt32.toNat_ofNat]; omega
    rw [this]; exact h⟩, by simp [UInt32.toNat_ofNat]; omega⟩

theorem eq_ofNat8 {x : UInt8} {n : Nat} (h : x.toNat = n) : UInt8.ofNat n = x := by
  rw [← h]; simp

theorem enc1 {x : UInt8} (h : x.toNat < 128) : ∃ c : Char, String.utf8EncodeChar c = [x] := by
  obtain ⟨c, hc⟩ := char_of (n := x.toNat) (by omega)
  refine ⟨c, ?_⟩
  unfold String.utf8EncodeChar
  rw [hc, if_pos (by omega), eq_ofNat8 rfl]

theorem enc2 {x y : UInt8} (hx : 194 ≤ x.toNat ∧ x.toNat ≤ 223) (hy : 128 ≤ y.toNat ∧ y.toNat ≤ 191) :
    ∃ c : Char, String.utf8EncodeChar c = [x, y] := by
  obtain ⟨c, hc⟩ := char_of (n := (x.toNat - 192) * 64 + (y.toNat - 128)) (by omega)
  refine ⟨c, ?_⟩
  unfold String.utf8EncodeChar
  rw [hc]
  dsimp only
  rw [if_neg (by omega), if_pos (by omega), eq_ofNat8 (x := x) (by omega), eq_ofNat8 (x := y) (by omega)]

theorem enc3 {x y z : UInt8} (hx : 224 ≤ x.toNat ∧ x.toNat ≤ 239) (hy : 128 ≤ y.toNat ∧ y.toNat ≤ 191) (hz : 128 ≤ z.toNat ∧ z.toNat ≤ 191)
    (h1 : x.toNat = 224 → 160 ≤ y.toNat) (h2 : x.toNat = 237 → y.toNat ≤ 159) : ∃ c : Char, String.utf8EncodeChar c = [x, y, z] := by
  obtain ⟨c, hc⟩ := char_of (n := (x.toNat - 224) * 4096 + (y.toNat - 128) * 64 + (z.toNat - 128)) (by omega)
  refine ⟨c, ?_⟩
  unfold String.utf8EncodeChar
  rw [hc]
  dsimp only
  rw [if_neg (by omega), if_neg (by omega), if_pos (by omega), eq_ofNat8 (x := x) (by omega), eq_ofNat8 (x := y) (by omega),
    eq_ofNat8 (x := z) (by omega)]

theorem enc4 {x y z w : UInt8} (hx : 240 ≤ x.toNat ∧ x.toNat ≤ 244) (hy : 128 ≤ y.toNat ∧ y.toNat ≤ 191) (hz : 128 ≤ z.toNat ∧ z.toNat ≤ 191)
    (hw : 128 ≤ w.toNat ∧ w.toNat ≤ 191) (h1 : x.toNat = 240 → 144 ≤ y.toNat) (h2 : x.toNat = 244 → y.toNat ≤ 143) :
    ∃ c : Char, String.utf8EncodeChar c = [x, y, z, w] := by
  obtain ⟨c, hc⟩ := char_of
    (n := (x.toNat - 240) * 262144 + (y.toNat - 128) * 4096 + (z.toNat - 128) * 64 + (w.toNat - 128)) (by omega)
  refine ⟨c, ?_⟩
  unfold String.utf8EncodeChar
  rw [hc]
  dsimp only
  rw [if_neg (by omega), if_neg (by omega), if_neg (by omega), eq_ofNat8 (x := x) (by omega), eq_ofNat8 (x := y) (by omega),
    eq_ofNat8 (x := z) (by omega), eq_ofNat8 (x := w) (by omega)]

/-- What follows a byte in the middle of a character. -/
theorem fold_next {n : Nat} {lo hi a b : UInt8} {r : Bytes} (h : r.foldl utf8Step (some (n + 1, lo, hi)) = some (0, a, b)) :
    ∃ y r', r = y :: r' ∧ (lo.toNat ≤ y.toNat ∧ y.toNat ≤ hi.toNat) ∧ r'.foldl utf8Step (some (n, 0x80, 0xBF)) = some (0, a, b) := by
  cases r with
  | nil => simp at h
  | cons y r' =>
    rw [List.foldl_cons, utf8_next] at h
    split at h
    · rename_i hc
      exact ⟨y, r', rfl, hc, h⟩
    · rw [fold_none] at h; simp at h

theorem Utf8.cons {e v : Bytes} (he : ∃ c : Char, String.utf8EncodeChar c = e) (hv : Utf8 v) : Utf8 (e ++ v) := by
  obtain ⟨c, hc⟩ := he
  obtain ⟨cs, hcs⟩ := hv
  exact ⟨c :: cs, by rw [List.flatMap_cons, hc, hcs]⟩

theorem utf8_of_fold : ∀ (k : Nat) (v : Bytes), v.length ≤ k → ∀ a b, v.foldl utf8Step utf8Start = some (0, a, b) → Utf8 v := by
  intro k
  induction k with
  | zero =>
    intro v hv a b _
    exact ⟨[], List.length_eq_zero_iff.mp (by omega)⟩
  | succ k ih =>
    intro v hv a b h
    cases v with
    | nil => exact ⟨[], rfl⟩
    | cons x r =>
      have hr : r.length ≤ k := by simpa using hv
      rw [List.foldl_cons, utf8_first] at h
      by_cases c1 : x.toNat < 128
      · rw [if_pos c1] at h
        exact Utf8.cons (e := [x]) (enc1 c1) (ih r hr a b h)
      rw [if_neg c1] at h
      by_cases c2 : 194 ≤ x.toNat ∧ x.toNat ≤ 223
      · rw [if_pos c2] at h
        obtain ⟨y, r1, e1, hy, h1⟩ := fold_next h
        subst e1
        exact Utf8.cons (e := [x, y]) (enc2 c2 hy) (ih r1 (by simp at hr; omega) a b h1)
      rw [if_neg c2] at h
      have three : ∀ lo hi : UInt8, r.foldl utf8Step (some (2, lo, hi)) = some (0, a, b) → 224 ≤ x.toNat → x.toNat ≤ 239 →
          128 ≤ lo.toNat → hi.toNat ≤ 191 → (x.toNat = 224 → 160 ≤ lo.toNat) → (x.toNat = 237 → hi.toNat ≤ 159) → Utf8 (x :: r) := by
        intro lo hi h g1 g2 g3 g4 g5 g6
        obtain ⟨y, r1, e1, hy, h1⟩ := fold_next h
        subst e1
        obtain ⟨z, r2, e2, hz, h2⟩ := fold_next h1
        subst e2
        exact Utf8.cons (e := [x, y, z]) (enc3 ⟨g1, g2⟩ ⟨by omega, by omega⟩ hz (fun e => by have := g5 e; omega) (fun e => by have := g6 e; omega))
          (ih r2 (by simp at hr; omega) a b h2)
      have four : ∀ lo hi : UInt8, r.foldl utf8Step (some (3, lo, hi)) = some (0, a, b) → 240 ≤ x.toNat → x.toNat ≤ 244 →
          128 ≤ lo.toNat → hi.toNat ≤ 191 → (x.toNat = 240 → 144 ≤ lo.toNat) → (x.toNat = 244 → hi.toNat ≤ 143) → Utf8 (x :: r) := by
        intro lo hi h g1 g2 g3 g4 g5 g6
        obtain ⟨y, r1, e1, hy, h1⟩ := fold_next h
        subst e1
        obtain ⟨z, r2, e2, hz, h2⟩ := fold_next h1
        subst e2
        obtain ⟨w, r3, e3, hw, h3⟩ := fold_next h2
        subst e3
        exact Utf8.cons (e := [x, y, z, w]) (enc4 ⟨g1, g2⟩ ⟨by omega, by omega⟩ hz hw (fun e => by have := g5 e; omega)
          (fun e => by have := g6 e; omega)) (ih r3 (by simp at hr; omega) a b h3)
      by_cases c3 : x.toNat = 224
      · rw [if_pos c3] at h
        exact three _ _ h (by omega) (by omega) (by decide) (by decide) (by intro _; decide) (by omega)
      rw [if_neg c3] at h
      by_cases c4 : x.toNat = 237
      · rw [if_pos c4] at h
        exact three _ _ h (by omega) (by omega) (by decide) (by decide) (by omega) (by intro _; decide)
      rw [if_neg c4] at h
      by_cases c5 : 225 ≤ x.toNat ∧ x.toNat ≤ 239
      · rw [if_pos c5] at h
        exact three _ _ h (by omega) (by omega) (by decide) (by decide) (by omega) (by omega)
      rw [if_neg c5] at h
      by_cases c6 : x.toNat = 240
      · rw [if_pos c6] at h
        exact four _ _ h (by omega) (by omega) (by decide) (by decide) (by intro _; decide) (by omega)
      rw [if_neg c6] at h
      by_cases c7 : 241 ≤ x.toNat ∧ x.toNat ≤ 243
      · rw [if_pos c7] at h
        exact four _ _ h (by omega) (by omega) (by decide) (by decide) (by omega) (by omega)
      rw [if_neg c7] at h
      by_cases c8 : x.toNat = 244
      · rw [if_pos c8] at h
        exact four _ _ h (by omega) (by omega) (by decide) (by decide) (by omega) (by intro _; decide)
      rw [if_neg c8, fold_none] at h
      simp at h

theorem Utf8.append {a b : Bytes} (ha : Utf8 a) (hb : Utf8 b) : Utf8 (a ++ b) := by
  obtain ⟨cs, rfl⟩ := ha
  obtain ⟨cs', rfl⟩ := hb
  exact ⟨cs ++ cs', by rw [List.flatMap_append]⟩

/-- The check accepts exactly UTF-8. -/
theorem utf8_iff (v : Bytes) : utf8 v = true ↔ Utf8 v := by
  rw [utf8_fold]
  constructor
  · rintro ⟨lo, hi, h⟩
    exact utf8_of_fold v.length v (Nat.le_refl _) lo hi h
  · rintro ⟨cs, h⟩
    exact ⟨0x80, 0xBF, by rw [h, fold_chars, utf8Start]⟩

instance (v : Bytes) : Decidable (Utf8 v) := decidable_of_iff _ (utf8_iff v)

end TsFile
