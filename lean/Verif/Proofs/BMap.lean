import Verif.Model.Prim
import Mathlib.Tactic.ByContra
/-! # Byte string order and sorted association lists -/

namespace TsFile

theorem bytesLt_irrefl (a : Bytes) : bytesLt a a = false := by
  induction a with
  | nil => rfl
  | cons x a ih => simp [bytesLt, ih]

theorem u8_lt_asymm {a b : UInt8} (h : a < b) : ¬ b < a := by
  simp only [UInt8.lt_iff_toNat_lt] at *; omega

theorem u8_eq_of_not_lt {a b : UInt8} (h1 : ¬ a < b) (h2 : ¬ b < a) : a = b := by
  simp only [UInt8.lt_iff_toNat_lt] at *
  exact UInt8.toNat_inj.1 (by omega)

theorem bytesLt_trans {a b c : Bytes} (h1 : bytesLt a b = true) (h2 : bytesLt b c = true) :
    bytesLt a c = true := by
  induction a generalizing b c with
  | nil =>
    cases b with
    | nil => simp [bytesLt] at h1
    | cons y b =>
      cases c with
      | nil => simp [bytesLt] at h2
      | cons z c => rfl
  | cons x a ih =>
    cases b with
    | nil => simp [bytesLt] at h1
    | cons y b =>
      cases c with
      | nil => simp [bytesLt] at h2
      | cons z c =>
        simp only [bytesLt] at *
        by_cases hxy : x < y
        · by_cases hyz : y < z
          · have : x < z := by simp only [UInt8.lt_iff_toNat_lt] at *; omega
            simp [this]
          · rw [if_neg hyz] at h2
            by_cases hzy : z < y
            · simp [hzy] at h2
            · have := u8_eq_of_not_lt hyz hzy
              subst this
              simp [hxy]
        · rw [if_neg hxy] at h1
          by_cases hyx : y < x
          · simp [hyx] at h1
          · have := u8_eq_of_not_lt hxy hyx
            subst this
            rw [if_neg hyx] at h1
            by_cases hyz : x < z
            · simp [hyz]
            · rw [if_neg hyz] at h2 ⊢
              by_cases hzy : z < x
              · simp [hzy] at h2
              · rw [if_neg hzy] at h2 ⊢
                exact ih h1 h2

theorem bytesLt_total {a b : Bytes} (h1 : bytesLt a b = false) (h2 : bytesLt b a = false) : a = b := by
  induction a generalizing b with
  | nil => cases b with
    | nil => rfl
    | cons y b => simp [bytesLt] at h1
  | cons x a ih =>
    cases b with
    | nil => simp [bytesLt] at h2
    | cons y b =>
      simp only [bytesLt] at h1 h2
      by_cases hxy : x < y
      · simp [hxy] at h1
      · by_cases hyx : y < x
        · simp [hyx] at h2
        · rw [if_neg hxy, if_neg hyx] at h1
          rw [if_neg hyx, if_neg hxy] at h2
          rw [u8_eq_of_not_lt hxy hyx, ih h1 h2]

theorem bytesLt_asymm {a b : Bytes} (h : bytesLt a b = true) : bytesLt b a = false := by
  by_contra hc
  have := bytesLt_trans h (by simpa using hc)
  rw [bytesLt_irrefl] at this
  simp at this

theorem bytesLt_ne {a b : Bytes} (h : bytesLt a b = true) : a ≠ b := by
  intro e
  subst e
  rw [bytesLt_irrefl] at h
  simp at h

theorem bytesLt_append_left (p a b : Bytes) : bytesLt (p ++ a) (p ++ b) = bytesLt a b := by
  induction p with
  | nil => rfl
  | cons x p ih => simp [bytesLt, ih]

namespace BMap
variable {α β : Type}

/-- The keys are strictly ascending. -/
def Sorted (m : BMap α) : Prop := m.Pairwise (fun a b => bytesLt a.1 b.1 = true)

theorem get?_insert (k k' : Bytes) (v : α) (m : BMap α) :
    get? k' (insert k v m) = if k = k' then some v else get? k' m := by
  induction m with
  | nil => simp [insert, get?]
  | cons e m ih =>
    obtain ⟨k0, v0⟩ := e
    rw [insert]
    by_cases h0 : k0 = k
    · rw [if_pos h0]
      subst h0
      by_cases h : k0 = k'
      · simp [get?, h]
      · simp [get?, h]
    · rw [if_neg h0]
      split
      · by_cases h : k = k'
        · simp [get?, h]
        · simp [get?, h]
      · by_cases h : k = k'
        · subst h
          simp only [get?, if_neg h0, ih]
        · simp only [get?, ih, if_neg h]

theorem mem_insert {k : Bytes} {v : α} {m : BMap α} {e : Bytes × α} (h : e ∈ insert k v m) :
    e = (k, v) ∨ e ∈ m := by
  induction m with
  | nil => simp [insert] at h; exact Or.inl h
  | cons e0 m ih =>
    obtain ⟨k0, v0⟩ := e0
    rw [insert] at h
    split at h
    · rcases List.mem_cons.1 h with h | h
      · exact Or.inl h
      · exact Or.inr (by simp [h])
    · split at h
      · rcases List.mem_cons.1 h with h | h
        · exact Or.inl h
        · exact Or.inr h
      · rcases List.mem_cons.1 h with h | h
        · exact Or.inr (by simp [h])
        · rcases ih h with h | h
          · exact Or.inl h
          · exact Or.inr (by simp [h])

theorem sorted_insert {k : Bytes} {v : α} {m : BMap α} (h : Sorted m) : Sorted (insert k v m) := by
  induction m with
  | nil => simp [insert, Sorted]
  | cons e0 m ih =>
    obtain ⟨k0, v0⟩ := e0
    have h' := List.pairwise_cons.1 h
    rw [insert]
    split
    · next hk =>
      subst hk
      exact List.pairwise_cons.2 ⟨h'.1, h'.2⟩
    · next hk =>
      split
      · next hlt =>
        refine List.pairwise_cons.2 ⟨?_, h⟩
        intro e he
        rcases List.mem_cons.1 he with rfl | he
        · exact hlt
        · exact bytesLt_trans hlt (h'.1 e he)
      · next hlt =>
        refine List.pairwise_cons.2 ⟨?_, ih h'.2⟩
        intro e he
        rcases mem_insert he with rfl | he
        · by_contra hc
          exact hk (bytesLt_total (by simpa using hc) (by simpa using hlt))
        · exact h'.1 e he

theorem get?_of_mem {m : BMap α} (h : Sorted m) {k : Bytes} {v : α} (hm : (k, v) ∈ m) : get? k m = some v := by
  induction m with
  | nil => simp at hm
  | cons e0 m ih =>
    obtain ⟨k0, v0⟩ := e0
    have h' := List.pairwise_cons.1 h
    rcases List.mem_cons.1 hm with he | he
    · simp only [Prod.mk.injEq] at he
      rw [he.1, he.2]
      simp [get?]
    · have := bytesLt_ne (h'.1 _ he)
      simp only at this
      rw [get?, if_neg this]
      exact ih h'.2 he

theorem mem_of_get? {m : BMap α} {k : Bytes} {v : α} (h : get? k m = some v) : (k, v) ∈ m := by
  induction m with
  | nil => simp [get?] at h
  | cons e0 m ih =>
    obtain ⟨k0, v0⟩ := e0
    rw [get?] at h
    split at h
    · next hk =>
      subst hk
      simp only [Option.some.injEq] at h
      simp [h]
    · simp [ih h]

theorem get?_of_nodup {l : List (Bytes × α)} (hn : (l.map Prod.fst).Nodup) {k : Bytes} {v : α}
    (hm : (k, v) ∈ l) : get? k l = some v := by
  induction l with
  | nil => simp at hm
  | cons e l ih =>
    obtain ⟨k0, v0⟩ := e
    simp only [List.map_cons, List.nodup_cons] at hn
    rcases List.mem_cons.1 hm with he | he
    · simp only [Prod.mk.injEq] at he
      rw [he.1, he.2]
      simp [get?]
    · rw [get?, if_neg]
      · exact ih hn.2 he
      · intro h
        subst h
        exact hn.1 (List.mem_map.2 ⟨_, he, rfl⟩)

theorem sorted_foldl_insert (l : List (Bytes × α)) (m : BMap α) (h : Sorted m) :
    Sorted (l.foldl (fun m kv => insert kv.1 kv.2 m) m) := by
  induction l generalizing m with
  | nil => exact h
  | cons e l ih => exact ih _ (sorted_insert h)

theorem sorted_ofList (l : List (Bytes × α)) : Sorted (ofList l) :=
  sorted_foldl_insert l [] List.Pairwise.nil

theorem get?_foldl_insert (l : List (Bytes × α)) (m : BMap α) (k : Bytes)
    (hn : (l.map Prod.fst).Nodup) :
    get? k (l.foldl (fun m kv => insert kv.1 kv.2 m) m)
      = match get? k l with
        | some v => some v
        | none => get? k m := by
  induction l generalizing m with
  | nil => rfl
  | cons e l ih =>
    obtain ⟨k0, v0⟩ := e
    simp only [List.map_cons, List.nodup_cons] at hn
    rw [List.foldl_cons, ih _ hn.2, get?]
    by_cases h : k0 = k
    · subst h
      rw [if_pos rfl]
      have : get? k0 l = none := by
        cases hg : get? k0 l with
        | none => rfl
        | some v => exact absurd (List.mem_map.2 ⟨_, mem_of_get? hg, rfl⟩) hn.1
      rw [this]
      simp [get?_insert]
    · rw [if_neg h]
      cases hg : get? k l with
      | none => simp [get?_insert, h]
      | some v => rfl

/-- Looking up in a collected map of distinct keys. -/
theorem get?_ofList (l : List (Bytes × α)) (k : Bytes) (hn : (l.map Prod.fst).Nodup) :
    get? k (ofList l) = get? k l := by
  rw [ofList, get?_foldl_insert l [] k hn]
  cases get? k l <;> rfl

theorem get?_map (l : List (Bytes × α)) (f : Bytes → α → β) (k : Bytes) :
    get? k (l.map (fun e => (e.1, f e.1 e.2))) = (get? k l).map (f k) := by
  induction l with
  | nil => rfl
  | cons e l ih =>
    obtain ⟨k0, v0⟩ := e
    rw [List.map_cons, get?, get?]
    by_cases h : k0 = k
    · subst h; simp
    · simp [h, ih]

/-- Two sorted maps with the same lookups are equal. -/
theorem sorted_ext {m1 m2 : BMap α} (h1 : Sorted m1) (h2 : Sorted m2)
    (h : ∀ k, get? k m1 = get? k m2) : m1 = m2 := by
  induction m1 generalizing m2 with
  | nil =>
    cases m2 with
    | nil => rfl
    | cons e m2 =>
      have := h e.1
      simp [get?] at this
  | cons e1 m1 ih =>
    cases m2 with
    | nil =>
      have := h e1.1
      simp [get?] at this
    | cons e2 m2 =>
      have p1 := List.pairwise_cons.1 h1
      have p2 := List.pairwise_cons.1 h2
      obtain ⟨k1, v1⟩ := e1
      obtain ⟨k2, v2⟩ := e2
      have hk : k1 = k2 := by
        by_contra hne
        have a1 := h k1
        have a2 := h k2
        simp only [get?, if_pos, if_neg hne, if_neg (Ne.symm hne)] at a1 a2
        have b1 := p2.1 _ (mem_of_get? a1.symm)
        have b2 := p1.1 _ (mem_of_get? a2)
        simp only at b1 b2
        rw [bytesLt_asymm b1] at b2
        simp at b2
      subst hk
      have hv : v1 = v2 := by
        have := h k1
        simpa [get?] using this
      subst hv
      congr 1
      apply ih p1.2 p2.2
      intro k
      have := h k
      simp only [get?] at this
      by_cases hk : k1 = k
      · subst hk
        have n1 : get? k1 m1 = none := by
          cases hg : get? k1 m1 with
          | none => rfl
          | some v => have := bytesLt_ne (p1.1 _ (mem_of_get? hg)); exact absurd rfl this
        have n2 : get? k1 m2 = none := by
          cases hg : get? k1 m2 with
          | none => rfl
          | some v => have := bytesLt_ne (p2.1 _ (mem_of_get? hg)); exact absurd rfl this
        rw [n1, n2]
      · simpa [hk] using this

theorem get?_isSome_iff (m : BMap α) (k : Bytes) : (get? k m).isSome ↔ k ∈ m.map Prod.fst := by
  induction m with
  | nil => simp [get?]
  | cons e m ih =>
    obtain ⟨k0, v0⟩ := e
    rw [get?]
    by_cases h : k0 = k
    · simp [h]
    · simp only [if_neg h, ih, List.map_cons, List.mem_cons]
      constructor
      · exact Or.inr
      · rintro (h' | h')
        · exact absurd h'.symm h
        · exact h'

end BMap

end TsFile
