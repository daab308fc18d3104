import Verif.Spec.Lookup
import Verif.Proofs.SparseNodes
import Mathlib.Data.List.GetD
/-! # Bisection finds what a search one by one finds, if the names are in order; and only then -/

namespace TsFile
open Spec

theorem bytes_lt_trans {a b c : Bytes} (h : a < b) (h' : b < c) : a < c := by
  rw [← bytesLt_iff] at *
  exact bytesLt_trans h h'

theorem bytes_lt_ne {a b : Bytes} (h : a < b) : a ≠ b := by
  rw [← bytesLt_iff] at h
  exact bytesLt_ne h

theorem bytes_lt_of {a b : Bytes} (h : a ≠ b) (h' : ¬ a < b) : b < a := by
  rw [← bytesLt_iff] at *
  cases h1 : bytesLt b a with
  | true => rfl
  | false => exact absurd (bytesLt_total (by simpa using h') h1) h

/-! ## Bisection -/

/-- What the search tells about sorted names. -/
theorem bisect_spec {names : List Bytes} {key : Bytes} (hs : names.Pairwise (· < ·)) :
    ∀ (fuel low high : Nat), low ≤ high → high ≤ names.length → high - low < 2 ^ fuel →
      (∀ i, i < low → names.getD i [] < key) → (∀ i, high ≤ i → i < names.length → key < names.getD i []) →
      ((bisect names key fuel low high).1 = true → (bisect names key fuel low high).2 < names.length
        ∧ names.getD (bisect names key fuel low high).2 [] = key)
      ∧ ((bisect names key fuel low high).1 = false → (bisect names key fuel low high).2 ≤ names.length
        ∧ (∀ i, i < (bisect names key fuel low high).2 → names.getD i [] < key)
        ∧ ∀ i, (bisect names key fuel low high).2 ≤ i → i < names.length → key < names.getD i []) := by
  have hget : ∀ i j, i < j → j < names.length → names.getD i [] < names.getD j [] := by
    intro i j hij hj
    rw [List.getD_eq_getElem _ _ hj, List.getD_eq_getElem _ _ (Nat.lt_trans hij hj)]
    exact List.pairwise_iff_getElem.1 hs i j (Nat.lt_trans hij hj) hj hij
  intro fuel
  induction fuel with
  | zero =>
    intro low high h1 h2 h3 h4 h5
    simp only [Nat.pow_zero] at h3
    have : low = high := by omega
    subst this
    simp only [bisect]
    exact ⟨by simp, fun _ => ⟨h2, h4, h5⟩⟩
  | succ fuel ih =>
    intro low high h1 h2 h3 h4 h5
    rw [Nat.pow_succ] at h3
    simp only [bisect]
    by_cases hlt : low < high
    · rw [if_pos hlt]
      have hm1 : low ≤ (low + (high - 1)) / 2 := by omega
      have hm2 : (low + (high - 1)) / 2 < high := by omega
      have hm3 : high - ((low + (high - 1)) / 2 + 1) < 2 ^ fuel := by omega
      have hm4 : (low + (high - 1)) / 2 - low < 2 ^ fuel := by omega
      generalize (low + (high - 1)) / 2 = mid at *
      by_cases he : names.getD mid [] = key
      · rw [if_pos he]
        exact ⟨fun _ => ⟨by omega, he⟩, by simp⟩
      · rw [if_neg he]
        by_cases hc : names.getD mid [] < key
        · rw [if_pos hc]
          refine ih _ _ (by omega) h2 hm3 (fun i hi => ?_) h5
          rcases Nat.lt_or_ge i mid with h | h
          · exact bytes_lt_trans (hget i mid h (by omega)) hc
          · have : i = mid := by omega
            rw [this]; exact hc
        · rw [if_neg hc]
          have hc' := bytes_lt_of he hc
          refine ih _ _ hm1 (by omega) hm4 h4 (fun i hi hi' => ?_)
          rcases Nat.lt_or_ge mid i with h | h
          · exact bytes_lt_trans hc' (hget mid i h hi')
          · have : i = mid := by omega
            rw [this]; exact hc'
    · rw [if_neg hlt]
      have : low = high := by omega
      subst this
      exact ⟨by simp, fun _ => ⟨h2, h4, h5⟩⟩

theorem search_spec {names : List Bytes} {key : Bytes} (hs : names.Pairwise (· < ·)) :
    ((search names key).1 = true → (search names key).2 < names.length ∧ names.getD (search names key).2 [] = key)
    ∧ ((search names key).1 = false → (search names key).2 ≤ names.length
      ∧ (∀ i, i < (search names key).2 → names.getD i [] < key)
      ∧ ∀ i, (search names key).2 ≤ i → i < names.length → key < names.getD i []) := by
  refine bisect_spec hs _ _ _ (Nat.zero_le _) (Nat.le_refl _) ?_ (by simp) (by intro i h h'; omega)
  rw [Nat.sub_zero]
  exact Nat.lt_log2_self

theorem findBinary_some {α : Type} {name : α → Bytes} {key : Bytes} {l : List α} {x : α}
    (h : findBinary name key l = some x) (hs : (l.map name).Pairwise (· < ·)) : x ∈ l ∧ name x = key := by
  simp only [findBinary] at h
  split at h
  · rename_i hf
    obtain ⟨h1, h2⟩ := (search_spec hs).1 hf
    have h3 := List.getElem?_eq_some_iff.1 h
    obtain ⟨hi, rfl⟩ := h3
    refine ⟨List.getElem_mem hi, ?_⟩
    rw [List.getD_eq_getElem _ _ h1, List.getElem_map] at h2
    exact h2
  · simp at h

theorem findBinary_none {α : Type} {name : α → Bytes} {key : Bytes} {l : List α}
    (h : findBinary name key l = none) (hs : (l.map name).Pairwise (· < ·)) : ∀ x ∈ l, name x ≠ key := by
  simp only [findBinary] at h
  split at h
  · rename_i hf
    obtain ⟨h1, h2⟩ := (search_spec hs).1 hf
    rw [List.length_map] at h1
    rw [List.getElem?_eq_none_iff] at h
    omega
  · rename_i hf
    obtain ⟨_, h2, h3⟩ := (search_spec hs).2 (by simpa using hf)
    intro x hx e
    obtain ⟨i, hi, rfl⟩ := List.getElem_of_mem hx
    have hg : (l.map name).getD i [] = key := by
      rw [List.getD_eq_getElem _ _ (by simpa using hi), List.getElem_map]
      exact e
    rcases Nat.lt_or_ge i (search (l.map name) key).2 with h4 | h4
    · exact bytes_lt_ne (h2 i h4) hg
    · exact bytes_lt_ne (h3 i h4 (by simpa using hi)) hg.symm

/-- Among sorted names bisection finds what a search one by one finds. -/
theorem findBinary_eq {α : Type} {name : α → Bytes} {key : Bytes} {l : List α} (hs : (l.map name).Pairwise (· < ·)) :
    findBinary name key l = l.find? (fun x => decide (name x = key)) := by
  cases h : findBinary name key l with
  | none =>
    symm
    rw [List.find?_eq_none]
    intro x hx
    simpa using findBinary_none h hs x hx
  | some x =>
    obtain ⟨h1, h2⟩ := findBinary_some h hs
    cases h3 : l.find? (fun x => decide (name x = key)) with
    | none =>
      rw [List.find?_eq_none] at h3
      exact absurd h2 (by simpa using h3 x h1)
    | some y =>
      have h4 := List.find?_some h3
      have h5 := List.mem_of_find?_eq_some h3
      simp only [decide_eq_true_eq] at h4
      congr 1
      have hnd : (l.map name).Nodup := hs.imp (fun h => bytes_lt_ne h)
      exact List.inj_on_of_nodup_map hnd h1 h5 (h2.trans h4.symm)

/-! ## What bisection finds is in order -/

theorem bisect_range {names : List Bytes} {key : Bytes} :
    ∀ (fuel low high : Nat), (bisect names key fuel low high).1 = true →
      low ≤ (bisect names key fuel low high).2 ∧ (bisect names key fuel low high).2 < high := by
  intro fuel
  induction fuel with
  | zero => intro low high h; simp [bisect] at h
  | succ fuel ih =>
    intro low high h
    simp only [bisect] at h ⊢
    by_cases hlt : low < high
    · rw [if_pos hlt] at h ⊢
      split
      · dsimp only; omega
      · rename_i he
        rw [if_neg he] at h
        split
        · rename_i hc
          rw [if_pos hc] at h
          have := ih _ _ h
          omega
        · rename_i hc
          rw [if_neg hc] at h
          have := ih _ _ h
          omega
    · rw [if_neg hlt] at h; simp at h

/-- If each of the names is found at its place, they are sorted. -/
theorem sorted_of_bisect {names : List Bytes} : ∀ (fuel low high : Nat), high ≤ names.length →
    (∀ i, low ≤ i → i < high → bisect names (names.getD i []) fuel low high = (true, i)) →
    ∀ i j, low ≤ i → i < j → j < high → names.getD i [] < names.getD j [] := by
  intro fuel
  induction fuel with
  | zero =>
    intro low high hh h i j h1 h2 h3
    have := h i h1 (by omega)
    simp [bisect] at this
  | succ fuel ih =>
    intro low high hh h
    by_cases hlt : low < high
    · simp only [bisect, if_pos hlt] at h
      have hm1 : low ≤ (low + (high - 1)) / 2 := by omega
      have hm2 : (low + (high - 1)) / 2 < high := by omega
      generalize (low + (high - 1)) / 2 = mid at *
      have left : ∀ i, low ≤ i → i < mid → names.getD i [] < names.getD mid []
          ∧ bisect names (names.getD i []) fuel low mid = (true, i) := by
        intro i hi hi'
        have := h i hi (by omega)
        split at this
        · simp at this; omega
        · rename_i he
          split at this
          · have hr := bisect_range fuel (mid + 1) high (key := names.getD i []) (names := names) (by rw [this])
            rw [this] at hr
            dsimp only at hr
            omega
          · rename_i hc
            exact ⟨bytes_lt_of he hc, this⟩
      have right : ∀ i, mid < i → i < high → names.getD mid [] < names.getD i []
          ∧ bisect names (names.getD i []) fuel (mid + 1) high = (true, i) := by
        intro i hi hi'
        have := h i (by omega) hi'
        split at this
        · simp at this; omega
        · split at this
          · rename_i hc
            exact ⟨hc, this⟩
          · have hr := bisect_range fuel low mid (key := names.getD i []) (names := names) (by rw [this])
            rw [this] at hr
            dsimp only at hr
            omega
      have hl := ih low mid (by omega) (fun i h1 h2 => (left i h1 h2).2)
      have hr := ih (mid + 1) high hh (fun i h1 h2 => (right i (by omega) h2).2)
      intro i j h1 h2 h3
      rcases Nat.lt_trichotomy j mid with hj | hj | hj
      · exact hl i j h1 h2 hj
      · subst hj; exact (left i h1 h2).1
      · rcases Nat.lt_trichotomy i mid with hi | hi | hi
        · exact bytes_lt_trans (left i h1 hi).1 (right j hj h3).1
        · subst hi; exact (right j hj h3).1
        · exact hr i j (by omega) h2 h3
    · intro i j h1 h2 h3; omega

/-- If each element is found by its name, and names are different, then the names are sorted. -/
theorem sorted_of_findBinary {α : Type} {name : α → Bytes} {l : List α} (hnd : (l.map name).Nodup)
    (h : ∀ x ∈ l, findBinary name (name x) l = some x) : (l.map name).Pairwise (· < ·) := by
  rw [List.pairwise_iff_getElem]
  intro i j hi hj hij
  rw [← List.getD_eq_getElem _ [] hi, ← List.getD_eq_getElem _ [] hj]
  refine sorted_of_bisect ((l.map name).length.log2 + 1) 0 (l.map name).length (Nat.le_refl _) (fun k _ hk => ?_) i j
    (Nat.zero_le _) hij hj
  have hk' : k < l.length := by simpa using hk
  have h1 := h l[k] (List.getElem_mem hk')
  have hname : (l.map name).getD k [] = name l[k] := by
    rw [List.getD_eq_getElem _ _ hk, List.getElem_map]
  rw [hname]
  simp only [findBinary] at h1
  split at h1
  · rename_i hf
    obtain ⟨hi', he⟩ := List.getElem?_eq_some_iff.1 h1
    have : (search (l.map name) (name l[k])).2 = k :=
      (List.Nodup.of_map name hnd).getElem_inj_iff.1 he
    show search (l.map name) (name l[k]) = (true, k)
    exact Prod.ext hf this
  · simp at h1

/-! ## The parts of a node -/

theorem entryAt_succ (e : Entry) (es : List Entry) (stop k : Nat) : entryAt (e :: es) stop (k + 1) = entryAt es stop k := by
  simp [entryAt]

/-- The parts of the file that the entries of a leaf node stand for: the metadata of at most 256 series, none of them with a smaller
name. -/
theorem entryAt_leaf {α : Type} (name bytes : α → Bytes) (l : List α) :
    ∀ (i p o : Nat) (n0 : Bytes) (pre : List α), 0 < i → pre.length = (i - 1) % 256 + 1 → (∀ t ∈ pre, ¬ name t < n0) →
      (pre ++ l).Pairwise (fun a b => name a < name b) → p = o + (pre.flatMap bytes).length →
      ∀ k lo hi, entryAt (⟨n0, o⟩ :: (leafEntries name bytes i p l).map IndexEntry.toSpec) (p + (l.flatMap bytes).length) k
        = some (lo, hi) →
      ∃ a seg b, pre ++ l = a ++ seg ++ b ∧ lo = o + (a.flatMap bytes).length ∧ hi = lo + (seg.flatMap bytes).length
        ∧ seg.length ≤ 256
        ∧ ∀ t ∈ seg, ∀ e ∈ (⟨n0, o⟩ :: (leafEntries name bytes i p l).map IndexEntry.toSpec)[k]?, ¬ name t < e.name := by
  induction l with
  | nil =>
    intro i p o n0 pre hi0 hlen hpre hs hp k lo hi h
    cases k with
    | zero =>
      simp [entryAt, leafEntries] at h
      refine ⟨[], pre, [], by simp, by simp [h.1], by omega, by omega, fun t ht e he => ?_⟩
      simp at he
      subst he
      exact hpre t ht
    | succ k => simp [entryAt, leafEntries] at h
  | cons t ts ih =>
    intro i p o n0 pre hi0 hlen hpre hs hp k lo hi h
    rw [leafEntries] at h ⊢
    by_cases hi' : i % maxDegree = 0
    · simp only [hi', if_true, List.cons_append, List.nil_append, List.map_cons, toSpec_mk] at h ⊢
      cases k with
      | zero =>
        simp [entryAt] at h
        refine ⟨[], pre, t :: ts, by simp, by simp [h.1], by omega, by omega, fun t ht e he => ?_⟩
        simp at he
        subst he
        exact hpre t ht
      | succ k =>
        rw [entryAt_succ, show p + (List.flatMap bytes (t :: ts)).length
              = p + (bytes t).length + (List.flatMap bytes ts).length by simp; omega] at h
        have hmd : maxDegree = 256 := rfl
        rw [hmd] at hi'
        obtain ⟨a, seg, b, h1, h2, h3, h4, h5⟩ := ih (i + 1) (p + (bytes t).length) p (name t) [t] (by omega)
          (by simp only [List.length_singleton, Nat.add_sub_cancel]; omega)
          (by
            intro x hx
            rw [List.mem_singleton.1 hx]
            exact fun hc => bytes_lt_ne hc rfl)
          (by simpa using (List.pairwise_append.1 hs).2.1) (by simp) k lo hi h
        refine ⟨pre ++ a, seg, b, ?_, ?_, h3, h4, ?_⟩
        · rw [show pre ++ t :: ts = pre ++ ([t] ++ ts) by simp, h1]; simp
        · rw [h2, hp]; simp; omega
        · simpa using h5
    · simp only [hi', if_false, List.nil_append] at h ⊢
      have hmd : maxDegree = 256 := rfl
      rw [hmd] at hi'
      obtain ⟨a, seg, b, h1, h2, h3, h4, h5⟩ := ih (i + 1) (p + (bytes t).length) o n0 (pre ++ [t]) (by omega)
        (by simp only [List.length_append, List.length_singleton, Nat.add_sub_cancel]; omega)
        (by
          intro x hx
          rcases List.mem_append.1 hx with hx | hx
          · exact hpre x hx
          · rw [List.mem_singleton.1 hx]
            have hne : pre ≠ [] := by intro e; rw [e] at hlen; simp at hlen
            obtain ⟨y, hy⟩ := List.exists_mem_of_ne_nil _ hne
            have h1 := (List.pairwise_append.1 hs).2.2 y hy t (by simp)
            intro hc
            exact hpre y hy (bytes_lt_trans h1 hc))
        (by simpa using hs) (by simp [hp]; omega) k lo hi
        (by rw [← h]; congr 1; simp; omega)
      exact ⟨a, seg, b, by rw [← h1]; simp, h2, h3, h4, h5⟩

theorem entryAt_leafNode {α : Type} (name bytes : α → Bytes) (l : List α) (p : Nat)
    (hs : l.Pairwise (fun a b => name a < name b)) (k lo hi : Nat)
    (h : entryAt ((leafEntries name bytes 0 p l).map IndexEntry.toSpec) (p + (l.flatMap bytes).length) k = some (lo, hi)) :
    ∃ a seg b, l = a ++ seg ++ b ∧ lo = p + (a.flatMap bytes).length ∧ hi = lo + (seg.flatMap bytes).length
      ∧ seg.length ≤ 256
      ∧ ∀ t ∈ seg, ∀ e ∈ ((leafEntries name bytes 0 p l).map IndexEntry.toSpec)[k]?, ¬ name t < e.name := by
  cases l with
  | nil => simp [leafEntries, entryAt] at h
  | cons t ts =>
    have e1 : (leafEntries name bytes 0 p (t :: ts)).map IndexEntry.toSpec
        = ⟨name t, p⟩ :: (leafEntries name bytes 1 (p + (bytes t).length) ts).map IndexEntry.toSpec := by
      simp [leafEntries, toSpec_mk]
    rw [e1] at h ⊢
    rw [show p + (List.flatMap bytes (t :: ts)).length
      = p + (bytes t).length + (List.flatMap bytes ts).length by simp; omega] at h
    obtain ⟨a, seg, b, h1, h2, h3, h4, h5⟩ := entryAt_leaf name bytes ts 1 (p + (bytes t).length) p (name t) [t] (by omega)
      (by simp) (by
        intro x hx
        rw [List.mem_singleton.1 hx]
        exact fun hc => bytes_lt_ne hc rfl) (by simpa using hs) (by simp) k lo hi h
    exact ⟨a, seg, b, by simpa using h1, h2, h3, h4, h5⟩

/-! ## The entry that is selected -/

theorem select_eq {m : Bytes} : ∀ {es : List Entry} {stop k : Nat}, (es.map Entry.name).Pairwise (· < ·) → k < es.length →
    (∀ i, i ≤ k → ¬ m < (es.map Entry.name).getD i []) → (∀ i, k < i → i < es.length → m < (es.map Entry.name).getD i []) →
    select m es stop = entryAt es stop k := by
  intro es
  induction es with
  | nil => intro stop k _ hk; simp at hk
  | cons e es ih =>
    intro stop k hs hk h1 h2
    have h10 := h1 0 (Nat.zero_le _)
    simp at h10
    cases es with
    | nil =>
      have : k = 0 := by simpa using hk
      subst this
      simp [select, h10, entryAt]
    | cons e' es =>
      rw [select]
      cases k with
      | zero =>
        have := h2 1 (by omega) (by simp)
        simp at this
        rw [if_pos this, if_neg h10]
        simp [entryAt]
      | succ k =>
        have := h1 1 (by omega)
        simp at this
        rw [if_neg (by simpa using this), entryAt_succ]
        refine ih (List.pairwise_cons.1 (by simpa using hs)).2 (by simpa using hk) (fun i hi => ?_) (fun i hi hi' => ?_)
        · simpa using h1 (i + 1) (by omega)
        · simpa using h2 (i + 1) (by omega) (by simpa using hi')

theorem select_none {m : Bytes} : ∀ {es : List Entry} {stop : Nat}, (∀ e ∈ es, m < e.name) → select m es stop = none := by
  intro es
  induction es with
  | nil => intros; rfl
  | cons e es ih =>
    intro stop h
    cases es with
    | nil => simp [select, h e (by simp)]
    | cons e' es =>
      simp only [select]
      rw [if_pos (h e' (by simp)), if_pos (h e (by simp))]

/-- Bisection selects the same entry; or the first one, for a smaller name. -/
theorem selectBinary_eq {m : Bytes} {es : List Entry} {stop : Nat} (hs : (es.map Entry.name).Pairwise (· < ·)) :
    selectBinary m es stop = select m es stop
    ∨ (select m es stop = none ∧ selectBinary m es stop = entryAt es stop 0 ∧ ∀ e ∈ es[0]?, m < e.name) := by
  have hnot : ∀ {a b : Bytes}, a < b → ¬ b < a := fun h h' => bytes_lt_ne (bytes_lt_trans h h') rfl
  have hget : ∀ i j, i < j → j < (es.map Entry.name).length → (es.map Entry.name).getD i [] < (es.map Entry.name).getD j [] := by
    intro i j hij hj
    rw [List.getD_eq_getElem _ _ hj, List.getD_eq_getElem _ _ (Nat.lt_trans hij hj)]
    exact List.pairwise_iff_getElem.1 hs i j (Nat.lt_trans hij hj) hj hij
  simp only [selectBinary]
  cases hf : (search (es.map Entry.name) m).1 with
  | true =>
    obtain ⟨h1, h2⟩ := (search_spec hs).1 hf
    left
    simp only [if_true]
    symm
    refine select_eq hs (by simpa using h1) (fun i hi hc => ?_) (fun i hi hi' => ?_)
    · rcases Nat.lt_or_ge i (search (es.map Entry.name) m).2 with h | h
      · have := hget i _ h h1
        rw [h2] at this
        exact hnot this hc
      · have : i = (search (es.map Entry.name) m).2 := by omega
        rw [this, h2] at hc
        exact bytes_lt_ne hc rfl
    · have := hget _ i hi (by simpa using hi')
      rw [h2] at this
      exact this
  | false =>
    obtain ⟨h1, h2, h3⟩ := (search_spec hs).2 hf
    simp only [Bool.false_eq_true, if_false]
    generalize (search (es.map Entry.name) m).2 = r at *
    cases r with
    | zero =>
      have hall : ∀ e ∈ es, m < e.name := by
        intro e he
        obtain ⟨i, hi, rfl⟩ := List.getElem_of_mem he
        have := h3 i (Nat.zero_le _) (by simpa using hi)
        rw [List.getD_eq_getElem _ _ (by simpa using hi), List.getElem_map] at this
        exact this
      right
      exact ⟨select_none hall, rfl, fun e he => hall e (List.mem_of_getElem? he)⟩
    | succ r =>
      left
      symm
      rw [Nat.add_sub_cancel]
      rw [List.length_map] at h1
      exact select_eq hs (by omega) (fun i hi hc => hnot (h2 i (by omega)) hc) (fun i hi hi' => h3 i (by omega) (by simpa using hi'))

/-! ## The node of a device -/

section
variable {env : Env} {unsnap : Bytes → Option Bytes} {schema : Schema} {D : Bytes} {locs : List ChunkLoc}
  {paths : List Bytes} {F : Bytes}

/-- The node of an isolated device: sorted names, at most 256 of them, and for each of them the metadata of at most 256 series, sorted,
none of them with a smaller name. -/
theorem Sparse.deviceParts {d : Bytes} (hsch : schema.IndexableAt d) (hok : LocsOk env unsnap schema D locs)
    (L : Sparse env D locs paths F) (hf : L.Fits) :
    ∃ footer, Spec.readFooter F = some footer
      ∧ ∀ e ∈ footer.root.entries, e.name = d → ∃ node, readNode F e.offset = some node ∧ node.kind = 3
        ∧ (node.entries.map Entry.name).Pairwise (· < ·) ∧ node.entries.length ≤ 256
        ∧ ∀ k lo hi, entryAt node.entries node.endOffset k = some (lo, hi) →
          ∃ metas, pAll pSeriesMeta (slice F lo hi) = some metas ∧ (metas.map SeriesMeta.measurement).Pairwise (· < ·)
            ∧ metas.length ≤ 256 ∧ ∀ x ∈ metas, ∀ e ∈ node.entries[k]?, ¬ x.measurement < e.name := by
  obtain ⟨bits, _, hfooter⟩ := L.readFooter hf
  obtain ⟨htsorted, htne, l, hrep, hl⟩ := L.device hok hsch.isolated
  have hFlen := hf.file
  have hroot : L.root.toSpec.entries = (devEntries (D ++ [2] ++ metaBytes env L.tsm).length
      L.order).map IndexEntry.toSpec := by rw [← L.entries]; rfl
  obtain ⟨hnodes, _⟩ := devicesLoop_mem L.tsm _ L.nodes_eq L.at_meta
  refine ⟨_, hfooter, ?_⟩
  intro e he hed
  have he' : e ∈ L.root.toSpec.entries := he
  rw [hroot] at he'
  obtain ⟨node, hnode, hat⟩ := devEntries_mem L.order _ L.at_nodes e he'
  rw [hed] at hnode
  obtain ⟨l', pre, o, hl', hdi, hatl⟩ := hnodes d node (L.order_perm.mem_iff.1 hnode)
  have hin : (d, l) ∈ L.tsm := by
    rcases hl with ⟨_, h0⟩ | ⟨_, h1⟩
    · exact absurd (List.mem_map.2 ⟨_, hl', rfl⟩) h0
    · exact h1
  have hll : l' = l := by
    have h1 := BMap.get?_of_mem htsorted hl'
    have h2 := BMap.get?_of_mem htsorted hin
    rw [h1] at h2
    exact Option.some.inj h2
  subst hll
  have hlf := hrep.few hsch.few
  have hlne := htne _ hin
  simp only at hlne
  rw [deviceIndex_eq env pre l' hlf] at hdi
  simp only [Option.some.injEq, Prod.mk.injEq] at hdi
  obtain ⟨_, rfl⟩ := hdi
  generalize pre.length = q at hatl hat
  obtain ⟨post, hdrop⟩ := hat.drop
  have hrn : readNode F e.offset = some (leafNode env q l').toSpec := by
    rw [readNode, hdrop, pNode_serialize]
    · rfl
    · simp only [leafNode, length_leafEntries]; omega
    · intro x hx
      obtain ⟨⟨t, ht, hxn⟩, h2⟩ := leafEntries_bound _ _ l' 0 q x hx
      obtain ⟨ms, s, h3, h4, _⟩ := hrep.mem t ht
      have := hatl.le
      exact ⟨by rw [hxn]; exact (hsch.names _ (look_mem h3)).2 _ (look_mem h4), by omega⟩
    · have := hatl.le
      simp only [leafNode]
      omega
  have hasc : (l'.map TimeSeriesMetadata.measurementId).Pairwise (· < ·) := List.pairwise_map.2 hrep.names
  let f : TimeSeriesMetadata → SeriesMeta := fun t =>
    ((pSeriesMeta (t.serialize env)).map Prod.fst).getD (seriesMeta env [] .INT32 [])
  have hfm : ∀ t ∈ l', (f t).measurement = t.measurementId
      ∧ ∀ r, pSeriesMeta (t.serialize env ++ r) = some (f t, r) := by
    intro t ht
    obtain ⟨sm, h1, h2⟩ := L.parseSeries hsch.toNamed hok hf hrep hin ht
    have h3 : f t = sm := by
      have := h2 []
      rw [List.append_nil] at this
      simp only [f, this]
      rfl
    rw [h3]
    exact ⟨h1, h2⟩
  refine ⟨_, hrn, rfl, ?_, ?_, ?_⟩
  · have h1 := leafEntries_sublist TimeSeriesMetadata.measurementId (TimeSeriesMetadata.serialize env) l' 0 q
    have h4 : (leafNode env q l').toSpec.entries.map Entry.name = (leafEntries TimeSeriesMetadata.measurementId
        (TimeSeriesMetadata.serialize env) 0 q l').map IndexEntry.name := by
      show ((leafEntries TimeSeriesMetadata.measurementId (TimeSeriesMetadata.serialize env) 0 q l').map
        IndexEntry.toSpec).map Entry.name = _
      rw [List.map_map]; rfl
    rw [h4]
    exact hasc.sublist h1
  · show ((leafEntries TimeSeriesMetadata.measurementId (TimeSeriesMetadata.serialize env) 0 q l').map
        IndexEntry.toSpec).length ≤ 256
    rw [List.length_map, length_leafEntries]
    omega
  · intro k lo hi hk
    obtain ⟨a, seg, b, h1, h2, h3, h4, h5⟩ := entryAt_leafNode TimeSeriesMetadata.measurementId
      (TimeSeriesMetadata.serialize env) l' q hrep.names k lo hi hk
    have hats : At F (q + (a.flatMap (TimeSeriesMetadata.serialize env)).length)
        (seg.flatMap (TimeSeriesMetadata.serialize env)) := by
      rw [h1] at hatl
      simp only [List.flatMap_append] at hatl
      exact hatl.left.right
    have hsub : ∀ t ∈ seg, t ∈ l' := by intro t ht; rw [h1]; simp [ht]
    refine ⟨seg.map f, ?_, ?_, by simpa using h4, ?_⟩
    · rw [h3, h2, hats.slice]
      exact pAll_flatMap _ _ _ _ (fun t ht => (hfm t (hsub t ht)).2) (fun t _ => tsOf_serialize_ne_nil env t)
    · have : (seg.map f).map SeriesMeta.measurement = seg.map TimeSeriesMetadata.measurementId := by
        rw [List.map_map]
        exact List.map_congr_left (fun t ht => (hfm t (hsub t ht)).1)
      rw [this]
      refine hasc.sublist ?_
      rw [h1, List.map_append, List.map_append]
      exact (List.sublist_append_right _ _).trans (List.sublist_append_left _ _)
    · intro x hx e he
      obtain ⟨t, ht, rfl⟩ := List.mem_map.1 hx
      rw [(hfm t (hsub t ht)).1]
      exact h5 t ht e he

/-- Below the entry of a device, bisection finds what a search one by one finds. -/
theorem locateBinary_eq {m : Bytes} {node : Node} (hk : node.kind = 3) (hs : (node.entries.map Entry.name).Pairwise (· < ·))
    (hp : ∀ k lo hi, entryAt node.entries node.endOffset k = some (lo, hi) →
          ∃ metas, pAll pSeriesMeta (slice F lo hi) = some metas ∧ (metas.map SeriesMeta.measurement).Pairwise (· < ·)
            ∧ metas.length ≤ 256 ∧ ∀ x ∈ metas, ∀ e ∈ node.entries[k]?, ¬ x.measurement < e.name) (n : Nat) :
    ((locateBinary F m (n + 1) node).bind (fun r => match r with
      | none => some none
      | some (lo, hi) => (pAll pSeriesMeta (slice F lo hi)).bind (fun metas => some (findBinary SeriesMeta.measurement m metas))))
    = ((locate F m (n + 1) node).bind (fun r => match r with
      | none => some none
      | some (lo, hi) => (pAll pSeriesMeta (slice F lo hi)).bind (fun metas =>
        some (metas.find? (fun s => decide (s.measurement = m)))))) := by
  have key : ∀ k lo hi, entryAt node.entries node.endOffset k = some (lo, hi) →
      (pAll pSeriesMeta (slice F lo hi)).bind (fun metas => some (findBinary SeriesMeta.measurement m metas))
      = (pAll pSeriesMeta (slice F lo hi)).bind (fun metas => some (metas.find? (fun s => decide (s.measurement = m)))) := by
    intro k lo hi h
    obtain ⟨metas, h1, h2, _, _⟩ := hp k lo hi h
    rw [h1, Option.bind_some, Option.bind_some, findBinary_eq h2]
  have hat : ∀ r, selectBinary m node.entries node.endOffset = some r → ∃ k, entryAt node.entries node.endOffset k = some r :=
    fun r h => ⟨_, h⟩
  simp only [locateBinary, locate, hk, if_true]
  rcases selectBinary_eq (m := m) (stop := node.endOffset) hs with h | ⟨h1, h2, h3⟩
  · rw [← h]
    cases hsel : selectBinary m node.entries node.endOffset with
    | none => rfl
    | some r =>
      obtain ⟨k, hk'⟩ := hat _ hsel
      exact key k r.1 r.2 hk'
  · rw [h1, h2]
    cases h4 : entryAt node.entries node.endOffset 0 with
    | none => rfl
    | some r =>
      obtain ⟨lo, hi⟩ := r
      obtain ⟨metas, q1, q2, _, q3⟩ := hp 0 lo hi h4
      simp only [Option.bind_some, q1, findBinary_eq q2]
      congr 1
      rw [List.find?_eq_none]
      intro x hx hc
      simp only [decide_eq_true_eq] at hc
      cases he : node.entries[0]? with
      | none => simp [entryAt, he] at h4
      | some e =>
        have := q3 x hx e he
        rw [hc] at this
        exact this (h3 e he)

end

end TsFile
