import Verif.Spec.Open
import Mathlib.Order.Basic
import Mathlib.Data.Nat.Find
/-! # Lemmas about opening a file by name -/

namespace TsFile
open Spec
namespace Disk

theorem createDirAll_def (d : Disk) (base : Loc) (cs : List Comp) : d.createDirAll base cs =
    match cs with
    | [] => (d, true)
    | c :: cs' =>
      match d.mkdir base (c :: cs') with
      | .done d' => (d', true)
      | .failed => (d, d.leadsToDir base (c :: cs'))
      | .notFound =>
        let r := d.createDirAll base (c :: cs').dropLast
        if r.2 then
          match r.1.mkdir base (c :: cs') with
          | .done d' => (d', true)
          | _ => (r.1, r.1.leadsToDir base (c :: cs'))
        else r := by
  cases cs with
  | nil => rfl
  | cons c cs' =>
    obtain ⟨i, l, h⟩ : ∃ i l, c :: cs' = i ++ [l] :=
      ⟨_, _, (List.dropLast_concat_getLast (List.cons_ne_nil c cs')).symm⟩
    simp only [h, createDirAll, List.reverse_append, List.reverse_cons, List.reverse_nil, List.nil_append, List.singleton_append,
      createDirAllRev, List.reverse_reverse, List.dropLast_concat]
    rfl

/-- `d'` is `d` with more directories. -/
structure More (d d' : Disk) : Prop where
  may : d'.may = d.may
  cwd : d'.cwd = d.cwd
  keep : ∀ l n, d.node l = some n → d'.node l = some n
  new : ∀ l, d.node l = none → d'.node l = none ∨ (d'.node l = some .dir ∧ d.may l = true)

theorem More.refl (d : Disk) : More d d := ⟨rfl, rfl, fun _ _ h => h, fun _ h => .inl h⟩

theorem More.trans {a b c : Disk} (h : More a b) (h' : More b c) : More a c where
  may := h'.may.trans h.may
  cwd := h'.cwd.trans h.cwd
  keep l n e := h'.keep l n (h.keep l n e)
  new l e := by
    rcases h.new l e with h1 | ⟨h1, h2⟩
    · rcases h'.new l h1 with h3 | ⟨h3, h4⟩
      · exact .inl h3
      · exact .inr ⟨h3, by rw [← h.may]; exact h4⟩
    · exact .inr ⟨h'.keep l _ h1, h2⟩

theorem mkdir_more {d d' : Disk} {base : Loc} {cs : List Comp} (h : d.mkdir base cs = .done d') : More d d' := by
  rw [mkdir.eq_def] at h
  split at h
  · simp at h
  · split at h
    · split at h <;> simp at h
    · rename_i l _
      split at h
      · rename_i hc
        simp only [Bool.and_eq_true, Option.isNone_iff_eq_none] at hc
        injection h with h
        subst h
        refine ⟨rfl, rfl, ?_, ?_⟩
        · intro l' n e
          simp only [set]
          rw [if_neg (by rintro rfl; rw [hc.1] at e; simp at e)]
          exact e
        · intro l' e
          simp only [set]
          by_cases hl : l' = l
          · subst hl
            exact .inr ⟨by rw [if_pos rfl], hc.2⟩
          · rw [if_neg hl]; exact .inl e
      · simp at h

theorem createDirAll_more (n : Nat) : ∀ (d : Disk) (base : Loc) (cs : List Comp), cs.length ≤ n →
    More d (d.createDirAll base cs).1 := by
  induction n with
  | zero =>
    intro d base cs h
    have : cs = [] := List.length_eq_zero_iff.1 (by omega)
    subst this
    rw [createDirAll_def]
    exact .refl d
  | succ n ih =>
    intro d base cs h
    rw [createDirAll_def]
    cases cs with
    | nil => exact .refl d
    | cons c cs' =>
      dsimp only
      cases hm : d.mkdir base (c :: cs') with
      | done d' => exact mkdir_more hm
      | failed => exact .refl d
      | notFound =>
        dsimp only
        have h1 := ih d base (c :: cs').dropLast (by simp at h ⊢; omega)
        split
        · split
          · rename_i d' hm'
            exact h1.trans (mkdir_more hm')
          · exact h1
        · exact h1

theorem More.isDir {d d' : Disk} (h : More d d') {l : Loc} (hl : d.isDir l = true) : d'.isDir l = true := by
  simp only [Disk.isDir, decide_eq_true_eq] at hl ⊢
  exact h.keep l _ hl

theorem walk_congr {d d' : Disk} (h : ∀ l, d'.isDir l = d.isDir l) : ∀ (cs : List Comp) (l : Loc), d'.walk l cs = d.walk l cs := by
  intro cs
  induction cs with
  | nil => intro l; rfl
  | cons c cs ih =>
    intro l
    simp only [walk, h]
    cases c <;> simp only [ih]

/-- What `File::create` does. -/
theorem createFile_some {d d' : Disk} {path : Bytes} {l : Loc} (h : d.createFile path = some (d', l)) :
    d' = d.set l (.file []) ∧ d.walk (d.start path) (rawComps path) = some l ∧ d.isDir l = false ∧ d.may l = true := by
  rw [createFile.eq_def] at h
  split at h
  · simp at h
  · split at h
    · split at h
      · simp at h
      · rename_i l' hw
        split at h
        · rename_i hc
          simp only [Bool.and_eq_true, Bool.not_eq_true'] at hc
          simp only [Option.some.injEq, Prod.mk.injEq] at h
          obtain ⟨h1, h2⟩ := h
          subst h2
          exact ⟨h1.symm, hw, hc⟩
        · simp at h
    · simp at h

theorem isDir_set_file {d : Disk} {l : Loc} {b : Bytes} (h : d.isDir l = false) (l' : Loc) :
    (d.set l (.file b)).isDir l' = d.isDir l' := by
  simp only [Disk.isDir, set] at h ⊢
  by_cases hl : l' = l
  · subst hl
    simpa using h
  · simp only [hl, ↓reduceIte]

/-! ## Plain paths -/

theorem walk_append (d : Disk) : ∀ (cs cs' : List Comp) (l : Loc), d.walk l (cs ++ cs') = (d.walk l cs).bind (fun l' => d.walk l' cs') := by
  intro cs cs'
  induction cs with
  | nil => intro l; rfl
  | cons c cs ih =>
    intro l
    simp only [List.cons_append, walk]
    split
    · cases c <;> simp only [ih]
    · rfl

/-- Following plain names. -/
theorem walk_names (d : Disk) : ∀ (names : List Bytes) (l : Loc), (∀ k < names.length, d.isDir (l ++ names.take k) = true) →
    d.walk l (names.map .name) = some (l ++ names) := by
  intro names
  induction names with
  | nil => intro l _; simp [walk]
  | cons n ns ih =>
    intro l h
    have h0 := h 0 (by simp)
    simp only [List.take_zero, List.append_nil] at h0
    simp only [List.map_cons, walk, h0, ↓reduceIte]
    rw [ih (l ++ [n])]
    · simp
    · intro k hk
      have := h (k + 1) (by simpa using hk)
      simpa using this

theorem walk_names_inv (d : Disk) : ∀ (names : List Bytes) (l l' : Loc), d.walk l (names.map .name) = some l' →
    l' = l ++ names ∧ ∀ k < names.length, d.isDir (l ++ names.take k) = true := by
  intro names
  induction names with
  | nil => intro l l' h; simp only [List.map_nil, walk, Option.some.injEq] at h; simp [h]
  | cons n ns ih =>
    intro l l' h
    simp only [List.map_cons, walk] at h
    split at h
    · rename_i h0
      obtain ⟨h1, h2⟩ := ih _ _ h
      refine ⟨by simpa using h1, ?_⟩
      intro k hk
      cases k with
      | zero => simpa using h0
      | succ k =>
        have := h2 k (by simpa using hk)
        simpa using this
    · simp at h

theorem missing_names (d : Disk) : ∀ (names : List Bytes) (l : Loc) (k : Nat), k < names.length →
    (∀ j < k, d.isDir (l ++ names.take j) = true) → d.node (l ++ names.take k) = none → d.missing l (names.map .name) = true := by
  intro names
  induction names with
  | nil => intro l k h; simp at h
  | cons n ns ih =>
    intro l k hk hj hn
    simp only [List.map_cons, missing]
    cases k with
    | zero =>
      simp only [List.take_zero, List.append_nil] at hn
      rw [hn]
    | succ k =>
      have h0 := hj 0 (by omega)
      simp only [Disk.isDir, List.take_zero, List.append_nil, decide_eq_true_eq] at h0
      rw [h0]
      dsimp only
      refine ih (l ++ [n]) k (by simpa using hk) ?_ (by simpa using hn)
      intro j hjk
      have := hj (j + 1) (by omega)
      simpa using this

/-- Making all directories of a plain path, if each is there or can be made. -/
theorem createDirAll_names (n : Nat) : ∀ (d : Disk) (base : Loc) (names : List Bytes), names.length ≤ n →
    (∀ x ∈ names, (0 : UInt8) ∉ x) → d.isDir base = true →
    (∀ k, 0 < k → k ≤ names.length → d.node (base ++ names.take k) = some .dir
      ∨ (d.node (base ++ names.take k) = none ∧ d.may (base ++ names.take k) = true)) →
    (d.createDirAll base (names.map .name)).2 = true
    ∧ (∀ k ≤ names.length, (d.createDirAll base (names.map .name)).1.isDir (base ++ names.take k) = true)
    ∧ ∀ l, names.length + base.length < l.length → (d.createDirAll base (names.map .name)).1.node l = d.node l := by
  induction n with
  | zero =>
    intro d base names h _ hb _
    have : names = [] := List.length_eq_zero_iff.1 (by omega)
    subst this
    rw [List.map_nil, createDirAll_def]
    exact ⟨rfl, fun k _ => by simpa using hb, fun _ _ => rfl⟩
  | succ n ih =>
    intro d base names hlen hz hb hway
    by_cases hnil : names = []
    · subst hnil
      rw [List.map_nil, createDirAll_def]
      exact ⟨rfl, fun k _ => by simpa using hb, fun _ _ => rfl⟩
    have hpos : 0 < names.length := List.length_pos_iff.2 hnil
    have hzero : (names.map Comp.name).any hasZero = false := by
      rw [List.any_eq_false]
      intro c hc
      obtain ⟨x, hx, rfl⟩ := List.mem_map.1 hc
      simp [hasZero, hz x hx]
    -- the last step in a file system where the directories before are there
    have last : ∀ d' : Disk, (∀ k < names.length, d'.isDir (base ++ names.take k) = true) →
        (d'.node (base ++ names) = some .dir → d'.mkdir base (names.map .name) = .failed ∧ d'.leadsToDir base (names.map .name) = true)
        ∧ (d'.node (base ++ names) = none → d'.may (base ++ names) = true →
            d'.mkdir base (names.map .name) = .done (d'.set (base ++ names) .dir)) := by
      intro d' hd
      have hw := walk_names d' names base hd
      constructor
      · intro h
        simp [mkdir, hzero, hw, h, leadsToDir, Disk.isDir]
      · intro h hm
        simp [mkdir, hzero, hw, h, hm]
    have hfull := hway names.length hpos (Nat.le_refl _)
    rw [List.take_length] at hfull
    by_cases hall : ∀ k < names.length, d.isDir (base ++ names.take k) = true
    · -- all there but the last
      have hc : d.createDirAll base (names.map .name) = (if d.node (base ++ names) = some .dir then (d, true)
          else (d.set (base ++ names) .dir, true)) := by
        rw [createDirAll_def]
        obtain ⟨x, xs, rfl⟩ := List.exists_cons_of_ne_nil hnil
        simp only [List.map_cons] at *
        rcases hfull with h | ⟨h, hm⟩
        · obtain ⟨h1, h2⟩ := (last d hall).1 h
          rw [h1, if_pos h]
          simp only [h2]
        · have hne : ¬ d.node (base ++ x :: xs) = some .dir := by rw [h]; simp
          rw [(last d hall).2 h hm, if_neg hne]
      rw [hc]
      rcases hfull with h | ⟨h, hm⟩
      · rw [if_pos h]
        refine ⟨rfl, fun k hk => ?_, fun _ _ => rfl⟩
        rcases Nat.lt_or_eq_of_le hk with hk | rfl
        · exact hall k hk
        · simp [Disk.isDir, h]
      · rw [if_neg (by rw [h]; simp)]
        refine ⟨rfl, fun k hk => ?_, fun l hl => ?_⟩
        · simp only [Disk.isDir, set, decide_eq_true_eq]
          split
          · rfl
          · rename_i hne
            rcases Nat.lt_or_eq_of_le hk with hk | rfl
            · simpa [Disk.isDir] using hall k hk
            · simp at hne
        · simp only [set]
          rw [if_neg (by rintro rfl; simp at hl; omega)]
    · -- something before the last is missing
      have hex : ∃ k < names.length, d.isDir (base ++ names.take k) ≠ true := by
        simpa using hall
      obtain ⟨k, ⟨hk, hkd⟩, hmin⟩ : ∃ k, (k < names.length ∧ d.isDir (base ++ names.take k) ≠ true) ∧
          ∀ j < k, d.isDir (base ++ names.take j) = true := by
        classical
        refine ⟨Nat.find hex, Nat.find_spec hex, fun j hj => ?_⟩
        have h1 := Nat.find_min hex hj
        have h2 := (Nat.find_spec hex).1
        by_contra hc
        exact h1 ⟨by omega, hc⟩
      have hk0 : 0 < k := by
        rcases Nat.eq_zero_or_pos k with rfl | h
        · exfalso; apply hkd; simpa using hb
        · exact h
      have hnone : d.node (base ++ names.take k) = none := by
        rcases hway k hk0 (by omega) with h | ⟨h, _⟩
        · exfalso; apply hkd; simp [Disk.isDir, h]
        · exact h
      have hmk : d.mkdir base (names.map .name) = .notFound := by
        have hwalk : d.walk base (names.map .name) = none := by
          cases hw : d.walk base (names.map .name) with
          | none => rfl
          | some l' =>
            exfalso
            exact hkd ((walk_names_inv d names base l' hw).2 k hk)
        simp [mkdir, hzero, hwalk, missing_names d names base k hk hmin hnone]
      have hdl : (names.map Comp.name).dropLast = names.dropLast.map Comp.name := by
        rw [List.map_dropLast]
      have htk : ∀ j ≤ names.dropLast.length, names.dropLast.take j = names.take j := by
        intro j hj
        rw [List.dropLast_eq_take, List.take_take]
        congr 1
        simp at hj
        omega
      obtain ⟨i1, i2, i3⟩ := ih d base names.dropLast (by simp; omega) (fun x hx => hz x (List.dropLast_subset _ hx)) hb
        (fun j h0 hj => by
          rw [htk j hj]
          exact hway j h0 (by simp at hj; omega))
      have hd1 : ∀ j < names.length, (d.createDirAll base (names.dropLast.map .name)).1.isDir (base ++ names.take j) = true := by
        intro j hj
        have h1 : j ≤ names.dropLast.length := by simp; omega
        have := i2 j h1
        rw [htk j h1] at this
        exact this
      have hlast : (d.createDirAll base (names.dropLast.map .name)).1.node (base ++ names) = d.node (base ++ names) :=
        i3 _ (by simp; omega)
      have hmay := (createDirAll_more _ d base (names.dropLast.map .name) (Nat.le_refl _)).may
      have hrec : d.createDirAll base (names.map .name) = (if d.node (base ++ names) = some .dir
          then ((d.createDirAll base (names.dropLast.map .name)).1, true)
          else ((d.createDirAll base (names.dropLast.map .name)).1.set (base ++ names) .dir, true)) := by
        rw [createDirAll_def]
        obtain ⟨x, xs, hxs⟩ := List.exists_cons_of_ne_nil hnil
        have hm2 : names.map Comp.name = .name x :: xs.map Comp.name := by rw [hxs]; rfl
        rw [hm2] at hmk hdl
        have hl1 := last _ hd1
        rw [hm2] at hl1
        rw [hm2]
        dsimp only
        rw [hmk]
        dsimp only
        rw [hdl, if_pos i1]
        rcases hfull with h | ⟨h, hm⟩
        · obtain ⟨h1, h2⟩ := hl1.1 (hlast.trans h)
          rw [h1, if_pos h]
          dsimp only
          rw [h2]
        · rw [hl1.2 (hlast.trans h) (by rw [hmay]; exact hm), if_neg (by rw [h]; simp)]
      rw [hrec]
      generalize hD : (d.createDirAll base (names.dropLast.map .name)).1 = D at *
      rcases hfull with h | ⟨h, hm⟩
      · rw [if_pos h]
        refine ⟨rfl, fun j hj => ?_, fun l hl => i3 l (by simp at hl ⊢; omega)⟩
        rcases Nat.lt_or_eq_of_le hj with hj | rfl
        · exact hd1 j hj
        · simp [Disk.isDir, hlast, h]
      · rw [if_neg (by rw [h]; simp)]
        refine ⟨rfl, fun j hj => ?_, fun l hl => ?_⟩
        · simp only [Disk.isDir, set, decide_eq_true_eq]
          split
          · rfl
          · rename_i hne
            rcases Nat.lt_or_eq_of_le hj with hj | rfl
            · simpa [Disk.isDir] using hd1 j hj
            · simp at hne
        · simp only [set]
          rw [if_neg (by rintro rfl; simp at hl; omega)]
          exact i3 l (by simp at hl ⊢; omega)

end Disk

/-! ## Paths -/

theorem splitSlash_ne (p : Bytes) : splitSlash p ≠ [] := by
  cases p with
  | nil => simp [splitSlash]
  | cons b bs =>
    simp only [splitSlash]
    split
    · simp
    · split <;> simp

theorem splitSlash_append (n rest : Bytes) (hn : 0x2f ∉ n) : splitSlash (n ++ 0x2f :: rest) = n :: splitSlash rest := by
  induction n with
  | nil => simp [splitSlash]
  | cons b n ih =>
    have hb : b ≠ 0x2f := by rintro rfl; exact hn (by simp)
    rw [List.cons_append, splitSlash, if_neg hb, ih (fun h => hn (List.mem_cons_of_mem _ h))]

theorem splitSlash_one (n : Bytes) (hn : 0x2f ∉ n) : splitSlash n = [n] := by
  induction n with
  | nil => rfl
  | cons b n ih =>
    have hb : b ≠ 0x2f := by rintro rfl; exact hn (by simp)
    rw [splitSlash, if_neg hb, ih (fun h => hn (List.mem_cons_of_mem _ h))]

theorem splitSlash_join (names : List Bytes) (hne : names ≠ []) (h : ∀ n ∈ names, ProperName n) :
    splitSlash (joinSlash names) = names := by
  induction names with
  | nil => exact absurd rfl hne
  | cons n ns ih =>
    have hn := (h n (by simp)).2.2.2.1
    cases ns with
    | nil => exact splitSlash_one n hn
    | cons m ms =>
      rw [joinSlash, splitSlash_append _ _ hn, ih (by simp) (fun x hx => h x (List.mem_cons_of_mem _ hx))]
      simp

theorem filter_names {names : List Bytes} (h : ∀ n ∈ names, ProperName n) :
    (names.filter (fun p => !p.isEmpty)).map Comp.of = names.map Comp.name := by
  induction names with
  | nil => rfl
  | cons n ns ih =>
    obtain ⟨h1, h2, h3, _⟩ := h n (by simp)
    have hn : (!n.isEmpty) = true := by simpa using h1
    rw [List.filter_cons_of_pos (by simpa using hn), List.map_cons, List.map_cons, ih (fun x hx => h x (List.mem_cons_of_mem _ hx))]
    simp [Comp.of, h2, h3]

theorem rawComps_plain (a : Bool) (names : List Bytes) (hne : names ≠ []) (h : ∀ n ∈ names, ProperName n) :
    rawComps (plainPath a names) = names.map Comp.name := by
  rw [rawComps, plainPath]
  cases a with
  | false => rw [if_neg (by simp), splitSlash_join _ hne h, filter_names h]
  | true =>
    rw [if_pos rfl, splitSlash, if_pos rfl, splitSlash_join _ hne h, List.filter_cons_of_neg (by simp), filter_names h]

theorem joinSlash_head {n : Bytes} {ns : List Bytes} (h : ProperName n) :
    (joinSlash (n :: ns)).head? ≠ some 0x2f := by
  obtain ⟨b, bs, rfl⟩ := List.exists_cons_of_ne_nil h.1
  have : b ≠ 0x2f := by rintro rfl; exact h.2.2.2.1 (by simp)
  cases ns <;> simp [joinSlash, this]

theorem isAbsolute_plain (a : Bool) (names : List Bytes) (hne : names ≠ []) (h : ∀ n ∈ names, ProperName n) :
    isAbsolute (plainPath a names) = a := by
  cases a with
  | true => simp [isAbsolute, plainPath]
  | false =>
    obtain ⟨n, ns, rfl⟩ := List.exists_cons_of_ne_nil hne
    simp [isAbsolute, plainPath, joinSlash_head (h n (by simp))]

theorem filter_cur (names : List Bytes) : (names.map Comp.name).filter (· ≠ .cur) = names.map Comp.name := by
  rw [List.filter_eq_self]
  intro c hc
  obtain ⟨n, _, rfl⟩ := List.mem_map.1 hc
  simp

theorem pathComps_plain (a : Bool) (names : List Bytes) (hne : names ≠ []) (h : ∀ n ∈ names, ProperName n) :
    pathComps (plainPath a names) = names.map Comp.name := by
  rw [pathComps, rawComps_plain a names hne h, filter_cur]
  obtain ⟨n, ns, rfl⟩ := List.exists_cons_of_ne_nil hne
  simp only [List.map_cons, filter_cur, ite_self]

theorem pathParent_plain (a : Bool) (names : List Bytes) (hne : names ≠ []) (h : ∀ n ∈ names, ProperName n) :
    pathParent (plainPath a names) = some (names.dropLast.map Comp.name) := by
  rw [pathParent, pathComps_plain a names hne h, List.map_dropLast]
  obtain ⟨n, ns, rfl⟩ := List.exists_cons_of_ne_nil hne
  rfl

theorem mem_joinSlash {names : List Bytes} {b : UInt8} (hb : b ∈ joinSlash names) : b = 0x2f ∨ ∃ n ∈ names, b ∈ n := by
  induction names with
  | nil => simp [joinSlash] at hb
  | cons n ns ih =>
    cases ns with
    | nil => exact .inr ⟨n, by simp, hb⟩
    | cons m ms =>
      rw [joinSlash] at hb
      · simp only [List.mem_append, List.mem_cons] at hb
        rcases hb with hb | hb | hb
        · exact .inr ⟨n, by simp, hb⟩
        · exact .inl hb
        · rcases ih hb with hb | ⟨x, hx, hb⟩
          · exact .inl hb
          · exact .inr ⟨x, List.mem_cons_of_mem _ hx, hb⟩
      · simp

theorem zero_plain (a : Bool) (names : List Bytes) (h : ∀ n ∈ names, ProperName n) : (0 : UInt8) ∉ plainPath a names := by
  intro hc
  have hm : (0 : UInt8) ∈ joinSlash names := by
    cases a <;> simpa [plainPath] using hc
  rcases mem_joinSlash hm with h0 | ⟨n, hn, h0⟩
  · simp at h0
  · exact (h n hn).2.2.2.2 h0

theorem joinSlash_last (names : List Bytes) (hne : names ≠ []) (h : ∀ n ∈ names, ProperName n) :
    joinSlash names ≠ [] ∧ (joinSlash names).getLast? ≠ some 0x2f := by
  induction names with
  | nil => exact absurd rfl hne
  | cons n ns ih =>
    have hn := h n (by simp)
    cases ns with
    | nil =>
      refine ⟨hn.1, ?_⟩
      intro hc
      exact hn.2.2.2.1 (List.mem_of_getLast? hc)
    | cons m ms =>
      obtain ⟨i1, i2⟩ := ih (by simp) (fun x hx => h x (List.mem_cons_of_mem _ hx))
      rw [joinSlash]
      · refine ⟨by simp, ?_⟩
        obtain ⟨b, bs, hb⟩ := List.exists_cons_of_ne_nil i1
        rw [hb] at i2 ⊢
        simpa using i2
      · simp

theorem last_plain (a : Bool) (names : List Bytes) (hne : names ≠ []) (h : ∀ n ∈ names, ProperName n) :
    (plainPath a names).getLast? ≠ some 0x2f := by
  obtain ⟨i1, i2⟩ := joinSlash_last names hne h
  cases a with
  | false => simpa [plainPath] using i2
  | true =>
    obtain ⟨b, bs, hb⟩ := List.exists_cons_of_ne_nil i1
    rw [hb] at i2
    simp only [plainPath, hb, ↓reduceIte]
    simpa using i2

/-- Paths whose parts are all empty or a dot. -/
theorem idle_parts (n : Nat) : ∀ p : Bytes, p.length ≤ n → (p = [] ∨ p.head? = some 0x2f) →
    ((∀ part ∈ splitSlash p, part = [] ∨ part = [0x2e]) ↔ NamesNothing p) := by
  induction n with
  | zero =>
    intro p h _
    have : p = [] := List.length_eq_zero_iff.1 (by omega)
    subst this
    exact ⟨fun _ => .empty, fun _ => by simp [splitSlash]⟩
  | succ n ih =>
    intro p hp hh
    cases p with
    | nil => exact ⟨fun _ => .empty, fun _ => by simp [splitSlash]⟩
    | cons b r =>
      have hb : b = 0x2f := by simpa using hh
      subst hb
      rw [splitSlash, if_pos rfl]
      simp only [List.length_cons] at hp
      by_cases hr : r = [] ∨ r.head? = some 0x2f
      · have := ih r (by omega) hr
        constructor
        · intro h
          exact .slash r (this.1 (fun x hx => h x (List.mem_cons_of_mem _ hx)))
        · intro h x hx
          have hr' : NamesNothing r := by
            cases h with
            | slash _ h => exact h
            | slashDot rest h => simp at hr
          rcases List.mem_cons.1 hx with rfl | hx
          · exact .inl rfl
          · exact this.2 hr' x hx
      · -- a part starts here
        cases r with
        | nil => exact absurd (.inl rfl) hr
        | cons c r =>
          have hc : c ≠ 0x2f := by simpa using hr
          by_cases hs : r = [] ∨ r.head? = some 0x2f
          · have e : splitSlash (c :: r) = [c] :: (if r = [] then [] else (splitSlash r).tail) := by
              rcases hs with rfl | hs
              · simp [splitSlash, hc]
              · cases r with
                | nil => simp at hs
                | cons d r =>
                  have hd : d = 0x2f := by simpa using hs
                  subst hd
                  simp [splitSlash, hc]
            have e2 : ∀ x, x ∈ splitSlash r ↔ x = [] ∨ (x ∈ if r = [] then [] else (splitSlash r).tail) := by
              intro x
              rcases hs with rfl | hs
              · simp [splitSlash]
              · cases r with
                | nil => simp at hs
                | cons d r =>
                  have hd : d = 0x2f := by simpa using hs
                  subst hd
                  simp [splitSlash]
            have := ih r (by simp at hp; omega) hs
            rw [e]
            constructor
            · intro h
              have h1 : c = 0x2e := by
                have := h [c] (by simp)
                simpa using this
              subst h1
              refine .slashDot r (this.1 ?_)
              intro x hx
              rcases (e2 x).1 hx with rfl | hx
              · exact .inl rfl
              · exact h x (List.mem_cons_of_mem _ (List.mem_cons_of_mem _ hx))
            · intro h
              obtain ⟨rfl, hr'⟩ : c = 0x2e ∧ NamesNothing r := by
                cases h with
                | slash _ h =>
                  cases h with
                  | slash _ _ => exact absurd rfl hc
                  | slashDot _ _ => exact absurd rfl hc
                | slashDot _ h => exact ⟨rfl, h⟩
              intro x hx
              simp only [List.mem_cons] at hx
              rcases hx with rfl | rfl | hx
              · exact .inl rfl
              · exact .inr rfl
              · exact this.2 hr' x ((e2 x).2 (.inr hx))
          · constructor
            · intro h
              exfalso
              cases r with
              | nil => exact hs (.inl rfl)
              | cons d r =>
                have hd : d ≠ 0x2f := by simpa using hs
                have hx : ∃ x xs, splitSlash (c :: d :: r) = (c :: d :: x) :: xs := by
                  rw [splitSlash, if_neg hc, splitSlash, if_neg hd]
                  cases hq : splitSlash r with
                  | nil => exact ⟨[], [], rfl⟩
                  | cons y ys => exact ⟨y, ys, rfl⟩
                obtain ⟨x, xs, hx⟩ := hx
                have := h (c :: d :: x) (by rw [hx]; simp)
                simp at this
            · intro h
              exfalso
              cases h with
              | slash _ h =>
                cases h with
                | slash _ _ => exact absurd rfl hc
                | slashDot _ _ => exact absurd rfl hc
              | slashDot _ h =>
                cases h with
                | empty => exact hs (.inl rfl)
                | slash _ _ => exact hs (.inr rfl)
                | slashDot _ _ => exact hs (.inr rfl)

/-- `Path::parent` is `None` exactly for the paths that name nothing. -/
theorem pathParent_none (p : Bytes) : pathParent p = none ↔ NamesNothing p := by
  have h1 : pathParent p = none ↔ pathComps p = [] := by
    rw [pathParent.eq_def]
    split
    · rename_i h; simp [h]
    · rename_i h; simpa using h
  rw [h1]
  by_cases hp : p = [] ∨ p.head? = some 0x2f
  · rw [← idle_parts _ p (Nat.le_refl _) hp]
    rcases hp with rfl | hp
    · simp [pathComps, rawComps, splitSlash, isAbsolute]
    · rw [pathComps, if_pos (by simpa [isAbsolute] using hp)]
      simp only [rawComps, List.filter_eq_nil_iff, List.mem_map, List.mem_filter]
      constructor
      · intro h x hx
        by_cases hx0 : x = []
        · exact .inl hx0
        · refine .inr ?_
          have := h (Comp.of x) ⟨x, ⟨hx, by simpa using hx0⟩, rfl⟩
          have hcur : Comp.of x = .cur := by simpa using this
          rw [Comp.of] at hcur
          by_contra hc
          rw [if_neg hc] at hcur
          split at hcur <;> simp at hcur
      · rintro h c ⟨x, ⟨hx, hx0⟩, rfl⟩
        rcases h x hx with rfl | rfl
        · simp at hx0
        · simp [Comp.of]
  · constructor
    · intro h
      exfalso
      rw [pathComps, if_neg (by simp only [isAbsolute, decide_eq_true_eq]; exact fun h => hp (.inr h))] at h
      split at h
      · rename_i hr
        cases p with
        | nil => exact hp (.inl rfl)
        | cons b p =>
          have hb : b ≠ 0x2f := by simpa using hp
          rw [rawComps, splitSlash, if_neg hb] at hr
          split at hr <;> simp at hr
      · simp at h
    · intro h
      exfalso
      cases h with
      | empty => exact hp (.inl rfl)
      | slash _ _ => exact hp (.inr rfl)
      | slashDot _ _ => exact hp (.inr rfl)

end TsFile
