import Verif.Proofs.Open
import Verif.Props.Faults
/-! # Opening a file by name: C58. Comparing errors: C59 -/

namespace TsFile
open Spec

/-! ## C58 -/

/-- The seven bytes of a new file. -/
def freshFile : Bytes := [0x54, 0x73, 0x46, 0x69, 0x6c, 0x65, 3]

theorem new_ok {env : Env} {schema : Schema} {room : Option Nat} {w : Writer}
    (h : Writer.new env schema { bytes := [], cap := room } = .ok w) : w.io.out.bytes = freshFile := by
  simp only [Writer.new, IoWriter.new] at h
  by_cases hok : (⟨[], room⟩ : Sink).ok (magic ++ [3]) = true
  · rw [if_pos hok] at h
    simp only [Except.ok.injEq] at h
    subst h
    cases room with
    | none => rfl
    | some n =>
      have hn : 7 ≤ n := by simpa [Sink.ok, magic] using hok
      simp only [Sink.write, List.length_nil, List.nil_append, Nat.sub_zero]
      exact List.take_of_length_le (by simpa [magic] using hn)
  · rw [if_neg hok] at h
    simp at h

/-- A returned writer: the file is where the name leads and consists of the header; what else was on the disk is as
before, except for new directories. The writer is the one that all other theorems are about. -/
theorem C58_opened {env : Env} {schema : Schema} {d d' : Disk} {room : Option Nat} {filename : Bytes} {w : Writer}
    (h : Writer.create env schema d room filename = (d', .ok w)) :
    openOn env schema room = .ok w
    ∧ ∃ place, d'.walk (d'.start filename) (rawComps filename) = some place
      ∧ d'.node place = some (.file freshFile)
      ∧ d.node place ≠ some .dir
      ∧ (∀ l ≠ place, ∀ n, d.node l = some n → d'.node l = some n)
      ∧ ∀ l ≠ place, d.node l = none → d'.node l = none ∨ d'.node l = some .dir := by
  rw [Writer.create.eq_def] at h
  split at h
  · simp at h
  · rename_i folder _
    dsimp only at h
    have hm := Disk.createDirAll_more _ d (d.start filename) folder (Nat.le_refl _)
    generalize (d.createDirAll (d.start filename) folder).1 = d1 at h hm
    split at h
    · simp at h
    · rename_i d2 l hc
      obtain ⟨rfl, hw, hnd, _⟩ := Disk.createFile_some hc
      split at h
      · simp at h
      · rename_i w' hw'
        simp only [Prod.mk.injEq, Res.ok.injEq] at h
        obtain ⟨rfl, rfl⟩ := h
        refine ⟨hw', l, ?_, ?_, ?_, ?_, ?_⟩
        · have hs : ((d1.set l (.file [])).set l (.file w'.io.out.bytes)).start filename = d1.start filename := rfl
          rw [hs, Disk.walk_congr (d := d1), hw]
          intro l'
          rw [Disk.isDir_set_file, Disk.isDir_set_file hnd]
          rw [Disk.isDir_set_file hnd]
          exact hnd
        · simp only [Disk.set, ↓reduceIte, new_ok hw']
        · intro hc
          have := hm.isDir (l := l) (by simp [Disk.isDir, hc])
          rw [hnd] at this
          simp at this
        · intro l' hl n hn
          simp only [Disk.set, if_neg hl]
          exact hm.keep l' n hn
        · intro l' hl hn
          simp only [Disk.set, if_neg hl]
          rcases hm.new l' hn with h1 | h1
          · exact .inl h1
          · exact .inr h1.1

/-- The errors that are reported: the path names nothing, and nothing has changed; or the header did not fit, and the
file is the part of it that did. -/
theorem C58_reported {env : Env} {schema : Schema} {d d' : Disk} {room : Option Nat} {filename : Bytes} {e : TsFileError}
    (h : Writer.create env schema d room filename = (d', .err e)) :
    (NamesNothing filename ∧ e = .error none ∧ d' = d) 
    ∨ (e = .ioError ∧ ∃ n < 7, room = some n
      ∧ ∃ place, d'.walk (d'.start filename) (rawComps filename) = some place
        ∧ d'.node place = some (.file (freshFile.take n))) := by
  rw [Writer.create.eq_def] at h
  split at h
  · rename_i hp
    simp only [Prod.mk.injEq, Res.err.injEq] at h
    exact .inl ⟨(pathParent_none _).1 hp, h.2.symm, h.1.symm⟩
  · dsimp only at h
    split at h
    · simp at h
    · rename_i d2 l hc
      obtain ⟨rfl, hw, hnd, _⟩ := Disk.createFile_some hc
      split at h
      · rename_i e' he
        simp only [Prod.mk.injEq, Res.err.injEq] at h
        obtain ⟨rfl, rfl⟩ := h
        refine .inr ?_
        cases room with
        | none => simp [Writer.new, IoWriter.new, Sink.ok] at he
        | some n =>
          have h1 : e' = .ioError := by
            simp only [Writer.new, IoWriter.new] at he
            by_cases hok : (⟨[], some n⟩ : Sink).ok (magic ++ [3]) = true
            · rw [if_pos hok] at he; simp at he
            · rw [if_neg hok] at he; simpa using he.symm
          subst h1
          refine ⟨rfl, n, (C32_create env schema n).1 he, rfl, l, ?_, ?_⟩
          · rw [Disk.walk_congr (d := (d.createDirAll (d.start filename) _).1)]
            · exact hw
            · intro l'
              rw [Disk.isDir_set_file, Disk.isDir_set_file hnd]
              rw [Disk.isDir_set_file hnd]
              exact hnd
          · simp only [Disk.set, ↓reduceIte]
            rfl
      · simp at h

/-- A path that names nothing is always refused with an error. -/
theorem C58_refused (env : Env) (schema : Schema) (d : Disk) (room : Option Nat) {filename : Bytes} (h : NamesNothing filename) :
    Writer.create env schema d room filename = (d, .err (.error none)) := by
  rw [Writer.create.eq_def, (pathParent_none _).2 h]

/-- If opening aborts the program, then all that was on the disk is still there; only directories may be new. -/
theorem C58_abort_keeps {env : Env} {schema : Schema} {d d' : Disk} {room : Option Nat} {filename : Bytes}
    (h : Writer.create env schema d room filename = (d', .panic)) :
    (∀ l n, d.node l = some n → d'.node l = some n) ∧ ∀ l, d.node l = none → d'.node l = none ∨ d'.node l = some .dir := by
  rw [Writer.create.eq_def] at h
  split at h
  · simp at h
  · rename_i folder _
    dsimp only at h
    have hm := Disk.createDirAll_more _ d (d.start filename) folder (Nat.le_refl _)
    generalize (d.createDirAll (d.start filename) folder).1 = d1 at h hm
    split at h
    · simp only [Prod.mk.injEq, and_true] at h
      subst h
      refine ⟨hm.keep, fun l hl => ?_⟩
      rcases hm.new l hl with h1 | h1
      · exact .inl h1
      · exact .inr h1.1
    · split at h <;> simp at h

theorem plain_createFile {d : Disk} {base : Loc} {a : Bool} {names : List Bytes} (hne : names ≠ [])
    (hn : ∀ n ∈ names, ProperName n) (hbase : d.start (plainPath a names) = base) :
    d.createFile (plainPath a names) =
      if d.walk base (names.map .name) = some (base ++ names) ∧ d.isDir (base ++ names) = false ∧ d.may (base ++ names) = true
      then some (d.set (base ++ names) (.file []), base ++ names) else none := by
  rw [Disk.createFile.eq_def, if_neg (by simp [zero_plain a names hn, last_plain a names hne hn]), rawComps_plain a names hne hn, hbase]
  obtain ⟨ns, n, rfl⟩ : ∃ ns n, names = ns ++ [n] := ⟨names.dropLast, names.getLast hne, (List.dropLast_concat_getLast hne).symm⟩
  simp only [List.map_append, List.map_cons, List.map_nil, List.getLast?_append, List.getLast?_singleton, Option.some_or]
  cases hw : d.walk base (ns.map .name ++ [.name n]) with
  | none => simp
  | some l =>
    have := (Disk.walk_names_inv d (ns ++ [n]) base l (by simpa using hw)).1
    subst this
    simp

/-- For every plain path and room for the header: a writer is returned if the file can be made, and otherwise the
program is aborted. -/
theorem C58_plain (env : Env) (schema : Schema) (d : Disk) {room : Option Nat} (hroom : ∀ n, room = some n → 7 ≤ n)
    (absolute : Bool) {names : List Bytes} (hne : names ≠ []) (hn : ∀ n ∈ names, ProperName n) :
    ((∃ w, (Writer.create env schema d room (plainPath absolute names)).2 = .ok w)
      ↔ Openable d (if absolute then [] else d.cwd) names)
    ∧ ((Writer.create env schema d room (plainPath absolute names)).2 = .panic
      ↔ ¬ Openable d (if absolute then [] else d.cwd) names) := by
  have hstart : ∀ d : Disk, d.start (plainPath absolute names) = if absolute then [] else d.cwd := by
    intro d
    rw [Disk.start, isAbsolute_plain absolute names hne hn]
  have hm := Disk.createDirAll_more _ d (d.start (plainPath absolute names)) (names.dropLast.map Comp.name) (Nat.le_refl _)
  obtain ⟨w, hw⟩ : ∃ w, Writer.new env schema { bytes := [], cap := room } = .ok w := by
    cases room with
    | none => exact ⟨_, rfl⟩
    | some n => exact (C32_create_partial env schema n).2 (hroom n rfl)
  have hbase : (if absolute then [] else (d.createDirAll (d.start (plainPath absolute names)) (names.dropLast.map Comp.name)).1.cwd)
      = if absolute then [] else d.cwd := by rw [hm.cwd]
  have key : ∃ P : Prop, (P ↔ Openable d (if absolute then [] else d.cwd) names)
      ∧ (P → (Writer.create env schema d room (plainPath absolute names)).2 = .ok w)
      ∧ (¬ P → (Writer.create env schema d room (plainPath absolute names)).2 = .panic) := by
    rw [Writer.create.eq_def, pathParent_plain absolute names hne hn]
    dsimp only
    rw [plain_createFile hne hn (hstart _), hbase]
    rw [hstart d] at hm ⊢
    generalize (if absolute then [] else d.cwd) = base at *
    refine ⟨(d.createDirAll base (names.dropLast.map .name)).1.walk base (names.map .name) = some (base ++ names)
      ∧ (d.createDirAll base (names.dropLast.map .name)).1.isDir (base ++ names) = false
      ∧ (d.createDirAll base (names.dropLast.map .name)).1.may (base ++ names) = true, ⟨?_, ?_⟩, ?_, ?_⟩
    · rintro ⟨h1, h2, h3⟩
      have hpos : 0 < names.length := List.length_pos_iff.2 hne
      obtain ⟨_, hk⟩ := Disk.walk_names_inv _ names base _ h1
      refine ⟨?_, ?_, ?_, by rw [← hm.may]; exact h3⟩
      · have h0 := hk 0 hpos
        rw [List.take_zero, List.append_nil] at h0
        cases hb : d.node base with
        | some n =>
          have := hm.keep _ _ hb
          simp only [Disk.isDir, decide_eq_true_eq] at h0
          rw [h0] at this
          rw [← this]
        | none =>
          -- without the starting directory nothing is made
          exfalso
          have hno : (d.createDirAll base (names.dropLast.map .name)).1 = d := by
            have : ∀ k, ∀ ns : List Bytes, ns.length ≤ k → (d.createDirAll base (ns.map Comp.name)).1 = d := by
              intro k
              induction k with
              | zero =>
                intro ns hns
                have : ns = [] := List.length_eq_zero_iff.1 (by omega)
                subst this
                rw [List.map_nil, Disk.createDirAll_def]
              | succ k ih =>
                intro ns hns
                cases ns with
                | nil => rw [List.map_nil, Disk.createDirAll_def]
                | cons x xs =>
                  have hnw : d.walk base ((x :: xs).map Comp.name) = none := by
                    simp [Disk.walk, Disk.isDir, hb]
                  have hmk : ∀ d', d.mkdir base ((x :: xs).map Comp.name) ≠ .done d' := by
                    intro d' hc
                    rw [Disk.mkdir, hnw] at hc
                    dsimp only at hc
                    split at hc
                    · simp at hc
                    · split at hc <;> simp at hc
                  have hrec := ih (x :: xs).dropLast (by simp at hns ⊢; omega)
                  rw [List.map_dropLast, List.map_cons] at hrec
                  rw [List.map_cons] at hmk ⊢
                  rw [Disk.createDirAll_def]
                  dsimp only
                  split
                  · rename_i d' hd
                    exact absurd hd (hmk d')
                  · rfl
                  · split
                    · rw [hrec]
                      split
                      · rename_i d' hd
                        exact absurd hd (hmk d')
                      · rfl
                    · exact hrec
            exact this _ names.dropLast (Nat.le_refl _)
          rw [hno] at h0
          simp [Disk.isDir, hb] at h0
      · intro k h0 hkl
        have h4 := hk k hkl
        simp only [Disk.isDir, decide_eq_true_eq] at h4
        cases hb : d.node (base ++ names.take k) with
        | some n =>
          have := hm.keep _ _ hb
          rw [h4] at this
          exact .inl this.symm
        | none =>
          rcases hm.new _ hb with h5 | h5
          · rw [h4] at h5; simp at h5
          · exact .inr ⟨rfl, h5.2⟩
      · intro hc
        have := hm.isDir (l := base ++ names) (by simp [Disk.isDir, hc])
        rw [h2] at this
        simp at this
    · rintro ⟨h1, h2, h3, h4⟩
      have htk : ∀ j ≤ names.dropLast.length, names.dropLast.take j = names.take j := by
        intro j hj
        rw [List.dropLast_eq_take, List.take_take]
        congr 1
        simp at hj
        omega
      have hpos : 0 < names.length := List.length_pos_iff.2 hne
      obtain ⟨_, i2, i3⟩ := Disk.createDirAll_names _ d base names.dropLast (Nat.le_refl _)
        (fun x hx => (hn x (List.dropLast_subset _ hx)).2.2.2.2) (by simp [Disk.isDir, h1])
        (fun k hk0 hk => by
          rw [htk k hk]
          exact h2 k hk0 (by simp at hk; omega))
      refine ⟨Disk.walk_names _ names base ?_, ?_, by rw [hm.may]; exact h4⟩
      · intro k hk
        have h5 : k ≤ names.dropLast.length := by simp; omega
        have := i2 k h5
        rw [htk k h5] at this
        exact this
      · have := i3 (base ++ names) (by simp; omega)
        simp only [Disk.isDir, this]
        exact decide_eq_false h3
    · intro hP
      rw [if_pos hP, ]
      dsimp only
      rw [hw]
    · intro hP
      rw [if_neg hP]
  obtain ⟨P, hP, h1, h2⟩ := key
  rw [← hP]
  by_cases hp : P
  · simp [h1 hp, hp]
  · simp [h2 hp, hp]

/-- Making the directories of a plain path changes nothing beside the way. -/
theorem createDirAll_beside (k : Nat) : ∀ (d : Disk) (base : Loc) (names : List Bytes), names.length ≤ k →
    ∀ l, (∀ j, 0 < j → j ≤ names.length → l ≠ base ++ names.take j) →
    (d.createDirAll base (names.map .name)).1.node l = d.node l := by
  have hmk : ∀ (d d' : Disk) (base : Loc) (names : List Bytes), 0 < names.length →
      d.mkdir base (names.map .name) = .done d' →
      ∀ l, (∀ j, 0 < j → j ≤ names.length → l ≠ base ++ names.take j) → d'.node l = d.node l := by
    intro d d' base names hpos h l hl
    rw [Disk.mkdir] at h
    split at h
    · simp at h
    · split at h
      · split at h <;> simp at h
      · rename_i l' hw
        have e := (Disk.walk_names_inv d names base l' hw).1
        split at h
        · simp only [Disk.Mk.done.injEq] at h
          subst h e
          have := hl names.length hpos (Nat.le_refl _)
          rw [List.take_length] at this
          simp only [Disk.set, if_neg this]
        · simp at h
  induction k with
  | zero =>
    intro d base names hk l _
    have : names = [] := List.length_eq_zero_iff.1 (by omega)
    subst this
    rw [List.map_nil, Disk.createDirAll_def]
  | succ k ih =>
    intro d base names hk l hl
    cases names with
    | nil => rw [List.map_nil, Disk.createDirAll_def]
    | cons x xs =>
      have hrec := ih d base (x :: xs).dropLast (by simp at hk ⊢; omega) l (by
        intro j hj hjl
        have := hl j hj (by simp at hjl ⊢; omega)
        rw [List.dropLast_eq_take, List.take_take, Nat.min_eq_left (by simp at hjl ⊢; omega)]
        exact this)
      rw [List.map_dropLast] at hrec
      have hd := fun d' he => hmk d d' base (x :: xs) (by simp) he l hl
      have hd1 := fun d' he => hmk (d.createDirAll base ((x :: xs).map Comp.name).dropLast).1 d' base (x :: xs) (by simp) he l hl
      rw [List.map_cons] at hd hd1 hrec ⊢
      rw [Disk.createDirAll_def]
      dsimp only
      split
      · rename_i d' he
        exact hd d' he
      · rfl
      · split
        · split
          · rename_i d' he
            exact (hd1 d' he).trans hrec
          · exact hrec
        · exact hrec

/-- A returned writer, for plain paths: the directories on the way are there, at the end of it is the file with its header, and
beside the way nothing has changed. -/
theorem C58_place {env : Env} {schema : Schema} {d d' : Disk} {room : Option Nat} {absolute : Bool} {names : List Bytes}
    {w : Writer} (hne : names ≠ []) (hn : ∀ n ∈ names, ProperName n)
    (h : Writer.create env schema d room (plainPath absolute names) = (d', .ok w)) {base : Loc}
    (hbase : base = if absolute then [] else d.cwd) :
    d'.node (base ++ names) = some (.file freshFile)
    ∧ (∀ k < names.length, d'.node (base ++ names.take k) = some .dir)
    ∧ ∀ l, (∀ k, 0 < k → k ≤ names.length → l ≠ base ++ names.take k) → d'.node l = d.node l := by
  have hstart : ∀ d : Disk, d.start (plainPath absolute names) = if absolute then [] else d.cwd := by
    intro d
    rw [Disk.start, isAbsolute_plain absolute names hne hn]
  have hm := Disk.createDirAll_more _ d (d.start (plainPath absolute names)) (names.dropLast.map Comp.name) (Nat.le_refl _)
  have hb1 : (if absolute then [] else (d.createDirAll (d.start (plainPath absolute names)) (names.dropLast.map Comp.name)).1.cwd)
      = base := by rw [hm.cwd, hbase]
  have hpos : 0 < names.length := List.length_pos_iff.2 hne
  rw [Writer.create.eq_def, pathParent_plain absolute names hne hn] at h
  dsimp only at h
  rw [plain_createFile hne hn (hstart _), hb1] at h
  rw [hstart d, ← hbase] at hm h
  have hbeside := createDirAll_beside _ d base names.dropLast (Nat.le_refl _)
  generalize (d.createDirAll base (names.dropLast.map .name)).1 = d1 at h hm hbeside
  split at h
  · rename_i hc hcc
    split at hcc
    · simp at hcc
    · simp at h
  · rename_i d2 l hcc
    split at hcc
    · rename_i hP
      simp only [Option.some.injEq, Prod.mk.injEq] at hcc
      obtain ⟨rfl, rfl⟩ := hcc
      split at h
      · simp at h
      · rename_i w' hw'
        simp only [Prod.mk.injEq, Res.ok.injEq] at h
        obtain ⟨rfl, rfl⟩ := h
        obtain ⟨_, hk⟩ := Disk.walk_names_inv _ names base _ hP.1
        refine ⟨?_, ?_, ?_⟩
        · simp only [Disk.set, ↓reduceIte, new_ok hw']
        · intro k hkl
          have hne' : base ++ names.take k ≠ base ++ names := by
            intro hc
            have := congrArg List.length (List.append_cancel_left hc)
            simp at this
            omega
          simp only [Disk.set, if_neg hne']
          simpa [Disk.isDir] using hk k hkl
        · intro l hl
          have h1 := hl names.length hpos (Nat.le_refl _)
          rw [List.take_length] at h1
          simp only [Disk.set, if_neg h1]
          refine hbeside l ?_
          intro j hj hjl
          have := hl j hj (by simp at hjl ⊢; omega)
          rw [List.dropLast_eq_take, List.take_take, Nat.min_eq_left (by simp at hjl ⊢; omega)]
          exact this
    · simp at hcc

/-! ### A dot in front -/

theorem mkdir_dot (d : Disk) (base : Loc) (h : d.isDir base = true) (cs : List Comp) :
    d.mkdir base (.cur :: cs) = d.mkdir base cs := by
  have hb : d.node base = some .dir := by simpa [Disk.isDir] using h
  simp only [Disk.mkdir, Disk.walk, Disk.missing, h, hb, if_true, List.any_cons, Disk.hasZero, Bool.false_or]

theorem createDirAllRev_dot (base : Loc) : ∀ (rs : List Comp) (d : Disk), d.isDir base = true →
    d.createDirAllRev base (rs ++ [.cur]) = d.createDirAllRev base rs := by
  intro rs
  induction rs with
  | nil =>
    intro d h
    have hb : d.node base = some .dir := by simpa [Disk.isDir] using h
    simp [Disk.createDirAllRev, Disk.mkdir, Disk.walk, Disk.hasZero, Disk.leadsToDir, h, hb]
  | cons c rs ih =>
    intro d h
    have hm := Disk.createDirAll_more _ d base rs.reverse (Nat.le_refl _)
    rw [Disk.createDirAll, List.reverse_reverse] at hm
    have h' := hm.isDir h
    rw [List.cons_append, Disk.createDirAllRev, Disk.createDirAllRev, ih d h]
    have e : (c :: (rs ++ [.cur])).reverse = .cur :: (c :: rs).reverse := by simp
    dsimp only
    rw [e, mkdir_dot d base h, mkdir_dot _ base h']
    have el : ∀ d' : Disk, d'.isDir base = true →
        d'.leadsToDir base (.cur :: (c :: rs).reverse) = d'.leadsToDir base (c :: rs).reverse := by
      intro d' hd'
      simp only [Disk.leadsToDir, Disk.walk, hd', if_true]
    rw [el d h, el _ h']

/-- In a directory that exists, a relative path means the same with `./` in front. -/
theorem C58_dot (env : Env) (schema : Schema) (d : Disk) (room : Option Nat) {names : List Bytes} (hne : names ≠ [])
    (hn : ∀ n ∈ names, ProperName n) (hd : d.node d.cwd = some .dir) :
    Writer.create env schema d room ([0x2e, 0x2f] ++ plainPath false names)
      = Writer.create env schema d room (plainPath false names) := by
  have hdir : d.isDir d.cwd = true := by simp [Disk.isDir, hd]
  have hraw : rawComps ([0x2e, 0x2f] ++ plainPath false names) = .cur :: names.map .name := by
    rw [← rawComps_plain false names hne hn, rawComps, rawComps]
    have := splitSlash_append [0x2e] (plainPath false names) (by decide)
    simp only [List.cons_append, List.nil_append] at this ⊢
    rw [this]
    rfl
  have habs : isAbsolute ([0x2e, 0x2f] ++ plainPath false names) = false := rfl
  have hpar : pathParent ([0x2e, 0x2f] ++ plainPath false names) = some (.cur :: (names.map Comp.name).dropLast) := by
    rw [pathParent, pathComps, habs, hraw]
    simp only [filter_cur]
    cases names with
    | nil => exact absurd rfl hne
    | cons n ns => rfl
  have hplain := isAbsolute_plain false names hne hn
  rw [Writer.create, Writer.create, hpar, pathParent_plain false names hne hn, List.map_dropLast]
  have hs : d.start ([0x2e, 0x2f] ++ plainPath false names) = d.cwd := by rw [Disk.start, habs]; rfl
  have hs' : d.start (plainPath false names) = d.cwd := by rw [Disk.start, hplain]; rfl
  rw [hs, hs']
  dsimp only
  have hc : d.createDirAll d.cwd (.cur :: (names.map Comp.name).dropLast)
      = d.createDirAll d.cwd (names.map Comp.name).dropLast := by
    rw [Disk.createDirAll, Disk.createDirAll, List.reverse_cons]
    exact createDirAllRev_dot d.cwd _ d hdir
  rw [hc]
  have hm := Disk.createDirAll_more _ d d.cwd (names.map Comp.name).dropLast (Nat.le_refl _)
  have hdir' := hm.isDir hdir
  have hf : (d.createDirAll d.cwd (names.map Comp.name).dropLast).1.createFile ([0x2e, 0x2f] ++ plainPath false names)
      = (d.createDirAll d.cwd (names.map Comp.name).dropLast).1.createFile (plainPath false names) := by
    have hl : ([0x2e, 0x2f] ++ plainPath false names).getLast? = (plainPath false names).getLast? := by
      have : plainPath false names ≠ [] := by
        intro h0
        have := rawComps_plain false names hne hn
        rw [h0] at this
        cases names with
        | nil => exact hne rfl
        | cons n ns => simp [rawComps, splitSlash] at this
      rw [List.getLast?_append_of_ne_nil _ this]
    rw [Disk.createFile, Disk.createFile, hraw, rawComps_plain false names hne hn, hl]
    have hz : (0 ∈ [(0x2e : UInt8), 0x2f] ++ plainPath false names) ↔ 0 ∈ plainPath false names := by simp
    simp only [hz]
    have hlast : (Comp.cur :: names.map Comp.name).getLast? = (names.map Comp.name).getLast? := by
      cases names with
      | nil => exact absurd rfl hne
      | cons n ns => simp [List.getLast?_cons_cons]
    rw [hlast, Disk.start, Disk.start, habs, hplain, hm.cwd]
    simp only [Disk.walk, hdir', Bool.false_eq_true, if_true, if_false]
  rw [hf]

/-- What holds of C58 whatever the result is: all that was on the disk is unchanged, except the file that the name
leads to. Not proved because it is false: that a file that cannot be made gives an error, see `C58_plain` and
`C58_wrong`. -/
theorem C58_open_partial {env : Env} {schema : Schema} {d d' : Disk} {room : Option Nat} {filename : Bytes} {r : Res Writer}
    (h : Writer.create env schema d room filename = (d', r)) (l : Loc) (n : Node) (hl : d.node l = some n) :
    d'.node l = some n ∨ (n ≠ .dir ∧ d'.walk (d'.start filename) (rawComps filename) = some l) := by
  rw [Writer.create.eq_def] at h
  split at h
  · simp only [Prod.mk.injEq] at h
    rw [← h.1]
    exact .inl hl
  · rename_i folder _
    dsimp only at h
    have hm := Disk.createDirAll_more _ d (d.start filename) folder (Nat.le_refl _)
    generalize (d.createDirAll (d.start filename) folder).1 = d1 at hm h
    split at h
    · simp only [Prod.mk.injEq] at h
      rw [← h.1]
      exact .inl (hm.keep l n hl)
    · rename_i d2 place hc
      obtain ⟨rfl, hw, hnd, _⟩ := Disk.createFile_some hc
      have hd : ∃ b, d' = (d1.set place (.file [])).set place (.file b) := by
        split at h <;> simp only [Prod.mk.injEq] at h <;> exact ⟨_, h.1.symm⟩
      obtain ⟨b, rfl⟩ := hd
      by_cases hp : l = place
      · subst hp
        refine .inr ⟨?_, ?_⟩
        · rintro rfl
          have := hm.isDir (l := l) (by simp [Disk.isDir, hl])
          rw [hnd] at this
          simp at this
        · have hs : ((d1.set l (.file [])).set l (.file b)).start filename = d1.start filename := rfl
          rw [hs, Disk.walk_congr (d := d1), hw]
          intro l'
          rw [Disk.isDir_set_file, Disk.isDir_set_file hnd]
          rw [Disk.isDir_set_file hnd]
          exact hnd
      · refine .inl ?_
        simp only [Disk.set, if_neg hp]
        exact hm.keep l n hl

namespace Demo

/-- A disk with the directory `/data`, the file `/data/old` and nothing else; the process may not write to `/data/no`. -/
def disk : Disk where
  node l := if l = [] ∨ l = [[0x64]] then some .dir else if l = [[0x64], [0x6f]] then some (.file [1, 2, 3]) else none
  may l := l ≠ [[0x64], [0x6e]]
  cwd := [[0x64]]

/-- `new/x` below `/data`: the directory is made, the file has the header. -/
example : (∃ w, (Writer.create Demo.env [] disk none (plainPath false [[0x65], [0x78]])).2 = .ok w)
    ∧ (Writer.create Demo.env [] disk none (plainPath false [[0x65], [0x78]])).1.node [[0x64], [0x65]] = some .dir
    ∧ (Writer.create Demo.env [] disk none (plainPath false [[0x65], [0x78]])).1.node [[0x64], [0x65], [0x78]]
      = some (.file freshFile) := by
  exact ⟨⟨_, rfl⟩, by decide, by decide⟩

example : (Writer.create Demo.env [] disk none (plainPath false [[0x65], [0x78]])).1.node [[0x64], [0x65], [0x78]]
    = some (.file freshFile) :=
  (C58_place (env := Demo.env) (schema := []) (d := disk) (room := none) (absolute := false) (names := [[0x65], [0x78]])
    (base := [[0x64]]) (by decide) (by simp [ProperName]) (Prod.ext rfl rfl) rfl).1

example : Writer.create Demo.env [] disk none [0x2e, 0x2f, 0x65, 0x2f, 0x78]
    = Writer.create Demo.env [] disk none (plainPath false [[0x65], [0x78]]) :=
  C58_dot Demo.env [] disk none (names := [[0x65], [0x78]]) (by decide) (by simp [ProperName]) (by decide)

/-- An existing file is overwritten. -/
example : (Writer.create Demo.env [] disk none (plainPath true [[0x64], [0x6f]])).1.node [[0x64], [0x6f]] = some (.file freshFile) := by
  decide

/-- No room for the header: an error, and the file has the part of it that fits. -/
example : (Writer.create Demo.env [] disk (some 3) (plainPath true [[0x64], [0x6f]])).2 = .err .ioError
    ∧ (Writer.create Demo.env [] disk (some 3) (plainPath true [[0x64], [0x6f]])).1.node [[0x64], [0x6f]]
      = some (.file [0x54, 0x73, 0x46]) := by
  exact ⟨rfl, by decide⟩

/-- Openable and not openable paths. -/
example : Openable disk disk.cwd [[0x65], [0x78]] := by
  refine ⟨by decide, fun k h1 h2 => ?_, by decide, by decide⟩
  have : k = 1 := by simp at h2; omega
  subst this
  decide

example : ¬ Openable disk [] [[0x64], [0x6e]] := fun h => by
  have := h.may
  revert this
  decide

example : NamesNothing [0x2f, 0x2e, 0x2f] := .slashDot _ (.slash _ .empty)

example : Writer.create Demo.env [] disk none [0x2f, 0x2e, 0x2f] = (disk, .err (.error none)) :=
  C58_refused Demo.env [] disk none (.slashDot _ (.slash _ .empty))

-- the four outcomes: a writer, no room for the header, a name that names nothing, an abort
example : ∃ d' w place, Writer.create Demo.env [] disk none (plainPath true [[0x64], [0x6f]]) = (d', .ok w)
    ∧ d'.walk (d'.start (plainPath true [[0x64], [0x6f]])) (rawComps (plainPath true [[0x64], [0x6f]])) = some place
    ∧ d'.node place = some (.file freshFile) := by
  obtain ⟨_, place, h1, h2, _⟩ := C58_opened (env := Demo.env) (schema := []) (d := disk) (room := none)
    (filename := plainPath true [[0x64], [0x6f]]) (Prod.ext rfl rfl)
  exact ⟨_, _, place, Prod.ext rfl rfl, h1, h2⟩

example : ∃ d' place, Writer.create Demo.env [] disk (some 3) (plainPath true [[0x64], [0x6f]]) = (d', .err .ioError)
    ∧ d'.node place = some (.file [0x54, 0x73, 0x46]) := by
  rcases C58_reported (env := Demo.env) (schema := []) (d := disk) (room := some 3) (filename := plainPath true [[0x64], [0x6f]])
    (e := .ioError) (Prod.ext rfl rfl) with ⟨_, h, _⟩ | ⟨_, n, _, hn, place, _, h⟩
  · exact absurd h (by decide)
  · cases hn
    exact ⟨_, place, Prod.ext rfl rfl, h⟩

example : ∃ d', Writer.create Demo.env [] disk none (plainPath true [[0x64], [0x6e]]) = (d', .panic)
    ∧ d'.node [[0x64], [0x6f]] = some (.file [1, 2, 3]) :=
  ⟨_, Prod.ext rfl rfl, (C58_abort_keeps (env := Demo.env) (schema := []) (d := disk) (room := none)
    (filename := plainPath true [[0x64], [0x6e]]) (Prod.ext rfl rfl)).1 _ _ (by decide)⟩

example : (Writer.create Demo.env [] disk none (plainPath true [[0x64], [0x6e]])).2 = .panic :=
  (C58_plain Demo.env [] disk (room := none) (by simp) true (names := [[0x64], [0x6e]]) (by decide) (by simp [ProperName])).2.2
    (fun h => by have := h.may; revert this; decide)

end Demo

/-- The property is violated: if the system does not let the process write the file, the program is aborted; there is
no error that it could handle. -/
theorem C58_wrong : ∃ (d : Disk) (names : List Bytes), names ≠ [] ∧ (∀ n ∈ names, ProperName n) ∧ d.node [] = some .dir
    ∧ (Writer.create Demo.env [] d none (plainPath true names)).2 = .panic := by
  refine ⟨Demo.disk, [[0x64], [0x6e]], by simp, ?_, by decide, by decide⟩
  intro n hn
  simp only [List.mem_cons, List.not_mem_nil, or_false] at hn
  rcases hn with rfl | rfl <;> simp [ProperName]

/-! ## C59 -/

/-- Errors that compare equal are the same; the comparison does not depend on the order; every error but an output
error is equal to itself. Not proved because it is false: the last for output errors (`C59_wrong`). -/
theorem C59_compare_partial (a b : TsFileError) :
    (a.eq b = true → a = b) ∧ (a.eq b = b.eq a) ∧ (a ≠ .ioError → a.eq a = true) := by
  refine ⟨?_, ?_, ?_⟩
  · cases a <;> cases b <;> simp [TsFileError.eq]
  · cases a <;> cases b <;> simp [TsFileError.eq, eq_comm]
  · cases a <;> simp [TsFileError.eq]

/-- An output error is different from every error, itself included. -/
theorem C59_wrong (a : TsFileError) : TsFileError.ioError.eq a = false ∧ a.eq .ioError = false := by
  cases a <;> simp [TsFileError.eq]

example : (TsFileError.illegalState (some "x")).eq (.illegalState (some "x")) = true ∧ TsFileError.encoding ≠ .ioError := by
  decide

end TsFile
