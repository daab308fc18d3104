import Verif.Proofs.Lookup
import Verif.Props.DeviceIndex
import Verif.Props.ReadBack
import Verif.Props.Structure
/-! # A reader that searches by bisection: C92 -/

namespace TsFile
open Spec

section
variable {env : Env} {unsnap : Bytes → Option Bytes} {schema : Schema} {ops : List Op} {s : Session}

/-- The metadata that bisection finds are those that a search one by one finds, if the devices are in order. -/
theorem lookupMeta_eq (he : EnvOk env unsnap) {d : Bytes} (hsch : schema.IndexableAt d) (hs : session env schema ops = some s)
    (hw : s.Within ops) {footer : Footer} (hf : readFooter s.file = some footer)
    (hsorted : (footer.root.entries.map Entry.name).Pairwise (· < ·)) (m : Bytes) :
    lookupMeta s.file d m = readSeriesMeta s.file d m := by
  obtain ⟨c⟩ := session_outlined he hsch.toNamed hs hw
  obtain ⟨footer', h1, h2⟩ := Sparse.deviceParts hsch c.ok.locs c.layout c.fits
  rw [hf] at h1
  cases h1
  have hpos : ∃ n, s.file.length = n + 1 := by
    have := c.layout.at_meta.le
    exact ⟨s.file.length - 1, by simp only [List.length_append, List.length_cons, List.length_nil] at this; omega⟩
  obtain ⟨n, hn⟩ := hpos
  simp only [lookupMeta, readSeriesMeta, hf, Option.bind_eq_bind, Option.bind_some, findBinary_eq hsorted, hn]
  split
  · cases hd : footer.root.entries.find? (fun x => decide (x.name = d)) with
    | none => rfl
    | some e =>
      have hed := List.find?_some hd
      simp only [decide_eq_true_eq] at hed
      obtain ⟨node, q1, q2, q3, _, q4⟩ := h2 e (List.mem_of_find?_eq_some hd) hed
      simp only [q1, Option.bind_some]
      exact locateBinary_eq q2 q3 q4 n
  · rfl

/-- **C92**, partial: if the devices are in ascending order in the root node, a reader that searches by bisection finds exactly the
stored points. Missing: devices in another order, see `C92_exactly` and `C92_lost_wrong`. -/
theorem C92_sorted_partial (he : EnvOk env unsnap) {d : Bytes} (hsch : schema.IndexableAt d) (hs : session env schema ops = some s)
    (hw : s.Within ops) {footer : Footer} (hf : readFooter s.file = some footer)
    (hsorted : (footer.root.entries.map Entry.name).Pairwise (· < ·)) (m : Bytes) :
    lookupSeries unsnap s.file d m = some (if NoDot m then series (storedBy schema ops s.grown) d m else []) := by
  rw [← C01_device_partial he hsch hs hw m, lookupSeries, lookupMeta_eq he hsch hs hw hf hsorted, readSeries]
  rfl

/-- **C92**, partial: with points in one device only, a reader that searches by bisection finds exactly the stored points. -/
theorem C92_one_device_partial (he : EnvOk env unsnap) (hsch : schema.Indexable) (hs : session env schema ops = some s)
    (hw : s.Within ops) {d : Bytes} (hone : ∀ d' m, series (storedBy schema ops s.grown) d' m ≠ [] → d' = d) (m : Bytes) :
    lookupSeries unsnap s.file d m = some (series (storedBy schema ops s.grown) d m) := by
  obtain ⟨footer, hf, _, hnd, _⟩ := C23_device_partial he (hsch.at d) hs hw
  have hall : ∀ x ∈ footer.root.entries.map Entry.name, x = d := by
    intro x hx
    obtain ⟨footer', hf', _, _, hx', _⟩ := C23_device_partial he (hsch.at x) hs hw
    rw [hf] at hf'
    cases hf'
    obtain ⟨m, _, hm⟩ := hx'.1 hx
    exact hone x m hm
  rw [← (C01_index_read_back_partial he hsch hs hw).2 d m, C01_device_partial he (hsch.at d) hs hw m]
  refine C92_sorted_partial he (hsch.at d) hs hw hf ?_ m
  generalize footer.root.entries.map Entry.name = names at hnd hall
  match names, hnd, hall with
  | [], _, _ => exact List.Pairwise.nil
  | [x], _, _ => exact List.pairwise_singleton _ _
  | x :: y :: l, hnd, hall =>
    have h1 := hall x (by simp)
    have h2 := hall y (by simp)
    simp [h1, h2] at hnd

/-- What bisection finds has the name. -/
theorem bisect_found {names : List Bytes} {key : Bytes} :
    ∀ (fuel low high : Nat), (bisect names key fuel low high).1 = true → names.getD (bisect names key fuel low high).2 [] = key := by
  intro fuel
  induction fuel with
  | zero => intro low high h; simp [bisect] at h
  | succ fuel ih =>
    intro low high h
    simp only [bisect] at h ⊢
    by_cases hlt : low < high
    · rw [if_pos hlt] at h ⊢
      split
      · assumption
      · rename_i he
        rw [if_neg he] at h
        split
        · rename_i hc
          rw [if_pos hc] at h
          exact ih _ _ h
        · rename_i hc
          rw [if_neg hc] at h
          exact ih _ _ h
    · rw [if_neg hlt] at h; simp at h

theorem findBinary_mem {α : Type} {name : α → Bytes} {key : Bytes} {l : List α} {x : α}
    (h : findBinary name key l = some x) : x ∈ l ∧ name x = key := by
  simp only [findBinary] at h
  split at h
  · rename_i hf
    have h2 := bisect_found _ _ _ hf
    obtain ⟨hi, rfl⟩ := List.getElem?_eq_some_iff.1 h
    refine ⟨List.getElem_mem hi, ?_⟩
    have h3 : ((l.map name).getD (search (l.map name) key).2 []) = key := h2
    rw [List.getD_eq_getElem _ _ (by simpa using hi), List.getElem_map] at h3
    exact h3
  · simp at h

/-- **C92**, exactly when it holds: a reader that searches by bisection finds every series if and only if the devices in the root node
are in ascending order. -/
theorem C92_exactly (he : EnvOk env unsnap) (hsch : schema.Indexable) (hs : session env schema ops = some s) (hw : s.Within ops)
    {footer : Footer} (hf : readFooter s.file = some footer) :
    (∀ d m, lookupSeries unsnap s.file d m = readSeries unsnap s.file d m)
      ↔ (footer.root.entries.map Entry.name).Pairwise (· < ·) := by
  constructor
  · intro h
    refine sorted_of_findBinary ?_ (fun e hemem => ?_)
    · obtain ⟨footer', hf', _, hnd, _⟩ := C23_device_partial he (hsch.at []) hs hw
      rw [hf] at hf'
      cases hf'
      exact hnd
    · obtain ⟨footer', hf', hkind, hnd, hx, _⟩ := C23_device_partial he (hsch.at e.name) hs hw
      rw [hf] at hf'
      cases hf'
      obtain ⟨m, hm, hne⟩ := hx.1 (List.mem_map.2 ⟨e, hemem, rfl⟩)
      have h1 := h e.name m
      rw [C01_device_partial he (hsch.at e.name) hs hw m, if_pos hm] at h1
      cases hb : findBinary Entry.name e.name footer.root.entries with
      | none =>
        exfalso
        have : lookupMeta s.file e.name m = some none := by
          simp only [lookupMeta, hf, Option.bind_eq_bind, Option.bind_some, hkind, if_true, hb]
        rw [lookupSeries, this] at h1
        simp only [Option.some.injEq] at h1
        exact hne h1.symm
      | some e' =>
        obtain ⟨h2, h3⟩ := findBinary_mem hb
        rw [List.inj_on_of_nodup_map hnd h2 hemem h3]
  · intro h d m
    rw [lookupSeries, lookupMeta_eq he (hsch.at d) hs hw hf h, readSeries]
    rfl

/-- **C92** is false with two devices if the hash map gives the one with the greater name first: none of the series of the other device
is found. -/
theorem C92_lost_wrong (he : EnvOk env unsnap) (hsch : schema.Indexable) (hs : session env schema ops = some s) (hw : s.Within ops)
    {d d' : Bytes} (hlt : d < d') (hone : ∀ x m, series (storedBy schema ops s.grown) x m ≠ [] → x = d ∨ x = d')
    (hd : ∃ m, series (storedBy schema ops s.grown) d m ≠ []) (hd' : ∃ m, series (storedBy schema ops s.grown) d' m ≠ [])
    (horder : ∀ n n', env.hashOrder [(d, n), (d', n')] = [(d', n'), (d, n)]) (m : Bytes) :
    lookupSeries unsnap s.file d m = some [] := by
  obtain ⟨c⟩ := session_outlined he hsch.toNamed hs hw
  obtain ⟨htsorted, htne, _⟩ := c.layout.device c.ok.locs (hsch.at d).isolated
  obtain ⟨bits, _, hfooter⟩ := c.layout.readFooter c.fits
  have hnodes : c.layout.nodes.map Prod.fst = c.layout.tsm.map Prod.fst := by
    obtain ⟨out, map, h1, h2⟩ := devicesLoop_any env c.layout.tsm _ htne
    rw [c.layout.nodes_eq] at h1
    simp only [Option.some.injEq, Prod.mk.injEq] at h1
    rw [← h2, ← h1.2]
  have hnames : c.layout.root.toSpec.entries.map Entry.name = c.layout.order.map Prod.fst := by
    have : c.layout.root.toSpec.entries = (devEntries (fileBytes env c.groups ++ [2] ++ metaBytes env c.layout.tsm).length c.layout.order).map IndexEntry.toSpec := by rw [← c.layout.entries]; rfl
    rw [this, List.map_map]
    exact devEntries_names _ _
  have hkind : c.layout.root.toSpec.kind = 1 := by
    show c.layout.root.nodeType.serialize = 1
    rw [c.layout.kind]
    rfl
  have hmem : ∀ x, x ∈ c.layout.nodes.map Prod.fst ↔ x = d ∨ x = d' := by
    intro x
    obtain ⟨footer', hf', _, _, hx, _⟩ := C23_device_partial he (hsch.at x) hs hw
    rw [hfooter] at hf'
    cases hf'
    have hx' : x ∈ c.layout.root.toSpec.entries.map Entry.name ↔ _ := hx
    rw [hnames, (c.layout.order_perm.map Prod.fst).mem_iff] at hx'
    rw [hx']
    have hdot : ∀ x m, series (storedBy schema ops s.grown) x m ≠ [] → NoDot m := by
      intro x m hne
      by_contra hc
      have := (C01_index_read_back_partial he hsch hs hw).2 x m
      rw [C01_device_partial he (hsch.at x) hs hw m, if_neg hc] at this
      exact hne (Option.some.inj this).symm
    constructor
    · rintro ⟨m, _, hm⟩
      exact hone x m hm
    · rintro (rfl | rfl)
      · obtain ⟨m, hm⟩ := hd; exact ⟨m, hdot _ _ hm, hm⟩
      · obtain ⟨m, hm⟩ := hd'; exact ⟨m, hdot _ _ hm, hm⟩
  have hsort : (c.layout.nodes.map Prod.fst).Pairwise (· < ·) := by
    rw [hnodes, List.pairwise_map]
    exact htsorted.imp (fun h => (bytesLt_iff _ _).1 h)
  have hne : d ≠ d' := bytes_lt_ne hlt
  have h2 : c.layout.nodes.map Prod.fst = [d, d'] := by
    refine List.Perm.eq_of_pairwise (le := fun a b => a < b) (fun a b _ _ h h' => absurd rfl (bytes_lt_ne (bytes_lt_trans h h'))) hsort
      (by simpa using hlt) ?_
    rw [List.perm_ext_iff_of_nodup (hsort.imp (fun h => bytes_lt_ne h)) (by simpa using hne)]
    intro x
    rw [hmem]
    simp
  obtain ⟨n, n', hnn⟩ : ∃ n n', c.layout.nodes = [(d, n), (d', n')] := by
    match c.layout.nodes, h2 with
    | [(a, n), (b, n')], h2 =>
      simp at h2
      exact ⟨n, n', by rw [h2.1, h2.2]⟩
  have hord : c.layout.order.map Prod.fst = [d', d] := by
    rw [c.layout.order_eq, hnn, horder]
    rfl
  have hsearch : search [d', d] d = (false, 0) := by
    have h1 : ¬ d' = d := fun e => hne e.symm
    have h3 : ¬ d' < d := fun h => bytes_lt_ne (bytes_lt_trans hlt h) rfl
    have h4 : Nat.log2 2 = 1 := by decide
    simp [search, h4, bisect, h1, h3]
  have hmeta : lookupMeta s.file d m = some none := by
    simp only [lookupMeta, hfooter, Option.bind_eq_bind, Option.bind_some, hkind, if_true, findBinary, hnames, hord, hsearch,
      Bool.false_eq_true, if_false]
  rw [lookupSeries, hmeta]

theorem bisect_more {names : List Bytes} {key : Bytes} : ∀ {fuel fuel' low high : Nat}, high - low < 2 ^ fuel → fuel ≤ fuel' →
    bisect names key fuel low high = bisect names key fuel' low high := by
  intro fuel
  induction fuel with
  | zero =>
    intro fuel' low high h1 _
    simp only [Nat.pow_zero] at h1
    cases fuel' with
    | zero => rfl
    | succ f => simp only [bisect]; rw [if_neg (by omega)]
  | succ fuel ih =>
    intro fuel' low high h1 h2
    obtain ⟨f, rfl⟩ : ∃ f, fuel' = f + 1 := ⟨fuel' - 1, by omega⟩
    rw [Nat.pow_succ] at h1
    simp only [bisect]
    by_cases hlt : low < high
    · rw [if_pos hlt, if_pos hlt, ih (fuel' := f) (low := (low + (high - 1)) / 2 + 1) (by omega) (by omega),
        ih (fuel' := f) (low := low) (by omega) (by omega)]
    · rw [if_neg hlt, if_neg hlt]

/-- **C92.** No search is long: the root node, the node of a device and each part of the file that the latter leads to have at most 256
entries, and among 256 entries bisection makes at most nine comparisons. -/
theorem C92_short (he : EnvOk env unsnap) {d : Bytes} (hsch : schema.IndexableAt d) (hs : session env schema ops = some s)
    (hw : s.Within ops) :
    (∃ footer, readFooter s.file = some footer ∧ footer.root.entries.length ≤ 256
      ∧ ∀ e ∈ footer.root.entries, e.name = d → ∃ node, readNode s.file e.offset = some node ∧ node.kind = 3
        ∧ node.entries.length ≤ 256
        ∧ ∀ k lo hi, entryAt node.entries node.endOffset k = some (lo, hi) →
          ∃ metas, pAll pSeriesMeta (slice s.file lo hi) = some metas ∧ metas.length ≤ 256)
    ∧ ∀ names key, names.length ≤ 256 → search names key = bisect names key 9 0 names.length := by
  refine ⟨?_, ?_⟩
  · obtain ⟨c⟩ := session_outlined he hsch.toNamed hs hw
    obtain ⟨footer, h1, h2⟩ := Sparse.deviceParts hsch c.ok.locs c.layout c.fits
    refine ⟨footer, h1, ?_, fun e he hed => ?_⟩
    · obtain ⟨bits, _, hfooter⟩ := c.layout.readFooter c.fits
      rw [hfooter] at h1
      cases h1
      have : c.layout.root.toSpec.entries = (devEntries (fileBytes env c.groups ++ [2] ++ metaBytes env c.layout.tsm).length c.layout.order).map IndexEntry.toSpec := by rw [← c.layout.entries]; rfl
      show c.layout.root.toSpec.entries.length ≤ 256
      rw [this, List.length_map, ← c.layout.entries]
      exact c.layout.few
    · obtain ⟨node, q1, q2, q3, q4, q5⟩ := h2 e he hed
      exact ⟨node, q1, q2, q4, fun k lo hi hk => by
        obtain ⟨metas, p1, _, p2, _⟩ := q5 k lo hi hk
        exact ⟨metas, p1, p2⟩⟩
  · intro names key h
    refine bisect_more ?_ ?_
    · rw [Nat.sub_zero]; exact Nat.lt_log2_self
    · have : names.length.log2 < 9 := by
        by_cases h0 : names.length = 0
        · rw [h0]; decide
        · rw [Nat.log2_lt h0]; omega
      omega

end

/-! ## The hypotheses can be met -/

namespace Demo

/-- The footer of the demo file. -/
theorem footer_sorted : ∃ footer, readFooter result.file = some footer ∧ (footer.root.entries.map Entry.name).Pairwise (· < ·) := by
  have h : (readFooter result.file).any (fun f => decide ((f.root.entries.map Entry.name).Pairwise (· < ·))) = true := by
    decide +kernel
  obtain ⟨f, hf, h⟩ := (Option.any_eq_true _ _).1 h
  exact ⟨f, hf, of_decide_eq_true h⟩

-- devices in ascending order
example (m : Bytes) : lookupSeries some result.file (str "root.sg.d1") m
    = some (if NoDot m then series (storedBy schema ops result.grown) (str "root.sg.d1") m else []) := by
  obtain ⟨f, hf, h⟩ := footer_sorted
  exact C92_sorted_partial envOk (indexable.at _) session_eq within hf h m
example : ∀ d m, lookupSeries some result.file d m = readSeries some result.file d m := by
  obtain ⟨f, hf, h⟩ := footer_sorted
  exact (C92_exactly envOk indexable session_eq within hf).2 h
example := C92_short envOk (indexable.at (str "root.sg.d1")) session_eq within

theorem device_of_series {recs : List Rec} {d m : Bytes} (h : series recs d m ≠ []) : ∃ r ∈ recs, r.device = d := by
  obtain ⟨p, hp⟩ := List.exists_mem_of_ne_nil _ h
  simp only [series, List.mem_map, List.mem_filter, decide_eq_true_eq] at hp
  obtain ⟨r, ⟨hr, h1, _⟩, _⟩ := hp
  exact ⟨r, hr, h1⟩

theorem devices2 : ∀ r ∈ storedBy schema2 ops2 result2.grown, r.device = str "root.sg.d1" := by decide +kernel

-- one device
example (m : Bytes) : lookupSeries some result2.file (str "root.sg.d1") m
    = some (series (storedBy schema2 ops2 result2.grown) (str "root.sg.d1") m) := by
  refine C92_one_device_partial envOk indexable2 session_eq2 within2 (fun d' m' h => ?_) m
  obtain ⟨r, hr, rfl⟩ := device_of_series h
  exact devices2 r hr

/-- The demo, with a hash map that is iterated backwards. -/
def revResult : Session := (session revEnv schema ops).getD ⟨[], [], 0, []⟩

theorem revSession_eq : session revEnv schema ops = some revResult := by
  have : (session revEnv schema ops).isSome = true := by decide +kernel
  rw [revResult]
  cases h : session revEnv schema ops with
  | none => rw [h] at this; simp at this
  | some s => rfl

theorem revWithin : revResult.Within ops :=
  ⟨by decide +kernel, by decide +kernel, by decide +kernel, by decide +kernel⟩

theorem revDevices : ∀ r ∈ storedBy schema ops revResult.grown, r.device = str "root.sg.d1" ∨ r.device = str "root.sg.d2" := by
  decide +kernel

-- two points are stored, a search one by one finds them, and bisection does not
example : readSeries some revResult.file (str "root.sg.d1") (str "s1") = some [(10, .INT 7), (12, .INT (-1))]
    ∧ lookupSeries some revResult.file (str "root.sg.d1") (str "s1") = some [] := by
  refine ⟨by decide +kernel, C92_lost_wrong (d' := str "root.sg.d2") revEnvOk indexable revSession_eq revWithin (by decide +kernel)
    (fun x m h => ?_) ⟨str "s1", by decide +kernel⟩ ⟨str "s1", by decide +kernel⟩ (fun n n' => rfl) _⟩
  obtain ⟨r, hr, rfl⟩ := device_of_series h
  exact revDevices r hr

end Demo

end TsFile
