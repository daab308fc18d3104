import Verif.Proofs.DeepSession
import Verif.Props.ReadBack
import Verif.Props.Close
import Verif.Props.Size
/-! # Whole sessions with more than 65536 series in a device: C33 -/

namespace TsFile
open Spec

variable {env : Env} {unsnap : Bytes → Option Bytes} {schema : Schema} {ops : List Op} {s : Session}

/-- **C33** is false for every session that stores more than 65536 series, all in one device: reading through the index finds
none of them. (A part of a path before the last dot is a device, unless measurement names have dots.) -/
theorem C33_session_wrong (he : EnvOk env unsnap) (hsch : schema.Named) (hs : session env schema ops = some s) (hw : s.Within ops)
    {d : Bytes} (hone : ∀ p ∈ pathsOf (storedBy schema ops s.grown), beforeLastDot p = d)
    (hmany : 65536 < (pathsOf (storedBy schema ops s.grown)).length) (m : Bytes) :
    (∀ r, readSeriesMeta s.file d m ≠ some (some r))
    ∧ (series (storedBy schema ops s.grown) d m ≠ [] →
        readSeries unsnap s.file d m ≠ some (series (storedBy schema ops s.grown) d m)) := by
  obtain ⟨c⟩ := session_outlined he hsch hs hw
  have h := c.deep hsch hone hmany m
  refine ⟨h, fun hne => ?_⟩
  rw [readSeries]
  cases hm : readSeriesMeta s.file d m with
  | none => simp
  | some x =>
    cases x with
    | none => simpa using hne
    | some r => exact absurd hm (h r)

/-- **C33** is false in a worse way if there is a second device, with a smaller name and its node first in the file: reading
any of more than 65536 series of a device through the index gives the points of the other device. -/
theorem C33_stray_wrong (he : EnvOk env unsnap) {d d' : Bytes} (hat : schema.IndexableAt d') (hiso : schema.Isolated d)
    (hs : session env schema ops = some s) (hw : s.Within ops)
    (hdev : ∀ x, x ∈ indexDevicesOf (storedBy schema ops s.grown) ↔ x = d' ∨ x = d) (hlt : d' < d)
    (horder : ∀ n' n, env.hashOrder [(d', n'), (d, n)] = [(d', n'), (d, n)])
    (hmany : 65536 < ((pathsOf (storedBy schema ops s.grown)).filter (fun p => decide (beforeLastDot p = d))).length)
    (hmost : ((pathsOf (storedBy schema ops s.grown)).filter (fun p => decide (beforeLastDot p = d))).length ≤ 131072)
    {m : Bytes} (hm : NoDot m) (hne : series (storedBy schema ops s.grown) d m ≠ []) :
    readSeries unsnap s.file d m = some (series (storedBy schema ops s.grown) d' m) := by
  obtain ⟨c⟩ := session_outlined he hat.toNamed hs hw
  obtain ⟨hsort, hne', l', hrep', hl'⟩ := c.layout.device c.ok.locs hat.isolated
  obtain ⟨_, _, l, hrep, hl⟩ := c.layout.device c.ok.locs hiso
  obtain ⟨_, _, hkeys, _⟩ := c.devices
  have hin' : (d', l') ∈ c.layout.tsm := by
    rcases hl' with ⟨_, h⟩ | ⟨_, h⟩
    · exact absurd ((hkeys d').2 ((hdev d').2 (.inl rfl))) h
    · exact h
  have hin : (d, l) ∈ c.layout.tsm := by
    rcases hl with ⟨_, h⟩ | ⟨_, h⟩
    · exact absurd ((hkeys d).2 ((hdev d).2 (.inr rfl))) h
    · exact h
  have hfew := hrep'.few hat.few
  rw [c.records_length hin'] at hfew
  have hmeta : readSeriesMeta s.file d m = readSeriesMeta s.file d' m := by
    refine c.stray hat.toNamed horder hdev ((bytesLt_iff _ _).2 hlt) hmany hmost hfew ?_
    intro l2 hl2 t ht
    have : l2 = l := by
      have h1 := BMap.get?_of_mem hsort hl2
      rw [BMap.get?_of_mem hsort hin] at h1
      exact (Option.some.inj h1).symm
    subst this
    obtain ⟨t', ht', rfl⟩ := hrep.all m hm (show locsOf env c.groups d m ≠ [] by rw [locsOf_ne_nil c.ok, c.pts]; exact hne)
    cases l2 with
    | nil => simp at ht
    | cons t0 ts =>
      simp only [List.head?_cons, Option.mem_def, Option.some.injEq] at ht
      subst ht
      rcases List.mem_cons.1 ht' with rfl | h
      · exact fun h => not_lt_of_lt' h h
      · exact fun h2 => not_lt_of_lt' h2 ((List.pairwise_cons.1 hrep.names).1 _ h)
  have hread := C01_device_partial he hat hs hw m
  rw [if_pos hm] at hread
  rw [← hread, readSeries, readSeries, hmeta]

namespace Demo

/-- `Demo.env` with a Bloom filter of 65536 bits, whatever the number of paths. -/
def deepEnv : Env := { Demo.env with bloomSize := fun _ => 65536 }

theorem deepEnvOk : EnvOk deepEnv some := ⟨fun x hx => ⟨x, rfl, rfl, by omega⟩, fun l => List.Perm.refl l⟩

/-- Up to 65537 names. -/
def someNames (n : Nat) : List Bytes :=
  (List.range n).map (fun i => [UInt8.ofNat (i / 4096 + 65), UInt8.ofNat (i / 64 % 64 + 65), UInt8.ofNat (i % 64 + 65)])

theorem names_length (n : Nat) : (someNames n).length = n := by rw [someNames, List.length_map, List.length_range]

theorem someNames_nodup {n : Nat} (hn : n ≤ 65537) : (someNames n).Nodup := by
  refine List.Nodup.map_on ?_ List.nodup_range
  intro i hi j hj h
  rw [List.mem_range] at hi hj
  simp only [List.cons.injEq, and_true] at h
  have h1 := congrArg UInt8.toNat h.1
  have h2 := congrArg UInt8.toNat h.2.1
  have h3 := congrArg UInt8.toNat h.2.2
  simp only [UInt8.toNat_ofNat'] at h1 h2 h3
  omega

theorem someNames_name {n : Nat} (hn : n ≤ 65537) : ∀ m ∈ someNames n, m.length = 3 ∧ NoDot m := by
  intro m h
  obtain ⟨i, hi, rfl⟩ := List.mem_map.1 h
  rw [List.mem_range] at hi
  refine ⟨rfl, fun h => ?_⟩
  simp only [List.mem_cons, List.not_mem_nil, or_false] at h
  rcases h with h | h | h
  all_goals
    have h1 := congrArg UInt8.toNat h
    rw [UInt8.toNat_ofNat', show UInt8.toNat 46 = 46 from rfl] at h1
    omega

theorem look_map {α : Type} (c : α) {l : List Bytes} {m : Bytes} (h : m ∈ l) : look m (l.map (fun x => (x, c))) = some c := by
  induction l with
  | nil => simp at h
  | cons x l ih =>
    rw [List.map_cons, look]
    by_cases hx : x = m
    · rw [if_pos hx]
    · rw [if_neg hx]
      rcases List.mem_cons.1 h with h | h
      · exact absurd h.symm hx
      · exact ih h

/-- A name that is in both devices. -/
def both : Bytes := str "AAA"

theorem both_mem {n : Nat} (hn : 0 < n) : both ∈ someNames n := List.mem_map.2 ⟨0, List.mem_range.2 hn, by decide⟩

/-- A device with one measurement, and one with many. -/
def deepSchema (names : List Bytes) : Schema :=
  [(str "a", [(both, ⟨.INT32, .PLAIN, .UNCOMPRESSED⟩)]), (str "b", names.map (fun m => (m, ⟨.INT32, .PLAIN, .UNCOMPRESSED⟩)))]

/-- The value 7 in the first device, if wanted, and the value 1 for every measurement of the second. -/
def deepOps (first : Bool) (names : List Bytes) : List Op :=
  (if first then [.write (str "a") both 5 (.INT 7)] else []) ++ pairOps (names.map (fun m => (str "b", m)))

/-- The points of these calls. -/
def deepRecs (first : Bool) (names : List Bytes) : List Rec :=
  (if first then [⟨str "a", both, 5, .INT 7⟩] else []) ++ pairRecs (names.map (fun m => (str "b", m)))

section
variable {first : Bool} {names : List Bytes}

theorem deep_named (hnd : names.Nodup) (hname : ∀ m ∈ names, m.length = 3 ∧ NoDot m) : (deepSchema names).Named := by
  refine ⟨⟨by simp only [deepSchema, List.map_cons, List.map_nil]; decide, ?_⟩, ?_, ?_⟩
  · intro e he
    simp only [deepSchema, List.mem_cons, List.not_mem_nil, or_false] at he
    rcases he with rfl | rfl
    · simp
    · simpa [Function.comp_def] using hnd
  · intro e he
    simp only [deepSchema, List.mem_cons, List.not_mem_nil, or_false] at he
    rcases he with rfl | rfl
    · simp only; decide
    · simp only; decide
  · intro e he x hx
    simp only [deepSchema, List.mem_cons, List.not_mem_nil, or_false] at he
    rcases he with rfl | rfl
    · simp only [List.mem_singleton] at hx
      subst hx
      decide
    · obtain ⟨m, hm, rfl⟩ := List.mem_map.1 hx
      simp only [(hname m hm).1]
      decide

theorem deep_look : ∀ p ∈ (str "a", both) :: names.map (fun m => (str "b", m)),
    ∃ ms, look p.1 (deepSchema names) = some ms ∧ look p.2 ms = some ⟨.INT32, .PLAIN, .UNCOMPRESSED⟩ := by
  intro p hp
  rcases List.mem_cons.1 hp with rfl | hp
  · exact ⟨_, rfl, by rw [look, if_pos rfl]⟩
  · obtain ⟨m, hm, rfl⟩ := List.mem_map.1 hp
    exact ⟨_, by rw [deepSchema, look, if_neg (show ¬ str "a" = str "b" by decide), look, if_pos rfl], look_map _ hm⟩

theorem deep_size : (deepSchema names).size = names.length + 1 := by
  simp [deepSchema, Schema.size]
  omega

theorem deep_stored (hnames : names.Nodup) (flags : List Bool) (h : flags.length = (deepOps first names).length) :
    (AState.init.run (deepSchema names) ((deepOps first names).zip flags)).1.flush.stored = deepRecs first names := by
  cases first with
  | false =>
    have := (pairs_run (deepSchema names) (names.map (fun m => (str "b", m))) flags (by simpa [deepOps, pairOps] using h)
      (fun p hp => deep_look p (List.mem_cons_of_mem _ hp)) (List.Nodup.map_on (fun a _ b _ h => (Prod.mk.inj h).2) hnames)
      AState.init (fun _ _ => rfl) (by simp [AState.init])).2
    simpa [deepOps, deepRecs, AState.init] using this
  | true =>
  cases flags with
  | nil => simp [deepOps] at h
  | cons f fl =>
    have hlen : fl.length = (names.map (fun m => (str "b", m))).length := by
      simpa [deepOps, pairOps] using h
    obtain ⟨ms, hl, hlm⟩ := deep_look (names := names) (str "a", both) (by simp)
    simp only at hl hlm
    have hexec : AState.init.exec (deepSchema names) (.write (str "a") both 5 (.INT 7))
        = (⟨[], [⟨str "a", both, 5, .INT 7⟩], fun d' m' => if d' = str "a" ∧ m' = both then 5 else -1, 1, []⟩, .ok ()) := by
      rw [AState.exec, hl]
      simp only [AState.put, hlm]
      rfl
    rw [deepOps, if_pos rfl, List.singleton_append, List.zip_cons_cons, AState.run]
    simp only [AState.step, hexec]
    have hnd : (names.map (fun m => (str "b", m))).Nodup :=
      List.Nodup.map_on (fun a _ b _ h => (Prod.mk.inj h).2) hnames
    have hin : PairsIn (deepSchema names) (names.map (fun m => (str "b", m))) := fun p hp => deep_look p (List.mem_cons_of_mem _ hp)
    cases f with
    | false =>
      have := (pairs_run (deepSchema names) _ fl hlen hin hnd ⟨[], [⟨str "a", both, 5, .INT 7⟩],
        fun d' m' => if d' = str "a" ∧ m' = both then 5 else -1, 1, []⟩
        (fun p hp => by
          obtain ⟨m, _, rfl⟩ := List.mem_map.1 hp
          simp only
          rw [if_neg]
          rintro ⟨h, _⟩
          exact absurd h (by decide)) (by simp)).2
      exact this
    | true =>
      have := (pairs_run (deepSchema names) _ fl hlen hin hnd ⟨[⟨str "a", both, 5, .INT 7⟩], [], fun _ _ => -1, 0,
        [[⟨str "a", both, 5, .INT 7⟩]]⟩ (fun p hp => rfl) (by simp)).2
      exact this

theorem mem_pairRecs {r : Rec} (h : r ∈ deepRecs first names) :
    r = ⟨str "a", both, 5, .INT 7⟩ ∨ ∃ m ∈ names, r = ⟨str "b", m, 1, .INT 1⟩ := by
  rcases List.mem_append.1 h with h | h
  · left
    cases first <;> simpa using h
  · obtain ⟨p, hp, rfl⟩ := List.mem_map.1 h
    obtain ⟨m, hm, rfl⟩ := List.mem_map.1 hp
    exact .inr ⟨m, hm, rfl⟩

theorem deep_paths {p : Bytes} (h : p ∈ pathsOf (deepRecs first names)) :
    p = str "a" ++ [0x2e] ++ both ∨ ∃ m ∈ names, p = str "b" ++ [0x2e] ++ m := by
  rw [pathsOf, List.mem_dedup, List.mem_map] at h
  obtain ⟨r, hr, rfl⟩ := h
  rcases mem_pairRecs hr with rfl | ⟨m, hm, rfl⟩
  · exact .inl rfl
  · exact .inr ⟨m, hm, rfl⟩

theorem deep_devices (hname : ∀ m ∈ names, m.length = 3 ∧ NoDot m) (hne : names ≠ []) (x : Bytes) :
    x ∈ indexDevicesOf (deepRecs true names) ↔ x = str "a" ∨ x = str "b" := by
  rw [indexDevicesOf, List.mem_dedup, List.mem_map]
  constructor
  · rintro ⟨p, hp, rfl⟩
    rcases deep_paths hp with rfl | ⟨m, hm, rfl⟩
    · exact .inl (beforeLastDot_path _ _ (by decide))
    · exact .inr (beforeLastDot_path _ _ (hname m hm).2)
  · rintro (rfl | rfl)
    · refine ⟨str "a" ++ [0x2e] ++ both, ?_, beforeLastDot_path _ _ (by decide)⟩
      rw [pathsOf, List.mem_dedup, List.mem_map]
      exact ⟨⟨str "a", both, 5, .INT 7⟩, by simp [deepRecs], rfl⟩
    · obtain ⟨m, hm⟩ := List.exists_mem_of_ne_nil _ hne
      refine ⟨str "b" ++ [0x2e] ++ m, ?_, beforeLastDot_path _ _ (hname m hm).2⟩
      rw [pathsOf, List.mem_dedup, List.mem_map]
      exact ⟨⟨str "b", m, 1, .INT 1⟩, by simp [deepRecs, pairRecs, hm], rfl⟩

theorem deep_count (hnd : names.Nodup) (hname : ∀ m ∈ names, m.length = 3 ∧ NoDot m) :
    ((pathsOf (deepRecs true names)).filter (fun p => decide (beforeLastDot p = str "b"))).length = names.length := by
  have hmap : (deepRecs true names).map (fun r => r.device ++ [0x2e] ++ r.measurement)
      = (str "a" ++ [0x2e] ++ both) :: names.map (fun m => str "b" ++ [0x2e] ++ m) := by
    simp [deepRecs, pairRecs, Function.comp_def]
  have hnd' : ((str "a" ++ [0x2e] ++ both) :: names.map (fun m => str "b" ++ [0x2e] ++ m)).Nodup := by
    refine List.nodup_cons.2 ⟨?_, List.Nodup.map_on (fun a _ b _ h => List.append_cancel_left h) hnd⟩
    intro h
    obtain ⟨m, hm, h⟩ := List.mem_map.1 h
    have h1 := congrArg beforeLastDot h
    rw [beforeLastDot_path _ _ (hname m hm).2, beforeLastDot_path _ _ (by decide)] at h1
    exact absurd h1 (by decide)
  rw [pathsOf, hmap, hnd'.dedup, List.filter_cons, beforeLastDot_path _ _ (by decide), if_neg (by decide), List.filter_eq_self.2,
    List.length_map]
  intro p hp
  obtain ⟨m, hm, rfl⟩ := List.mem_map.1 hp
  rw [beforeLastDot_path _ _ (hname m hm).2]
  decide

theorem deep_session (hnd : names.Nodup) (hname : ∀ m ∈ names, m.length = 3 ∧ NoDot m) (hlen : names.length ≤ 65537) :
    ∃ s, session deepEnv (deepSchema names) (deepOps first names) = some s ∧ s.Within (deepOps first names)
      ∧ storedBy (deepSchema names) (deepOps first names) s.grown = deepRecs first names := by
  have hsch := deep_named hnd hname
  have hsize := deep_size (names := names)
  obtain ⟨w, hn⟩ : ∃ w, Writer.new deepEnv (deepSchema names) ⟨[], none⟩ = .ok w := ⟨_, rfl⟩
  have hops : ∀ op ∈ deepOps first names, op.recs.length = 1 ∧ op.recs ≠ [] ∧ Op.Typed (deepSchema names) op := by
    intro op hop
    obtain ⟨p, hp, t, v, rfl⟩ : ∃ p ∈ (str "a", both) :: names.map (fun m => (str "b", m)), ∃ t v, op = .write p.1 p.2 t (.INT v) := by
      rcases List.mem_append.1 hop with h | h
      · refine ⟨_, List.mem_cons_self, 5, 7, ?_⟩
        cases first <;> simpa using h
      · obtain ⟨p, hp, rfl⟩ := List.mem_map.1 h
        exact ⟨p, List.mem_cons_of_mem _ hp, 1, 1, rfl⟩
    refine ⟨rfl, by simp [Op.recs], ?_⟩
    intro r hr ms s h1 h2
    simp only [Op.recs, List.mem_singleton] at hr
    subst hr
    obtain ⟨ms', h3, h4⟩ := deep_look (names := names) p hp
    simp only at h1 h2
    rw [h3] at h1
    cases h1
    rw [h4] at h2
    cases h2
    exact ⟨rfl, rfl⟩
  have hhand : handed (deepOps first names) ≤ names.length + 1 := by
    have : ∀ l : List Op, (∀ op ∈ l, op.recs.length = 1) → handed l = l.length := by
      intro l hl
      rw [handed]
      induction l with
      | nil => rfl
      | cons x l ih =>
        rw [List.map_cons, List.sum_cons, ih (fun op h => hl op (by simp [h])), hl x (by simp), List.length_cons]
        omega
    rw [this _ (fun op h => (hops op h).1)]
    rw [deepOps]
    cases first <;> simp [pairOps]
  have hb := bursts_handed (deepOps first names) ((w.grown deepEnv (deepOps first names)).map (fun n => decide (0 < n))) (limit := 100000000)
    (Nat.lt_of_le_of_lt hhand (by omega))
  have hst : storedBy (deepSchema names) (deepOps first names) (w.grown deepEnv (deepOps first names)) = deepRecs first names := by
    rw [storedBy]
    exact deep_stored hnd _ (by rw [List.length_map, grown_length])
  have hsome := (C49_session_partial deepEnvOk hsch.wf hn (L := 100000000) (by omega) hb (fun op h => (hops op h).2)
    (by show 65536 < 2 ^ 31; omega)).2
  rw [hst] at hsome
  have hclos : Closable deepEnv (deepRecs first names) := by
    have hbits : ∀ n, bloomBits deepEnv n = 65536 := fun n => by
      show max 65536 256 = 65536
      omega
    refine ⟨?_, ?_, ?_⟩
    · have hsub : indexDevicesOf (deepRecs first names) ⊆ [str "a", str "b"] := by
        intro x hx
        rw [indexDevicesOf, List.mem_dedup, List.mem_map] at hx
        obtain ⟨p, hp, rfl⟩ := hx
        rcases deep_paths hp with rfl | ⟨m, hm, rfl⟩
        · rw [beforeLastDot_path _ _ (by decide)]; simp
        · rw [beforeLastDot_path _ _ (hname m hm).2]; simp
      have := (List.subperm_of_subset (List.nodup_dedup _) hsub).length_le
      simp only [List.length_cons, List.length_nil] at this
      have h2 : (indexDevicesOf (deepRecs first names)).length ≤ 2 := this
      omega
    · rw [hbits, SizeOk]
      exact .inl rfl
    · intro p _ seed _ _
      rw [hbits]
  obtain ⟨s, hs⟩ := Option.isSome_iff_exists.1 (hsome hclos)
  refine ⟨s, hs, ?_, ?_⟩
  · refine C67_within deepEnvOk hsch.wf hs (N := 5) (F := 1) (B := 65536) ?_ (by omega) (fun n _ => Nat.le_refl _) ?_
    · refine ⟨?_, ?_⟩
      · intro e he
        simp only [deepSchema, List.mem_cons, List.not_mem_nil, or_false] at he
        rcases he with rfl | rfl
        · simp only; decide
        · simp only; decide
      · intro e he x hx
        simp only [deepSchema, List.mem_cons, List.not_mem_nil, or_false] at he
        rcases he with rfl | rfl
        · simp only [List.mem_singleton] at hx
          subst hx
          decide
        · obtain ⟨m, hm, rfl⟩ := List.mem_map.1 hx
          simp only [(hname m hm).1]
          decide
    · have : (deepSchema names).length = 2 := rfl
      rw [this, hsize]
      omega
  · rw [session, hn] at hs
    simp only at hs
    split at hs
    · simp at hs
    · split at hs
      · simp at hs
      · rw [← Option.some.inj hs]
        exact hst

theorem filter_name (hnd : names.Nodup) {m : Bytes} (hm : m ∈ names) : names.filter (fun x => decide (x = m)) = [m] := by
  induction names with
  | nil => simp at hm
  | cons x l ih =>
    obtain ⟨h1, h2⟩ := List.nodup_cons.1 hnd
    by_cases hx : x = m
    · subst hx
      rw [List.filter_cons, if_pos (by simp), List.filter_eq_nil_iff.2]
      intro y hy
      simp only [decide_eq_true_eq]
      rintro rfl
      exact h1 hy
    · rw [List.filter_cons, if_neg (by simpa using hx)]
      rcases List.mem_cons.1 hm with h | h
      · exact absurd h.symm hx
      · exact ih h2 h

theorem deep_points (hnd : names.Nodup) {m : Bytes} (hm : m ∈ names) : series (deepRecs first names) (str "b") m = [(1, .INT 1)] := by
  have h0 : (if first then [⟨str "a", both, 5, .INT 7⟩] else ([] : List Rec)).filter
      (fun r => decide (r.device = str "b" ∧ r.measurement = m)) = [] := by
    rw [List.filter_eq_nil_iff]
    intro r hr
    cases first
    · simp at hr
    · simp only [if_true, List.mem_singleton] at hr
      subst hr
      simp only [decide_eq_true_eq, not_and]
      intro h
      exact absurd h (by decide)
  have h1 : (pairRecs (names.map (fun m => (str "b", m)))).filter (fun r => decide (r.device = str "b" ∧ r.measurement = m))
      = [⟨str "b", m, 1, .INT 1⟩] := by
    rw [pairRecs, List.map_map, List.filter_map]
    have := filter_name hnd hm
    simp only [Function.comp_def, true_and]
    rw [this]
    rfl
  rw [series, deepRecs, List.filter_append, h0, h1]
  rfl

theorem deep_first : series (deepRecs true names) (str "a") both = [(5, .INT 7)] := by
  have h1 : (pairRecs (names.map (fun m => (str "b", m)))).filter (fun r => decide (r.device = str "a" ∧ r.measurement = both)) = [] := by
    rw [List.filter_eq_nil_iff]
    intro r hr
    obtain ⟨p, hp, rfl⟩ := List.mem_map.1 hr
    obtain ⟨m, _, rfl⟩ := List.mem_map.1 hp
    simp only [decide_eq_true_eq, not_and]
    intro h
    exact absurd h (by decide)
  rw [series, deepRecs, List.filter_append, h1]
  rfl

theorem deep_single (hnd : names.Nodup) : (pathsOf (deepRecs false names)).length = names.length := by
  have hmap : (deepRecs false names).map (fun r => r.device ++ [0x2e] ++ r.measurement)
      = names.map (fun m => str "b" ++ [0x2e] ++ m) := by
    simp [deepRecs, pairRecs, Function.comp_def]
  rw [pathsOf, hmap, (List.Nodup.map_on (fun a _ b _ h => List.append_cancel_left h) hnd).dedup, List.length_map]

theorem deep_one (hname : ∀ m ∈ names, m.length = 3 ∧ NoDot m) : ∀ p ∈ pathsOf (deepRecs false names), beforeLastDot p = str "b" := by
  intro p hp
  rw [pathsOf, List.mem_dedup, List.mem_map] at hp
  obtain ⟨r, hr, rfl⟩ := hp
  obtain ⟨q, hq, rfl⟩ := List.mem_map.1 (show r ∈ pairRecs _ from hr)
  obtain ⟨m, hm, rfl⟩ := List.mem_map.1 hq
  exact beforeLastDot_path _ _ (hname m hm).2

theorem deep_isolated (hname : ∀ m ∈ names, m.length = 3 ∧ NoDot m) (d : Bytes) : (deepSchema names).Isolated d := by
  intro e he x hx m hm hp
  have hdot : NoDot x.1 := by
    simp only [deepSchema, List.mem_cons, List.not_mem_nil, or_false] at he
    rcases he with rfl | rfl
    · simp only [List.mem_singleton] at hx
      subst hx
      decide
    · obtain ⟨m, hm, rfl⟩ := List.mem_map.1 hx
      exact (hname m hm).2
  have := congrArg beforeLastDot hp
  rwa [beforeLastDot_path _ _ hdot, beforeLastDot_path _ _ hm] at this

/-- With more than 65536 measurements in the only device with points, all of them are lost. -/
theorem deep_lost (hnd : names.Nodup) (hname : ∀ m ∈ names, m.length = 3 ∧ NoDot m) (h1 : 65536 < names.length)
    (h2 : names.length ≤ 65537) :
    ∃ s, session deepEnv (deepSchema names) (deepOps false names) = some s
      ∧ ∀ m ∈ names, series (storedBy (deepSchema names) (deepOps false names) s.grown) (str "b") m = [(1, .INT 1)]
        ∧ readSeries some s.file (str "b") m ≠ some [(1, .INT 1)] := by
  obtain ⟨s, hs, hw, hst⟩ := deep_session (first := false) hnd hname h2
  refine ⟨s, hs, fun m hm => ?_⟩
  have h := (C33_session_wrong deepEnvOk (deep_named hnd hname) hs hw (d := str "b") (by rw [hst]; exact deep_one hname)
    (by rw [hst, deep_single hnd]; exact h1) m).2
  rw [hst, deep_points hnd hm] at h
  rw [hst, deep_points hnd hm]
  exact ⟨rfl, h (by simp)⟩

/-- With another device, a reader gets the points of that device. -/
theorem deep_stray (hnd : names.Nodup) (hname : ∀ m ∈ names, m.length = 3 ∧ NoDot m) (h1 : 65536 < names.length)
    (h2 : names.length ≤ 65537) (hboth : both ∈ names) :
    ∃ s, session deepEnv (deepSchema names) (deepOps true names) = some s
      ∧ series (storedBy (deepSchema names) (deepOps true names) s.grown) (str "b") both = [(1, .INT 1)]
      ∧ readSeries some s.file (str "b") both = some [(5, .INT 7)] := by
  obtain ⟨s, hs, hw, hst⟩ := deep_session (first := true) hnd hname h2
  have hat : (deepSchema names).IndexableAt (str "a") := by
    refine ⟨deep_named hnd hname, deep_isolated hname _, ?_⟩
    intro e he hd
    simp only [deepSchema, List.mem_cons, List.not_mem_nil, or_false] at he
    rcases he with rfl | rfl
    · exact Nat.le_trans (List.length_filter_le _ _) (by simp)
    · exact absurd (show str "b" = str "a" from hd) (by decide)
  have hb : series (storedBy (deepSchema names) (deepOps true names) s.grown) (str "b") both = [(1, .INT 1)] := by
    rw [hst]; exact deep_points hnd hboth
  have h := C33_stray_wrong deepEnvOk hat (deep_isolated hname (str "b")) hs hw
    (by rw [hst]; exact deep_devices hname (List.ne_nil_of_mem hboth)) (by decide) (fun _ _ => rfl)
    (by rw [hst, deep_count hnd hname]; exact h1) (by rw [hst, deep_count hnd hname]; omega)
    (m := both) (by decide) (by rw [hb]; simp)
  refine ⟨s, hs, hb, ?_⟩
  rw [h, hst, deep_first]

end

-- such names exist
theorem deep_names : ∃ names : List Bytes, names.Nodup ∧ (∀ m ∈ names, m.length = 3 ∧ NoDot m) ∧ names.length = 65537
    ∧ both ∈ names := by
  obtain ⟨n, hn⟩ : ∃ n, n = 65537 := ⟨_, rfl⟩
  exact ⟨someNames n, someNames_nodup (by omega), someNames_name (by omega), by rw [names_length, hn], both_mem (by omega)⟩

example : ∃ names s, session deepEnv (deepSchema names) (deepOps false names) = some s ∧ names.length = 65537
    ∧ ∀ m ∈ names, readSeries some s.file (str "b") m ≠ some [(1, .INT 1)] := by
  obtain ⟨names, h1, h2, h3, _⟩ := deep_names
  obtain ⟨s, h5, h6⟩ := deep_lost h1 h2 (by omega) (by omega)
  exact ⟨names, s, h5, h3, fun m hm => (h6 m hm).2⟩

example : ∃ names s, session deepEnv (deepSchema names) (deepOps true names) = some s
    ∧ series (storedBy (deepSchema names) (deepOps true names) s.grown) (str "b") both = [(1, .INT 1)]
    ∧ readSeries some s.file (str "b") both = some [(5, .INT 7)] := by
  obtain ⟨names, h1, h2, h3, h4⟩ := deep_names
  obtain ⟨s, h5, h6, h7⟩ := deep_stray h1 h2 (by omega) (by omega) h4
  exact ⟨names, s, h5, h6, h7⟩

end Demo

end TsFile
