import Verif.Proofs.OrderFree
import Verif.Proofs.CloseAny
import Verif.Props.Flush
import Verif.Props.Structure
import Verif.Props.Bloom
/-! # Closing: C25, C29, C33, C49

See `Spec.Closing` for the vocabulary. -/

namespace TsFile
open Spec

/-! ## C25 -/

/-- **C25**, what holds: if the size of the Bloom filter can be serialised (C27) and no path has the hash -2^31 (C44), a
session whose calls do not abort completes exactly if the paths of the stored points have at most 256 different parts before
their last dots. The footer of the file is then found, and its root node has one entry for each of these parts. If no
measurement name has a dot, they are the devices with points. Missing: more than 256 devices, see `C25_too_many_devices`. -/
theorem C25_devices_partial {env : Env} {unsnap : Bytes → Option Bytes} (he : EnvOk env unsnap) {schema : Schema}
    (hsch : schema.Named) {ops : List Op} {w : Writer} (hn : Writer.new env schema ⟨[], none⟩ = .ok w)
    (hlen : burstsBelow (2 ^ 32) 0 (ops.zip ((w.grown env ops).map (fun n => decide (0 < n)))))
    (hp : .panic ∉ (w.run env ops).2)
    (hsize : env.bloomSize (pathsOf (storedBy schema ops (w.grown env ops))).length < 2 ^ 31)
    (hbits : SizeOk (bloomBits env (pathsOf (storedBy schema ops (w.grown env ops))).length))
    (hhash : HashesOk env (bloomBits env (pathsOf (storedBy schema ops (w.grown env ops))).length)
      (pathsOf (storedBy schema ops (w.grown env ops)))) :
    ((session env schema ops).isSome ↔ (indexDevicesOf (storedBy schema ops (w.grown env ops))).length ≤ 256)
    ∧ (∀ s, session env schema ops = some s → s.Within ops →
      ∃ footer, readFooter s.file = some footer
        ∧ (footer.root.entries.map Entry.name).Perm (indexDevicesOf (storedBy schema ops (w.grown env ops))))
    ∧ ((∀ d ∈ schema, ∀ m ∈ d.2, NoDot m.1) →
      (indexDevicesOf (storedBy schema ops (w.grown env ops))).length
        = (devicesOf (storedBy schema ops (w.grown env ops))).length) := by
  refine ⟨?_, ?_, ?_⟩
  · rw [session_closable he hsch.wf hn hlen hp hsize]
    exact ⟨fun h => h.devices, fun h => ⟨h, hbits, hhash⟩⟩
  · intro s hs hw
    have hg : s.grown = w.grown env ops := by
      rw [session, hn] at hs
      simp only at hs
      rw [if_neg hp] at hs
      cases hc : (w.run env ops).1.close env with
      | none => rw [hc] at hs; simp at hs
      | some w' =>
        rw [hc] at hs
        simp only [Option.some.injEq] at hs
        rw [← hs]
    obtain ⟨c⟩ := session_outlined he hsch hs hw
    obtain ⟨bits, _, hf⟩ := c.layout.readFooter c.fits
    refine ⟨_, hf, ?_⟩
    have := c.layout.rootNames c.ok c.pts
    rw [hg] at this
    simpa [IndexNode.toSpec, IndexEntry.toSpec, Function.comp_def] using this
  · intro hd
    obtain ⟨io, groups, h1, h2, _⟩ := session_end he hsch.wf hn hlen hp
    exact indexDevicesOf_length (stored_noDot h1.ok h2 hd)

/-- **C25** is false: when the paths of the stored points have more than 256 different parts before their last dots, closing
always aborts the program. If no measurement name has a dot, this is the case for more than 256 devices with points. -/
theorem C25_too_many_devices {env : Env} {unsnap : Bytes → Option Bytes} (he : EnvOk env unsnap) {schema : Schema}
    (hsch : schema.WF) {ops : List Op} {w : Writer} (hn : Writer.new env schema ⟨[], none⟩ = .ok w)
    (hlen : burstsBelow (2 ^ 32) 0 (ops.zip ((w.grown env ops).map (fun n => decide (0 < n)))))
    (hmany : 256 < (indexDevicesOf (storedBy schema ops (w.grown env ops))).length
      ∨ ((∀ d ∈ schema, ∀ m ∈ d.2, NoDot m.1) ∧ 256 < (devicesOf (storedBy schema ops (w.grown env ops))).length)) :
    session env schema ops = none := by
  by_cases hp : .panic ∈ (w.run env ops).2
  · rw [session, hn]
    simp only
    rw [if_pos hp]
  · obtain ⟨io, groups, h1, h2, h3⟩ := session_end he hsch hn hlen hp
    have hm : 256 < (indexDevicesOf (storedBy schema ops (w.grown env ops))).length := by
      rcases hmany with hm | ⟨hd, hm⟩
      · exact hm
      · rw [indexDevicesOf_length (stored_noDot h1.ok h2 hd)]
        exact hm
    rw [← Option.not_isSome_iff_eq_none, h3, endFile_many h1 h2 hm]
    simp

namespace Demo

theorem w0_grown : (w0.run env ops).2 = result.results ∧ w0.grown env ops = result.grown := by decide +kernel

theorem hashes : HashesOk env (bloomBits env (pathsOf (storedBy schema ops (w0.grown env ops))).length)
      (pathsOf (storedBy schema ops (w0.grown env ops))) := by
  have : 2 ^ 31 % bloomBits env (pathsOf (storedBy schema ops (w0.grown env ops))).length = 0 := by decide +kernel
  exact fun _ _ _ _ _ => this

example : (session env schema ops).isSome
    ↔ (indexDevicesOf (storedBy schema ops (w0.grown env ops))).length ≤ 256 :=
  (C25_devices_partial envOk indexable.toNamed reached.new (by decide +kernel) (by decide +kernel) (by decide +kernel)
    (by unfold SizeOk; decide +kernel) hashes).1

/-- One point for each of the given series. -/
def pairOps (l : List (Bytes × Bytes)) : List Op := l.map (fun p => .write p.1 p.2 1 (.INT 1))

/-- The points. -/
def pairRecs (l : List (Bytes × Bytes)) : List Rec := l.map (fun p => ⟨p.1, p.2, 1, .INT 1⟩)

/-- The series are INT32 series of the schema. -/
def PairsIn (schema : Schema) (l : List (Bytes × Bytes)) : Prop :=
  ∀ p ∈ l, ∃ ms, look p.1 schema = some ms ∧ look p.2 ms = some ⟨.INT32, .PLAIN, .UNCOMPRESSED⟩

theorem pairs_run (schema : Schema) (l : List (Bytes × Bytes)) (flags : List Bool) (hlen : flags.length = l.length)
    (hsub : PairsIn schema l) (hnd : l.Nodup) (a : AState) (hlast : ∀ p ∈ l, a.last p.1 p.2 = -1)
    (hcnt : a.pending ≠ [] → a.counted ≠ 0) :
    (a.run schema ((pairOps l).zip flags)).2 = List.replicate l.length (.ok ())
    ∧ (a.run schema ((pairOps l).zip flags)).1.flush.stored = a.stored ++ a.pending ++ pairRecs l := by
  induction l generalizing flags a with
  | nil =>
    cases flags with
    | cons f fl => simp at hlen
    | nil =>
      refine ⟨rfl, ?_⟩
      simp only [pairOps, List.map_nil, List.zip_nil_left, AState.run, pairRecs, List.append_nil, AState.flush]
      by_cases hc : a.counted = 0
      · have : a.pending = [] := by
          by_cases hp : a.pending = []
          · exact hp
          · exact absurd hc (hcnt hp)
        rw [if_pos hc, this, List.append_nil]
      · rw [if_neg hc]
  | cons p l ih =>
    obtain ⟨d, m⟩ := p
    cases flags with
    | nil => simp at hlen
    | cons f fl =>
      obtain ⟨ms, hl, hlm⟩ := hsub (d, m) (by simp)
      simp only at hl hlm
      have hlt : ¬ ((1 : W64).toInt ≤ (a.last d m).toInt) := by
        rw [hlast (d, m) (by simp)]; decide
      obtain ⟨hd1, hd2⟩ := List.nodup_cons.1 hnd
      have hexec : a.exec schema (.write d m 1 (.INT 1))
          = ({ a with pending := a.pending ++ [⟨d, m, 1, .INT 1⟩],
                      last := fun d' m' => if d' = d ∧ m' = m then 1 else a.last d' m',
                      counted := a.counted + 1 }, .ok ()) := by
        rw [AState.exec, hl]
        simp only [AState.put, if_neg hlt, hlm]
        rfl
      simp only [pairOps, List.map_cons, List.zip_cons_cons, AState.run, AState.step, hexec, List.length_cons,
        List.replicate_succ, List.cons.injEq, true_and, pairRecs]
      have hne : ∀ q ∈ l, (if q.1 = d ∧ q.2 = m then (1 : W64) else a.last q.1 q.2) = -1 := by
        intro q hq
        rw [if_neg (by rintro ⟨e1, e2⟩; exact hd1 (by rw [← e1, ← e2]; exact hq))]
        exact hlast q (by simp [hq])
      cases f with
      | false =>
        obtain ⟨h1, h2⟩ := ih fl (by simpa using hlen) (fun d hd => hsub d (by simp [hd])) hd2
          ⟨a.stored, a.pending ++ [⟨d, m, 1, .INT 1⟩],
            fun d' m' => if d' = d ∧ m' = m then 1 else a.last d' m', a.counted + 1, a.bursts⟩ hne (by simp)
        refine ⟨h1, ?_⟩
        refine h2.trans ?_
        simp [pairRecs]
      | true =>
        simp only [AState.flush, if_true, Nat.add_eq_zero_iff, Nat.one_ne_zero, and_false, if_false]
        obtain ⟨h1, h2⟩ := ih fl (by simpa using hlen) (fun d hd => hsub d (by simp [hd])) hd2
          ⟨a.stored ++ (a.pending ++ [⟨d, m, 1, .INT 1⟩]), [], fun _ _ => -1, 0,
            a.bursts ++ [a.pending ++ [⟨d, m, 1, .INT 1⟩]]⟩ (fun _ _ => rfl) (by simp)
        refine ⟨h1, ?_⟩
        refine h2.trans ?_
        simp [pairRecs]

theorem pair_bursts (limit : Nat) (l : List (Bytes × Bytes)) (flags : List Bool) (n : Nat) (h : n + l.length < limit) :
    burstsBelow limit n ((pairOps l).zip flags) := by
  induction l generalizing flags n with
  | nil => simp [pairOps, burstsBelow]
  | cons d l ih =>
    cases flags with
    | nil => simp [burstsBelow]
    | cons f fl =>
      simp only [List.length_cons] at h
      simp only [pairOps, List.map_cons, List.zip_cons_cons, burstsBelow, Op.recs, List.length_singleton]
      refine ⟨by omega, ih _ _ ?_⟩
      cases f <;> simp <;> omega

theorem grown_length (env : Env) (w : Writer) (ops : List Op) : (w.grown env ops).length = ops.length := by
  induction ops generalizing w with
  | nil => rfl
  | cons op ops ih => simp [Writer.grown, ih]

end Demo

/-- **C25** is false, for any schema and any series of it whose paths have more than 256 different parts before their last
dots: with a point for each series, every call succeeds and closing aborts the program. -/
theorem C25_wide_wrong (env : Env) (unsnap : Bytes → Option Bytes) (he : EnvOk env unsnap) {schema : Schema}
    (hsch : schema.WF) (hsize : schema.size ≤ 1000000) (l : List (Bytes × Bytes)) (hnd : l.Nodup)
    (hin : Demo.PairsIn schema l) (hmany : 256 < (indexDevicesOf (Demo.pairRecs l)).length) (hlim : l.length ≤ 1000000) :
    ∃ w, Writer.new env schema ⟨[], none⟩ = .ok w
      ∧ (w.run env (Demo.pairOps l)).2 = List.replicate l.length (.ok ())
      ∧ (w.run env (Demo.pairOps l)).1.close env = none := by
  have hnew : ∃ w, Writer.new env schema ⟨[], none⟩ = .ok w := ⟨_, rfl⟩
  obtain ⟨w, hn⟩ := hnew
  have hfl : ((w.grown env (Demo.pairOps l)).map (fun n => decide (0 < n))).length = l.length := by
    rw [List.length_map, Demo.grown_length, Demo.pairOps, List.length_map]
  obtain ⟨hres, hst⟩ := Demo.pairs_run schema l _ hfl hin hnd AState.init (fun _ _ => rfl) (by simp [AState.init])
  have hnp : .panic ∉ (w.run env (Demo.pairOps l)).2 := by
    refine C49_calls he.snappy hsch hn (L := 180000000) (by omega) (Demo.pair_bursts _ _ _ _ (by omega)) ?_
    intro op hop
    obtain ⟨p, hp, rfl⟩ := List.mem_map.1 hop
    refine ⟨by simp [Op.recs], ?_⟩
    intro r hr ms s h1 h2
    simp only [Op.recs, List.mem_singleton] at hr
    subst hr
    obtain ⟨ms', h3, h4⟩ := hin p hp
    simp only at h1 h2
    rw [h3] at h1
    cases h1
    rw [h4] at h2
    cases h2
    exact ⟨rfl, rfl⟩
  have hb : burstsBelow (2 ^ 32) 0 ((Demo.pairOps l).zip ((w.grown env (Demo.pairOps l)).map
      (fun n => decide (0 < n)))) := Demo.pair_bursts _ _ _ _ (by omega)
  obtain ⟨_, hr, _⟩ := sim_run he.snappy hsch _ (sim_new unsnap hsch hn) 0 (by simp [AState.init]) hb hnp
  refine ⟨w, hn, hr.symm.trans hres, ?_⟩
  have hnone := C25_too_many_devices he hsch hn hb (.inl (by
    rw [storedBy, hst]
    simpa only [AState.init, List.nil_append] using hmany))
  rw [session, hn] at hnone
  simp only at hnone
  rw [if_neg hnp] at hnone
  cases hc : (w.run env (Demo.pairOps l)).1.close env with
  | none => rfl
  | some w' => rw [hc] at hnone; simp at hnone

namespace Demo

/-- 257 names. -/
def names257 : List Bytes := (List.range 257).map (fun i => [UInt8.ofNat (i / 16 + 65), UInt8.ofNat (i % 16 + 65)])

/-- 257 devices with one measurement each. -/
def wideSchema : Schema := names257.map (fun d => (d, [(str "s", ⟨.INT32, .PLAIN, .UNCOMPRESSED⟩)]))

/-- One device with 257 measurements with dots in their names. -/
def dottedSchema : Schema := [(str "d", names257.map (fun m => (m ++ str ".s", ⟨.INT32, .PLAIN, .UNCOMPRESSED⟩)))]

theorem pairsIn_of {schema : Schema} {l : List (Bytes × Bytes)} (h : l.all (fun p => match look p.1 schema with
    | none => false
    | some ms => decide (look p.2 ms = some ⟨.INT32, .PLAIN, .UNCOMPRESSED⟩)) = true) : PairsIn schema l := by
  intro p hp
  have := List.all_eq_true.1 h p hp
  split at this
  · simp at this
  · next ms hms => exact ⟨ms, hms, of_decide_eq_true this⟩

/-- The series of `wideSchema`. -/
def widePairs : List (Bytes × Bytes) := names257.map (fun d => (d, str "s"))

/-- The series of `dottedSchema`. -/
def dottedPairs : List (Bytes × Bytes) := names257.map (fun m => (str "d", m ++ str ".s"))

theorem names_nodup : names257.Nodup := by
  refine List.Nodup.map_on ?_ List.nodup_range
  intro i hi j hj h
  rw [List.mem_range] at hi hj
  simp only [List.cons.injEq, and_true] at h
  have h1 := congrArg UInt8.toNat h.1
  have h2 := congrArg UInt8.toNat h.2
  simp only [UInt8.toNat_ofNat'] at h1 h2
  omega

theorem indexDevices_nodup {l : List (Bytes × Bytes)} (h : (l.map (fun p => beforeLastDot (p.1 ++ [0x2e] ++ p.2))).Nodup) :
    (indexDevicesOf (pairRecs l)).length = l.length := by
  have hp : (pairRecs l).map (fun r => r.device ++ [0x2e] ++ r.measurement) = l.map (fun p => p.1 ++ [0x2e] ++ p.2) := by
    simp [pairRecs, Function.comp_def]
  have h1 : ((l.map (fun p => p.1 ++ [0x2e] ++ p.2)).map beforeLastDot).Nodup := by
    rw [List.map_map]
    exact h
  rw [indexDevicesOf, pathsOf, hp, (List.Nodup.of_map _ h1).dedup, h1.dedup, List.length_map, List.length_map]

theorem wide_length : widePairs.length = 257 := by simp [widePairs, names257]
theorem wide_many : 256 < (indexDevicesOf (pairRecs widePairs)).length := by
  rw [indexDevices_nodup, wide_length]
  · omega
  · rw [widePairs, List.map_map]
    refine List.Nodup.map_on ?_ names_nodup
    intro a _ b _ h
    simp only [Function.comp_apply] at h
    rwa [beforeLastDot_path _ _ (by decide), beforeLastDot_path _ _ (by decide)] at h
theorem wide_wf' : wideSchema.WF := by
  refine ⟨?_, ?_⟩
  · rw [wideSchema, List.map_map]
    exact List.Nodup.map_on (fun a _ b _ h => h) names_nodup
  · intro d hd
    obtain ⟨x, _, rfl⟩ := List.mem_map.1 hd
    simp
theorem wide_size : wideSchema.size ≤ 1000000 := by decide +kernel
theorem wide_nodup : widePairs.Nodup := List.Nodup.map_on (fun a _ b _ h => (Prod.mk.inj h).1) names_nodup
theorem wide_in : PairsIn wideSchema widePairs := pairsIn_of (by decide +kernel)
theorem dotted_length : dottedPairs.length = 257 := by simp [dottedPairs, names257]
theorem dotted_many : 256 < (indexDevicesOf (pairRecs dottedPairs)).length := by
  rw [indexDevices_nodup, dotted_length]
  · omega
  · rw [dottedPairs, List.map_map]
    refine List.Nodup.map_on ?_ names_nodup
    intro a _ b _ h
    simp only [Function.comp_apply] at h
    have e : ∀ x : Bytes, str "d" ++ [0x2e] ++ (x ++ str ".s") = (str "d" ++ [0x2e] ++ x) ++ [0x2e] ++ str "s" := by
      intro x
      have : str ".s" = [0x2e] ++ str "s" := by decide
      rw [this]
      simp
    rw [e, e, beforeLastDot_path _ _ (by decide), beforeLastDot_path _ _ (by decide)] at h
    exact List.append_cancel_left h
theorem dotted_wf : dottedSchema.WF := by
  refine ⟨by simp [dottedSchema], ?_⟩
  intro d hd
  rw [List.mem_singleton.1 hd, List.map_map]
  exact List.Nodup.map_on (fun a _ b _ h => List.append_cancel_right h) names_nodup
theorem dotted_size : dottedSchema.size ≤ 1000000 := by decide +kernel
theorem dotted_nodup : dottedPairs.Nodup :=
  List.Nodup.map_on (fun a _ b _ h => List.append_cancel_right (Prod.mk.inj h).2) names_nodup
theorem dotted_in : PairsIn dottedSchema dottedPairs := pairsIn_of (by decide +kernel)

example : ∃ w, Writer.new env wideSchema ⟨[], none⟩ = .ok w
    ∧ (w.run env (pairOps widePairs)).2 = List.replicate widePairs.length (.ok ())
    ∧ (w.run env (pairOps widePairs)).1.close env = none :=
  C25_wide_wrong env some envOk wide_wf' wide_size _ wide_nodup wide_in wide_many
    (by rw [wide_length]; omega)

end Demo

/-- **C25** is false for a single device: with 257 measurements whose names have different parts before their dots, every
call succeeds, and closing aborts the program. -/
theorem C25_dotted_wrong : ∃ w, Writer.new Demo.env Demo.dottedSchema ⟨[], none⟩ = .ok w
    ∧ (w.run Demo.env (Demo.pairOps Demo.dottedPairs)).2 = List.replicate Demo.dottedPairs.length (.ok ())
    ∧ (w.run Demo.env (Demo.pairOps Demo.dottedPairs)).1.close Demo.env = none :=
  C25_wide_wrong Demo.env some Demo.envOk Demo.dotted_wf Demo.dotted_size _ Demo.dotted_nodup Demo.dotted_in
    Demo.dotted_many (by rw [Demo.dotted_length]; omega)

/-! ## C49 -/

/-- **C49**, what holds: a session of calls that hand over at least one point each, with values of the types of their
series, completes (no abort, in the calls or in `close`) exactly if `Closable` holds of the stored points: at most 256
parts of paths before the last dot (devices, if no measurement name has a dot), a Bloom filter size that can be serialised, no path with hash -2^31. Missing: the stored points that are not
`Closable`; closing aborts the program for every one of them. -/
theorem C49_session_partial {env : Env} {unsnap : Bytes → Option Bytes} (he : EnvOk env unsnap) {schema : Schema}
    (hsch : schema.WF) {ops : List Op} {w : Writer} (hn : Writer.new env schema ⟨[], none⟩ = .ok w)
    {L : Nat} (hL : 22 * L + 120 * schema.size ≤ 2 ^ 32) (hlen : burstsBelow L 0 (ops.zip ((w.grown env ops).map (fun n => decide (0 < n)))))
    (htyp : ∀ op ∈ ops, op.recs ≠ [] ∧ Op.Typed schema op)
    (hsize : env.bloomSize (pathsOf (storedBy schema ops (w.grown env ops))).length < 2 ^ 31) :
    (session env schema ops).isSome ↔ Closable env (storedBy schema ops (w.grown env ops)) :=
  session_closable he hsch hn (burstsBelow_mono (by omega) _ _ hlen) (C49_calls he.snappy hsch hn hL hlen htyp) hsize

example : (session Demo.env Demo.schema Demo.ops).isSome
    ↔ Closable Demo.env (storedBy Demo.schema Demo.ops (Demo.w0.grown Demo.env Demo.ops)) :=
  C49_session_partial Demo.envOk Demo.indexable.wf Demo.reached.new (L := 190000000) (by decide +kernel) (by decide +kernel) Demo.typed (by decide +kernel)

/-! ## C29 -/

/-- **C29** is false: two iteration orders of a hash map, two different files of the same history. -/
theorem C29_order_wrong : ∃ s s', session Demo.env Demo.schema Demo.ops = some s
    ∧ session Demo.revEnv Demo.schema Demo.ops = some s' ∧ s.file ≠ s'.file := by
  have h : (session Demo.env Demo.schema Demo.ops).any (fun s =>
      (session Demo.revEnv Demo.schema Demo.ops).any (fun s' => decide (s.file ≠ s'.file))) = true := by decide +kernel
  obtain ⟨s, hs, h⟩ := (Option.any_eq_true _ _).1 h
  obtain ⟨s', hs', h⟩ := (Option.any_eq_true _ _).1 h
  exact ⟨s, s', hs, hs', of_decide_eq_true h⟩

/-- **C29**, what holds for any two iteration orders `o`, `o'` of the hash map: the answers of the calls, the times of the
automatic flushes, the length of the file and all bytes up to the end of the data part are the same, and so are the points
found by a scan for each series, and the points read through the index for each series of an isolated device with at most
65536 measurements; one session completes if and only if the other does. If the paths of the stored points have at most one
part before their last dots (without dots in measurement names: at most one device), the files are identical. Missing:
identical index bytes with several devices, see `C29_order_wrong`. -/
theorem C29_order_partial {env : Env} {unsnap : Bytes → Option Bytes} (he : EnvOk env unsnap) {schema : Schema}
    (hsch : schema.Named) {ops : List Op} {w : Writer} (hn : Writer.new env schema ⟨[], none⟩ = .ok w)
    (hlen : burstsBelow (2 ^ 32) 0 (ops.zip ((w.grown env ops).map (fun n => decide (0 < n)))))
    {o o' : List (Bytes × IndexNode) → List (Bytes × IndexNode)} (ho : ∀ l, (o l).Perm l) (ho' : ∀ l, (o' l).Perm l) :
    ((session { env with hashOrder := o } schema ops).isSome ↔ (session { env with hashOrder := o' } schema ops).isSome)
    ∧ ∀ s s', session { env with hashOrder := o } schema ops = some s →
      session { env with hashOrder := o' } schema ops = some s' →
      s.results = s'.results ∧ s.grown = s'.grown ∧ s.file.length = s'.file.length
      ∧ (s.Within ops → ∃ footer footer' items items', readFooter s.file = some footer ∧ readFooter s'.file = some footer'
          ∧ footer.metaOffset = footer'.metaOffset
          ∧ s.file.take footer.metaOffset = s'.file.take footer'.metaOffset
          ∧ (footer.root.entries.map Entry.name).Perm (footer'.root.entries.map Entry.name)
          ∧ scan unsnap s.file = some (items, footer.metaOffset) ∧ scan unsnap s'.file = some (items', footer'.metaOffset)
          ∧ (∀ d m, scanPoints d m none items = scanPoints d m none items')
          ∧ ∀ d m, schema.IndexableAt d → readSeries unsnap s.file d m = readSeries unsnap s'.file d m)
      ∧ ((indexDevicesOf (storedBy schema ops s.grown)).length ≤ 1 → s = s') := by
  by_cases hp : .panic ∈ (w.run env ops).2
  · have : ∀ o, session (env.reorder o) schema ops = none := by
      intro o
      rw [session, Reorder.writerNew, hn]
      simp only [Reorder.run]
      rw [if_pos hp]
    have h1 := this o
    have h2 := this o'
    simp only [Env.reorder] at h1 h2
    simp [h1, h2]
  · obtain ⟨groups, tsm, map, bloom?, hmlen, ⟨w2, hfl2, hdata⟩, hses⟩ := session_reorder he hsch.wf hn hlen hp
    have h1 := hses o
    have h2 := hses o'
    have heo : EnvOk (env.reorder o) unsnap := ⟨he.snappy, ho⟩
    have heo' : EnvOk (env.reorder o') unsnap := ⟨he.snappy, ho'⟩
    change ((session (env.reorder o) schema ops).isSome ↔ (session (env.reorder o') schema ops).isSome)
      ∧ ∀ s s', session (env.reorder o) schema ops = some s → session (env.reorder o') schema ops = some s' → _
    refine ⟨?_, ?_⟩
    · rw [h1, h2]
      by_cases hf : map.length ≤ 256
      · rw [if_pos hf, if_pos hf]; cases bloom? <;> simp
      · rw [if_neg hf, if_neg hf]
    · intro s s' hs hs'
      by_cases hf : map.length ≤ 256
      · rw [if_pos hf] at h1 h2
        cases hb : bloom? with
        | none => rw [h1, hb] at hs; simp at hs
        | some bloom =>
          have hs0 := hs
          have hs0' := hs'
          rw [h1, hb] at hs
          rw [h2, hb] at hs'
          simp only [Option.map_some, Option.some.injEq] at hs hs'
          have hperm := (ho map).trans (ho' map).symm
          have hl := closedBytes_perm env groups tsm bloom hperm
          have hgr : s.grown = s'.grown := by rw [← hs, ← hs']
          have hfl : s.file.length = s'.file.length := by rw [← hs, ← hs']; exact hl
          have hcl : s.closing = s'.closing := by rw [← hs, ← hs']; simp only [hl]
          refine ⟨by rw [← hs, ← hs'], hgr, hfl, ?_, ?_⟩
          · intro hw
            have hw' : s'.Within ops := ⟨hgr ▸ hw.bursts, hgr ▸ hw.calls, hcl ▸ hw.closing, hfl ▸ hw.file⟩
            obtain ⟨c⟩ := session_outlined heo hsch hs0 hw
            obtain ⟨c'⟩ := session_outlined heo' hsch hs0' hw'
            obtain ⟨bits, _, hft⟩ := c.layout.readFooter c.fits
            obtain ⟨bits', _, hft'⟩ := c'.layout.readFooter c'.fits
            have hd : w2.io.out.bytes = fileBytes (env.reorder o) c.groups :=
              c.flushed w w2 none (by rw [Reorder.writerNew]; exact hn) (by rw [Reorder.run, Reorder.flushAll]; exact hfl2)
            have hd' : w2.io.out.bytes = fileBytes (env.reorder o') c'.groups :=
              c'.flushed w w2 none (by rw [Reorder.writerNew]; exact hn) (by rw [Reorder.run, Reorder.flushAll]; exact hfl2)
            obtain ⟨items, f1, hi1, hi2, _, hi3⟩ := C02_scan heo hsch hs0 hw
            obtain ⟨items', f2, hi1', hi2', _, hi3'⟩ := C02_scan heo' hsch hs0' hw'
            rw [hft] at hi1
            rw [hft'] at hi1'
            cases hi1
            cases hi1'
            refine ⟨_, _, items, items', hft, hft', ?_, ?_, ?_, hi2, hi2', ?_, ?_⟩
            · simp only
              rw [← hd, ← hd']
            · simp only
              have ht : s.file.take (fileBytes (env.reorder o) c.groups).length = w2.io.out.bytes := by
                conv_lhs => rw [c.layout.bytes]
                rw [List.take_left, hd]
              have ht' : s'.file.take (fileBytes (env.reorder o') c'.groups).length = w2.io.out.bytes := by
                conv_lhs => rw [c'.layout.bytes]
                rw [List.take_left, hd']
              rw [ht, ht']
            · have hr := c.layout.rootNames c.ok c.pts
              have hr' := c'.layout.rootNames c'.ok c'.pts
              have hmap : ∀ n : IndexNode, n.toSpec.entries.map Entry.name = n.children.map IndexEntry.name := by
                intro n
                show (n.children.map IndexEntry.toSpec).map Entry.name = _
                rw [List.map_map]
                rfl
              simp only [hmap]
              rw [← hgr] at hr'
              exact hr.trans hr'.symm
            · intro d m
              rw [hi3, hi3', hgr]
            · intro d m hat
              rw [C01_device_partial heo hat hs0 hw, C01_device_partial heo' hat hs0' hw', hgr]
          · intro hd
            have hg : s.grown = w.grown env ops := by rw [← hs]
            rw [hg, ← hmlen] at hd
            have hsingle : ∀ q : List (Bytes × IndexNode) → List (Bytes × IndexNode), (∀ l, (q l).Perm l) → q map = map := by
              intro q hq
              have hp := hq map
              match hdn : map with
              | [] => exact hp.eq_nil
              | [x] => exact List.perm_singleton.1 hp
              | x :: y :: r => simp at hd
            rw [← hs, ← hs', hsingle o ho, hsingle o' ho']
      · rw [if_neg hf] at h1
        rw [h1] at hs
        simp at hs

example := C29_order_partial Demo.envOk Demo.indexable.toNamed (ops := Demo.ops) Demo.reached.new (by decide +kernel)
  (o := id) (o' := List.reverse)
  (fun l => List.Perm.refl l) (fun l => List.reverse_perm l)

-- with a single device
example : (session Demo.env Demo.schema2 Demo.ops2) = session Demo.revEnv Demo.schema2 Demo.ops2 := by decide +kernel

/-! ## C33 -/

/-- **C33**, what holds: in a schema whose devices have at most 65536 measurements each, every series with points is found
through the index. Missing: more measurements, see `C33_deep_index_wrong`. -/
theorem C33_found_partial {env : Env} {unsnap : Bytes → Option Bytes} (he : EnvOk env unsnap) {schema : Schema}
    (hsch : schema.Indexable) {ops : List Op} {s : Session} (hs : session env schema ops = some s) (hw : s.Within ops)
    (d m : Bytes) (hne : series (storedBy schema ops s.grown) d m ≠ []) :
    ∃ sm, readSeriesMeta s.file d m = some (some sm) ∧ sm.measurement = m
      ∧ (readChunks unsnap s.file m sm.chunks).map (fun cs => cs.flatMap Chunk.points)
        = some (series (storedBy schema ops s.grown) d m) := by
  have h := (C01_index_read_back_partial he hsch hs hw).2 d m
  rw [readSeries] at h
  cases hm : readSeriesMeta s.file d m with
  | none => rw [hm] at h; simp at h
  | some x =>
    cases x with
    | none =>
      rw [hm] at h
      simp only [Option.some.injEq] at h
      exact absurd h.symm hne
    | some sm =>
      rw [hm] at h
      refine ⟨sm, rfl, ?_, h⟩
      rw [readSeriesMeta] at hm
      simp only [bind, Option.bind_eq_some_iff] at hm
      obtain ⟨footer, _, hm⟩ := hm
      split at hm
      · split at hm
        · simp at hm
        · simp only [Option.bind_eq_some_iff] at hm
          obtain ⟨node, _, loc, _, hm⟩ := hm
          split at hm
          · simp at hm
          · simp only [Option.bind_eq_some_iff, Option.some.injEq] at hm
            obtain ⟨metas, _, hm⟩ := hm
            have := List.find?_some hm
            exact of_decide_eq_true this
      · simp at hm

example : ∃ sm, readSeriesMeta Demo.result.file (str "root.sg.d1") (str "s1") = some (some sm) ∧ sm.measurement = str "s1" := by
  obtain ⟨sm, h1, h2, _⟩ := C33_found_partial Demo.envOk Demo.indexable Demo.session_eq Demo.within _ _
    (by decide +kernel : series (storedBy Demo.schema Demo.ops Demo.result.grown) (str "root.sg.d1") (str "s1") ≠ [])
  exact ⟨sm, h1, h2⟩

/-- **C33** is false for a device with more than 65536 measurements: the index that `close` writes
for a file with this one device does not lead to any measurement. A reader that starts from the entry of the device finds
an inner node, all of whose entries point to the inner node itself. -/
theorem C33_deep_index_wrong (env : Env) (ho : HashOrderOk env) (d : Bytes) (l : List TimeSeriesMetadata) (b : Bytes)
    (hl : 65536 < l.length) (hnames : ∀ t ∈ l, t.measurementId.length < 2 ^ 31)
    (hpos : (b ++ l.flatMap (TimeSeriesMetadata.serialize env)).length < 2 ^ 64) :
    ∃ out root e node, constructMetadataIndex env [(d, l)] ⟨b, none⟩ = some (out, root) ∧ root.children = [e] ∧ e.name = d
      ∧ ∀ rest, readNode (out.bytes ++ rest) e.offset = some node
        ∧ ∀ m fuel r, locate (out.bytes ++ rest) m fuel node ≠ some (some r) := by
  obtain ⟨es, h1, h2, h3⟩ := deviceIndex_deep env (fun n => n.length < 2 ^ 31) b l hnames hl
  generalize hP : b ++ l.flatMap (TimeSeriesMetadata.serialize env) = P at h1 h3 hpos
  have hne : l.isEmpty = false := by cases l with
    | nil => simp at hl
    | cons => rfl
  have hord : env.hashOrder [(d, (⟨es, P.length, .internalMeasurement⟩ : IndexNode))]
      = [(d, ⟨es, P.length, .internalMeasurement⟩)] := List.perm_singleton.1 (ho _)
  have hread : ∀ rest, readNode (P ++ (IndexNode.serialize ⟨es, P.length, .internalMeasurement⟩) ++ rest) P.length
      = some (IndexNode.toSpec ⟨es, P.length, .internalMeasurement⟩) := by
    intro rest
    rw [readNode, List.append_assoc, List.drop_left, pNode_serialize]
    · rfl
    · simp only; omega
    · intro e he
      exact ⟨(h3 e he).1, by rw [(h3 e he).2]; exact hpos⟩
    · exact hpos
  refine ⟨⟨P ++ IndexNode.serialize ⟨es, P.length, .internalMeasurement⟩, none⟩,
    ⟨[⟨d, P.length⟩], (P ++ IndexNode.serialize ⟨es, P.length, .internalMeasurement⟩).length, .leafDevice⟩,
    ⟨d, P.length⟩, IndexNode.toSpec ⟨es, P.length, .internalMeasurement⟩, ?_, rfl, rfl, fun rest => ⟨hread rest, ?_⟩⟩
  · rw [constructMetadataIndex]
    simp only [devicesLoop, hne, Bool.false_eq_true, if_false, h1]
    rw [if_pos (by simp [maxDegree])]
    simp only [hord, writeDeviceNodes, Sink.write, Sink.pos]
  · intro m fuel r
    refine locate_stuck _ m _ P.length rfl ?_ (hread rest) fuel r
    intro e he
    obtain ⟨e', he', rfl⟩ := List.mem_map.1 he
    exact (h3 e' he').2

example := C33_deep_index_wrong Demo.env Demo.envOk.order (str "d")
  (List.replicate 65537 (TimeSeriesMetadata.mk 0 0 (str "s") .INT32 (Statistics.new Demo.env .INT32) [])) []
  (by rw [List.length_replicate]; omega)
  (fun t ht => by rw [List.eq_of_mem_replicate ht]; decide)
  (by
    have : ∀ n, ((List.replicate n (TimeSeriesMetadata.mk 0 0 (str "s") .INT32 (Statistics.new Demo.env .INT32) [])).flatMap
        (TimeSeriesMetadata.serialize Demo.env)).length = n * (TimeSeriesMetadata.serialize Demo.env
          (TimeSeriesMetadata.mk 0 0 (str "s") .INT32 (Statistics.new Demo.env .INT32) [])).length := by
      intro n
      simp
    rw [List.nil_append, this]
    decide +kernel)

end TsFile
