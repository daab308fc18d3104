import Verif.Proofs.Producers
import Verif.Props.Reference
import Verif.Props.Restart
import Verif.Props.Limits
/-! # C96: producers that share a writer

`Spec/Producers.lean` says what a schedule is. The writer is not shared between threads by the crate (it is not `Send`); the calls reach it
one after the other, and the schedule is their order. -/

namespace TsFile
open Spec Producers

/-! ## Lemmas -/

theorem zip_quiet : ∀ (ops : List Op) (grown : List Nat), grown.length = ops.length → growths grown = 0 →
    ops.zip (grown.map (fun n => decide (0 < n))) = ops.map (fun op => (op, false))
  | [], _, _, _ => rfl
  | op :: ops, [], h, _ => by cases h
  | op :: ops, n :: grown, h, hg => by
    have hn : n = 0 := by
      by_contra hne
      rw [growths, List.filter_cons, if_pos (by simpa using Nat.pos_of_ne_zero hne)] at hg
      cases hg
    subst hn
    rw [List.map_cons, List.zip_cons_cons, List.map_cons, zip_quiet ops grown (Nat.succ.inj h) (by
      rw [growths, List.filter_cons, if_neg (by simp)] at hg
      exact hg)]
    simp

/-- Short histories: no flush, so the machine runs without one. -/
theorem quiet_writer {env : Env} {unsnap : Bytes → Option Bytes} (hsn : SnappyOk env unsnap) {schema : Schema} (hwf : schema.WF)
    {ops : List Op} {w : Writer} (hn : Writer.new env schema ⟨[], none⟩ = .ok w)
    (htyp : ∀ op ∈ ops, op.recs ≠ [] ∧ Op.Typed schema op) (hlen : handed ops + 6 * schema.size ≤ 6100805) :
    .panic ∉ (w.run env ops).2 ∧ (w.run env ops).2 = (quiet schema AState.init ops).2
    ∧ storedBy schema ops (w.grown env ops) = storedQuiet schema ops := by
  have hnp := C49_calls hsn hwf hn (L := handed ops + 1) (by omega) (handed_bursts _ (by omega)) htyp
  have hb : burstsBelow (2 ^ 32) 0 (ops.zip ((w.grown env ops).map (fun n => decide (0 < n)))) := bursts_handed _ _ (by omega)
  have h1 := C66_rare hsn hwf ⟨hn, rfl, hnp, hb⟩
  have h0 : growths (w.grown env ops) = 0 := by
    by_contra hne
    have : 1 * (6100806 - 6 * schema.size) ≤ growths (w.grown env ops) * (6100806 - 6 * schema.size) :=
      Nat.mul_le_mul_right _ (Nat.pos_of_ne_zero hne)
    omega
  have hz := zip_quiet ops (w.grown env ops) (run_length env ops w).2 h0
  obtain ⟨_, hr, _⟩ := sim_run hsn hwf ops (sim_new unsnap hwf hn) 0 (by simp [AState.init]) hb hnp
  rw [hz] at hr
  refine ⟨hnp, hr.symm, ?_⟩
  rw [storedBy, hz]
  rfl

theorem handed_callsOf (i : Nat) (t : Turns) : handed (callsOf i t) ≤ handed (allCalls t) := by
  have hcons : ∀ (op : Op) (l : List Op), handed (op :: l) = op.recs.length + handed l := fun _ _ => by simp [handed]
  induction t with
  | nil => exact Nat.le_refl _
  | cons e t ih =>
    obtain ⟨j, op⟩ := e
    rw [callsOf_cons, show allCalls ((j, op) :: t) = op :: allCalls t from rfl, hcons]
    split
    · rw [hcons]; omega
    · omega

theorem closable_series {env : Env} {l l' : List Rec} (h : ∀ d m, series l d m = series l' d m) (hc : Closable env l) : Closable env l' := by
  have hmem : ∀ l l' : List Rec, (∀ d m, series l d m = series l' d m) → ∀ r ∈ l, ∃ r' ∈ l', r'.device = r.device ∧ r'.measurement = r.measurement := by
    intro l l' h r hr
    have h1 := series_ne_nil.2 ⟨r, hr, rfl, rfl⟩
    rw [h] at h1
    exact series_ne_nil.1 h1
  have hsub : ∀ l l' : List Rec, (∀ d m, series l d m = series l' d m) → pathsOf l ⊆ pathsOf l' := by
    intro l l' h p hp
    rw [pathsOf, List.mem_dedup, List.mem_map] at hp ⊢
    obtain ⟨r, hr, rfl⟩ := hp
    obtain ⟨r', hr', e1, e2⟩ := hmem l l' h r hr
    exact ⟨r', hr', by rw [e1, e2]⟩
  have hp : (pathsOf l').Perm (pathsOf l) :=
    (List.perm_ext_iff_of_nodup (List.nodup_dedup _) (List.nodup_dedup _)).2
      (fun p => ⟨fun x => hsub l' l (fun d m => (h d m).symm) x, fun x => hsub l l' h x⟩)
  obtain ⟨h1, h2, h3⟩ := hc
  refine ⟨?_, ?_, ?_⟩
  · rw [indexDevicesOf, ((hp.map beforeLastDot).dedup).length_eq]
    exact h1
  · rw [hp.length_eq]; exact h2
  · rw [hp.length_eq]
    intro p hpm
    exact h3 p (hp.mem_iff.1 hpm)

/-! ## C96 -/

/-- **C96** (1), partial. If each series has one producer, every producer gets the answers that it would get if it had the writer alone,
whatever the schedule is, also for calls that fail. Missing: more than six million points (`C96_long_wrong`), producers of the same
series (`C96_shared_wrong`), values of other types than that of the series (the program panics, C43). -/
theorem C96_answers_partial {env : Env} {unsnap : Bytes → Option Bytes} (hsn : SnappyOk env unsnap) {schema : Schema} (hwf : schema.WF)
    {w : Writer} (hn : Writer.new env schema ⟨[], none⟩ = .ok w) {t : Turns} {owner : Bytes → Bytes → Nat} (ho : OneOwner owner t)
    (htyp : ∀ op ∈ allCalls t, op.recs ≠ [] ∧ Op.Typed schema op) (hlen : handed (allCalls t) + 6 * schema.size ≤ 6100805) (i : Nat) :
    answersOf i t (w.run env (allCalls t)).2 = (w.run env (callsOf i t)).2 := by
  have hi := handed_callsOf i t
  rw [(quiet_writer hsn hwf hn htyp hlen).2.1,
    (quiet_writer hsn hwf hn (fun op h => htyp op ((callsOf_sublist i t).subset h)) (by omega)).2.1]
  exact (rel_run t (rel_init owner) ho).2 i

/-- **C96** (2), partial. The file is the same with every schedule, to the last byte; and if closing aborts the program with one schedule
(C25, C27), it does so with every other. Missing: as in `C96_answers_partial`. -/
theorem C96_file_partial {env : Env} {unsnap : Bytes → Option Bytes} (he : EnvOk env unsnap) {schema : Schema} (hsch : schema.Named)
    {t t' : Turns} {owner : Bytes → Bytes → Nat} (ho : OneOwner owner t) (hsame : ∀ i, callsOf i t = callsOf i t')
    (htyp : ∀ op ∈ allCalls t, op.recs ≠ [] ∧ Op.Typed schema op) (hlen : handed (allCalls t) + 6 * schema.size ≤ 6100805)
    (hd : schema.length ≤ 1000) (hm : schema.size ≤ 100000) (hN : schema.NamesBelow 100)
    (hB : ∀ n ≤ schema.size, env.bloomSize n ≤ 8 * n + 1) :
    (session env schema (allCalls t)).map (fun s => s.file) = (session env schema (allCalls t')).map (fun s => s.file) := by
  have hperm := turns_perm hsame
  have hmem : ∀ e, e ∈ t' → e ∈ t := fun e h => hperm.mem_iff.2 h
  have ho' : OneOwner owner t' := fun e h => ho e (hmem e h)
  have htyp' : ∀ op ∈ allCalls t', op.recs ≠ [] ∧ Op.Typed schema op := by
    intro op h
    obtain ⟨i, hi⟩ := mem_allCalls h
    exact htyp op (List.mem_map.2 ⟨_, hmem _ hi, rfl⟩)
  have hlen' : handed (allCalls t') = handed (allCalls t) := ((hperm.map Prod.snd).map _).sum_nat.symm
  obtain ⟨w, hn⟩ := new_total env schema
  obtain ⟨p1, r1, s1⟩ := quiet_writer he.snappy hsch.wf hn htyp hlen
  obtain ⟨p2, r2, s2⟩ := quiet_writer he.snappy hsch.wf hn htyp' (by omega)
  have hstored : ∀ d m, series (storedBy schema (allCalls t) (w.grown env (allCalls t))) d m
      = series (storedBy schema (allCalls t') (w.grown env (allCalls t'))) d m := by
    intro d m
    rw [s1, s2]
    exact stored_same ho ho' hsame d m
  have hsize : ∀ ops : List Op, env.bloomSize (pathsOf (storedBy schema ops (w.grown env ops))).length < 2 ^ 31 := by
    intro ops
    have h1 := known_paths (storedBy_known schema ops (w.grown env ops))
    have := hB _ h1
    omega
  have c1 := session_closable he hsch.wf hn (bursts_handed _ _ (by omega)) p1 (hsize _)
  have c2 := session_closable he hsch.wf hn (bursts_handed _ _ (by omega)) p2 (hsize _)
  cases h1 : session env schema (allCalls t) with
  | none =>
    cases h2 : session env schema (allCalls t') with
    | none => rfl
    | some s' =>
      rw [h1] at c1
      rw [h2] at c2
      exact absurd (c1.2 (closable_series (fun d m => (hstored d m).symm) (c2.1 rfl))) (by simp)
  | some s =>
    cases h2 : session env schema (allCalls t') with
    | none =>
      rw [h1] at c1
      rw [h2] at c2
      exact absurd (c2.2 (closable_series hstored (c1.1 rfl))) (by simp)
    | some s' =>
      have g1 := (session_unfold h1 hn).2
      have g2 := (session_unfold h2 hn).2
      refine congrArg some (C77_short he hsch hsch (fun _ => rfl) (fun _ _ => rfl) h1
        (C67_hundred_million he hsch.wf h1 (by omega) hd hm hN hB) hlen h2
        (C67_hundred_million he hsch.wf h2 (by omega) hd hm hN hB) (by omega) ?_)
      intro d m
      rw [g1, g2]
      exact hstored d m

/-- **C96** (3), partial. Orderly producers, up to a hundred million points, with any number of flushes: whatever the schedule is, every call
returns `Ok`, and a scan of the file finds, for every series, exactly the points that its producer handed over. Missing: producers of
the same series. -/
theorem C96_orderly_partial {env : Env} {unsnap : Bytes → Option Bytes} (he : EnvOk env unsnap) {schema : Schema} (hsch : schema.Named)
    {t : Turns} {owner : Bytes → Bytes → Nat} (ho : OneOwner owner t) (hord : ∀ i, Orderly schema (callsOf i t))
    (hP : handed (allCalls t) ≤ 100000000) (hd : schema.length ≤ 1000) (hm : schema.size ≤ 100000) (hN : schema.NamesBelow 100)
    (hB : ∀ n ≤ schema.size, env.bloomSize n ≤ 8 * n + 1) (hc : Closable env ((allCalls t).flatMap Op.recs)) :
    ∃ s items stop, session env schema (allCalls t) = some s ∧ s.results = List.replicate t.length (.ok ())
      ∧ scan unsnap s.file = some (items, stop)
      ∧ ∀ d m, scanPoints d m none items = series ((callsOf (owner d m) t).flatMap Op.recs) d m := by
  obtain ⟨s, items, stop, h1, h2, h3, h4⟩ := C81_scan he hsch (orderly_turns ho hord) hP hd hm hN hB hc
  refine ⟨s, items, stop, h1, by rw [h2, allCalls, List.length_map], h3, fun d m => ?_⟩
  rw [h4, series_owner d m t ho]

/-! ## Where it ends -/

namespace Demo

/-- Two series of one device. -/
def pairSchema (d a b : Bytes) : Schema := [(d, [(a, ⟨.INT64, .PLAIN, .UNCOMPRESSED⟩), (b, ⟨.INT64, .PLAIN, .UNCOMPRESSED⟩)])]

/-- Producer 1 hands over a point of `b` with time 5, then producer 0 many points of `a`, then producer 1 a point of `b` with time 3. -/
def longTurns (d a b : Bytes) (n : Nat) : Turns :=
  (1, .write d b 5 (.LONG 0)) :: (List.range n).map (fun i => (0, .write d a (BitVec.ofNat 64 i) (.LONG 0))) ++ [(1, .write d b 3 (.LONG 0))]

end Demo

open Demo

section
variable {d a b : Bytes}

theorem pair_wf (hab : a ≠ b) : (pairSchema d a b).WF := ⟨by simp [pairSchema], by simp [pairSchema, hab]⟩

theorem pair_plain : (pairSchema d a b).Plain := by
  intro e he m hm
  obtain rfl := List.mem_singleton.1 he
  simp only [List.mem_cons, List.not_mem_nil, or_false] at hm
  rcases hm with rfl | rfl <;> exact ⟨rfl, rfl⟩

theorem pair_look (hab : a ≠ b) : look d (pairSchema d a b) = some [(a, ⟨.INT64, .PLAIN, .UNCOMPRESSED⟩), (b, ⟨.INT64, .PLAIN, .UNCOMPRESSED⟩)]
    ∧ look a [(a, (⟨.INT64, .PLAIN, .UNCOMPRESSED⟩ : MeasurementSchema)), (b, ⟨.INT64, .PLAIN, .UNCOMPRESSED⟩)] = some ⟨.INT64, .PLAIN, .UNCOMPRESSED⟩
    ∧ look b [(a, (⟨.INT64, .PLAIN, .UNCOMPRESSED⟩ : MeasurementSchema)), (b, ⟨.INT64, .PLAIN, .UNCOMPRESSED⟩)] = some ⟨.INT64, .PLAIN, .UNCOMPRESSED⟩ := by
  refine ⟨?_, ?_, ?_⟩
  · simp [pairSchema, look]
  · simp [look]
  · simp [look, hab]

/-- Points of `a` only: as long as nothing is flushed all of them wait, and after a flush the last time of `b` is forgotten. -/
theorem forgets (hab : a ≠ b) : ∀ (l : List (Op × Bool)) {x : AState} {n : Nat}, (∀ e ∈ l, ∃ t v, e.1 = .write d a t v) →
    (∀ r ∈ (x.run (pairSchema d a b) l).2, r = .ok ()) → (x.last d b = -1 ∨ x.pending.length = n) →
    (x.run (pairSchema d a b) l).1.last d b = -1 ∨ (x.run (pairSchema d a b) l).1.pending.length = n + l.length := by
  intro l
  induction l with
  | nil => intro x n _ _ h; exact h
  | cons e l ih =>
    intro x n he hok h
    obtain ⟨op, fl⟩ := e
    obtain ⟨t, v, hop⟩ := he _ (List.mem_cons_self ..)
    obtain rfl : op = .write d a t v := hop
    rw [AState.run] at hok ⊢
    have h1 := hok _ (List.mem_cons_self ..)
    have h2 := fun r hr => hok r (List.mem_cons_of_mem _ hr)
    have hstep : (x.step (pairSchema d a b) (.write d a t v) fl).1.last d b = -1
        ∨ (x.step (pairSchema d a b) (.write d a t v) fl).1.pending.length = n + 1 := by
      have hex : (x.exec (pairSchema d a b) (.write d a t v)).1
          = { addOne x ⟨d, a, t, v⟩ with counted := x.counted + 1 } := by
        have h1 : (x.exec (pairSchema d a b) (.write d a t v)).2 = .ok () := h1
        rw [AState.exec, (pair_look (d := d) hab).1] at h1 ⊢
        dsimp only at h1 ⊢
        rw [AState.put, (pair_look (d := d) hab).2.1] at h1 ⊢
        by_cases c2 : t.toInt ≤ (x.last d a).toInt
        · simp [c2] at h1
        · by_cases c3 : (fits TSDataType.INT64 v && encodable TSDataType.INT64 TSEncoding.PLAIN) = true
          · simp only [if_neg c2, if_pos c3]
            rfl
          · simp only [if_neg c2, if_neg c3] at h1
            cases h1
      rw [AState.step, hex]
      dsimp only
      split
      · left
        rw [AState.flush, if_neg (by dsimp only; omega)]
      · rcases h with h | h
        · left
          show (if d = d ∧ b = a then t else x.last d b) = -1
          rw [if_neg (fun c => hab c.2.symm), h]
        · right
          show (x.pending ++ [_]).length = n + 1
          rw [List.length_append, h]
          rfl
    rcases ih (n := n + 1) (fun e h => he e (List.mem_cons_of_mem _ h)) h2 hstep with g | g
    · exact .inl g
    · right
      rw [g, List.length_cons]
      omega

theorem answers_ok (i : Nat) : ∀ t : Turns, answersOf i t (List.replicate t.length (.ok ())) = List.replicate (callsOf i t).length (.ok ())
  | [] => rfl
  | (j, op) :: t => by
    rw [List.length_cons, List.replicate_succ, answersOf, answers_ok i t, callsOf_cons]
    by_cases h : j = i
    · rw [if_pos h, if_pos h, List.length_cons, List.replicate_succ]
    · rw [if_neg h, if_neg h]

/-- The calls before the last one of `longTurns`. -/
def longFront (d a b : Bytes) (n : Nat) : List Op :=
  .write d b 5 (.LONG 0) :: (List.range n).map (fun i => .write d a (BitVec.ofNat 64 i) (.LONG 0))

theorem long_calls (n : Nat) : allCalls (longTurns d a b n) = longFront d a b n ++ [.write d b 3 (.LONG 0)]
    ∧ callsOf 1 (longTurns d a b n) = [.write d b 5 (.LONG 0), .write d b 3 (.LONG 0)] := by
  refine ⟨by simp [allCalls, longTurns, longFront], ?_⟩
  rw [longTurns, List.cons_append, callsOf_cons, if_pos rfl]
  simp [callsOf]

theorem longFront_recs (n : Nat) : (longFront d a b n).flatMap Op.recs
    = ⟨d, b, 5, .LONG 0⟩ :: (List.range n).map (fun i => ⟨d, a, BitVec.ofNat 64 i, .LONG 0⟩) := by
  rw [longFront, List.flatMap_cons, List.flatMap_map]
  show [_] ++ _ = _
  rw [List.singleton_append]
  congr 1
  exact List.map_eq_flatMap.symm

theorem long_orderly (hab : a ≠ b) {n : Nat} (hn : n ≤ 2 ^ 28) : Orderly (pairSchema d a b) (longFront d a b n) := by
  have hint : ∀ i, i < n → (BitVec.ofNat 64 i).toInt = i := by
    intro i hi
    rw [BitVec.toInt_eq_toNat_of_lt] <;> rw [BitVec.toNat_ofNat, Nat.mod_eq_of_lt] <;> omega
  obtain ⟨l1, l2, l3⟩ := pair_look (d := d) hab
  refine ⟨?_, ?_, increasing_of ?_ ?_⟩
  · intro op hop
    rcases List.mem_cons.1 hop with rfl | hop
    · simp [Op.recs]
    · obtain ⟨i, _, rfl⟩ := List.mem_map.1 hop
      simp [Op.recs]
  · rw [longFront_recs]
    intro r hr
    rcases List.mem_cons.1 hr with rfl | hr
    · exact ⟨_, _, l1, l3, rfl, rfl⟩
    · obtain ⟨i, _, rfl⟩ := List.mem_map.1 hr
      exact ⟨_, _, l1, l2, rfl, rfl⟩
  · rw [longFront_recs]
    intro r hr
    rcases List.mem_cons.1 hr with rfl | hr
    · show (0 : Int) ≤ (5#64).toInt
      decide
    · obtain ⟨i, hi, rfl⟩ := List.mem_map.1 hr
      show (0 : Int) ≤ (BitVec.ofNat 64 i).toInt
      rw [hint i (List.mem_range.1 hi)]
      omega
  · rw [longFront_recs, List.pairwise_cons, List.pairwise_map]
    refine ⟨?_, ?_⟩
    · intro r hr
      obtain ⟨i, _, rfl⟩ := List.mem_map.1 hr
      exact fun _ h => absurd h.symm hab
    · refine List.pairwise_lt_range.imp_of_mem ?_
      intro i j hi hj hij _ _
      show (BitVec.ofNat 64 i).toInt < (BitVec.ofNat 64 j).toInt
      rw [hint i (List.mem_range.1 hi), hint j (List.mem_range.1 hj)]
      omega

/-- **C96** is violated by long histories: after an automatic flush a point of a series may have any time, and when there is a flush depends
on the points of the other producers. Producer 1 hands over a point with time 5 and a point with time 3. If it is alone, the second one is
refused. If the other producer hands over enough points of its own series in between, it is taken. -/
theorem C96_long_wrong {env : Env} {unsnap : Bytes → Option Bytes} (hsn : SnappyOk env unsnap) (d : Bytes) {a b : Bytes} (hab : a ≠ b) :
    ∃ (t : Turns) (w : Writer), Writer.new env (pairSchema d a b) ⟨[], none⟩ = .ok w
      ∧ OneOwner (fun _ m => if m = b then 1 else 0) t
      ∧ (w.run env (callsOf 1 t)).2 = [.ok (), .err .outOfOrderData]
      ∧ answersOf 1 t (w.run env (allCalls t)).2 = [.ok (), .ok ()] := by
  obtain ⟨n, hn⟩ : ∃ n, n = 2 ^ 27 := ⟨_, rfl⟩
  obtain ⟨w, hw⟩ := new_total env (pairSchema d a b)
  have hwf := pair_wf (d := d) hab
  obtain ⟨l1, l2, l3⟩ := pair_look (d := d) hab
  have hsize : (pairSchema d a b).size = 2 := rfl
  have hord := long_orderly (d := d) hab (n := n) (by omega)
  have hlen : (longFront d a b n).length = n + 1 := by simp [longFront]
  have hone : ∀ op ∈ longFront d a b n, op.recs.length = 1 := by
    intro op hop
    rcases List.mem_cons.1 hop with rfl | hop
    · rfl
    · obtain ⟨i, _, rfl⟩ := List.mem_map.1 hop
      rfl
  have hhand : handed (longFront d a b n) = n + 1 := by
    rw [handed, List.map_congr_left hone, List.map_const', hlen]
    simp
  have hnp := C49_calls hsn hwf hw (L := n + 2) (by omega) (handed_bursts _ (by omega)) hord.typed
  have hb : burstsBelow (2 ^ 32) 0 ((longFront d a b n).zip ((w.grown env (longFront d a b n)).map (fun n => decide (0 < n)))) :=
    handed_bursts _ (by omega)
  obtain ⟨_, hr, _⟩ := sim_run hsn hwf (longFront d a b n) (sim_new unsnap hwf hw) 0 (by simp [AState.init]) hb hnp
  have hok : (w.run env (longFront d a b n)).2 = List.replicate (n + 1) (.ok ()) := by
    rw [← hr, (hord.run (w.grown env (longFront d a b n)) (run_length ..).2).1, hlen]
  obtain ⟨hreach, hpend, -⟩ := C70_waiting_partial hsn hwf pair_plain (K := 1) (by omega) hw (fun op hop => Nat.le_of_eq (hone op hop))
    (fun r h => by rw [hok] at h; exact List.eq_of_mem_replicate h)
  have hlast : (abstractly env (pairSchema d a b) (longFront d a b n) w).last d b = -1 := by
    rw [abstractly] at hpend ⊢
    have hg := (run_length env (longFront d a b n) w).2
    rw [hok] at hr
    generalize w.grown env (longFront d a b n) = g at hpend hg hr
    cases g with
    | nil => rw [hlen] at hg; cases hg
    | cons g0 g =>
      rw [longFront, List.map_cons, List.zip_cons_cons, AState.run] at hpend hr ⊢
      have hfirst : (AState.init.step (pairSchema d a b) (.write d b 5 (.LONG 0)) (decide (0 < g0))).1.last d b = -1
          ∨ (AState.init.step (pairSchema d a b) (.write d b 5 (.LONG 0)) (decide (0 < g0))).1.pending.length = 1 := by
        have hex : AState.init.exec (pairSchema d a b) (.write d b 5 (.LONG 0))
            = ({ addOne AState.init ⟨d, b, 5, .LONG 0⟩ with counted := 1 }, .ok ()) := by
          rw [AState.exec, l1]
          dsimp only
          rw [AState.put, l3]
          rfl
        rw [AState.step, hex]
        dsimp only
        split
        · left; rfl
        · right; rfl
      have hlg : g.length = n := by
        rw [hlen, List.length_cons] at hg
        omega
      have hd : ∀ e ∈ ((List.range n).map (fun i => Op.write d a (BitVec.ofNat 64 i) (.LONG 0))).zip (g.map (fun n => decide (0 < n))),
          ∃ t v, e.1 = .write d a t v := by
        intro e he
        obtain ⟨i, _, hi⟩ := List.mem_map.1 (List.of_mem_zip (show (e.1, e.2) ∈ _ from he)).1
        exact ⟨_, _, hi.symm⟩
      rcases forgets hab _ (n := 1) hd (fun r h => List.eq_of_mem_replicate (n := n + 1)
        (by rw [← hr]; exact List.mem_cons_of_mem _ h)) hfirst with h | h
      · exact h
      · exfalso
        rw [h, List.length_zip, List.length_map, List.length_map, List.length_range, hlg, Nat.min_self] at hpend
        omega
  -- the last call
  have hall : (w.run env (longFront d a b n ++ [.write d b 3 (.LONG 0)])).2 = List.replicate (n + 2) (.ok ()) := by
    have htyp : ∀ op ∈ longFront d a b n ++ [.write d b 3 (.LONG 0)], op.recs ≠ [] ∧ Op.Typed (pairSchema d a b) op := by
      intro op hop
      rcases List.mem_append.1 hop with hop | hop
      · exact hord.typed op hop
      · obtain rfl := List.mem_singleton.1 hop
        refine ⟨by simp [Op.recs], ?_⟩
        intro r hr ms s h1 h2
        obtain rfl := List.mem_singleton.1 hr
        rw [l1] at h1
        obtain rfl := Option.some.inj h1
        rw [l3] at h2
        obtain rfl := Option.some.inj h2
        exact ⟨rfl, rfl⟩
    have hh : handed (longFront d a b n ++ [.write d b 3 (.LONG 0)]) = n + 2 := by
      rw [handed, List.map_append, List.sum_append, ← handed, hhand]
      rfl
    have hnp' := C49_calls hsn hwf hw (L := n + 3) (by omega) (handed_bursts _ (by omega)) htyp
    obtain ⟨_, hr', _⟩ := sim_run hsn hwf _ (sim_new unsnap hwf hw) 0 (by simp [AState.init])
      (handed_bursts (ops := longFront d a b n ++ [.write d b 3 (.LONG 0)]) _ (by omega)) hnp'
    have hrl := (run_length env (longFront d a b n) w).2
    obtain ⟨-, -, r3⟩ := run_append env (longFront d a b n) [.write d b 3 (.LONG 0)] w
    rw [← hr', r3, List.map_append, List.zip_append (by rw [List.length_map, hrl]), (arun_append ..).2, hr, hok, show n + 2 = (n + 1) + 1 from rfl,
      List.replicate_succ' (n := n + 1)]
    congr 1
    rw [abstractly] at hlast
    generalize (AState.init.run (pairSchema d a b) _).1 = x at hlast
    show [(x.step _ _ _).2] = _
    rw [AState.step]
    dsimp only
    rw [AState.exec, l1]
    dsimp only
    rw [AState.put, l3, hlast]
    rfl
  refine ⟨longTurns d a b n, w, hw, ?_, ?_, ?_⟩
  · intro e he r hr
    rw [longTurns, List.cons_append] at he
    rcases List.mem_cons.1 he with rfl | he
    · obtain rfl := List.mem_singleton.1 hr
      exact if_pos rfl
    · rcases List.mem_append.1 he with he | he
      · obtain ⟨i, _, rfl⟩ := List.mem_map.1 he
        obtain rfl := List.mem_singleton.1 hr
        exact if_neg hab
      · obtain rfl := List.mem_singleton.1 he
        obtain rfl := List.mem_singleton.1 hr
        exact if_pos rfl
  · rw [(long_calls n).2, (quiet_writer hsn hwf hw ?_ (by rw [hsize, show handed [Op.write d b 5 (.LONG 0), .write d b 3 (.LONG 0)] = 2 from rfl]; omega)).2.1]
    · rw [quiet_cons, quiet_cons]
      have hex : AState.init.exec (pairSchema d a b) (.write d b 5 (.LONG 0))
          = ({ addOne AState.init ⟨d, b, 5, .LONG 0⟩ with counted := 1 }, .ok ()) := by
        rw [AState.exec, l1]
        dsimp only
        rw [AState.put, l3]
        rfl
      have hex2 : (AState.exec (pairSchema d a b) { addOne AState.init ⟨d, b, 5, .LONG 0⟩ with counted := 1 } (.write d b 3 (.LONG 0))).2
          = .err .outOfOrderData := by
        rw [AState.exec, l1]
        dsimp only
        rw [AState.put, show (addOne AState.init ⟨d, b, 5, .LONG 0⟩).last d b = 5 from if_pos ⟨rfl, rfl⟩]
        rfl
      rw [hex]
      dsimp only
      rw [hex2]
      rfl
    · intro op hop
      simp only [List.mem_cons, List.not_mem_nil, or_false] at hop
      rcases hop with rfl | rfl
      all_goals
        refine ⟨by simp [Op.recs], ?_⟩
        intro r hr ms s h1 h2
        obtain rfl := List.mem_singleton.1 hr
        rw [l1] at h1
        obtain rfl := Option.some.inj h1
        rw [l3] at h2
        obtain rfl := Option.some.inj h2
        exact ⟨rfl, rfl⟩
  · rw [(long_calls n).1, hall, show n + 2 = (longTurns d a b n).length by simp [longTurns], answers_ok, (long_calls n).2]
    rfl

end

/-- **C96** is violated for producers of the same series, for every series of every schema and all points with different times: if
the earlier point comes first, both are taken; if the later one comes first, the producer of the earlier one gets an error. -/
theorem C96_series_wrong {env : Env} {unsnap : Bytes → Option Bytes} (hsn : SnappyOk env unsnap) {schema : Schema} (hwf : schema.WF)
    (hsize : schema.size ≤ 1000000) {w : Writer} (hn : Writer.new env schema ⟨[], none⟩ = .ok w) {d m : Bytes}
    {ms : List (Bytes × MeasurementSchema)} {sc : MeasurementSchema} (hd : look d schema = some ms) (hm : look m ms = some sc)
    (henc : encodable sc.dataType sc.encoding = true) {t1 t2 : W64} (h0 : 0 ≤ t1.toInt) (hlt : t1.toInt < t2.toInt)
    {v1 v2 : IoTDBValue} (hv1 : fits sc.dataType v1 = true) (hv2 : fits sc.dataType v2 = true) :
    ∃ t t' : Turns, t = [(0, .write d m t1 v1), (1, .write d m t2 v2)] ∧ t' = [(1, .write d m t2 v2), (0, .write d m t1 v1)]
      ∧ (∀ i, callsOf i t = callsOf i t')
      ∧ answersOf 0 t (w.run env (allCalls t)).2 = [.ok ()] ∧ answersOf 1 t (w.run env (allCalls t)).2 = [.ok ()]
      ∧ answersOf 0 t' (w.run env (allCalls t')).2 = [.err .outOfOrderData] ∧ answersOf 1 t' (w.run env (allCalls t')).2 = [.ok ()] := by
  refine ⟨_, _, rfl, rfl, fun i => ?_, ?_⟩
  · rw [callsOf_cons, callsOf_cons, callsOf_cons, callsOf_cons]
    by_cases h0 : 0 = i
    · rw [if_pos h0, if_pos h0, if_neg (by omega), if_neg (by omega)]
    · rw [if_neg h0, if_neg h0]
  · have htyp : ∀ t v, fits sc.dataType v = true → (Op.write d m t v).recs ≠ [] ∧ Op.Typed schema (.write d m t v) := by
      intro t v hv
      refine ⟨by simp [Op.recs], fun r hr ms' s' h1 h2 => ?_⟩
      rw [List.mem_singleton.1 hr] at h1 h2 ⊢
      rw [hd] at h1; cases h1
      rw [hm] at h2; cases h2
      exact ⟨hv, henc⟩
    have hneg : (-1 : W64).toInt = -1 := by decide
    have e1 := (quiet_writer hsn hwf hn (ops := [.write d m t1 v1, .write d m t2 v2]) (by
      intro op hop
      rcases List.mem_cons.1 hop with rfl | hop
      · exact htyp _ _ hv1
      · rw [List.mem_singleton.1 hop]; exact htyp _ _ hv2) (by simp [handed, Op.recs]; omega)).2.1
    have e2 := (quiet_writer hsn hwf hn (ops := [.write d m t2 v2, .write d m t1 v1]) (by
      intro op hop
      rcases List.mem_cons.1 hop with rfl | hop
      · exact htyp _ _ hv2
      · rw [List.mem_singleton.1 hop]; exact htyp _ _ hv1) (by simp [handed, Op.recs]; omega)).2.1
    have n1 : ¬ t1.toInt ≤ -1 := by omega
    have n2 : ¬ t2.toInt ≤ -1 := by omega
    have n3 : ¬ t2.toInt ≤ t1.toInt := by omega
    have n4 : t1.toInt ≤ t2.toInt := by omega
    have r1 : (quiet schema AState.init [.write d m t1 v1, .write d m t2 v2]).2 = [.ok (), .ok ()] := by
      simp [quiet, AState.run, AState.step, AState.exec, hd, AState.put, AState.init, hneg, n1, hm, hv1, hv2, henc, n3]
    have r2 : (quiet schema AState.init [.write d m t2 v2, .write d m t1 v1]).2 = [.ok (), .err .outOfOrderData] := by
      simp [quiet, AState.run, AState.step, AState.exec, hd, AState.put, AState.init, hneg, n2, hm, hv2, henc, n4]
    rw [r1] at e1
    rw [r2] at e2
    simp only [allCalls, List.map_cons, List.map_nil]
    rw [e1, e2]
    simp [answersOf]

/-- A series as in `C96_series_wrong`. -/
example := C96_series_wrong Demo.envOk.snappy Demo.indexable.wf (by decide) Demo.reached.new (d := str "root.sg.d1") (m := str "s1")
  (by rfl) (by rfl) rfl (t1 := 1) (t2 := 2) (by decide) (by decide) (v1 := .INT 10) (v2 := .INT 20) rfl rfl

/-- **C96** is violated for producers of the same series: with one schedule both points are taken, with the other one the point of
producer 0 is refused and is not in the file. -/
theorem C96_shared_wrong : ∃ t t' : Turns, (∀ i, callsOf i t = callsOf i t')
    ∧ (session Demo.env Demo.schema (allCalls t)).map (fun s => (answersOf 0 t s.results, answersOf 1 t s.results,
        readSeries some s.file (str "root.sg.d1") (str "s1"))) = some ([.ok ()], [.ok ()], some [(1, .INT 10), (2, .INT 20)])
    ∧ (session Demo.env Demo.schema (allCalls t')).map (fun s => (answersOf 0 t' s.results, answersOf 1 t' s.results,
        readSeries some s.file (str "root.sg.d1") (str "s1"))) = some ([.err .outOfOrderData], [.ok ()], some [(2, .INT 20)]) := by
  refine ⟨[(0, .write (str "root.sg.d1") (str "s1") 1 (.INT 10)), (1, .write (str "root.sg.d1") (str "s1") 2 (.INT 20))],
    [(1, .write (str "root.sg.d1") (str "s1") 2 (.INT 20)), (0, .write (str "root.sg.d1") (str "s1") 1 (.INT 10))], fun i => ?_, ?_, ?_⟩
  · rw [callsOf_cons, callsOf_cons, callsOf_cons, callsOf_cons]
    by_cases h0 : 0 = i
    · rw [if_pos h0, if_pos h0, if_neg (by omega), if_neg (by omega)]
    · rw [if_neg h0, if_neg h0]
  · decide +kernel
  · decide +kernel

/-! ## Cases -/

namespace Demo

/-- Producer 0 has the first device, producer 1 the second one; each has a call that fails. -/
def turns : Turns :=
  [(0, .write (str "root.sg.d1") (str "s1") 10 (.INT 7)), (1, .write (str "root.sg.d2") (str "s1") 5 (.LONG (-3))),
   (1, .writeMany (str "root.sg.d2") 5 [(str "s2", .FLOAT 0x40490fdb), (str "s1", .LONG 9000000000)]),
   (0, .write (str "root.sg.d1") (str "s1") 9 (.INT 8)), (0, .write (str "root.sg.d1") (str "s1") 12 (.INT (-1)))]

/-- The same producers, one after the other. -/
def turns' : Turns :=
  [(1, .write (str "root.sg.d2") (str "s1") 5 (.LONG (-3))),
   (1, .writeMany (str "root.sg.d2") 5 [(str "s2", .FLOAT 0x40490fdb), (str "s1", .LONG 9000000000)]),
   (0, .write (str "root.sg.d1") (str "s1") 10 (.INT 7)), (0, .write (str "root.sg.d1") (str "s1") 9 (.INT 8)),
   (0, .write (str "root.sg.d1") (str "s1") 12 (.INT (-1)))]

def turnsOwner : Bytes → Bytes → Nat := fun d _ => if d = str "root.sg.d1" then 0 else 1

theorem turns_owner : OneOwner turnsOwner turns := by
  unfold OneOwner
  decide +kernel

theorem typed_of {ops : List Op} (h : ∀ op ∈ ops, op.recs ≠ [] ∧ ∀ r ∈ op.recs, ((look r.device schema).all (fun ms =>
    (look r.measurement ms).all (fun s => fits s.dataType r.value && encodable s.dataType s.encoding))) = true) :
    ∀ op ∈ ops, op.recs ≠ [] ∧ Op.Typed schema op := by
  intro op hop
  obtain ⟨h1, h2⟩ := h op hop
  refine ⟨h1, fun r hr ms s e1 e2 => ?_⟩
  have := h2 r hr
  rw [e1] at this
  simp only [Option.all_some] at this
  rw [e2] at this
  simpa using this

theorem turns_typed : ∀ op ∈ allCalls turns, op.recs ≠ [] ∧ Op.Typed schema op := typed_of (by decide +kernel)

theorem turns_same (i : Nat) : callsOf i turns = callsOf i turns' := by
  rw [turns, turns']
  simp only [callsOf_cons]
  by_cases h0 : 0 = i
  · simp only [if_pos h0, if_neg (show ¬ 1 = i by omega)]
  · simp only [if_neg h0]

/-- `tidy`, with the producers of its points. -/
def tidyTurns : Turns :=
  [(0, .write (str "root.sg.d1") (str "s1") 10 (.INT 7)), (1, .write (str "root.sg.d2") (str "s1") 5 (.LONG (-3))),
   (1, .writeMany (str "root.sg.d2") 6 [(str "s1", .LONG 9000000000), (str "s2", .FLOAT 0x40490fdb)]),
   (0, .write (str "root.sg.d1") (str "s1") 12 (.INT (-1)))]

end Demo

/-- Both producers have a call that fails, and get the same answers as alone. -/
example : answersOf 1 Demo.turns (Demo.w0.run Demo.env (allCalls Demo.turns)).2 = (Demo.w0.run Demo.env (callsOf 1 Demo.turns)).2
    ∧ (Demo.w0.run Demo.env (callsOf 1 Demo.turns)).2 = [.ok (), .err .outOfOrderData] :=
  ⟨C96_answers_partial Demo.envOk.snappy Demo.indexable.wf Demo.reached.new Demo.turns_owner Demo.turns_typed (by decide +kernel) 1,
    by decide +kernel⟩

/-- The same file with two schedules, and there is one. -/
example : (session Demo.env Demo.schema (allCalls Demo.turns)).map (fun s => s.file)
      = (session Demo.env Demo.schema (allCalls Demo.turns')).map (fun s => s.file)
    ∧ (session Demo.env Demo.schema (allCalls Demo.turns)).isSome = true :=
  ⟨C96_file_partial Demo.envOk Demo.indexable.toNamed Demo.turns_owner Demo.turns_same Demo.turns_typed (by decide +kernel)
    (by decide +kernel) (by decide +kernel) Demo.names Demo.bloomSmall, by decide +kernel⟩

example : ∃ s items stop, session Demo.env Demo.schema (allCalls Demo.tidyTurns) = some s ∧ scan some s.file = some (items, stop)
    ∧ scanPoints (str "root.sg.d1") (str "s1") none items = [(10, .INT 7), (12, .INT (-1))] := by
  have hsub : ∀ i, Orderly Demo.schema (callsOf i Demo.tidyTurns) := by
    intro i
    match i with
    | 0 => exact Demo.orderly_of (by decide +kernel) (by decide +kernel) (by decide +kernel) (by decide +kernel)
    | 1 => exact Demo.orderly_of (by decide +kernel) (by decide +kernel) (by decide +kernel) (by decide +kernel)
    | i + 2 =>
      rw [show callsOf (i + 2) Demo.tidyTurns = [] from rfl]
      exact ⟨by simp, by simp, fun _ _ => ⟨by simp [series], by simp [series]⟩⟩
  obtain ⟨s, items, stop, h1, _, h2, h3⟩ := C96_orderly_partial Demo.envOk Demo.indexable.toNamed (owner := Demo.turnsOwner)
    (t := Demo.tidyTurns) (by unfold OneOwner; decide +kernel) hsub (by decide +kernel) (by decide +kernel) (by decide +kernel) Demo.names
    Demo.bloomSmall Demo.tidy_closable
  exact ⟨s, items, stop, h1, h2, by rw [h3]; decide +kernel⟩

example : ∃ (t : Turns) (w : Writer), Writer.new Demo.env (Demo.pairSchema (str "d") (str "a") (str "b")) ⟨[], none⟩ = .ok w
    ∧ answersOf 1 t (w.run Demo.env (allCalls t)).2 ≠ (w.run Demo.env (callsOf 1 t)).2 := by
  obtain ⟨t, w, h1, -, h2, h3⟩ := C96_long_wrong Demo.envOk.snappy (str "d") (a := str "a") (b := str "b") (by decide)
  exact ⟨t, w, h1, by rw [h2, h3]; decide⟩

end TsFile
