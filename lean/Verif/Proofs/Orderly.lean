import Verif.Spec.Orderly
import Verif.Proofs.Machine
import Verif.Proofs.Memory
/-! # Orderly histories on the abstract machine -/

namespace TsFile
open Spec

/-- A point that is known and later than all points of its series is accepted. -/
theorem put_fits {a : AState} (hinv : a.Inv) {ms : List (Bytes × MeasurementSchema)} {d m : Bytes} {t : W64}
    {v : IoTDBValue} {s : MeasurementSchema} (hm : look m ms = some s) (hf : fits s.dataType v = true)
    (he : encodable s.dataType s.encoding = true) {done : List Rec} (hd : a.stored ++ a.pending = done)
    (hinc : Increasing (series (done ++ [⟨d, m, t, v⟩]) d m)) :
    (a.put ms d m t v).2 = .ok () := by
  subst hd
  have hlt : (a.last d m).toInt < t.toInt := by
    rw [hinv.last, increasing_le_last (hinv.inc d m)]
    rw [mseries_append, mseries_append, mseries_single, if_pos ⟨rfl, rfl⟩] at hinc
    refine ⟨hinc.1 (t, v) (by simp), fun p hp => ?_⟩
    exact (List.pairwise_append.1 hinc.2).2.2 p (by simp [hp]) (t, v) (by simp)
  rw [AState.put, if_neg (by omega), hm]
  simp [hf, he]

theorem increasing_prefix {l l' : List Rec} {d m : Bytes} (h : Increasing (series (l ++ l') d m)) :
    Increasing (series l d m) := by
  rw [mseries_append] at h
  exact ⟨fun p hp => h.1 p (by simp [hp]), (List.pairwise_append.1 h.2).1⟩

theorem putMany_fits {ms : List (Bytes × MeasurementSchema)} {d : Bytes} {t : W64} (vs : List (Bytes × IoTDBValue))
    {a : AState} (hinv : a.Inv)
    (hk : ∀ p ∈ vs, ∃ s, look p.1 ms = some s ∧ fits s.dataType p.2 = true ∧ encodable s.dataType s.encoding = true)
    {done : List Rec} (hd : a.stored ++ a.pending = done)
    (hinc : ∀ m, Increasing (series (done ++ (Op.writeMany d t vs).recs) d m)) :
    (AState.putMany ms d t vs a).2 = .ok () := by
  induction vs generalizing a done with
  | nil => rfl
  | cons p vs ih =>
    obtain ⟨m, v⟩ := p
    obtain ⟨s, h1, h2, h3⟩ := hk (m, v) (by simp)
    have hrecs : (Op.writeMany d t ((m, v) :: vs)).recs = [⟨d, m, t, v⟩] ++ (Op.writeMany d t vs).recs := rfl
    have hok : (a.put ms d m t v).2 = .ok () := by
      refine put_fits hinv h1 h2 h3 hd ?_
      have := hinc m
      rw [hrecs, ← List.append_assoc] at this
      exact increasing_prefix this
    rcases put_cases a ms d m t v with ⟨_, hp⟩ | ⟨hp, _⟩
    · have hinv' : (a.put ms d m t v).1.Inv := hinv.put ms d m t v
      rw [AState.putMany]
      rw [hp] at hinv' ⊢
      refine ih hinv' (fun p hp => hk p (by simp [hp])) (done := done ++ [⟨d, m, t, v⟩]) (by simp [← hd]) ?_
      intro m'
      have := hinc m'
      rwa [hrecs, ← List.append_assoc] at this
    · exact absurd hok hp

theorem exec_fits {schema : Schema} {a : AState} (hinv : a.Inv) {op : Op} (hne : op.recs ≠ [])
    (hk : ∀ r ∈ op.recs, ∃ ms s, look r.device schema = some ms ∧ look r.measurement ms = some s
      ∧ fits s.dataType r.value = true ∧ encodable s.dataType s.encoding = true)
    {done : List Rec} (hd : a.stored ++ a.pending = done) (hinc : ∀ d m, Increasing (series (done ++ op.recs) d m)) :
    (a.exec schema op).2 = .ok () := by
  cases op with
  | write d m t v =>
    obtain ⟨ms, s, h0, h1, h2, h3⟩ := hk ⟨d, m, t, v⟩ (by simp [Op.recs])
    have hok : (a.put ms d m t v).2 = .ok () := put_fits hinv h1 h2 h3 hd (hinc d m)
    rw [AState.exec, h0]
    rcases put_cases a ms d m t v with ⟨_, hp⟩ | ⟨hp, _⟩
    · simp only [hp]
    · exact absurd hok hp
  | writeMany d t vs =>
    cases vs with
    | nil => simp [Op.recs] at hne
    | cons p vs =>
      obtain ⟨ms, s, h0, _⟩ := hk ⟨d, p.1, t, p.2⟩ (by simp [Op.recs])
      have hok : (AState.putMany ms d t (p :: vs) a).2 = .ok () := by
        refine putMany_fits (p :: vs) hinv ?_ hd (hinc d)
        intro q hq
        obtain ⟨ms', s', h0', h1', h2', h3'⟩ := hk ⟨d, q.1, t, q.2⟩ (by
          simp only [Op.recs, List.mem_map]
          exact ⟨q, hq, rfl⟩)
        simp only at h0' h1' h2'
        rw [h0] at h0'
        cases h0'
        exact ⟨s', h1', h2', h3'⟩
      simp only [AState.exec, h0]
      cases hr : AState.putMany ms d t (p :: vs) a with
      | mk a' r =>
        rw [hr] at hok
        simp only at hok
        subst hok
        rfl

/-- All calls of an orderly history succeed, whenever the machine flushes, and nothing gets lost. -/
theorem run_fits {schema : Schema} (ops : List Op) (fl : List Bool) (hl : fl.length = ops.length) {a : AState}
    (hinv : a.Inv) (hc : a.counted = 0 → a.pending = [])
    (hcalls : ∀ op ∈ ops, op.recs ≠ [])
    (hk : ∀ r ∈ ops.flatMap Op.recs, ∃ ms s, look r.device schema = some ms ∧ look r.measurement ms = some s
      ∧ fits s.dataType r.value = true ∧ encodable s.dataType s.encoding = true)
    (hinc : ∀ d m, Increasing (series (a.stored ++ a.pending ++ ops.flatMap Op.recs) d m)) :
    (a.run schema (ops.zip fl)).2 = List.replicate ops.length (.ok ())
    ∧ (a.run schema (ops.zip fl)).1.flush.stored = a.stored ++ a.pending ++ ops.flatMap Op.recs := by
  induction ops generalizing a fl with
  | nil => simpa [AState.run] using (flush_all a hc).1
  | cons op ops ih =>
    cases fl with
    | nil => simp at hl
    | cons f fl =>
      simp only [List.flatMap_cons, List.mem_append] at hk
      simp only [List.flatMap_cons] at hinc
      have hok : (a.exec schema op).2 = .ok () := by
        refine exec_fits hinv (hcalls op (by simp)) (fun r hr => hk r (.inl hr)) rfl (fun d m => ?_)
        have := hinc d m
        rw [← List.append_assoc] at this
        exact increasing_prefix this
      obtain ⟨hst, ⟨_, hp, hcnt⟩ | ⟨hn, _⟩⟩ := exec_cases schema a op
      · have hne : 0 < op.recs.length := List.length_pos_iff.2 (hcalls op (by simp))
        have hcnt0 : (a.exec schema op).1.counted ≠ 0 := by omega
        have hfa := flush_all (a.exec schema op).1 (fun h => absurd h hcnt0)
        have hsum : (a.step schema op f).1.stored ++ (a.step schema op f).1.pending
            = a.stored ++ a.pending ++ op.recs := by
          simp only [AState.step]
          cases f
          · simp [hst, hp]
          · simp [hfa.1, hfa.2.1, hst, hp]
        have hc' : (a.step schema op f).1.counted = 0 → (a.step schema op f).1.pending = [] := by
          simp only [AState.step]
          cases f
          · intro h; exact absurd h hcnt0
          · intro _; simp [hfa.2.1]
        have := ih fl (by simpa using hl) (hinv.step schema op f) hc' (fun o ho => hcalls o (by simp [ho]))
          (fun r hr => hk r (.inr hr)) (fun d m => by
            rw [hsum, List.append_assoc]
            exact hinc d m)
        simp only [List.zip_cons_cons, AState.run, List.length_cons, List.replicate_succ, List.flatMap_cons]
        refine ⟨?_, ?_⟩
        · rw [this.1]
          simp only [AState.step, hok]
        · rw [this.2, hsum, List.append_assoc]
      · exact absurd hok hn

/-- The same for a fresh machine. -/
theorem Spec.Orderly.run {schema : Schema} {ops : List Op} (h : Orderly schema ops) (grown : List Nat)
    (hl : grown.length = ops.length) :
    (AState.init.run schema (ops.zip (grown.map (fun n => decide (0 < n))))).2 = List.replicate ops.length (.ok ())
    ∧ storedBy schema ops grown = ops.flatMap Op.recs :=
  run_fits ops _ (by simpa using hl) AState.inv_init (fun _ => rfl) h.calls h.known h.increasing

theorem Spec.Orderly.typed {schema : Schema} {ops : List Op} (h : Orderly schema ops) :
    ∀ op ∈ ops, op.recs ≠ [] ∧ Op.Typed schema op := by
  intro op hop
  refine ⟨h.calls op hop, fun r hr ms s h1 h2 => ?_⟩
  obtain ⟨ms', s', h3, h4, h5, h6⟩ := h.known r (List.mem_flatMap.2 ⟨op, hop, hr⟩)
  rw [h3] at h1
  cases h1
  rw [h4] at h2
  cases h2
  exact ⟨h5, h6⟩

theorem Spec.Orderly.left {schema : Schema} {ops ops' : List Op} (h : Orderly schema (ops ++ ops')) : Orderly schema ops := by
  refine ⟨fun op ho => h.calls op (by simp [ho]), fun r hr => h.known r ?_, fun d m => ?_⟩
  · rw [List.flatMap_append]
    exact List.mem_append.2 (.inl hr)
  · have := h.increasing d m
    rw [List.flatMap_append] at this
    exact increasing_prefix this

end TsFile
