import Verif.Spec.Output
/-! # `WriteWrapper` and `write_all` -/

namespace TsFile
open Spec

namespace WriteWrapper
variable {σ : Type} {dev : Device σ} {content : σ → Bytes}

theorem write_inner (w : WriteWrapper σ) (b : Bytes) :
    (w.write dev b).1.writer = (dev w.writer b).1 ∧ (w.write dev b).2 = (dev w.writer b).2 := by
  rw [write]
  rcases h : dev w.writer b with ⟨s, r⟩
  cases r <;> exact ⟨rfl, rfl⟩

theorem write_ok {w : WriteWrapper σ} {b : Bytes} {n : Nat} (h : (dev w.writer b).2 = .ok n) :
    w.write dev b = (⟨w.position + BitVec.ofNat 64 n, (dev w.writer b).1⟩, .ok n) := by
  rw [write]
  rcases hd : dev w.writer b with ⟨s, r⟩
  rw [hd] at h
  simp only at h
  subst h
  rfl

theorem write_error {w : WriteWrapper σ} {b : Bytes} {e : IoErr} (h : (dev w.writer b).2 = .error e) :
    w.write dev b = (⟨w.position, (dev w.writer b).1⟩, .error e) := by
  rw [write]
  rcases hd : dev w.writer b with ⟨s, r⟩
  rw [hd] at h
  simp only at h
  subst h
  rfl

/-- The position counts the bytes in the inner writer. -/
def Counts (content : σ → Bytes) (w : WriteWrapper σ) : Prop := w.position = BitVec.ofNat 64 (content w.writer).length

theorem write_counts (hd : Stores dev content) {w : WriteWrapper σ} (hw : Counts content w) (b : Bytes) :
    Counts content (w.write dev b).1 ∧ ∃ c, c <+: b ∧ content (w.write dev b).1.writer = content w.writer ++ c := by
  cases h : (dev w.writer b).2 with
  | error e =>
    have := hd.error _ _ _ h
    rw [write_error h, Counts, this]
    exact ⟨hw, [], List.nil_prefix, by rw [List.append_nil]⟩
  | ok n =>
    obtain ⟨h1, h2⟩ := hd.ok _ _ _ h
    rw [write_ok h, Counts, h2]
    refine ⟨?_, b.take n, List.take_prefix _ _, rfl⟩
    simp only [List.length_append, List.length_take, Nat.min_eq_left h1]
    rw [hw, BitVec.ofNat_add]

theorem writeAll_spec (hd : Stores dev content) (fuel : Nat) {w : WriteWrapper σ} (hw : Counts content w) (buf : Bytes)
    {w' : WriteWrapper σ} {r : Except IoErr Unit} (h : w.writeAll dev fuel buf = some (w', r)) :
    Counts content w'
    ∧ (r = .ok () → content w'.writer = content w.writer ++ buf)
    ∧ ∃ c, c <+: buf ∧ content w'.writer = content w.writer ++ c := by
  induction fuel generalizing w buf with
  | zero =>
    rw [writeAll.eq_def] at h
    dsimp only at h
    by_cases hb : buf.isEmpty
    · rw [if_pos hb] at h
      cases h
      have : buf = [] := List.isEmpty_iff.1 hb
      subst this
      exact ⟨hw, fun _ => (List.append_nil _).symm, [], List.nil_prefix, (List.append_nil _).symm⟩
    · rw [if_neg hb] at h
      simp at h
  | succ fuel ih =>
    rw [writeAll.eq_def] at h
    dsimp only at h
    by_cases hb : buf.isEmpty
    · rw [if_pos hb] at h
      cases h
      have : buf = [] := List.isEmpty_iff.1 hb
      subst this
      exact ⟨hw, fun _ => (List.append_nil _).symm, [], List.nil_prefix, (List.append_nil _).symm⟩
    · rw [if_neg hb] at h
      have hc := write_counts hd hw buf
      cases hr : (dev w.writer buf).2 with
      | ok n =>
        have hst := hd.ok _ _ _ hr
        rw [write_ok hr] at h hc
        cases n with
        | zero =>
          simp only [Option.some.injEq, Prod.mk.injEq] at h
          obtain ⟨rfl, rfl⟩ := h
          exact ⟨hc.1, by simp, hc.2⟩
        | succ n =>
          simp only at h
          obtain ⟨h1, h2, c, h3, h4⟩ := ih hc.1 _ h
          simp only at h2 h4
          refine ⟨h1, fun hr => ?_, buf.take (n + 1) ++ c, ?_, ?_⟩
          · rw [h2 hr, hst.2, List.append_assoc, List.take_append_drop]
          · rw [← List.take_append_drop (n + 1) buf, List.take_append_drop (n + 1) buf]
            conv => rhs; rw [← List.take_append_drop (n + 1) buf]
            exact (List.prefix_append_right_inj _).2 h3
          · rw [h4, hst.2, List.append_assoc]
      | error e =>
        have hst := hd.error _ _ _ hr
        rw [write_error hr] at h hc
        have hcnt := hc.1
        cases e with
        | interrupted =>
          simp only at h
          have := ih hc.1 _ h
          simp only [hst] at this
          exact this
        | writeZero =>
          simp only [Option.some.injEq, Prod.mk.injEq] at h
          obtain ⟨rfl, rfl⟩ := h
          exact ⟨hc.1, by simp, hc.2⟩
        | other =>
          simp only [Option.some.injEq, Prod.mk.injEq] at h
          obtain ⟨rfl, rfl⟩ := h
          exact ⟨hc.1, by simp, hc.2⟩

/-- `write_all` finishes with `Ok` on a writer that always takes something. -/
theorem writeAll_accepts (ha : Accepts dev) (fuel : Nat) (w : WriteWrapper σ) (buf : Bytes) (hf : buf.length ≤ fuel) :
    ∃ w', w.writeAll dev fuel buf = some (w', .ok ()) := by
  induction fuel generalizing w buf with
  | zero =>
    have : buf = [] := List.eq_nil_of_length_eq_zero (by omega)
    subst this
    exact ⟨w, by rw [writeAll.eq_def]; rfl⟩
  | succ fuel ih =>
    rw [writeAll.eq_def]
    dsimp only
    by_cases hb : buf.isEmpty
    · rw [if_pos hb]; exact ⟨w, rfl⟩
    · rw [if_neg hb]
      have hne : buf ≠ [] := fun h => hb (List.isEmpty_iff.2 h)
      obtain ⟨n, hn⟩ := ha w.writer buf hne
      rw [write_ok hn]
      simp only
      exact ih _ _ (by simp only [List.length_drop]; omega)

theorem takesAll_accepts (ht : TakesAll dev) : Accepts dev := by
  intro s b hb
  refine ⟨b.length - 1, ?_⟩
  rw [ht]
  congr 1
  have := List.length_pos_iff.2 hb
  omega

theorem write_takesAll (hd : Stores dev content) (ht : TakesAll dev) (w : WriteWrapper σ) (b : Bytes) :
    content (w.write dev b).1.writer = content w.writer ++ b := by
  rw [write_ok (ht _ _)]
  have := (hd.ok _ _ _ (ht w.writer b)).2
  rw [List.take_length] at this
  exact this

theorem writeAll_takesAll (hd : Stores dev content) (ht : TakesAll dev) {fuel : Nat} (hf : 0 < fuel) (w : WriteWrapper σ) (b : Bytes) :
    ∃ w', w.writeAll dev fuel b = some (w', .ok ()) ∧ content w'.writer = content w.writer ++ b := by
  obtain ⟨fuel, rfl⟩ : ∃ k, fuel = k + 1 := ⟨fuel - 1, by omega⟩
  rw [writeAll.eq_def]
  dsimp only
  by_cases hb : b.isEmpty
  · rw [if_pos hb, List.isEmpty_iff.1 hb]; exact ⟨w, rfl, (List.append_nil _).symm⟩
  · rw [if_neg hb]
    have h1 := write_takesAll hd ht w b
    rw [write_ok (ht _ _)] at h1 ⊢
    have : b.length ≠ 0 := fun h => hb (List.isEmpty_iff.2 (List.eq_nil_of_length_eq_zero h))
    obtain ⟨n, hn⟩ : ∃ n, b.length = n + 1 := ⟨b.length - 1, by omega⟩
    rw [hn] at h1 ⊢
    simp only at h1 ⊢
    have hdr : b.drop (n + 1) = [] := List.drop_of_length_le (by omega)
    refine ⟨⟨w.position + BitVec.ofNat 64 (n + 1), (dev w.writer b).1⟩, ?_, h1⟩
    rw [hdr, writeAll.eq_def]
    rfl

theorem writeEntry_takesAll (hd : Stores dev content) (ht : TakesAll dev) {fuel : Nat} (hf : 0 < fuel) (w : WriteWrapper σ)
    (e : IndexEntry) : ∃ w', w.writeEntry dev fuel e = some w' ∧ content w'.writer = content w.writer ++ e.serialize := by
  obtain ⟨w1, h1, h2⟩ := writeAll_takesAll hd ht hf w (writeStr e.name)
  rw [writeEntry, h1]
  refine ⟨_, rfl, ?_⟩
  rw [write_takesAll hd ht, h2, IndexEntry.serialize, List.append_assoc]

theorem writeEntries_takesAll (hd : Stores dev content) (ht : TakesAll dev) {fuel : Nat} (hf : 0 < fuel) (w : WriteWrapper σ)
    (es : List IndexEntry) :
    ∃ w', w.writeEntries dev fuel es = some w' ∧ content w'.writer = content w.writer ++ es.flatMap IndexEntry.serialize := by
  induction es generalizing w with
  | nil => exact ⟨w, rfl, (List.append_nil _).symm⟩
  | cons e es ih =>
    obtain ⟨w1, h1, h2⟩ := writeEntry_takesAll hd ht hf w e
    obtain ⟨w2, h3, h4⟩ := ih w1
    rw [writeEntries, h1]
    exact ⟨w2, h3, by rw [h4, h2, List.flatMap_cons, List.append_assoc]⟩

theorem writeNode_takesAll (hd : Stores dev content) (ht : TakesAll dev) {fuel : Nat} (hf : 0 < fuel) (w : WriteWrapper σ)
    (n : IndexNode) : ∃ w', w.writeNode dev fuel n = some w' ∧ content w'.writer = content w.writer ++ n.serialize := by
  obtain ⟨w1, h1, h2⟩ := writeAll_takesAll hd ht hf w (writeVarU32 (u32 n.children.length))
  obtain ⟨w2, h3, h4⟩ := writeEntries_takesAll hd ht hf w1 n.children
  rw [writeNode, h1]
  simp only [h3]
  refine ⟨_, rfl, ?_⟩
  rw [write_takesAll hd ht, write_takesAll hd ht, h4, h2, IndexNode.serialize]
  simp only [List.append_assoc]

end WriteWrapper

theorem chunked_stores (k : Nat) : Stores (chunked k) id := by
  constructor
  · intro s b n h
    simp only [chunked, Except.ok.injEq, List.length_take] at h
    subst h
    refine ⟨Nat.min_le_right _ _, ?_⟩
    simp only [chunked, id]
    congr 1
    rcases Nat.le_total k b.length with hk | hk
    · rw [Nat.min_eq_left hk]
    · rw [Nat.min_eq_right hk, List.take_length, List.take_of_length_le hk]
  · intro s b e h
    simp [chunked] at h

theorem chunked_accepts {k : Nat} (hk : 0 < k) : Accepts (chunked k) := by
  intro s b hb
  have := List.length_pos_iff.2 hb
  refine ⟨(b.take k).length - 1, ?_⟩
  simp only [chunked, List.length_take]
  congr 1
  omega

theorem limited_stores (n : Nat) : Stores (limited n) id := by
  constructor
  · intro s b k h
    by_cases hb : b ≠ [] ∧ n ≤ s.length
    · simp [limited, hb] at h
    · simp only [limited, if_neg hb, Except.ok.injEq, List.length_take] at h ⊢
      subst h
      refine ⟨Nat.min_le_right _ _, ?_⟩
      simp only [id]
      congr 1
      rcases Nat.le_total (n - s.length) b.length with hk | hk
      · rw [Nat.min_eq_left hk]
      · rw [Nat.min_eq_right hk, List.take_length, List.take_of_length_le hk]
  · intro s b e h
    by_cases hb : b ≠ [] ∧ n ≤ s.length
    · simp only [limited, if_pos hb, id]
    · simp [limited, if_neg hb] at h

/-- The `Sink` with a limit behaves as `write_all` on a writer with that much room. -/
theorem sink_limited (n : Nat) (pos : W64) (s b : Bytes) :
    ∃ pos', (⟨pos, s⟩ : WriteWrapper Bytes).writeAll (limited n) 2 b
      = some (⟨pos', ((⟨s, some n⟩ : Sink).write b).bytes⟩, if (⟨s, some n⟩ : Sink).ok b then .ok () else .error .other) := by
  rw [WriteWrapper.writeAll.eq_def]
  dsimp only
  by_cases hb : b.isEmpty
  · rw [if_pos hb, List.isEmpty_iff.1 hb]
    refine ⟨pos, ?_⟩
    simp [Sink.write, Sink.ok]
  · rw [if_neg hb]
    have hne : b ≠ [] := fun h => hb (List.isEmpty_iff.2 h)
    have hpos := List.length_pos_iff.2 hne
    by_cases hf : n ≤ s.length
    · have hr : (limited n s b) = (s, .error .other) := by rw [limited, if_pos ⟨hne, hf⟩]
      rw [WriteWrapper.write_error (e := .other) (by rw [hr])]
      simp only [hr]
      refine ⟨pos, ?_⟩
      have h0 : n - s.length = 0 := by omega
      simp only [Sink.write, Sink.ok, h0, List.take_zero, List.append_nil]
      rw [if_neg (by simp only [decide_eq_true_eq]; omega)]
    · have hr : (limited n s b) = (s ++ b.take (n - s.length), .ok (b.take (n - s.length)).length) := by
        rw [limited, if_neg (fun h => hf h.2)]
      rw [WriteWrapper.write_ok (n := (b.take (n - s.length)).length) (by rw [hr])]
      simp only [hr]
      obtain ⟨k, hk⟩ : ∃ k, (b.take (n - s.length)).length = k + 1 :=
        ⟨(b.take (n - s.length)).length - 1, by simp only [List.length_take]; omega⟩
      simp only [hk]
      rw [WriteWrapper.writeAll.eq_def]
      dsimp only
      simp only [List.length_take] at hk
      by_cases hfit : b.length ≤ n - s.length
      · have hd : b.drop (k + 1) = [] := List.drop_of_length_le (by omega)
        rw [hd]
        refine ⟨pos + BitVec.ofNat 64 (k + 1), ?_⟩
        simp only [List.isEmpty_nil, if_true, Sink.write, Sink.ok, hfit, decide_true]
      · have hd : (b.drop (k + 1)).isEmpty = false := by
          rw [Bool.eq_false_iff]
          intro h
          have := congrArg List.length (List.isEmpty_iff.1 h)
          simp only [List.length_drop, List.length_nil] at this
          omega
        rw [hd]
        simp only [Bool.false_eq_true, if_false]
        have hr2 : (limited n (s ++ b.take (n - s.length)) (b.drop (k + 1)))
            = (s ++ b.take (n - s.length), .error .other) := by
          rw [limited, if_pos]
          refine ⟨fun h => ?_, ?_⟩
          · rw [h] at hd; simp at hd
          · simp only [List.length_append, List.length_take]; omega
        rw [WriteWrapper.write_error (e := .other) (by rw [hr2])]
        simp only [hr2]
        refine ⟨pos + BitVec.ofNat 64 (k + 1), ?_⟩
        simp only [Sink.write, Sink.ok, hfit, decide_false, Bool.false_eq_true, if_false]

end TsFile
