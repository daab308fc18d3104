import Verif.Spec.Stream
import Verif.Proofs.Stream
/-! # Outputs that behave like a `Sink` -/

namespace TsFile
open Spec

namespace WriteWrapper
variable {σ : Type} {dev : Device σ}

theorem writeAll_mono {f f' : Nat} (hf : f ≤ f') {w : WriteWrapper σ} {b : Bytes} {r : WriteWrapper σ × Except IoErr Unit}
    (h : w.writeAll dev f b = some r) : w.writeAll dev f' b = some r := by
  induction f generalizing f' w b with
  | zero =>
    rw [writeAll.eq_def] at h ⊢
    dsimp only at h ⊢
    by_cases hb : b.isEmpty
    · rw [if_pos hb] at h ⊢; exact h
    · rw [if_neg hb] at h; simp at h
  | succ f ih =>
    obtain ⟨f', rfl⟩ : ∃ k, f' = k + 1 := ⟨f' - 1, by omega⟩
    rw [writeAll.eq_def] at h ⊢
    dsimp only at h ⊢
    by_cases hb : b.isEmpty
    · rw [if_pos hb] at h ⊢; exact h
    · rw [if_neg hb] at h ⊢
      rcases hw : w.write dev b with ⟨w1, r1⟩
      rw [hw] at h
      cases r1 with
      | ok n =>
        cases n with
        | zero => exact h
        | succ n => exact ih (by omega) h
      | error e =>
        cases e with
        | interrupted => exact ih (by omega) h
        | writeZero => exact h
        | other => exact h

end WriteWrapper

/-- An output that stores what it accepts and on which `write_all` succeeds: what goes through `write_all` arrives as on a
sink without a limit. -/
theorem keeps_follows {σ : Type} {p : Port σ} {content : σ → Bytes} (h : Keeps p content)
    (hall : ∀ (w : WriteWrapper σ) (b : Bytes), ∃ w', w.writeAll p.dev (p.patience b.length) b = some (w', .ok ())) :
    p.Follows (fun w s => s = ⟨content w.writer, none⟩ ∧ w.Counts content) := by
  refine ⟨?_, ?_, ?_⟩
  · rintro w s b ⟨rfl, hc⟩
    obtain ⟨w', hw⟩ := hall w b
    obtain ⟨q1, q2, _⟩ := WriteWrapper.writeAll_spec h.stores _ hc b hw
    exact ⟨w', .ok (), hw, ⟨by rw [q2 rfl]; rfl, q1⟩, fun _ => rfl, fun hf => by simp [Sink.ok] at hf⟩
  · rintro w s ⟨rfl, hc⟩
    exact hc
  · rintro w s ⟨rfl, hc⟩
    exact ⟨by rw [WriteWrapper.flush, h.flush], by rw [WriteWrapper.Counts, WriteWrapper.flush, h.flush]; exact hc⟩

/-- A faithful output behaves like a sink without a limit. -/
theorem faithful_tracks {σ : Type} {p : Port σ} {content : σ → Bytes} (h : Faithful p content) :
    p.Tracks (fun w s => s = ⟨content w.writer, none⟩ ∧ w.Counts content) := by
  refine ⟨keeps_follows h.toKeeps h.all, ?_⟩
  rintro w s b ⟨rfl, hc⟩ hb
  by_cases hne : b = []
  · subst hne
    obtain ⟨q1, c, q2, q3⟩ := WriteWrapper.write_counts h.stores hc []
    have : c = [] := List.prefix_nil.1 q2
    subst this
    exact ⟨by rw [q3]; rfl, q1⟩
  · have hs := h.small w.writer b hne hb
    have hc' := (WriteWrapper.write_counts h.stores hc b).1
    refine ⟨?_, hc'⟩
    rw [WriteWrapper.write_ok hs]
    have := (h.stores.ok _ _ _ hs).2
    rw [List.take_length] at this
    simp only [this]
    rfl

/-- An output that always takes something, and up to eight bytes at once, is faithful. -/
theorem faithful_of_accepts {σ : Type} {p : Port σ} {content : σ → Bytes} (hs : Stores p.dev content) (ha : Accepts p.dev)
    (hb : ∀ (s : σ) (b : Bytes), b ≠ [] → b.length ≤ 8 → (p.dev s b).2 = .ok b.length) (hp : ∀ n, n ≤ p.patience n)
    (hf : ∀ s, content (p.flush s) = content s) : Faithful p content :=
  ⟨⟨hs, hf⟩, fun w b => WriteWrapper.writeAll_accepts ha _ w b (hp _), hb⟩

theorem chunked_faithful {k : Nat} (hk : 8 ≤ k) : Faithful ⟨chunked k, id, id⟩ id := by
  refine faithful_of_accepts (chunked_stores k) (chunked_accepts (by omega)) ?_ (fun n => Nat.le_refl n) (fun _ => rfl)
  intro s b _ hb
  simp only [chunked]
  rw [List.take_of_length_le (by omega)]

/-- An output with room for `n` bytes behaves like a sink with that limit. -/
theorem limited_tracks (n : Nat) {patience : Nat → Nat} (hp : ∀ k, 2 ≤ patience k) :
    (⟨limited n, patience, id⟩ : Port Bytes).Tracks (fun w s => s = ⟨w.writer, some n⟩ ∧ w.Counts id) := by
  refine ⟨⟨?_, ?_, ?_⟩, ?_⟩
  · rintro ⟨pos, w⟩ s b ⟨rfl, hc⟩
    obtain ⟨pos', h⟩ := sink_limited n pos w b
    have h' := WriteWrapper.writeAll_mono (hp b.length) h
    obtain ⟨q1, _, _⟩ := WriteWrapper.writeAll_spec (limited_stores n) _ hc b h'
    refine ⟨_, _, h', ⟨?_, q1⟩, fun hk => by rw [if_pos hk], fun hk => ⟨.other, by rw [hk]; rfl⟩⟩
    simp [Sink.write]
  · rintro w s ⟨rfl, hc⟩
    exact hc
  · rintro w s ⟨rfl, hc⟩
    exact ⟨rfl, hc⟩
  · rintro ⟨pos, w⟩ s b ⟨rfl, hc⟩ _
    have hc' := (WriteWrapper.write_counts (limited_stores n) hc b).1
    refine ⟨?_, hc'⟩
    rw [(WriteWrapper.write_inner _ _).1]
    simp only [Sink.write, limited]
    by_cases hf : b ≠ [] ∧ n ≤ w.length
    · rw [if_pos hf, show n - w.length = 0 by omega]
      simp
    · rw [if_neg hf]

end TsFile
