import Verif.Proofs.RefEncode
/-! # The TS_2DIFF encoders are inverted by the decoder of the specification -/

namespace TsFile
open Spec

/-- The encoder after writing `vs`: the flushed blocks hold `done`, the open block holds the rest. -/
structure EncRep {w : Nat} (e : Ts2Diff w) (vs : List (BitVec w)) : Prop where
  split : ∃ (blocks : List Bytes) (done : List (List (BitVec w))) (cur : List (BitVec w)),
    vs = done.flatten ++ cur
    ∧ e.buffer = blocks.flatten
    ∧ List.Forall₂ (fun b d => b ≠ [] ∧ b.length ≤ 9 * d.length
        ∧ ∀ r, pTs2DiffBlock w (b ++ r) = some (d, r)) blocks done
    ∧ match cur with
      | [] => e.firstValue = none ∧ e.values = []
      | f :: rest => e.firstValue = some f ∧ e.values = deltasOf f rest
          ∧ e.previousValue = rest.getLastD f ∧ rest.length < 128
  min : MinRep e
  exact : EncExact e vs

theorem encRep_new {w : Nat} : EncRep (Ts2Diff.new : Ts2Diff w) [] :=
  ⟨⟨[], [], [], rfl, rfl, .nil, rfl, rfl⟩, minRep_nil rfl rfl, encExact_new⟩

theorem forall₂_append {α β : Type} {R : α → β → Prop} {l1 l2 : List α} {m1 m2 : List β}
    (h1 : List.Forall₂ R l1 m1) (h2 : List.Forall₂ R l2 m2) : List.Forall₂ R (l1 ++ l2) (m1 ++ m2) := by
  induction h1 with
  | nil => simpa
  | cons h _ ih => exact .cons h ih

/-- Flushing moves the open block to the buffer. -/
theorem flush_rep {w : Nat} (tb : BitVec w → Bytes → Nat → Nat → Option Bytes) (hp : PackOk w tb)
    (h8 : w % 8 = 0) (hw : w ≤ 64) (hw0 : 0 < w) (f : BitVec w) (rest : List (BitVec w)) (e : Ts2Diff w)
    (hf : e.firstValue = some f) (hv : e.values = deltasOf f rest) (hlen : rest.length ≤ 128) :
    ∃ e' b, Ts2Diff.flush tb e = some e' ∧ e'.firstValue = none ∧ e'.values = []
      ∧ e'.buffer = e.buffer ++ b ∧ b ≠ [] ∧ b.length ≤ 24 + 8 * rest.length
      ∧ (∀ r, pTs2DiffBlock w (b ++ r) = some (f :: rest, r)) ∧ e'.minDelta = BitVec.intMax w := by
  obtain ⟨p, hpay, hplen, hblk⟩ := block_roundtrip tb hp h8 hw f e.minDelta e.values
    (by rw [hv, length_deltasOf]; omega)
  refine ⟨{ firstValue := none, minDelta := BitVec.intMax w, previousValue := 0, values := [],
             buffer := e.buffer ++ be32 (u32 e.values.length)
               ++ be32 (u32 (Ts2Diff.blockWidth (e.values.map (· - e.minDelta))))
               ++ beBytes (w / 8) e.minDelta.toNat ++ beBytes (w / 8) f.toNat ++ p },
    be32 (u32 e.values.length)
          ++ be32 (u32 (Ts2Diff.blockWidth (e.values.map (· - e.minDelta))))
          ++ beBytes (w / 8) e.minDelta.toNat ++ beBytes (w / 8) f.toNat ++ p, ?_, rfl, rfl, ?_, ?_, ?_, ?_, rfl⟩
  · rw [Ts2Diff.flush, hf]
    simp only [hpay]
  · simp
  · intro h
    have := congrArg List.length h
    simp at this
  · have : w / 8 ≤ 8 := by omega
    simp only [List.length_append, length_be32, length_beBytes]
    rw [hv, length_deltasOf] at hplen
    omega
  · intro r
    rw [hblk r, hv, undelta_deltasOf]

theorem write_rep {w : Nat} (tb : BitVec w → Bytes → Nat → Nat → Option Bytes) (hp : PackOk w tb)
    (h8 : w % 8 = 0) (hw : w ≤ 64) (hw0 : 0 < w) (e : Ts2Diff w) (vs : List (BitVec w)) (v : BitVec w)
    (h : EncRep e vs) : ∃ e', e.write tb v = some e' ∧ EncRep e' (vs ++ [v]) := by
  obtain ⟨⟨blocks, done, cur, hvs, hbuf, hall, hcur⟩, hmin, hex⟩ := h
  have hnext : ∀ e', e.write tb v = some e' → EncExact e' (vs ++ [v]) := fun e' he => encExact_write tb hp h8 hw hex he
  cases cur with
  | nil =>
    obtain ⟨hf, hv⟩ := hcur
    have hwr : e.write tb v = some { e with firstValue := some v, previousValue := v } := by
      rw [Ts2Diff.write, hf]; simp only [hv]; rfl
    exact ⟨_, hwr, ⟨blocks, done, [v], by simp [hvs], hbuf, hall, rfl, hv, rfl, by simp⟩, minRep_nil hv (hmin.init hv), hnext _ hwr⟩
  | cons f rest =>
    obtain ⟨hf, hv, hprev, hlen⟩ := hcur
    have hvals : e.values ++ [v - e.previousValue] = deltasOf f (rest ++ [v]) := by
      rw [deltasOf_append, hv, hprev]
    have hl : (e.values ++ [v - e.previousValue]).length = rest.length + 1 := by
      rw [hvals, length_deltasOf]; simp
    rw [Ts2Diff.write, hf] at hnext ⊢
    simp only [hl] at hnext ⊢
    by_cases h128 : rest.length + 1 = 128
    · rw [if_pos h128] at hnext ⊢
      obtain ⟨e', b, he', h1, h2, h3, h4, h5, h6, h7⟩ := flush_rep tb hp h8 hw hw0 f (rest ++ [v])
        { e with minDelta := if (v - e.previousValue).slt e.minDelta then v - e.previousValue else e.minDelta,
                 values := e.values ++ [v - e.previousValue], previousValue := v }
        hf hvals (by simp; omega)
      refine ⟨e', by rw [← he', hf], ⟨⟨blocks ++ [b], done ++ [f :: (rest ++ [v])], [], ?_, ?_,
        forall₂_append hall (.cons ⟨h4, ?_, h6⟩ .nil), h1, h2⟩, minRep_nil h2 h7, hnext e' (by rw [← he', hf])⟩⟩
      · simp [hvs]
      · rw [h3]; simp [hbuf]
      · simp only [List.length_append, List.length_cons, List.length_nil] at h5 ⊢
        omega
    · rw [if_neg h128] at hnext ⊢
      refine ⟨_, rfl, ⟨⟨blocks, done, f :: (rest ++ [v]), by simp [hvs], hbuf, hall, rfl, hvals, ?_, ?_⟩, minRep_snoc hmin _ rfl rfl, hnext _ rfl⟩⟩
      · simp
      · simp; omega

theorem forall₂_decode {w : Nat} (blocks : List Bytes) (done : List (List (BitVec w)))
    (hall : List.Forall₂ (fun b d => b ≠ [] ∧ ∀ r, pTs2DiffBlock w (b ++ r) = some (d, r)) blocks done) :
    decodeTs2Diff w blocks.flatten = some done.flatten := by
  have key : ∀ fuel, blocks.length ≤ fuel → pAllFuel (pTs2DiffBlock w) fuel blocks.flatten = some done := by
    induction hall with
    | nil => intro fuel _; cases fuel <;> simp [pAllFuel]
    | @cons b d bs ds h _ ih =>
      intro fuel hf
      obtain ⟨fuel, rfl⟩ : ∃ k, fuel = k + 1 := ⟨fuel - 1, by simp at hf; omega⟩
      obtain ⟨hne, hb⟩ := h
      obtain ⟨x, xs, rfl⟩ := List.exists_cons_of_ne_nil hne
      have := hb bs.flatten
      rw [List.flatten_cons, List.cons_append] at *
      rw [pAllFuel, this]
      simp only
      rw [ih fuel (by simpa using hf)]
  rw [decodeTs2Diff, pAll, key]
  · rfl
  · clear key
    induction hall with
    | nil => simp
    | cons h _ ih =>
      have := List.length_pos_iff.2 h.1
      simp only [List.length_cons, List.flatten_cons, List.length_append]
      omega

theorem forall₂_flatten_le {w : Nat} {P : Bytes → List (BitVec w) → Prop} {blocks : List Bytes}
    {done : List (List (BitVec w))}
    (h : List.Forall₂ (fun b d => b ≠ [] ∧ b.length ≤ 9 * d.length ∧ P b d) blocks done) :
    blocks.flatten.length ≤ 9 * done.flatten.length := by
  induction h with
  | nil => simp
  | cons h _ ih => simp only [List.flatten_cons, List.length_append]; have := h.2.1; omega

/-- Serializing yields bytes that decode to the written values. -/
theorem serialize_rep {w : Nat} (tb : BitVec w → Bytes → Nat → Nat → Option Bytes) (hp : PackOk w tb)
    (h8 : w % 8 = 0) (hw : w ≤ 64) (hw0 : 0 < w) (e : Ts2Diff w) (vs : List (BitVec w))
    (h : EncRep e vs) : ∃ e' b, e.serialize tb = some (e', b) ∧ decodeTs2Diff w b = some vs
      ∧ b.length ≤ 9 * vs.length + 16 ∧ b = Ref.ts2diff vs := by
  suffices hsuf : ∃ e' b, e.serialize tb = some (e', b) ∧ decodeTs2Diff w b = some vs ∧ b.length ≤ 9 * vs.length + 16 by
    obtain ⟨e', b, h1, h2, h3⟩ := hsuf
    exact ⟨e', b, h1, h2, h3, encExact_serialize tb hp h8 hw h.exact h1⟩
  obtain ⟨⟨blocks, done, cur, hvs, hbuf, hall, hcur⟩, _, _⟩ := h
  have hl := forall₂_flatten_le (P := fun b d => ∀ r, pTs2DiffBlock w (b ++ r) = some (d, r)) hall
  have hall' : List.Forall₂ (fun b d => b ≠ [] ∧ ∀ r, pTs2DiffBlock w (b ++ r) = some (d, r)) blocks done :=
    hall.imp (fun _ _ h => ⟨h.1, h.2.2⟩)
  cases cur with
  | nil =>
    obtain ⟨hf, hv⟩ := hcur
    have := forall₂_decode blocks done hall'
    refine ⟨e, e.buffer, ?_, ?_, ?_⟩
    · rw [Ts2Diff.serialize, Ts2Diff.flush, hf]
    · rw [hbuf, this, hvs]; simp
    · rw [hbuf, hvs, List.append_nil]; omega
  | cons f rest =>
    obtain ⟨hf, hv, hprev, hlen⟩ := hcur
    obtain ⟨e', b, he', h1, h2, h3, h4, h5, h6, _⟩ :=
      flush_rep tb hp h8 hw hw0 f rest e hf hv (by omega)
    have := forall₂_decode _ _ (forall₂_append hall' (.cons ⟨h4, h6⟩ .nil))
    refine ⟨e', e'.buffer, ?_, ?_, ?_⟩
    · rw [Ts2Diff.serialize, he']
    · rw [h3, hbuf, hvs]; simpa using this
    · rw [h3, hbuf, hvs]
      simp only [List.length_append, List.length_cons]
      omega

end TsFile
