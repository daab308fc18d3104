import Verif.Spec.Snappy
import Verif.Spec.Assumptions
import Verif.Proofs.Prim
/-! # The decoder of `Spec/Snappy.lean` understands every sequence of elements; a compressor that meets `SnappyOk` -/

namespace TsFile.Snappy

theorem length_le (k n : Nat) : (le k n).length = k := by
  induction k generalizing n with
  | zero => rfl
  | succ k ih => simp [le, ih]

theorem leNat_le (k n : Nat) (h : n < 256 ^ k) : leNat (le k n) = n := by
  induction k generalizing n with
  | zero => simp only [Nat.pow_zero] at h; simp only [le, leNat]; omega
  | succ k ih =>
    have h' : n / 256 < 256 ^ k := by
      rw [Nat.pow_succ, Nat.mul_comm] at h
      exact Nat.div_lt_of_lt_mul h
    simp only [le, leNat, ih _ h']
    have : (UInt8.ofNat (n % 256)).toNat = n % 256 := by simp [UInt8.toNat_ofNat]
    omega

theorem tag_toNat {n : Nat} (h : n < 256) : (UInt8.ofNat n).toNat = n := by
  simp [UInt8.toNat_ofNat]; omega

theorem copyFrom_le (k n : Nat) {offset : Nat} (h : offset < 256 ^ k) (r out : Bytes) :
    copyFrom k n (le k offset ++ r) out = (copyOut offset n out).map (fun o => (r, o)) := by
  have e1 : (le k offset ++ r).take k = le k offset := by
    rw [List.take_append_of_le_length (by simp [length_le]), List.take_of_length_le (by simp [length_le])]
  have e2 : (le k offset ++ r).drop k = r := by
    have := List.drop_left' (l₂ := r) (length_le k offset)
    exact this
  rw [copyFrom, if_pos (by simp [length_le]), e1, e2, leNat_le _ _ h]

/-- The decoder understands an element. -/
theorem step_element (e : Element) (h : e.Fits) (r out : Bytes) :
    step (e.bytes ++ r) out = (e.adds out).map (fun o => (r, o)) := by
  cases e with
  | lit b =>
    obtain ⟨h1, h2⟩ := h
    simp only [Element.bytes, List.cons_append, step]
    rw [tag_toNat (by omega), if_pos (by omega), if_pos (by omega)]
    have : 4 * (b.length - 1) / 4 + 1 = b.length := by omega
    rw [this, literal, if_pos (by simp)]
    simp [Element.adds]
  | longLit k b =>
    obtain ⟨h1, h2, h3, h4⟩ := h
    simp only [Element.bytes, List.cons_append, List.append_assoc, step]
    rw [tag_toNat (by omega), if_pos (by omega), if_neg (by omega)]
    have e0 : 4 * (59 + k) / 4 - 59 = k := by omega
    have e1 : (le k (b.length - 1) ++ (b ++ r)).take k = le k (b.length - 1) := by
      rw [List.take_append_of_le_length (by simp [length_le]), List.take_of_length_le (by simp [length_le])]
    have e2 : (le k (b.length - 1) ++ (b ++ r)).drop k = b ++ r :=
      List.drop_left' (l₂ := b ++ r) (length_le k _)
    rw [e0, if_pos (by simp [length_le]), e1, e2, leNat_le _ _ (by omega), Nat.sub_add_cancel h3, literal, if_pos (by simp)]
    simp [Element.adds]
  | copy1 offset n =>
    obtain ⟨h1, h2, h3⟩ := h
    simp only [Element.bytes, List.cons_append, List.nil_append, step]
    rw [tag_toNat (by omega), if_neg (by omega), if_pos (by omega), tag_toNat (by omega)]
    have e1 : 256 * ((1 + 4 * (n - 4) + 32 * (offset / 256)) / 32) + offset % 256 = offset := by omega
    have e2 : (1 + 4 * (n - 4) + 32 * (offset / 256)) / 4 % 8 + 4 = n := by omega
    rw [e1, e2]
    rfl
  | copy2 offset n =>
    obtain ⟨h1, h2, h3⟩ := h
    simp only [Element.bytes, List.cons_append, step]
    rw [tag_toNat (by omega), if_neg (by omega), if_neg (by omega), if_pos (by omega), copyFrom_le 2 _ (by omega)]
    have : (2 + 4 * (n - 1)) / 4 + 1 = n := by omega
    rw [this]
    rfl
  | copy4 offset n =>
    obtain ⟨h1, h2, h3⟩ := h
    simp only [Element.bytes, List.cons_append, step]
    rw [tag_toNat (by omega), if_neg (by omega), if_neg (by omega), if_neg (by omega), copyFrom_le 4 _ (by omega)]
    have : (3 + 4 * (n - 1)) / 4 + 1 = n := by omega
    rw [this]
    rfl

theorem bytes_pos (e : Element) : ∃ t r, e.bytes = t :: r := by cases e <;> exact ⟨_, _, rfl⟩

theorem elements_adds (es : List Element) (h : ∀ e ∈ es, e.Fits) : ∀ (k : Nat) (out : Bytes), (es.flatMap Element.bytes).length ≤ k →
    elements k (es.flatMap Element.bytes) out = adds out es := by
  induction es with
  | nil => intro k out _; cases k <;> rfl
  | cons e es ih =>
    intro k out hk
    obtain ⟨t, r, he⟩ := bytes_pos e
    rw [List.flatMap_cons] at hk ⊢
    cases k with
    | zero => rw [he] at hk; simp at hk
    | succ k =>
      have hstep := step_element e (h e List.mem_cons_self) (es.flatMap Element.bytes) out
      have hl : (es.flatMap Element.bytes).length ≤ k := by
        rw [he] at hk; simp only [List.length_append, List.length_cons] at hk; omega
      rw [he] at hstep ⊢
      simp only [List.cons_append] at hstep ⊢
      rw [elements.eq_3 _ _ _ (by simp), hstep, adds]
      cases e.adds out with
      | none => rfl
      | some o => exact ih (fun x hx => h x (List.mem_cons_of_mem _ hx)) k o hl

/-- **The decoder recovers what any compressor puts together.** -/
theorem decode_elements (es : List Element) (h : ∀ e ∈ es, e.Fits) (x : Bytes) (hx : adds [] es = some x) (hl : x.length < 2 ^ 32) :
    decode (writeVarU32 (u32 x.length) ++ es.flatMap Element.bytes) = some x := by
  rw [decode, pVarU_writeVarU32]
  have : (u32 x.length).toNat = x.length := by simp only [u32, BitVec.toNat_ofNat]; omega
  simp only [elements_adds es h _ [] (Nat.le_refl _), hx, this, if_true]

theorem copyOut_prefix (offset : Nat) : ∀ (n : Nat) (out pre h : Bytes), out = pre ++ h → h.length = offset → n ≤ offset → 1 ≤ offset →
    ∀ done, done.length + n = offset → done = h.take done.length →
      copyOut offset n (out ++ done) = some (out ++ h) := by
  intro n
  induction n with
  | zero =>
    intro out pre h ho hh _ _ done hd he
    have : done = h := by rw [he]; exact List.take_of_length_le (by omega)
    rw [copyOut, this]
  | succ n ih =>
    intro out pre h ho hh hn h1 done hd he
    have hlen : out.length = pre.length + offset := by rw [ho]; simp [hh]
    have hget : (out ++ done)[(out ++ done).length - offset]? = h[done.length]? := by
      have e : (out ++ done).length - offset = pre.length + done.length := by simp [hlen]; omega
      rw [e, List.getElem?_append_left (by omega), ho, List.getElem?_append_right (by omega)]
      congr 1; omega
    have hx : h[done.length]? = some (h[done.length]'(by omega)) := List.getElem?_eq_getElem (by omega)
    rw [copyOut, if_pos ⟨h1, by simp [hlen]; omega⟩, hget, hx]
    simp only [List.append_assoc]
    refine ih out pre h ho hh (by omega) h1 (done ++ [h[done.length]'(by omega)]) (by simp; omega) ?_
    simp only [List.length_append, List.length_cons, List.length_nil]
    rw [List.take_add_one, hx, ← he]
    rfl

theorem copyOut_one (x : UInt8) : ∀ (n : Nat) (out : Bytes), copyOut 1 n (out ++ [x]) = some (out ++ [x] ++ List.replicate n x) := by
  intro n
  induction n with
  | zero => intro out; simp [copyOut]
  | succ n ih =>
    intro out
    have hget : (out ++ [x])[(out ++ [x]).length - 1]? = some x := by simp
    rw [copyOut, if_pos ⟨by omega, by simp⟩, hget]
    simp only
    rw [ih (out ++ [x])]
    simp [List.replicate_succ]

theorem adds_append (es es' : List Element) : ∀ (out : Bytes), adds out (es ++ es') = (adds out es).bind (fun o => adds o es') := by
  induction es with
  | nil => intro out; rfl
  | cons e es ih =>
    intro out
    simp only [List.cons_append, adds]
    cases e.adds out with
    | none => rfl
    | some o => exact ih o

/-- The elements of the compressor mean the data; they fit, and take at most one byte more for every block. -/
theorem blocks_adds : ∀ (k : Nat) (pre last b : Bytes), b.length ≤ k →
    adds (pre ++ last) (blocks k last b) = some (pre ++ last ++ b) ∧ (∀ e ∈ blocks k last b, e.Fits)
      ∧ ((blocks k last b).flatMap Element.bytes).length ≤ b.length + (b.length + 59) / 60 := by
  intro k
  induction k with
  | zero =>
    intro pre last b hb
    have : b = [] := List.length_eq_zero_iff.mp (by omega)
    subst this
    simp [blocks, adds]
  | succ k ih =>
    intro pre last b hb
    rw [blocks]
    by_cases hne : b = []
    · subst hne; simp [adds]
    have hpos : 1 ≤ b.length := by
      cases b with
      | nil => exact absurd rfl hne
      | cons => simp
    rw [if_neg hne]
    dsimp only
    have hh : (b.take 60).length = min 60 b.length := by simp
    have hd : (b.drop 60).length = b.length - 60 := by simp
    have hsplit : b.take 60 ++ b.drop 60 = b := List.take_append_drop 60 b
    obtain ⟨i1, i2, i3⟩ := ih (pre ++ last) (b.take 60) (b.drop 60) (by omega)
    generalize hg : (if b.take 60 = last ∧ (b.take 60).length = 60 then [Element.copy2 60 60]
       else if 5 ≤ (b.take 60).length ∧ b.take 60 = List.replicate (b.take 60).length ((b.take 60).headD 0) then
        [.lit ((b.take 60).take 1), .copy2 1 ((b.take 60).length - 1)]
       else [.lit (b.take 60)]) = es
    have hes : adds (pre ++ last) es = some (pre ++ last ++ b.take 60) ∧ (∀ e ∈ es, e.Fits)
        ∧ (es.flatMap Element.bytes).length ≤ (b.take 60).length + 1 := by
      rw [← hg]
      generalize b.take 60 = h at *
      split
      · rename_i hc
        obtain ⟨hl, h60⟩ := hc
        refine ⟨?_, ?_, ?_⟩
        · have := copyOut_prefix 60 60 (pre ++ h) pre h rfl h60 (by omega) (by omega) [] rfl (by simp)
          rw [List.append_nil] at this
          rw [← hl]
          simp only [adds, Element.adds, this]
        · intro e he
          rw [List.mem_singleton] at he
          subst he
          simp [Element.Fits]
        · simp [Element.bytes, length_le]; omega
      · split
        · rename_i hc
          obtain ⟨h5, hr⟩ := hc
          have ht : h.take 1 = [h.headD 0] := by
            cases h with
            | nil => simp at h5
            | cons x r => simp
          refine ⟨?_, ?_, ?_⟩
          · rw [ht]
            simp only [adds, Element.adds, copyOut_one]
            congr 1
            rw [List.append_assoc]
            congr 1
            refine Eq.trans ?_ hr.symm
            obtain ⟨n, hn⟩ : ∃ n, h.length = n + 1 := ⟨h.length - 1, by omega⟩
            rw [hn, List.replicate_succ, Nat.add_sub_cancel]
            rfl
          · intro e he
            simp only [List.mem_cons, List.not_mem_nil, or_false] at he
            rcases he with he | he
            · subst he; rw [ht]; simp [Element.Fits]
            · subst he; simp only [Element.Fits]; omega
          · rw [ht]; simp [Element.bytes, length_le]; omega
        · refine ⟨by simp [adds, Element.adds], ?_, by simp [Element.bytes]⟩
          intro e he
          rw [List.mem_singleton] at he
          subst he
          simp only [Element.Fits]; omega
    obtain ⟨j1, j2, j3⟩ := hes
    refine ⟨?_, ?_, ?_⟩
    · show adds (pre ++ last) (es ++ blocks k (b.take 60) (b.drop 60)) = _
      rw [adds_append, j1]
      simp only [Option.bind_some]
      rw [i1, List.append_assoc, hsplit]
    · intro e he
      rcases List.mem_append.mp he with he | he
      · exact j2 e he
      · exact i2 e he
    · show ((es ++ blocks k (b.take 60) (b.drop 60)).flatMap Element.bytes).length ≤ _
      rw [List.flatMap_append, List.length_append]
      omega

/-- The compressor and the decoder meet the assumption on Snappy. -/
theorem snappyOk (env : Env) (h : env.snappy = fun b => some (compress b)) : SnappyOk env decode := by
  intro x hx
  obtain ⟨h1, h2, h3⟩ := blocks_adds x.length [] [] x (Nat.le_refl _)
  refine ⟨compress x, by rw [h], decode_elements _ h2 x h1 (by omega), ?_⟩
  have : (writeVarU32 (u32 x.length)).length ≤ 6 := length_writeVarU32_le _
  rw [compress, List.length_append]
  omega

end TsFile.Snappy
