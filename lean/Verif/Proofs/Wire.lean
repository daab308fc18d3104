import Verif.Spec.Interface
import Verif.Proofs.Utf8
import Verif.Proofs.Prim
import Verif.Proofs.RefEncode
/-! # Reading what was written in the binary protocol -/

namespace TsFile.Thrift
open Spec (Val Vals Fields fields Text textBytes typeNumber messageNumber msgHead strictHead framed)

/-! ## UTF-8 -/

theorem utf8_ascii {b : Bytes} (h : ∀ x ∈ b, x < 0x80) : utf8 b = true := by
  have : b.foldl utf8Step (some (0, 0x80, 0xBF)) = some (0, 0x80, 0xBF) := by
    induction b with
    | nil => rfl
    | cons x b ih =>
      rw [List.foldl_cons]
      have hx := h x List.mem_cons_self
      have : utf8Step (some (0, 0x80, 0xBF)) x = some (0, 0x80, 0xBF) := by
        simp only [utf8Step, if_pos hx]
      rw [this]
      exact ih (fun y hy => h y (List.mem_cons_of_mem _ hy))
  unfold utf8
  rw [this]
  rfl

/-! ## Numbers and strings -/

theorem beVal_eq (b : Bytes) : beVal b = Spec.beNat b := rfl

theorem readN_append (n : Nat) (a r : Bytes) (h : a.length = n) : readN n (a ++ r) = some (a, r) := by
  subst h
  simp [readN]

theorem readN_some {n : Nat} {b a r : Bytes} (h : readN n b = some (a, r)) : b = a ++ r ∧ a.length = n := by
  rw [readN] at h
  split at h
  · simp only [Option.some.injEq, Prod.mk.injEq] at h
    obtain ⟨rfl, rfl⟩ := h
    exact ⟨(List.take_append_drop n b).symm, by simp; omega⟩
  · cases h

theorem into_some {α σ : Type} {rd : Rd α} {f : α → σ} {b r : Bytes} {x : σ} (h : into rd f b = some (x, r)) :
    ∃ a, rd b = some (a, r) ∧ f a = x := by
  rw [into] at h
  cases hr : rd b with
  | none => simp [hr] at h
  | some p =>
    simp only [hr, Option.map_some, Option.some.injEq, Prod.mk.injEq] at h
    exact ⟨p.1, by rw [← h.2], h.1⟩

theorem into_eq {α σ : Type} {rd : Rd α} {f : α → σ} {b r : Bytes} {a : α} (h : rd b = some (a, r)) :
    into rd f b = some (f a, r) := by
  rw [into, h]; rfl

theorem readI16_be (x : W16) (r : Bytes) : readI16 (beBytes 2 x.toNat ++ r) = some (x, r) := by
  rw [readI16, into_eq (readN_append 2 _ r (length_beBytes _ _)), beVal_eq, beNat_beBytes, Nat.mod_eq_of_lt (by have := x.isLt; omega)]
  simp

theorem readI32_be (x : W32) (r : Bytes) : readI32 (be32 x ++ r) = some (x, r) := by
  rw [readI32, into_eq (readN_append 4 _ r (length_be32 _)), beVal_eq, be32, beNat_beBytes, Nat.mod_eq_of_lt (by have := x.isLt; omega)]
  simp

theorem readI64_be (x : W64) (r : Bytes) : readI64 (be64 x ++ r) = some (x, r) := by
  rw [readI64, into_eq (readN_append 8 _ r (length_be64 _)), beVal_eq, be64, beNat_beBytes, Nat.mod_eq_of_lt (by have := x.isLt; omega)]
  simp

theorem readI32_some {b r : Bytes} {x : W32} (h : readI32 b = some (x, r)) : b = be32 x ++ r := by
  obtain ⟨a, ha, rfl⟩ := into_some h
  obtain ⟨rfl, hl⟩ := readN_some ha
  have h1 := beBytes_beNat a
  have h2 : beVal a < 2 ^ 32 := by
    rw [beVal_eq, ← h1, beNat_beBytes, hl]
    exact Nat.mod_lt _ (by decide)
  rw [be32, BitVec.toNat_ofNat, Nat.mod_eq_of_lt h2, beVal_eq, ← hl, h1]

theorem msb_small {n : Nat} (h : n < 2 ^ 31) : (u32 n).msb = false := by
  rw [BitVec.msb_eq_decide, u32, BitVec.toNat_ofNat, Nat.mod_eq_of_lt (by omega)]
  simp; omega

theorem msb_large {n : Nat} (h : 2 ^ 31 ≤ n) (h' : n < 2 ^ 32) : (u32 n).msb = true := by
  rw [BitVec.msb_eq_decide, u32, BitVec.toNat_ofNat, Nat.mod_eq_of_lt (by omega)]
  simp; omega

theorem loopCount_small {n : Nat} (h : n < 2 ^ 31) : loopCount (u32 n) = n := by
  rw [loopCount, msb_small h, u32, BitVec.toNat_ofNat, Nat.mod_eq_of_lt (by omega)]
  rfl

theorem readBytes_text (v r : Bytes) (h : v.length < 2 ^ 31) : readBytes (textBytes v ++ r) = some (v, r) := by
  rw [readBytes, textBytes, List.append_assoc, readI32_be]
  simp only [msb_small h, u32_toNat _ (show v.length < 2 ^ 32 by omega)]
  exact readN_append _ _ _ rfl

theorem readStr_text (v r : Bytes) (h : Text v) : readStr (textBytes v ++ r) = some (v, r) := by
  rw [readStr, readBytes_text v r h.2]
  simp only [(utf8_iff v).mpr h.1, if_true]

theorem readBytes_some {b r v : Bytes} (h : readBytes b = some (v, r)) : b = textBytes v ++ r ∧ v.length < 2 ^ 31 := by
  rw [readBytes] at h
  cases hn : readI32 b with
  | none => simp [hn] at h
  | some p =>
    obtain ⟨n, q⟩ := p
    simp only [hn] at h
    split at h
    · cases h
    · rename_i hm
      obtain ⟨rfl, hl⟩ := readN_some h
      have hb := readI32_some hn
      have hlt : n.toNat < 2 ^ 31 := by
        rw [BitVec.msb_eq_decide] at hm
        simp at hm
        omega
      refine ⟨?_, by omega⟩
      rw [hb, textBytes, List.append_assoc]
      congr 2
      rw [hl, u32]
      simp

theorem readStr_some {b r v : Bytes} (h : readStr b = some (v, r)) : b = textBytes v ++ r ∧ Text v := by
  rw [readStr] at h
  cases hn : readBytes b with
  | none => simp [hn] at h
  | some p =>
    obtain ⟨x, q⟩ := p
    simp only [hn] at h
    split at h
    · simp only [Option.some.injEq, Prod.mk.injEq] at h
      obtain ⟨rfl, rfl⟩ := h
      obtain ⟨h1, h2⟩ := readBytes_some hn
      exact ⟨h1, (utf8_iff _).mp (by assumption), h2⟩
    · cases h

/-! ## Types, fields and messages -/

theorem code_eq (ty : TType) : ty.code = typeNumber ty := by cases ty <;> rfl
theorem msgCode_eq (ty : MsgType) : ty.code = messageNumber ty := by cases ty <;> rfl
theorem ofCode_number (ty : TType) : TType.ofCode (typeNumber ty) = some ty := by cases ty <;> rfl
theorem msgOfCode_number (ty : MsgType) : MsgType.ofCode (messageNumber ty) = some ty := by cases ty <;> rfl

theorem msgOfCode_some {b : UInt8} {ty : MsgType} (h : MsgType.ofCode b = some ty) : b = messageNumber ty := by
  rw [MsgType.ofCode] at h
  split at h
  · cases h; assumption
  split at h
  · cases h; assumption
  split at h
  · cases h; assumption
  split at h
  · cases h; assumption
  · cases h

theorem readType_number (ty : TType) (r : Bytes) : readType (typeNumber ty :: r) = some (ty, r) := by
  simp only [readType, readU8, ofCode_number, Option.map_some]

theorem readFieldBegin_stop (r : Bytes) : readFieldBegin (0 :: r) = some ((.stop, 0), r) := rfl

theorem readFieldBegin_field (ty : TType) (h : ty ≠ .stop) (id : W16) (r : Bytes) :
    readFieldBegin (typeNumber ty :: (beBytes 2 id.toNat ++ r)) = some ((ty, id), r) := by
  rw [readFieldBegin, readType_number]
  simp only [if_neg h]
  exact into_eq (readI16_be id r)

theorem readListBegin_eq (ty : TType) (n : Nat) (h : n < 2 ^ 31) (r : Bytes) :
    readListBegin (typeNumber ty :: (be32 (u32 n) ++ r)) = some ((ty, n), r) := by
  rw [readListBegin, readType_number]
  simp only
  rw [into_eq (readI32_be _ r), loopCount_small h]

theorem readMapBegin_eq (k v : TType) (n : Nat) (h : n < 2 ^ 31) (r : Bytes) :
    readMapBegin (typeNumber k :: typeNumber v :: (be32 (u32 n) ++ r)) = some ((k, v, n), r) := by
  simp only [readMapBegin, readType_number]
  rw [into_eq (readI32_be _ r), loopCount_small h]

theorem be32_first {n : Nat} (h : n < 2 ^ 27) : ¬ (8 : UInt8) ≤ (be32 (u32 n)).headD 0 := by
  have hn : (u32 n).toNat = n := u32_toNat n (by omega)
  simp only [be32, hn, beBytes, List.nil_append, List.cons_append, List.headD_cons]
  rw [UInt8.le_iff_toNat_le, uint8_ofNat_toNat]
  simp
  omega

theorem readMsgBegin_head (name : Bytes) (ty : MsgType) (seq : W32) (r : Bytes) (hu : utf8 name = true) (hn : name.length < 2 ^ 27) :
    readMsgBegin (msgHead name ty seq ++ r) = some ((name, ty, seq), r) := by
  rw [readMsgBegin, msgHead, textBytes]
  simp only [List.append_assoc, List.cons_append]
  rw [readN_append 4 _ _ (length_be32 _)]
  simp only [if_neg (be32_first hn)]
  rw [beVal_eq, be32, beNat_beBytes, u32_toNat _ (show name.length < 2 ^ 32 by omega),
    Nat.mod_eq_of_lt (show name.length < 256 ^ 4 by omega), readN_append _ _ _ rfl]
  simp only [hu, if_true, readU8, msgOfCode_number]
  exact into_eq (readI32_be seq r)

theorem readMsgBegin_strict (b : UInt8) (name : Bytes) (ty : MsgType) (seq : W32) (r : Bytes) (hn : Text name) :
    readMsgBegin (strictHead b name ty seq ++ r) = some ((name, ty, seq), r) := by
  rw [readMsgBegin, strictHead]
  simp only [List.append_assoc]
  rw [readN_append 4 _ _ rfl]
  simp only [List.headD_cons, List.take_succ_cons, List.take_zero, List.getD_cons_succ, List.getD_cons_zero, msgOfCode_number,
    readStr_text _ _ hn]
  rw [if_pos (by decide)]
  simp only [if_true]
  exact into_eq (readI32_be seq r)

theorem readMsgBegin_some {b r name : Bytes} {ty : MsgType} {seq : W32} (h : readMsgBegin b = some ((name, ty, seq), r)) :
    b = msgHead name ty seq ++ r ∨ ∃ x, b = strictHead x name ty seq ++ r := by
  rw [readMsgBegin] at h
  cases h4 : readN 4 b with
  | none => simp [h4] at h
  | some p =>
    obtain ⟨first, q⟩ := p
    obtain ⟨rfl, hl⟩ := readN_some h4
    simp only [h4] at h
    split at h
    · split at h
      · rename_i hv
        cases hc : MsgType.ofCode (first.getD 3 0) with
        | none => simp only [hc] at h; cases h
        | some ty' =>
          simp only [hc] at h
          cases hs : readStr q with
          | none => simp [hs] at h
          | some p =>
            obtain ⟨n', q'⟩ := p
            simp only [hs] at h
            obtain ⟨s', hs', he⟩ := into_some h
            simp only [Prod.mk.injEq] at he
            obtain ⟨rfl, rfl, rfl⟩ := he
            right
            obtain ⟨hq, _⟩ := readStr_some hs
            have hq' := readI32_some hs'
            match first, hl with
            | [a, b, c, d], _ =>
              simp only [List.take_succ_cons, List.take_zero, List.cons.injEq, and_true] at hv
              obtain ⟨rfl, rfl⟩ := hv
              simp only [List.getD_cons_succ, List.getD_cons_zero] at hc
              refine ⟨c, ?_⟩
              rw [strictHead, msgOfCode_some hc, hq, hq']
              simp
      · cases h
    · cases hr : readN (beVal first) q with
      | none => simp [hr] at h
      | some p =>
        obtain ⟨n', q'⟩ := p
        simp only [hr] at h
        split at h
        · cases q' with
          | nil => simp [readU8] at h
          | cons x q' =>
            simp only [readU8] at h
            cases hc : MsgType.ofCode x with
            | none => simp [hc] at h
            | some ty' =>
              simp only [hc] at h
              obtain ⟨s', hs', he⟩ := into_some h
              simp only [Prod.mk.injEq] at he
              obtain ⟨rfl, rfl, rfl⟩ := he
              left
              obtain ⟨rfl, hn⟩ := readN_some hr
              have hq' := readI32_some hs'
              have h1 := beBytes_beNat first
              have h2 : beVal first < 2 ^ 32 := by
                rw [beVal_eq, ← h1, beNat_beBytes, hl]
                exact Nat.mod_lt _ (by decide)
              have h3 : be32 (u32 n'.length) = first := by
                rw [hn, be32, u32, BitVec.toNat_ofNat, Nat.mod_eq_of_lt h2, beVal_eq, ← hl, h1]
              rw [msgHead, textBytes, h3, hq', msgOfCode_some hc]
              simp
        · cases h

/-! ## Skipping -/

theorem type_ne_stop (v : Val) : v.type ≠ .stop := by cases v <;> simp [Val.type]

theorem bytes_pos (v : Val) : 1 ≤ v.bytes.length := by
  cases v with
  | struct fs => cases fs <;> simp [Val.bytes, Fields.bytes]
  | str v => simp [Val.bytes, textBytes]; omega
  | _ => simp [Val.bytes, length_beBytes]

theorem fields_pos (fs : Fields) : 1 ≤ fs.bytes.length := by
  cases fs <;> simp [Fields.bytes]

mutual
theorem skipTo_val : ∀ (v : Val) (n d : Nat) (r : Bytes), 2 * v.bytes.length ≤ n → v.Fits d →
    skipTo n d v.type (v.bytes ++ r) = some r
  | .bool _, n, d, r, hn, hd | .i08 _, n, d, r, hn, hd => by
    cases n with
    | zero => simp [Val.bytes] at hn
    | succ n =>
      cases d with
      | zero => simp [Val.Fits] at hd
      | succ d => simp [Val.type, Val.bytes, skipTo, readN]
  | .i16 x, n, d, r, hn, hd => by
    cases n with
    | zero => simp [Val.bytes] at hn
    | succ n =>
      cases d with
      | zero => simp [Val.Fits] at hd
      | succ d => simp only [Val.type, Val.bytes, skipTo, readN_append 2 _ r (length_beBytes _ _), Option.map_some]
  | .i32 x, n, d, r, hn, hd => by
    cases n with
    | zero => simp [Val.bytes] at hn
    | succ n =>
      cases d with
      | zero => simp [Val.Fits] at hd
      | succ d => simp only [Val.type, Val.bytes, skipTo, readN_append 4 _ r (length_be32 _), Option.map_some]
  | .i64 x, n, d, r, hn, hd | .double x, n, d, r, hn, hd => by
    cases n with
    | zero => simp [Val.bytes] at hn
    | succ n =>
      cases d with
      | zero => simp [Val.Fits] at hd
      | succ d => simp only [Val.type, Val.bytes, skipTo, readN_append 8 _ r (length_be64 _), Option.map_some]
  | .str x, n, d, r, hn, hd => by
    cases n with
    | zero => simp only [Val.bytes, textBytes, List.length_append, length_be32] at hn; omega
    | succ n =>
      cases d with
      | zero => simp [Val.Fits] at hd
      | succ d =>
        simp only [Val.Fits] at hd
        simp only [Val.type, Val.bytes, skipTo, readStr_text x r hd, Option.map_some]
  | .struct fs, n, d, r, hn, hd => by
    have hp := fields_pos fs
    cases n with
    | zero => simp only [Val.bytes] at hn; omega
    | succ n =>
      cases d with
      | zero => simp [Val.Fits] at hd
      | succ d =>
        simp only [Val.Fits] at hd
        simp only [Val.bytes] at hn
        simp only [Val.type, Val.bytes, skipTo]
        exact skipFields_fields fs n d r (by omega) hd
  | .list ty vs, n, d, r, hn, hd => by
    cases n with
    | zero => simp [Val.bytes] at hn
    | succ n =>
      cases d with
      | zero => simp [Val.Fits] at hd
      | succ d =>
        simp only [Val.Fits] at hd
        simp only [Val.bytes, List.length_cons, List.length_append, length_be32] at hn
        simp only [Val.type, Val.bytes, skipTo, List.cons_append, List.append_assoc, readListBegin_eq ty _ hd.1]
        exact skipSeq_vals vs n d ty r (by omega) hd.2
  | .set ty vs, n, d, r, hn, hd => by
    cases n with
    | zero => simp [Val.bytes] at hn
    | succ n =>
      cases d with
      | zero => simp [Val.Fits] at hd
      | succ d =>
        simp only [Val.Fits] at hd
        simp only [Val.bytes, List.length_cons, List.length_append, length_be32] at hn
        simp only [Val.type, Val.bytes, skipTo, List.cons_append, List.append_assoc, readListBegin_eq ty _ hd.1]
        exact skipSeq_vals vs n d ty r (by omega) hd.2
  | .map k v es, n, d, r, hn, hd => by
    cases n with
    | zero => simp [Val.bytes] at hn
    | succ n =>
      cases d with
      | zero => simp [Val.Fits] at hd
      | succ d =>
        simp only [Val.Fits] at hd
        simp only [Val.bytes, List.length_cons, List.length_append, length_be32] at hn
        simp only [Val.type, Val.bytes, skipTo, List.cons_append, List.append_assoc, readMapBegin_eq k v _ hd.1]
        exact skipPairs_vals es n d k v r (by omega) hd.2

theorem skipFields_fields : ∀ (fs : Fields) (n d : Nat) (r : Bytes), 2 * fs.bytes.length ≤ n + 1 → fs.Fits d →
    skipFields n d (fs.bytes ++ r) = some r
  | .nil, n, d, r, hn, _ => by
    cases n with
    | zero => simp [Fields.bytes] at hn
    | succ n => simp [Fields.bytes, skipFields, readFieldBegin_stop]
  | .cons id v rest, n, d, r, hn, hd => by
    have hp := fields_pos rest
    simp only [Fields.bytes, List.length_cons, List.length_append, length_beBytes] at hn
    simp only [Fields.Fits] at hd
    cases n with
    | zero => omega
    | succ n =>
      have hv := skipTo_val v n d (rest.bytes ++ r) (by omega) hd.1
      simp only [Fields.bytes, List.cons_append, List.append_assoc, skipFields, readFieldBegin_field _ (type_ne_stop v),
        if_neg (type_ne_stop v), hv]
      exact skipFields_fields rest n d r (by omega) hd.2

theorem skipSeq_vals : ∀ (vs : Vals) (n d : Nat) (ty : TType) (r : Bytes), 2 * vs.bytes.length + 1 ≤ n → vs.Fits d ty →
    skipSeq n d ty vs.length (vs.bytes ++ r) = some r
  | .nil, n, d, ty, r, hn, _ => by
    cases n with
    | zero => omega
    | succ n => simp [Vals.bytes, Vals.length, skipSeq]
  | .cons v rest, n, d, ty, r, hn, hd => by
    have hp := bytes_pos v
    simp only [Vals.bytes, List.length_append] at hn
    simp only [Vals.Fits] at hd
    obtain ⟨rfl, hv, hr⟩ := hd
    cases n with
    | zero => omega
    | succ n =>
      have hv := skipTo_val v n d (rest.bytes ++ r) (by omega) hv
      simp only [Vals.bytes, Vals.length, List.append_assoc, skipSeq, hv]
      exact skipSeq_vals rest n d v.type r (by omega) hr

theorem skipPairs_vals : ∀ (es : Vals) (n d : Nat) (kt vt : TType) (r : Bytes), 2 * es.bytes.length + 1 ≤ n → es.FitPairs d kt vt →
    skipPairs n d kt vt (es.length / 2) (es.bytes ++ r) = some r
  | .nil, n, d, kt, vt, r, hn, _ => by
    cases n with
    | zero => omega
    | succ n => simp [Vals.bytes, Vals.length, skipPairs]
  | .cons k .nil, n, d, kt, vt, r, hn, hd => by
    simp [Vals.FitPairs] at hd
  | .cons k (.cons v rest), n, d, kt, vt, r, hn, hd => by
    have hp := bytes_pos k
    have hp' := bytes_pos v
    simp only [Vals.bytes, List.length_append] at hn
    simp only [Vals.FitPairs] at hd
    obtain ⟨rfl, hk, rfl, hv, hr⟩ := hd
    cases n with
    | zero => omega
    | succ n =>
      have hk := skipTo_val k n d (v.bytes ++ (rest.bytes ++ r)) (by omega) hk
      have hv := skipTo_val v n d (rest.bytes ++ r) (by omega) hv
      have hl : (Vals.cons k (.cons v rest)).length / 2 = rest.length / 2 + 1 := by
        simp only [Vals.length]; omega
      rw [hl]
      simp only [Vals.bytes, List.append_assoc, skipPairs, hk, hv]
      exact skipPairs_vals rest n d k.type v.type r (by omega) hr
end

theorem skip_val (v : Val) (r : Bytes) (h : v.Fits 64) : skip v.type (v.bytes ++ r) = some r :=
  skipTo_val v _ 64 r (by simp only [List.length_append]; omega) h

/-! ## Structures -/

/-- What a reader of fields does with a sequence of fields, as a fold: a field is read by its branch, or skipped. -/
theorem readStruct_fields {σ : Type} (on : W16 → σ → Option (Rd σ)) (step : σ → W16 × Val → σ) (l : List (W16 × Val))
    (h : ∀ f ∈ l, ∀ s r, (∃ rd, on f.1 s = some rd ∧ rd (f.2.bytes ++ r) = some (step s f, r))
      ∨ (on f.1 s = none ∧ f.2.Fits 64 ∧ step s f = s)) (s : σ) (r : Bytes) :
    readStruct on s ((Val.struct (fields l)).bytes ++ r) = some (l.foldl step s, r) := by
  have key : ∀ (l : List (W16 × Val)) (n : Nat) (s : σ),
      (∀ f ∈ l, ∀ s r, (∃ rd, on f.1 s = some rd ∧ rd (f.2.bytes ++ r) = some (step s f, r))
        ∨ (on f.1 s = none ∧ f.2.Fits 64 ∧ step s f = s)) → (fields l).bytes.length ≤ n →
      fieldLoop on n s ((fields l).bytes ++ r) = some (l.foldl step s, r) := by
    intro l
    induction l with
    | nil =>
      intro n s _ hn
      cases n with
      | zero => simp [fields, Fields.bytes] at hn
      | succ n => simp [fields, Fields.bytes, fieldLoop, readFieldBegin_stop]
    | cons f l ih =>
      intro n s hl hn
      obtain ⟨id, v⟩ := f
      cases n with
      | zero => simp [fields, Fields.bytes] at hn
      | succ n =>
        simp only [fields, Fields.bytes, List.length_cons, List.length_append] at hn
        have ih' := fun s => ih n s (fun f hf => hl f (List.mem_cons_of_mem _ hf)) (by omega)
        simp only [fields, Fields.bytes, List.cons_append, List.append_assoc, fieldLoop, readFieldBegin_field _ (type_ne_stop v),
          if_neg (type_ne_stop v), List.foldl_cons]
        obtain ⟨rd, h1, h2⟩ | ⟨h1, h2, h3⟩ := hl (id, v) List.mem_cons_self s ((fields l).bytes ++ r)
        · simp only [h1, h2, ih']
        · simp only [h1, skip_val v _ h2, ih', h3]
  rw [readStruct]
  exact key l _ s h (by simp only [Val.bytes, List.length_append]; omega)

/-! ## Frames -/

theorem unframeTo_frames (ms : List Bytes) (h : ∀ m ∈ ms, m ≠ [] ∧ m.length < 2 ^ 31) :
    ∀ n, ms.length ≤ n → unframeTo n (ms.flatMap frame) = ms.flatten := by
  induction ms with
  | nil =>
    intro n _
    cases n with
    | zero => rfl
    | succ n => rfl
  | cons m ms ih =>
    intro n hn
    have ih' := ih (fun x hx => h x (List.mem_cons_of_mem _ hx))
    obtain ⟨hm, hl⟩ := h m List.mem_cons_self
    rw [List.flatMap_cons, List.flatten_cons]
    simp only [List.length_cons] at hn
    cases n with
    | zero => omega
    | succ n =>
      rw [frame, if_neg hm, unframeTo]
      have := readBytes_text m (ms.flatMap frame) hl
      rw [textBytes] at this
      rw [this]
      simp only [if_neg hm, ih' n (by omega)]

theorem frame_length {m : Bytes} (h : m ≠ []) : 1 ≤ (frame m).length := by
  rw [frame, if_neg h]; simp; omega

/-- What is sent in frames can be read. -/
theorem unframe_frames (ms : List Bytes) (h : ∀ m ∈ ms, m ≠ [] ∧ m.length < 2 ^ 31) : unframe (ms.flatMap frame) = ms.flatten := by
  refine unframeTo_frames ms h _ ?_
  clear * - h
  induction ms with
  | nil => simp
  | cons m ms ih =>
    have := frame_length (h m List.mem_cons_self).1
    have := ih (fun x hx => h x (List.mem_cons_of_mem _ hx))
    simp only [List.flatMap_cons, List.length_append, List.length_cons]
    omega

theorem unframe_frame {m : Bytes} (h : m ≠ []) (hl : m.length < 2 ^ 31) : unframe (frame m) = m := by
  have := unframe_frames [m] (by intro x hx; rw [List.mem_singleton] at hx; subst hx; exact ⟨h, hl⟩)
  simpa using this

theorem frame_eq {m : Bytes} (h : m ≠ []) : frame m = framed m := by rw [frame, if_neg h, framed]

/-- What can be read came in frames. -/
theorem unframe_some (b : Bytes) : ∃ (fs : List Bytes) (rest : Bytes), b = fs.flatMap framed ++ rest ∧ unframe b = fs.flatten := by
  have key : ∀ n b, ∃ (fs : List Bytes) (rest : Bytes), b = fs.flatMap framed ++ rest ∧ unframeTo n b = fs.flatten := by
    intro n
    induction n with
    | zero => intro b; exact ⟨[], b, rfl, rfl⟩
    | succ n ih =>
      intro b
      rw [unframeTo]
      cases h : readBytes b with
      | none => exact ⟨[], b, rfl, rfl⟩
      | some p =>
        obtain ⟨m, r⟩ := p
        dsimp only
        by_cases hm : m = []
        · rw [if_pos hm]; exact ⟨[], b, rfl, rfl⟩
        · obtain ⟨fs, rest, h1, h2⟩ := ih r
          refine ⟨m :: fs, rest, ?_, by rw [if_neg hm, h2, List.flatten_cons]⟩
          rw [(readBytes_some h).1, h1]
          simp [framed, textBytes]
  exact key _ b

theorem unframe_first {m : Bytes} (hm : m ≠ []) (hl : m.length < 2 ^ 31) (rest : Bytes) : ∃ r, unframe (framed m ++ rest) = m ++ r := by
  have := readBytes_text m rest hl
  rw [textBytes] at this
  rw [unframe, framed, show (be32 (u32 m.length) ++ m ++ rest).length = (be32 (u32 m.length)).length - 1 + m.length + rest.length + 1 by
    simp; omega, unframeTo, this]
  simp only [if_neg hm]
  exact ⟨_, rfl⟩

/-- A frame of 2^31 bytes or more cannot be read. -/
theorem unframe_large {m : Bytes} (h : 2 ^ 31 ≤ m.length) (h' : m.length < 2 ^ 32) (r : Bytes) : unframe (frame m ++ r) = [] := by
  have hm : m ≠ [] := by rintro rfl; simp at h
  have hrd : readBytes (frame m ++ r) = none := by
    rw [readBytes, frame, if_neg hm, List.append_assoc, readI32_be]
    simp only [msb_large h h', if_true]
  rw [unframe]
  cases (frame m ++ r).length with
  | zero => rfl
  | succ n => rw [unframeTo, hrd]

end TsFile.Thrift
