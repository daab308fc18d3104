import Verif.Proofs.Murmur
import Verif.Spec.Bloom
/-! # The Bloom filter -/

namespace TsFile
open Spec
namespace BloomFilter

/-! ## Serialisation of the bits -/

theorem testBit_setBit (v : UInt8) (b : Bool) (k j : Nat) (hk : k < 8) :
    (v ||| ((if b then 1 else 0 : UInt8) <<< UInt8.ofNat k)).toNat.testBit j
      = (v.toNat.testBit j || (b && decide (j = k))) := by
  rw [UInt8.toNat_or, Nat.testBit_or]
  congr 1
  cases b with
  | false => simp
  | true =>
    have : ((1 : UInt8) <<< UInt8.ofNat k).toNat = 2 ^ k := by
      have : k = 0 ∨ k = 1 ∨ k = 2 ∨ k = 3 ∨ k = 4 ∨ k = 5 ∨ k = 6 ∨ k = 7 := by omega
      rcases this with rfl | rfl | rfl | rfl | rfl | rfl | rfl | rfl <;> rfl
    simp only [if_true, this, Nat.testBit_two_pow, Bool.true_and]
    exact decide_eq_decide.2 ⟨fun h => h.symm, fun h => h.symm⟩

theorem storedBit_set (bs : Bytes) (i : Nat) (b : Bool) (v : UInt8) (hv : bs[i / 8]? = some v) (j : Nat) :
    storedBit (bs.set (i / 8) (v ||| ((if b then 1 else 0 : UInt8) <<< UInt8.ofNat (i % 8)))) j
      = (storedBit bs j || (b && decide (j = i))) := by
  simp only [storedBit]
  by_cases h : j / 8 = i / 8
  · rw [h, hv, List.getElem?_set_self (by
      have := List.getElem?_eq_some_iff.1 hv
      exact this.1)]
    simp only [Option.getD_some]
    rw [testBit_setBit v b _ _ (Nat.mod_lt _ (by omega))]
    congr 2
    exact decide_eq_decide.2 (by omega)
  · rw [List.getElem?_set_ne (fun e => h e.symm)]
    have : ¬ j = i := by intro e; exact h (by rw [e])
    simp [this]

theorem bitsLoop_some (bits : List Bool) : ∀ (i : Nat) (r : Bytes), i + bits.length ≤ 8 * r.length →
    ∃ r', bitsLoop i bits r = some r' ∧ r'.length = r.length
      ∧ ∀ j, storedBit r' j = (storedBit r j || (decide (i ≤ j) && (bits[j - i]?).getD false)) := by
  induction bits with
  | nil => intro i r _; exact ⟨r, rfl, rfl, fun j => by simp⟩
  | cons b bits ih =>
    intro i r h
    simp only [List.length_cons] at h
    have hidx : (i - i % 8) / 8 = i / 8 := by omega
    obtain ⟨v, hv⟩ : ∃ v, r[i / 8]? = some v := by
      rw [List.getElem?_eq_getElem (by omega)]; exact ⟨_, rfl⟩
    obtain ⟨r', h1, h2, h3⟩ := ih (i + 1)
      (r.set (i / 8) (v ||| ((if b then 1 else 0 : UInt8) <<< UInt8.ofNat (i % 8)))) (by simp; omega)
    refine ⟨r', ?_, by simpa using h2, ?_⟩
    · rw [bitsLoop]
      simp only [hidx, hv]
      exact h1
    · intro j
      rw [h3 j, storedBit_set r i b v hv, Bool.or_assoc]
      congr 1
      by_cases hj : j = i
      · subst hj
        simp [show ¬ j + 1 ≤ j by omega]
      · by_cases hle : i ≤ j
        · have h4 : j - i = (j - (i + 1)) + 1 := by omega
          rw [h4, List.getElem?_cons_succ]
          simp [hj, hle, show i + 1 ≤ j by omega]
        · simp [hj, hle, show ¬ i + 1 ≤ j by omega]

theorem bitsLoop_none (bits : List Bool) : ∀ (i : Nat) (r : Bytes), i ≤ 8 * r.length →
    8 * r.length < i + bits.length → bitsLoop i bits r = none := by
  induction bits with
  | nil => intro i r h1 h2; simp at h2; omega
  | cons b bits ih =>
    intro i r h1 h2
    simp only [List.length_cons] at h2
    have hidx : (i - i % 8) / 8 = i / 8 := by omega
    rw [bitsLoop]
    simp only [hidx]
    cases hv : r[i / 8]? with
    | none => rfl
    | some v =>
      have := (List.getElem?_eq_some_iff.1 hv).1
      simp only
      exact ih (i + 1) _ (by simp; omega) (by simp; omega)

theorem trimZeros_getD (bs : Bytes) (k : Nat) : ((trimZeros bs)[k]?).getD 0 = (bs[k]?).getD 0 := by
  have key : ∀ l : Bytes, ∃ n, l = List.replicate n 0 ++ l.dropWhile (· == 0) := by
    intro l
    induction l with
    | nil => exact ⟨0, rfl⟩
    | cons b l ih =>
      by_cases h : b = 0
      · obtain ⟨n, hn⟩ := ih
        refine ⟨n + 1, ?_⟩
        rw [List.dropWhile_cons_of_pos (by simp [h]), List.replicate_succ, List.cons_append, ← hn, h]
      · exact ⟨0, by rw [List.dropWhile_cons_of_neg (by simp [h])]; rfl⟩
  obtain ⟨n, hn⟩ := key bs.reverse
  have h2 : bs = trimZeros bs ++ List.replicate n 0 := by
    have := congrArg List.reverse hn
    rw [List.reverse_reverse, List.reverse_append, List.reverse_replicate] at this
    exact this
  by_cases hk : k < (trimZeros bs).length
  · conv => rhs; rw [h2]
    rw [List.getElem?_append_left hk]
  · rw [List.getElem?_eq_none (Nat.not_lt.1 hk)]
    conv => rhs; rw [h2]
    rw [List.getElem?_append_right (Nat.not_lt.1 hk), List.getElem?_replicate]
    split <;> rfl

theorem serializeBits_some (f : BloomFilter) (h : f.bitSet.length % 8 = 0 ∨ 4 ≤ f.bitSet.length % 8) :
    ∃ bytes, f.serializeBits = some bytes ∧ ∀ i, storedBit bytes i = (f.bitSet[i]?).getD false := by
  have hn : f.bitSet.length ≤ 8 * numberOfBytes f.bitSet.length := by
    rw [numberOfBytes]; split <;> omega
  obtain ⟨r, h1, _, h3⟩ := bitsLoop_some f.bitSet 0 (List.replicate (numberOfBytes f.bitSet.length) 0)
    (by simpa using hn)
  refine ⟨trimZeros r, by rw [serializeBits, h1]; rfl, fun i => ?_⟩
  have h4 := h3 i
  have h0 : storedBit (List.replicate (numberOfBytes f.bitSet.length) 0) i = false := by
    simp only [storedBit, List.getElem?_replicate]
    split <;> simp
  rw [h0] at h4
  simp only [storedBit] at h4 ⊢
  rw [trimZeros_getD, h4]
  simp

theorem serializeBits_none (f : BloomFilter) (h : 1 ≤ f.bitSet.length % 8) (h' : f.bitSet.length % 8 ≤ 3) :
    f.serializeBits = none := by
  have hn : 8 * numberOfBytes f.bitSet.length < f.bitSet.length := by
    rw [numberOfBytes]; split <;> omega
  rw [serializeBits, bitsLoop_none f.bitSet 0 _ (by omega) (by simpa using hn)]
  rfl

/-! ## Adding paths -/

/-- Sets only grow. -/
def Le (a b : List Bool) : Prop := a.length = b.length ∧ ∀ i : Nat, a[i]? = some true → b[i]? = some true

theorem Le.refl (a : List Bool) : Le a a := ⟨rfl, fun _ h => h⟩
theorem Le.trans {a b c : List Bool} (h1 : Le a b) (h2 : Le b c) : Le a c :=
  ⟨h1.1.trans h2.1, fun i h => h2.2 i (h1.2 i h)⟩

theorem setBit_spec {bits bits' : List Bool} {i : Nat} (h : setBit bits i = some bits') :
    Le bits bits' ∧ bits'[i]? = some true := by
  rw [setBit] at h
  split at h
  · next hi =>
    simp only [Option.some.injEq] at h
    subst h
    refine ⟨⟨by simp, fun j hj => ?_⟩, by rw [List.getElem?_set_self hi]⟩
    by_cases e : i = j
    · subst e; rw [List.getElem?_set_self hi]
    · rw [List.getElem?_set_ne e]; exact hj
  · simp at h

theorem addLoop_spec {size : Nat} {path : Bytes} {seeds : List W32} : ∀ {bits bits' : List Bool},
    addLoop size path seeds bits = some bits' →
    Le bits bits' ∧ ∀ seed ∈ seeds, ∃ i, hashFunction (u32 size) seed path = some i ∧ bits'[i]? = some true := by
  induction seeds with
  | nil =>
    intro bits bits' h
    simp only [addLoop, Option.some.injEq] at h
    subst h
    exact ⟨Le.refl _, by simp⟩
  | cons seed seeds ih =>
    intro bits bits' h
    rw [addLoop] at h
    cases h1 : hashFunction (u32 size) seed path with
    | none => rw [h1] at h; simp at h
    | some i =>
      rw [h1] at h
      simp only [Option.bind_eq_bind, Option.bind_some] at h
      cases h2 : setBit bits i with
      | none => rw [h2] at h; simp at h
      | some b =>
        rw [h2] at h
        simp only [Option.bind_some] at h
        obtain ⟨s1, s2⟩ := setBit_spec h2
        obtain ⟨i1, i2⟩ := ih h
        refine ⟨s1.trans i1, fun sd hsd => ?_⟩
        rcases List.mem_cons.1 hsd with rfl | hsd
        · exact ⟨i, h1, i1.2 i s2⟩
        · exact i2 sd hsd

theorem add_spec {f f' : BloomFilter} {path : Bytes} (h : f.add path = some f') :
    Le f.bitSet f'.bitSet ∧ f'.size = f.size ∧ f'.func = f.func ∧ f'.hashFunctionSize = f.hashFunctionSize
      ∧ ∀ seed ∈ f.func, ∃ i, hashFunction (u32 f.size) seed path = some i ∧ f'.bitSet[i]? = some true := by
  rw [add] at h
  cases hb : addLoop f.size path f.func f.bitSet with
  | none => rw [hb] at h; simp at h
  | some b =>
    rw [hb] at h
    simp only [Option.map_some, Option.some.injEq] at h
    subst h
    obtain ⟨h1, h2⟩ := addLoop_spec hb
    exact ⟨h1, rfl, rfl, rfl, h2⟩

theorem addAll_spec {paths : List Bytes} : ∀ {f f' : BloomFilter}, addAll paths f = some f' →
    Le f.bitSet f'.bitSet ∧ f'.size = f.size ∧ f'.func = f.func ∧ f'.hashFunctionSize = f.hashFunctionSize
      ∧ ∀ path ∈ paths, ∀ seed ∈ f.func, ∃ i, hashFunction (u32 f.size) seed path = some i
          ∧ f'.bitSet[i]? = some true := by
  induction paths with
  | nil =>
    intro f f' h
    simp only [addAll, Option.some.injEq] at h
    subst h
    exact ⟨Le.refl _, rfl, rfl, rfl, by simp⟩
  | cons p ps ih =>
    intro f f' h
    rw [addAll] at h
    cases ha : f.add p with
    | none => rw [ha] at h; simp at h
    | some g =>
      rw [ha] at h
      simp only [Option.bind_eq_bind, Option.bind_some] at h
      obtain ⟨a1, a2, a3, a4, a5⟩ := add_spec ha
      obtain ⟨i1, i2, i3, i4, i5⟩ := ih h
      refine ⟨a1.trans i1, i2.trans a2, i3.trans a3, i4.trans a4, fun path hp seed hs => ?_⟩
      rcases List.mem_cons.1 hp with rfl | hp
      · obtain ⟨i, h1, h2⟩ := a5 seed hs
        exact ⟨i, h1, i1.2 i h2⟩
      · rw [a3, a2] at i5
        exact i5 path hp seed hs

theorem signExtend_neg (y : W32) (h : y.toInt < 0) : 2 ^ 63 ≤ (y.signExtend 64).toNat := by
  have h2 : (y.signExtend 64).toInt < 0 := by
    rw [BitVec.toInt_signExtend_of_le (by omega)]; exact h
  rw [BitVec.toInt_eq_toNat_cond] at h2
  split at h2
  · have := Int.natCast_nonneg (y.signExtend 64).toNat
    omega
  · omega

theorem absI32_toNat (x : W32) (hne : x.toNat ≠ 2147483648) :
    (absI32 x).toNat = x.toInt.natAbs ∧ (absI32 x).toNat < 2 ^ 31 := by
  have hx := x.isLt
  have hc := BitVec.toInt_eq_toNat_cond x
  rw [absI32]
  split
  · next hlt =>
    have : x.toInt < 0 := by
      have := BitVec.slt_iff_toInt_lt.1 hlt
      simpa using this
    rw [BitVec.toNat_neg]
    split at hc <;> omega
  · next hlt =>
    have : ¬ x.toInt < 0 := by
      intro h'
      exact hlt (BitVec.slt_iff_toInt_lt.2 (by simpa using h'))
    split at hc <;> omega

theorem srem_signExtend (y c : W32) (hy : y.toNat < 2 ^ 31) (hc : c.toNat < 2 ^ 31) (hc0 : 0 < c.toNat) :
    ((y.srem c).signExtend 64).toNat = y.toNat % c.toNat := by
  have hmsb : y.msb = false := by
      rw [BitVec.msb_eq_false_iff_two_mul_lt]; omega
  have hmsb2 : c.msb = false := by
      rw [BitVec.msb_eq_false_iff_two_mul_lt]; omega
  have hsr : y.srem c = y.umod c := by
      rw [BitVec.srem_eq, hmsb, hmsb2]; rfl
  have hN : (y.umod c).toNat = y.toNat % c.toNat := BitVec.toNat_umod
  have hlt : y.toNat % c.toNat < c.toNat := Nat.mod_lt _ hc0
  rw [hsr, BitVec.toNat_signExtend, BitVec.msb_eq_false_iff_two_mul_lt.2 (by rw [hN]; omega)]
  simp only [BitVec.toNat_setWidth, hN, Bool.false_eq_true, if_false, Nat.add_zero]
  exact Nat.mod_eq_of_lt (by omega)

/-- The position computed by the crate is the one of the reader, when it is in range. -/
theorem hashFunction_eq {size : Nat} (hs : 0 < size) (hs' : size < 2 ^ 31) {seed : W32} {path : Bytes} {i : Nat}
    (h : hashFunction (u32 size) seed path = some i) (hi : i < size) :
    i = (pathHash path (seed.signExtend 64)).natAbs % size := by
  rw [hashFunction, Murmur128.hash, Murmur128.innerHash_eq] at h
  simp only [Option.map_some, Option.some.injEq] at h
  simp only [pathHash]
  revert h
  generalize ((Murmur3.hash128 path (seed.signExtend 64)).1 + (Murmur3.hash128 path (seed.signExtend 64)).2).setWidth 32
    = x
  intro h
  have hcap : (u32 size).toInt = size := by
    rw [u32, BitVec.toInt_eq_toNat_of_lt] <;> simp <;> omega
  have hcapN : (u32 size).toNat = size := by simp [u32]; omega
  by_cases hmin : x = 0x80000000#32
  · subst hmin
    have habs : absI32 (0x80000000#32) = 0x80000000#32 := by decide
    rw [habs] at h
    have hr : ((0x80000000#32).srem (u32 size)).toInt = Int.tmod (0x80000000#32).toInt (u32 size).toInt :=
      BitVec.toInt_srem _ _
    have hval : (0x80000000#32).toInt = -2147483648 := by decide
    rw [hval, hcap] at hr
    have hpos : Int.tmod (-2147483648) (size : Int) = -((2147483648 % size : Nat) : Int) := by
      have := Int.ofNat_tmod 2147483648 size
      rw [Int.neg_tmod, this]
      rfl
    by_cases hz : 2147483648 % size = 0
    · rw [hz] at hpos
      have : (0x80000000#32).srem (u32 size) = 0#32 := BitVec.eq_of_toInt_eq (by rw [hr, hpos]; rfl)
      rw [this] at h
      have hab : (-2147483648 : Int).natAbs = 2147483648 := by simp
      rw [hval, hab, hz]
      simpa using h.symm
    · exfalso
      have hneg : ((0x80000000#32).srem (u32 size)).toInt < 0 := by rw [hr, hpos]; omega
      have := signExtend_neg _ hneg
      omega
  · have habs := absI32_toNat x (fun e => hmin (BitVec.eq_of_toNat_eq (by rw [e]; decide)))
    rw [srem_signExtend _ _ habs.2 (by omega) (by omega), habs.1, hcapN] at h
    exact h.symm

/-- Every path added is found by a reader. -/
theorem build_mayContain {env : Env} {paths : List Bytes} {f : BloomFilter} (h : build env paths = some f)
    (hsize : f.size < 2 ^ 31) {bytes : Bytes} (hb : f.serializeBits = some bytes) (path : Bytes) (hp : path ∈ paths) :
    (⟨bytes, (u32 f.size).toNat, (u32 f.hashFunctionSize).toNat⟩ : Bloom).mayContain path = true := by
  rw [build] at h
  obtain ⟨h1, h2, h3, h4, h5⟩ := addAll_spec h
  have hlen : f.bitSet.length = f.size := by
    rw [← h1.1, h2]; simp [emptyFilter, new]
  have hsz : 0 < f.size := by
    rw [h2]
    have : 256 ≤ (emptyFilter env paths.length).size := Nat.le_max_right _ _
    omega
  have hk : f.hashFunctionSize ≤ 8 := by
    rw [h4]
    exact Nat.min_le_right _ _
  have hk32 : (u32 f.hashFunctionSize).toNat = f.hashFunctionSize := by simp [u32]; omega
  have hs32 : (u32 f.size).toNat = f.size := by simp [u32]; omega
  have hbits : ∀ i, storedBit bytes i = (f.bitSet[i]?).getD false := by
    by_cases hm : f.bitSet.length % 8 = 0 ∨ 4 ≤ f.bitSet.length % 8
    · obtain ⟨b', hb', h6⟩ := serializeBits_some f hm
      rw [hb] at hb'
      cases hb'
      exact h6
    · rw [serializeBits_none f (by omega) (by omega)] at hb
      simp at hb
  rw [Bloom.mayContain, List.all_eq_true]
  simp only [hk32, hs32]
  intro seed hseed
  have hseeds : bloomSeedsSpec.take f.hashFunctionSize
      = (bloomSeeds.take f.hashFunctionSize).map (fun s => s.signExtend 64) := by
    rw [List.map_take]; rfl
  rw [hseeds] at hseed
  obtain ⟨s, hs, rfl⟩ := List.mem_map.1 hseed
  have hfunc : f.func = bloomSeeds.take f.hashFunctionSize := by rw [h3, h4]; rfl
  obtain ⟨i, hi1, hi2⟩ := h5 path hp s (by rw [← h3, hfunc]; exact hs)
  rw [← h2] at hi1
  have hi : i < f.size := by
    rw [← hlen]; exact (List.getElem?_eq_some_iff.1 hi2).1
  rw [← hashFunction_eq hsz hsize hi1 hi, hbits i, hi2]
  rfl

/-! ## nothing else is set -/

theorem setBit_only {bits bits' : List Bool} {i j : Nat} (h : setBit bits i = some bits') (hj : bits'[j]? = some true) :
    bits[j]? = some true ∨ j = i := by
  rw [setBit] at h
  split at h
  · simp only [Option.some.injEq] at h
    subst h
    by_cases e : i = j
    · exact Or.inr e.symm
    · rw [List.getElem?_set_ne e] at hj; exact Or.inl hj
  · simp at h

theorem addLoop_only {size : Nat} {path : Bytes} {seeds : List W32} : ∀ {bits bits' : List Bool},
    addLoop size path seeds bits = some bits' → ∀ j : Nat, bits'[j]? = some true →
      bits[j]? = some true ∨ ∃ seed ∈ seeds, hashFunction (u32 size) seed path = some j := by
  induction seeds with
  | nil =>
    intro bits bits' h j hj
    simp only [addLoop, Option.some.injEq] at h
    subst h
    exact Or.inl hj
  | cons seed seeds ih =>
    intro bits bits' h j hj
    rw [addLoop] at h
    cases h1 : hashFunction (u32 size) seed path with
    | none => rw [h1] at h; simp at h
    | some i =>
      rw [h1] at h
      simp only [Option.bind_eq_bind, Option.bind_some] at h
      cases h2 : setBit bits i with
      | none => rw [h2] at h; simp at h
      | some b =>
        rw [h2] at h
        simp only [Option.bind_some] at h
        rcases ih h j hj with h3 | ⟨sd, hs, h3⟩
        · rcases setBit_only h2 h3 with h4 | rfl
          · exact Or.inl h4
          · exact Or.inr ⟨seed, by simp, h1⟩
        · exact Or.inr ⟨sd, by simp [hs], h3⟩

theorem addAll_only {paths : List Bytes} : ∀ {f f' : BloomFilter}, addAll paths f = some f' → ∀ j : Nat, f'.bitSet[j]? = some true →
      f.bitSet[j]? = some true ∨ ∃ path ∈ paths, ∃ seed ∈ f.func, hashFunction (u32 f.size) seed path = some j := by
  induction paths with
  | nil =>
    intro f f' h j hj
    simp only [addAll, Option.some.injEq] at h
    subst h
    exact Or.inl hj
  | cons p ps ih =>
    intro f f' h j hj
    rw [addAll] at h
    cases ha : f.add p with
    | none => rw [ha] at h; simp at h
    | some g =>
      rw [ha] at h
      simp only [Option.bind_eq_bind, Option.bind_some] at h
      obtain ⟨_, a2, a3, _⟩ := add_spec ha
      rcases ih h j hj with h3 | ⟨path, hp, seed, hs, h3⟩
      · rw [add] at ha
        cases hb : addLoop f.size p f.func f.bitSet with
        | none => rw [hb] at ha; simp at ha
        | some b =>
          rw [hb] at ha
          simp only [Option.map_some, Option.some.injEq] at ha
          subst ha
          rcases addLoop_only hb j h3 with h4 | ⟨sd, hs, h4⟩
          · exact Or.inl h4
          · exact Or.inr ⟨p, by simp, sd, hs, h4⟩
      · rw [a3] at hs
        rw [a2] at h3
        exact Or.inr ⟨path, by simp [hp], seed, hs, h3⟩

/-- The bits that are set are those of the paths. -/
theorem build_exact {env : Env} {paths : List Bytes} {f : BloomFilter} (h : build env paths = some f)
    (hsize : f.size < 2 ^ 31) {bytes : Bytes} (hb : f.serializeBits = some bytes) (i : Nat) :
    storedBit bytes i = true ↔ ∃ path ∈ paths, ∃ seed ∈ bloomSeedsSpec.take (u32 f.hashFunctionSize).toNat,
      i = (pathHash path seed).natAbs % (u32 f.size).toNat := by
  rw [build] at h
  have honly := addAll_only h i
  obtain ⟨h1, h2, h3, h4, h5⟩ := addAll_spec h
  have hlen : f.bitSet.length = f.size := by
    rw [← h1.1, h2]; simp [emptyFilter, new]
  have hsz : 0 < f.size := by
    rw [h2]
    have : 256 ≤ (emptyFilter env paths.length).size := Nat.le_max_right _ _
    omega
  have hk : f.hashFunctionSize ≤ 8 := by
    rw [h4]
    exact Nat.min_le_right _ _
  have hk32 : (u32 f.hashFunctionSize).toNat = f.hashFunctionSize := by simp [u32]; omega
  have hs32 : (u32 f.size).toNat = f.size := by simp [u32]; omega
  have hbits : ∀ i, storedBit bytes i = (f.bitSet[i]?).getD false := by
    by_cases hm : f.bitSet.length % 8 = 0 ∨ 4 ≤ f.bitSet.length % 8
    · obtain ⟨b', hb', h6⟩ := serializeBits_some f hm
      rw [hb] at hb'
      cases hb'
      exact h6
    · rw [serializeBits_none f (by omega) (by omega)] at hb
      simp at hb
  have hseeds : bloomSeedsSpec.take f.hashFunctionSize
      = (bloomSeeds.take f.hashFunctionSize).map (fun s => s.signExtend 64) := by
    rw [List.map_take]; rfl
  have hfunc : f.func = bloomSeeds.take f.hashFunctionSize := by rw [h3, h4]; rfl
  rw [hbits, hk32, hs32, hseeds]
  constructor
  · intro hi
    have hi : f.bitSet[i]? = some true := by
      cases hx : f.bitSet[i]? with
      | none => rw [hx] at hi; cases hi
      | some b => rw [hx] at hi; exact congrArg some hi
    have hlt : i < f.size := by rw [← hlen]; exact (List.getElem?_eq_some_iff.1 hi).1
    rcases honly hi with h6 | ⟨path, hp, seed, hs, h6⟩
    · simp [emptyFilter, new, List.getElem?_replicate] at h6
    · rw [← h2] at h6
      rw [← h3, hfunc] at hs
      exact ⟨path, hp, _, List.mem_map.2 ⟨seed, hs, rfl⟩, hashFunction_eq hsz hsize h6 hlt⟩
  · rintro ⟨path, hp, seed, hs, rfl⟩
    obtain ⟨s, hs', rfl⟩ := List.mem_map.1 hs
    obtain ⟨i, hi1, hi2⟩ := h5 path hp s (by rw [← h3, hfunc]; exact hs')
    rw [← h2] at hi1
    have hi : i < f.size := by rw [← hlen]; exact (List.getElem?_eq_some_iff.1 hi2).1
    rw [← hashFunction_eq hsz hsize hi1 hi, hi2]
    rfl

end BloomFilter
end TsFile
