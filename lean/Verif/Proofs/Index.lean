import Verif.Proofs.Writer
import Verif.Spec.Reader
/-! # The metadata index -/

namespace TsFile
open Spec

/-! ## Pieces of a file -/

/-- The bytes `b` are in the file at offset `off`. -/
def At (F : Bytes) (off : Nat) (b : Bytes) : Prop := ∃ pre post, F = pre ++ (b ++ post) ∧ pre.length = off

theorem At.drop {F : Bytes} {off : Nat} {b : Bytes} (h : At F off b) : ∃ post, F.drop off = b ++ post := by
  obtain ⟨pre, post, rfl, rfl⟩ := h
  exact ⟨post, by simp⟩

theorem At.slice {F : Bytes} {off : Nat} {b : Bytes} (h : At F off b) : slice F off (off + b.length) = b := by
  obtain ⟨pre, post, rfl, rfl⟩ := h
  simp [Spec.slice]

theorem At.left {F : Bytes} {off : Nat} {a b : Bytes} (h : At F off (a ++ b)) : At F off a := by
  obtain ⟨pre, post, rfl, rfl⟩ := h
  exact ⟨pre, b ++ post, by simp, rfl⟩

theorem At.right {F : Bytes} {off : Nat} {a b : Bytes} (h : At F off (a ++ b)) : At F (off + a.length) b := by
  obtain ⟨pre, post, rfl, rfl⟩ := h
  exact ⟨pre ++ a, post, by simp, by simp⟩

theorem At.le {F : Bytes} {off : Nat} {b : Bytes} (h : At F off b) : off + b.length ≤ F.length := by
  obtain ⟨pre, post, rfl, rfl⟩ := h
  simp

theorem At.extend {F : Bytes} {off : Nat} {b : Bytes} (h : At F off b) (c : Bytes) : At (F ++ c) off b := by
  obtain ⟨pre, post, rfl, rfl⟩ := h
  exact ⟨pre, post ++ c, by simp, rfl⟩

theorem At.append (F b : Bytes) : At (F ++ b) F.length b := ⟨F, [], by simp, rfl⟩

/-! ## Order of names -/

theorem bytesLt_iff (a b : Bytes) : bytesLt a b = true ↔ a < b := by
  induction a generalizing b with
  | nil => cases b <;> simp [bytesLt]
  | cons x a ih =>
    cases b with
    | nil => simp [bytesLt]
    | cons y b =>
      rw [List.cons_lt_cons_iff, ← ih b, bytesLt]
      by_cases h1 : x < y
      · simp [h1]
      · by_cases h2 : y < x
        · have hne : x ≠ y := by rintro rfl; exact h1 h2
          simp [h1, h2, hne]
        · have := u8_eq_of_not_lt h1 h2
          subst this
          simp [h1]

/-! ## Leaf nodes -/

/-- The entries of a leaf node: one for every 256th series. -/
def leafEntries {α : Type} (name bytes : α → Bytes) : Nat → Nat → List α → List IndexEntry
  | _, _, [] => []
  | i, p, t :: ts =>
    (if i % maxDegree = 0 then [⟨name t, p⟩] else []) ++ leafEntries name bytes (i + 1) (p + (bytes t).length) ts

/-- Number of entries. -/
theorem length_leafEntries {α : Type} (name bytes : α → Bytes) (i p : Nat) (l : List α) :
    (leafEntries name bytes i p l).length = (i + l.length + 255) / 256 - (i + 255) / 256 := by
  induction l generalizing i p with
  | nil => simp [leafEntries]
  | cons t ts ih =>
    rw [leafEntries, List.length_append, ih]
    simp only [List.length_cons]
    have hd : maxDegree = 256 := rfl
    by_cases hi : i % maxDegree = 0
    · rw [if_pos hi, List.length_singleton]
      rw [hd] at hi
      omega
    · rw [if_neg hi, List.length_nil]
      rw [hd] at hi
      omega

theorem leafLoop_eq (env : Env) (l : List TimeSeriesMetadata) (i : Nat) (s : LeafState) (hcap : s.out.cap = none)
    (hfull : s.cur.children.length
      + (leafEntries TimeSeriesMetadata.measurementId (TimeSeriesMetadata.serialize env) i s.out.pos l).length ≤ 256) :
    leafLoop env i s l =
      ⟨⟨s.out.bytes ++ l.flatMap (TimeSeriesMetadata.serialize env), none⟩,
       ⟨s.cur.children
          ++ leafEntries TimeSeriesMetadata.measurementId (TimeSeriesMetadata.serialize env) i s.out.pos l,
        s.cur.endOffset, s.cur.nodeType⟩,
       s.queue⟩ := by
  induction l generalizing i s with
  | nil =>
    obtain ⟨⟨b, c⟩, cur, q⟩ := s
    simp only at hcap
    subst hcap
    simp [leafLoop, leafEntries]
  | cons t ts ih =>
    obtain ⟨⟨b, c⟩, ⟨ch, eo, nt⟩, q⟩ := s
    simp only at hcap
    subst hcap
    simp only [leafEntries, List.length_append] at hfull
    simp only [leafLoop, leafEntries]
    by_cases hi : i % maxDegree = 0
    · simp only [hi, if_true, List.length_cons, List.length_nil] at hfull ⊢
      have hnf : IndexNode.isFull ⟨ch, eo, nt⟩ = false := by
        have hd : maxDegree = 256 := rfl
        exact decide_eq_false (by simp only [hd]; omega)
      simp only [hnf, Bool.false_eq_true, if_false]
      rw [ih]
      · simp [Sink.write, Sink.pos]
      · rfl
      · simp only [Sink.write, Sink.pos, List.length_append, List.length_cons, List.length_nil] at hfull ⊢
        omega
    · simp only [hi, if_false, List.length_nil] at hfull ⊢
      rw [ih]
      · simp [Sink.write, Sink.pos]
      · rfl
      · simp only [Sink.write, Sink.pos, List.length_append] at hfull ⊢
        omega

/-- The index node of one device with at most 65536 series, whose metadata start at `p`. -/
def leafNode (env : Env) (p : Nat) (l : List TimeSeriesMetadata) : IndexNode :=
  { children := leafEntries TimeSeriesMetadata.measurementId (TimeSeriesMetadata.serialize env) 0 p l
    endOffset := p + (l.flatMap (TimeSeriesMetadata.serialize env)).length
    nodeType := .leafMeasurement }

theorem deviceIndex_eq (env : Env) (b : Bytes) (l : List TimeSeriesMetadata) (hl : l.length ≤ 65536) :
    deviceIndex env ⟨b, none⟩ l
      = some (⟨b ++ l.flatMap (TimeSeriesMetadata.serialize env), none⟩, leafNode env b.length l) := by
  rw [deviceIndex]
  have hlen := length_leafEntries TimeSeriesMetadata.measurementId (TimeSeriesMetadata.serialize env) 0 b.length l
  rw [leafLoop_eq env l 0 ⟨⟨b, none⟩, IndexNode.new .leafMeasurement, []⟩ rfl
    (by simp only [IndexNode.new, List.length_nil, Sink.pos, hlen]; omega)]
  simp [generateRootNode, rootNodeLoop, leafNode, IndexNode.new, Sink.pos]

/-- The index nodes of all devices. -/
def devNodes (env : Env) : Nat → BMap (List TimeSeriesMetadata) → List (Bytes × IndexNode)
  | _, [] => []
  | p, (d, l) :: rest =>
    (d, leafNode env p l) :: devNodes env (p + (l.flatMap (TimeSeriesMetadata.serialize env)).length) rest

/-- The series metadata part of the file. -/
def metaBytes (env : Env) (tsm : BMap (List TimeSeriesMetadata)) : Bytes :=
  tsm.flatMap (fun e => e.2.flatMap (TimeSeriesMetadata.serialize env))

theorem devicesLoop_eq (env : Env) (tsm : BMap (List TimeSeriesMetadata)) (b : Bytes)
    (hne : ∀ e ∈ tsm, e.2 ≠ []) (hl : ∀ e ∈ tsm, e.2.length ≤ 65536) :
    devicesLoop env ⟨b, none⟩ tsm = some (⟨b ++ metaBytes env tsm, none⟩, devNodes env b.length tsm) := by
  induction tsm generalizing b with
  | nil => simp [devicesLoop, metaBytes, devNodes]
  | cons e rest ih =>
    obtain ⟨d, l⟩ := e
    have h1 : l.isEmpty = false := by
      have := hne (d, l) (by simp)
      simpa using this
    rw [devicesLoop, h1, deviceIndex_eq env b l (hl (d, l) (by simp))]
    simp only [Bool.false_eq_true, if_false]
    rw [ih _ (fun e he => hne e (by simp [he])) (fun e he => hl e (by simp [he]))]
    simp [metaBytes, devNodes]

/-- The device entries of the root node. -/
def devEntries : Nat → List (Bytes × IndexNode) → List IndexEntry
  | _, [] => []
  | p, (d, node) :: rest => ⟨d, p⟩ :: devEntries (p + node.serialize.length) rest

theorem writeDeviceNodes_eq (l : List (Bytes × IndexNode)) (b : Bytes) :
    writeDeviceNodes ⟨b, none⟩ l
      = (⟨b ++ l.flatMap (fun e => e.2.serialize), none⟩, devEntries b.length l) := by
  induction l generalizing b with
  | nil => simp [writeDeviceNodes, devEntries]
  | cons e rest ih =>
    obtain ⟨d, node⟩ := e
    rw [writeDeviceNodes]
    simp only [Sink.write, ih, devEntries, Sink.pos, List.flatMap_cons, List.length_append, List.append_assoc]

/-- The whole index. -/
theorem constructMetadataIndex_eq (env : Env) (tsm : BMap (List TimeSeriesMetadata)) (b : Bytes)
    (hne : ∀ e ∈ tsm, e.2 ≠ []) (hl : ∀ e ∈ tsm, e.2.length ≤ 65536) :
    constructMetadataIndex env tsm ⟨b, none⟩ =
      if tsm.length ≤ 256 then
        let order := env.hashOrder (devNodes env b.length tsm)
        let p := b.length + (metaBytes env tsm).length
        some (⟨b ++ metaBytes env tsm ++ order.flatMap (fun e => e.2.serialize), none⟩,
          { children := devEntries p order
            endOffset := p + (order.flatMap (fun e => e.2.serialize)).length
            nodeType := .leafDevice })
      else none := by
  have hlen : ∀ (p : Nat) (t : BMap (List TimeSeriesMetadata)), (devNodes env p t).length = t.length := by
    intro p t
    induction t generalizing p with
    | nil => rfl
    | cons e rest ih => obtain ⟨d, l⟩ := e; simp [devNodes, ih]
  rw [constructMetadataIndex, devicesLoop_eq env tsm b hne hl]
  simp only [hlen, maxDegree, writeDeviceNodes_eq, Sink.pos, List.length_append]

/-! ## Finding a series in a leaf node -/

/-- The entry as the reader sees it. -/
def IndexEntry.toSpec (e : IndexEntry) : Entry := ⟨e.name, e.offset⟩

theorem toSpec_mk (n : Bytes) (o : Nat) : IndexEntry.toSpec ⟨n, o⟩ = ⟨n, o⟩ := rfl

theorem not_lt_of_lt' {a b : Bytes} (h : a < b) : ¬ b < a := by
  rw [← bytesLt_iff] at h ⊢
  rw [bytesLt_asymm h]
  simp

theorem select_leaf {α : Type} (name bytes : α → Bytes) (m : Bytes) (l : List α) :
    ∀ (i p o : Nat) (n0 : Bytes) (pre : List α), ¬ m < n0 →
      (pre ++ l).Pairwise (fun a b => name a < name b) →
      p = o + (pre.flatMap bytes).length →
      ∃ a seg b, pre ++ l = a ++ seg ++ b
        ∧ select m (⟨n0, o⟩ :: (leafEntries name bytes i p l).map IndexEntry.toSpec) (p + (l.flatMap bytes).length)
            = some (o + (a.flatMap bytes).length, o + (a.flatMap bytes).length + (seg.flatMap bytes).length)
        ∧ ∀ t ∈ pre ++ l, name t = m → t ∈ seg := by
  induction l with
  | nil =>
    intro i p o n0 pre hn0 hs hp
    refine ⟨[], pre, [], by simp, ?_, by simpa using fun t ht _ => ht⟩
    simp [leafEntries, select, hn0, hp]
  | cons t ts ih =>
    intro i p o n0 pre hn0 hs hp
    rw [leafEntries]
    by_cases hi : i % maxDegree = 0
    · simp only [hi, if_true, List.cons_append, List.nil_append, List.map_cons, select, toSpec_mk]
      by_cases hm : m < name t
      · rw [if_pos hm, if_neg hn0]
        refine ⟨[], pre, t :: ts, by simp, by simp [hp], ?_⟩
        intro x hx hxm
        rcases List.mem_append.1 hx with hx | hx
        · exact hx
        · exfalso
          rcases List.mem_cons.1 hx with rfl | hx
          · rw [hxm] at hm; exact not_lt_of_lt' hm hm
          · have := (List.pairwise_cons.1 (List.pairwise_append.1 hs).2.1).1 x hx
            rw [hxm] at this
            exact not_lt_of_lt' hm this
      · rw [if_neg hm]
        obtain ⟨a, seg, b, h1, h2, h3⟩ := ih (i + 1) (p + (bytes t).length) p (name t) [t] hm
          (by simpa using (List.pairwise_append.1 hs).2.1) (by simp)
        refine ⟨pre ++ a, seg, b, ?_, ?_, ?_⟩
        · rw [show pre ++ t :: ts = pre ++ ([t] ++ ts) by simp, h1]; simp
        · rw [show p + (List.flatMap bytes (t :: ts)).length
              = p + (bytes t).length + (List.flatMap bytes ts).length by simp; omega]
          rw [h2, hp]
          simp
          omega
        · intro x hx hxm
          rcases List.mem_append.1 hx with hx | hx
          · exfalso
            have := (List.pairwise_append.1 hs).2.2 x hx t (by simp)
            rw [hxm] at this
            exact hm this
          · exact h3 x hx hxm
    · simp only [hi, if_false, List.nil_append]
      obtain ⟨a, seg, b, h1, h2, h3⟩ := ih (i + 1) (p + (bytes t).length) o n0 (pre ++ [t]) hn0
        (by simpa using hs) (by simp [hp]; omega)
      refine ⟨a, seg, b, by rw [← h1]; simp, ?_, ?_⟩
      · rw [← h2]
        congr 1
        simp; omega
      · intro x hx
        exact h3 x (by simpa using hx)

/-- The lookup in a leaf node: either the name is not there, or the selected part of the file is the
metadata of a part of the series that contains it. -/
theorem select_leafNode {α : Type} (name bytes : α → Bytes) (m : Bytes) (l : List α) (p : Nat)
    (hs : l.Pairwise (fun a b => name a < name b)) :
    (select m ((leafEntries name bytes 0 p l).map IndexEntry.toSpec) (p + (l.flatMap bytes).length) = none
      ∧ ∀ t ∈ l, name t ≠ m)
    ∨ ∃ a seg b, l = a ++ seg ++ b
        ∧ select m ((leafEntries name bytes 0 p l).map IndexEntry.toSpec) (p + (l.flatMap bytes).length)
            = some (p + (a.flatMap bytes).length, p + (a.flatMap bytes).length + (seg.flatMap bytes).length)
        ∧ ∀ t ∈ l, name t = m → t ∈ seg := by
  cases l with
  | nil => left; simp [leafEntries, select]
  | cons t ts =>
    have hlt : m < name t → ∀ x ∈ t :: ts, name x ≠ m := by
      intro hm x hx hxm
      rcases List.mem_cons.1 hx with rfl | hx
      · rw [hxm] at hm; exact not_lt_of_lt' hm hm
      · have := (List.pairwise_cons.1 hs).1 x hx
        rw [hxm] at this
        exact not_lt_of_lt' hm this
    by_cases hm : m < name t
    · left
      refine ⟨?_, hlt hm⟩
      simp only [leafEntries, Nat.zero_mod, if_true, List.cons_append, List.nil_append, List.map_cons,
        toSpec_mk]
      -- the first name is already greater
      have hsel : ∀ (es : List Entry) (stop : Nat), (∀ e ∈ es, m < e.name) → select m es stop = none := by
        intro es
        induction es with
        | nil => intros; rfl
        | cons e es ih =>
          intro stop h
          cases es with
          | nil => simp [select, h e (by simp)]
          | cons e' es =>
            simp only [select]
            rw [if_pos (h e' (by simp)), if_pos (h e (by simp))]
      apply hsel
      have hent : ∀ (l : List α) (i p : Nat), (∀ x ∈ l, m < name x) →
          ∀ e ∈ (leafEntries name bytes i p l).map IndexEntry.toSpec, m < e.name := by
        intro l
        induction l with
        | nil => intro i p h e he; simp [leafEntries] at he
        | cons x xs ih =>
          intro i p h e he
          rw [leafEntries, List.map_append] at he
          rcases List.mem_append.1 he with he | he
          · split at he
            · simp [IndexEntry.toSpec] at he
              subst he
              exact h x (by simp)
            · simp at he
          · exact ih _ _ (fun x hx => h x (by simp [hx])) e he
      intro e he
      rcases List.mem_cons.1 he with rfl | he
      · exact hm
      · refine hent ts _ _ (fun x hx => ?_) e he
        have := (List.pairwise_cons.1 hs).1 x hx
        rw [← bytesLt_iff] at this hm ⊢
        exact bytesLt_trans hm this
    · right
      obtain ⟨a, seg, b, h1, h2, h3⟩ := select_leaf name bytes m ts 1 (p + (bytes t).length) p (name t) [t] hm
        (by simpa using hs) (by simp)
      refine ⟨a, seg, b, by simpa using h1, ?_, by simpa using h3⟩
      rw [← h2]
      simp only [leafEntries, Nat.zero_mod, if_true, List.cons_append, List.nil_append, List.map_cons,
        toSpec_mk, List.flatMap_cons, List.length_append, Nat.add_assoc, Nat.zero_add]

end TsFile
