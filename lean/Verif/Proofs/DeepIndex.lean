import Verif.Proofs.Read
import Mathlib.Data.List.Induction
/-! # Devices with more than 65536 series

The leaf nodes of such a device are never written to the file: the entries of the inner node all carry the position at
which the inner node itself will be written. -/

namespace TsFile
open Spec

/-- The state of the measurement loop: names of the entries, completed nodes, metadata written. -/
structure LeafInv (i : Nat) (b : Bytes) (P : Bytes → Prop) (s : LeafState) : Prop where
  bytes : s.out = ⟨b, none⟩
  count : s.cur.children.length + 256 * s.queue.length = (i + 255) / 256
  le : s.cur.children.length ≤ 256
  pos : 0 < i → 0 < s.cur.children.length
  queue : ∀ n ∈ s.queue, n.children ≠ []
  names : ∀ n ∈ s.queue, ∀ e ∈ n.children, P e.name
  curNames : ∀ e ∈ s.cur.children, P e.name

theorem leafLoop_inv (env : Env) (P : Bytes → Prop) (l : List TimeSeriesMetadata) (hP : ∀ t ∈ l, P t.measurementId) (i : Nat)
    (s : LeafState) (b : Bytes) (h : LeafInv i b P s) :
    LeafInv (i + l.length) (b ++ l.flatMap (TimeSeriesMetadata.serialize env)) P (leafLoop env i s l) := by
  induction l generalizing i s b with
  | nil => simpa [leafLoop] using h
  | cons t ts ih =>
    have hd : maxDegree = 256 := rfl
    rw [leafLoop]
    simp only [List.length_cons, List.flatMap_cons]
    rw [← List.append_assoc, show i + (ts.length + 1) = i + 1 + ts.length by omega]
    apply ih (fun t ht => hP t (by simp [ht]))
    have ht : P t.measurementId := hP t (by simp)
    obtain ⟨h1, h2, h3, h4, h5, h6, h7⟩ := h
    by_cases hi : i % maxDegree = 0
    · rw [if_pos hi]
      rw [hd] at hi
      by_cases hf : s.cur.isFull = true
      · have hf' : 256 ≤ s.cur.children.length := of_decide_eq_true hf
        rw [if_pos hf]
        refine ⟨by simp [h1, Sink.write], ?_, ?_, ?_, ?_, ?_, ?_⟩
        · simp only [IndexNode.new, List.nil_append, List.length_singleton, List.length_append]
          omega
        · simp [IndexNode.new]
        · intro _; simp [IndexNode.new]
        · intro n hn
          rcases List.mem_append.1 hn with hn | hn
          · exact h5 n hn
          · rw [List.mem_singleton.1 hn]
            intro h0
            simp only at h0
            rw [h0] at hf'
            simp at hf'
        · intro n hn e he
          rcases List.mem_append.1 hn with hn | hn
          · exact h6 n hn e he
          · rw [List.mem_singleton.1 hn] at he
            exact h7 e he
        · intro e he
          simp only [IndexNode.new, List.nil_append, List.mem_singleton] at he
          subst he
          exact ht
      · have hf' : s.cur.children.length < 256 := by
          have := of_decide_eq_false (Bool.eq_false_iff.2 hf)
          rw [hd] at this
          omega
        rw [if_neg hf]
        refine ⟨by simp [h1, Sink.write], ?_, ?_, ?_, h5, h6, ?_⟩
        · simp only [List.length_append, List.length_singleton]
          omega
        · simp only [List.length_append, List.length_singleton]
          omega
        · intro _; simp
        · intro e he
          simp only at he
          rcases List.mem_append.1 he with he | he
          · exact h7 e he
          · rw [List.mem_singleton.1 he]
            exact ht
    · rw [if_neg hi]
      rw [hd] at hi
      refine ⟨by simp [h1, Sink.write], ?_, h3, fun _ => h4 (by omega), h5, h6, h7⟩
      simp only
      omega

/-- Nodes with entries, all names in `P`. -/
def NodesOk (P : Bytes → Prop) (q : List IndexNode) : Prop := ∀ n ∈ q, n.children ≠ [] ∧ ∀ e ∈ n.children, P e.name

/-- A pass takes nodes from the queue until the node under construction has 256 entries; after that, each further step puts
one node back. -/
theorem rootNodePass_eq (pos : Nat) (P : Bytes → Prop) (n : Nat) (queue : List IndexNode) (cur : IndexNode)
    (hq : NodesOk P queue) (hc : ∀ e ∈ cur.children, P e.name)
    (h1 : min n (256 - cur.children.length) ≤ queue.length)
    (h2 : 256 - cur.children.length < n → 256 - cur.children.length < queue.length) :
    ∃ q es stop, rootNodePass pos n queue cur
        = some (q, { children := cur.children ++ es, endOffset := stop, nodeType := cur.nodeType })
      ∧ q.length = queue.length - min n (256 - cur.children.length) ∧ NodesOk P q ∧ es.length = n
      ∧ ∀ e ∈ es, P e.name ∧ e.offset = pos := by
  induction n generalizing queue cur with
  | zero => exact ⟨queue, [], cur.endOffset, by simp [rootNodePass], by simp, hq, rfl, by simp⟩
  | succ n ih =>
    have hd : maxDegree = 256 := rfl
    have hne : queue ≠ [] := by
      rintro rfl
      simp only [List.length_nil] at h1 h2
      omega
    rw [rootNodePass]
    obtain ⟨q, last, rfl⟩ : ∃ q last, queue = q ++ [last] := ⟨_, _, (List.dropLast_concat_getLast hne).symm⟩
    simp only [List.getLast?_append, List.getLast?_singleton, Option.some_or, List.dropLast_concat]
    obtain ⟨hl1, hl2⟩ := hq last (by simp)
    cases hch : last.children with
    | nil => exact absurd hch hl1
    | cons first rest =>
      simp only
      have hfirst : P first.name := hl2 first (by simp [hch])
      have hq' : NodesOk P q := fun x hx => hq x (by simp [hx])
      simp only [List.length_append, List.length_singleton] at h1 h2 ⊢
      have hc' : ∀ e ∈ cur.children ++ [(⟨first.name, pos⟩ : IndexEntry)], P e.name := by
        intro e he
        rcases List.mem_append.1 he with he | he
        · exact hc e he
        · rw [List.mem_singleton.1 he]; exact hfirst
      by_cases hf : cur.isFull = true
      · have hf' : 256 ≤ cur.children.length := of_decide_eq_true hf
        simp only [hf, if_true]
        obtain ⟨q2, es, stop, e1, e2, e3, e4, e5⟩ := ih (q ++ [{ cur with endOffset := pos }])
          { cur with endOffset := pos, children := cur.children ++ [⟨first.name, pos⟩] }
          (by
            intro x hx
            rcases List.mem_append.1 hx with hx | hx
            · exact hq' x hx
            · rw [List.mem_singleton.1 hx]
              refine ⟨fun h0 => ?_, hc⟩
              simp only at h0
              rw [h0] at hf'
              simp at hf')
          hc' (by simp only [List.length_append, List.length_singleton]; omega)
          (by simp only [List.length_append, List.length_singleton]; omega)
        refine ⟨q2, ⟨first.name, pos⟩ :: es, stop, ?_, ?_, e3, by simp [e4], ?_⟩
        · rw [e1]; simp
        · rw [e2]
          simp only [List.length_append, List.length_singleton]
          omega
        · intro e he
          rcases List.mem_cons.1 he with rfl | he
          · exact ⟨hfirst, rfl⟩
          · exact e5 e he
      · have hf' : cur.children.length < 256 := by
          have := of_decide_eq_false (Bool.eq_false_iff.2 hf)
          rw [hd] at this
          omega
        simp only [hf, if_false, Bool.false_eq_true]
        obtain ⟨q2, es, stop, e1, e2, e3, e4, e5⟩ := ih q { cur with children := cur.children ++ [⟨first.name, pos⟩] } hq' hc'
          (by simp only [List.length_append, List.length_singleton]; omega)
          (by simp only [List.length_append, List.length_singleton]; omega)
        refine ⟨q2, ⟨first.name, pos⟩ :: es, stop, ?_, ?_, e3, by simp [e4], ?_⟩
        · rw [e1]; simp
        · rw [e2]
          simp only [List.length_append, List.length_singleton]
          omega
        · intro e he
          rcases List.mem_cons.1 he with rfl | he
          · exact ⟨hfirst, rfl⟩
          · exact e5 e he

/-- With two or more nodes in the queue, the result is an inner node with at most 256 entries, all with the position of the
end of the file. -/
theorem rootNodeLoop_deep (pos : Nat) (t : NodeType) (P : Bytes → Prop) (fuel : Nat) (queue : List IndexNode)
    (hq : NodesOk P queue) (h2 : 2 ≤ queue.length) (hfuel : queue.length ≤ fuel) :
    ∃ es, rootNodeLoop pos t fuel queue = some ⟨es, pos, t⟩ ∧ es.length ≤ 256 ∧ ∀ e ∈ es, P e.name ∧ e.offset = pos := by
  induction fuel generalizing queue with
  | zero => omega
  | succ fuel ih =>
    rw [rootNodeLoop.eq_def]
    simp only
    rw [if_neg (by omega)]
    obtain ⟨q, es, stop, e1, e2, e3, e4, e5⟩ := rootNodePass_eq pos P queue.length queue (IndexNode.new t) hq
      (by simp [IndexNode.new]) (by simp only [IndexNode.new, List.length_nil]; omega)
      (by simp only [IndexNode.new, List.length_nil]; omega)
    rw [e1]
    simp only [IndexNode.new, List.nil_append, List.length_nil] at e2 ⊢
    by_cases hbig : queue.length ≤ 256
    · have hq0 : q = [] := List.length_eq_zero_iff.1 (by omega)
      subst hq0
      refine ⟨es, ?_, by omega, e5⟩
      rw [rootNodeLoop.eq_def]
      simp
    · have hne : es ≠ [] := by
        rintro rfl
        simp only [List.length_nil] at e4
        omega
      exact ih (q ++ [⟨es, pos, t⟩]) (by
        intro x hx
        rcases List.mem_append.1 hx with hx | hx
        · exact e3 x hx
        · rw [List.mem_singleton.1 hx]
          exact ⟨hne, fun e he => (e5 e he).1⟩)
        (by simp only [List.length_append, List.length_singleton]; omega)
        (by simp only [List.length_append, List.length_singleton]; omega)

/-- The index of a device with more than 65536 series. -/
theorem deviceIndex_deep (env : Env) (P : Bytes → Prop) (b : Bytes) (l : List TimeSeriesMetadata)
    (hP : ∀ t ∈ l, P t.measurementId) (hl : 65536 < l.length) :
    ∃ es, deviceIndex env ⟨b, none⟩ l = some (⟨b ++ l.flatMap (TimeSeriesMetadata.serialize env), none⟩,
        ⟨es, (b ++ l.flatMap (TimeSeriesMetadata.serialize env)).length, .internalMeasurement⟩)
      ∧ es.length ≤ 256 ∧ ∀ e ∈ es, P e.name ∧ e.offset = (b ++ l.flatMap (TimeSeriesMetadata.serialize env)).length := by
  have h := leafLoop_inv env P l hP 0 ⟨⟨b, none⟩, IndexNode.new .leafMeasurement, []⟩ b
    ⟨rfl, by simp [IndexNode.new], by simp [IndexNode.new], fun h => absurd h (by omega), by simp, by simp, by simp [IndexNode.new]⟩
  rw [deviceIndex]
  generalize leafLoop env 0 ⟨⟨b, none⟩, IndexNode.new .leafMeasurement, []⟩ l = s at h ⊢
  obtain ⟨out, cur, q⟩ := s
  obtain ⟨h1, h2, h3, h4, h5, h6, h7⟩ := h
  simp only at h1 h2 h3 h4 h5 h6 h7
  subst h1
  have hpos := h4 (by omega)
  simp only [Sink.pos]
  generalize hp : (b ++ l.flatMap (TimeSeriesMetadata.serialize env)).length = p
  have hqq : NodesOk P (q ++ [{ cur with endOffset := p }]) := by
    intro n hn
    rcases List.mem_append.1 hn with hn | hn
    · exact ⟨h5 n hn, h6 n hn⟩
    · rw [List.mem_singleton.1 hn]
      refine ⟨fun h0 => ?_, h7⟩
      simp only at h0
      rw [h0] at hpos
      simp at hpos
  have hql2 : 2 ≤ (q ++ [{ cur with endOffset := p }]).length := by
    simp only [List.length_append, List.length_singleton]
    omega
  generalize q ++ [{ cur with endOffset := p }] = queue at hqq hql2
  obtain ⟨es, e1, e2, e3⟩ := rootNodeLoop_deep p .internalMeasurement P (queue.length + 2) queue hqq hql2 (by omega)
  exact ⟨es, by rw [generateRootNode, e1]; rfl, e2, e3⟩

/-- The index of a device is always built. -/
theorem deviceIndex_total (env : Env) (b : Bytes) (l : List TimeSeriesMetadata) :
    (deviceIndex env ⟨b, none⟩ l).isSome := by
  by_cases hl : l.length ≤ 65536
  · rw [deviceIndex_eq env b l hl]; rfl
  · obtain ⟨es, h, _⟩ := deviceIndex_deep env (fun _ => True) b l (by simp) (by omega)
    rw [h]; rfl

/-- A reader that follows an inner node whose entries point to the node itself finds nothing. -/
theorem locate_stuck (F m : Bytes) (node : Node) (p : Nat) (hk : node.kind = 2) (hoff : ∀ e ∈ node.entries, e.offset = p)
    (hread : readNode F p = some node) (fuel : Nat) (r : Nat × Nat) : locate F m fuel node ≠ some (some r) := by
  induction fuel with
  | zero => simp [locate]
  | succ fuel ih =>
    rw [locate]
    cases hs : select m node.entries node.endOffset with
    | none => simp
    | some lh =>
      obtain ⟨lo, hi⟩ := lh
      have hlo : lo = p := by
        have : ∀ (es : List Entry) (stop lo hi : Nat), (∀ e ∈ es, e.offset = p) → select m es stop = some (lo, hi) → lo = p := by
          intro es
          induction es with
          | nil => intro stop lo hi _ h; simp [select] at h
          | cons e es ih =>
            intro stop lo hi ho h
            cases es with
            | nil =>
              simp only [select] at h
              split at h
              · simp at h
              · simp only [Option.some.injEq, Prod.mk.injEq] at h
                rw [← h.1]
                exact ho e (by simp)
            | cons e' es =>
              simp only [select] at h
              split at h
              · split at h
                · simp at h
                · simp only [Option.some.injEq, Prod.mk.injEq] at h
                  rw [← h.1]
                  exact ho e (by simp)
              · exact ih stop lo hi (fun e he => ho e (by simp [he])) h
        exact this _ _ _ _ hoff hs
      subst hlo
      simp only [hk]
      rw [if_neg (by decide), if_pos trivial, hread]
      exact ih

end TsFile
