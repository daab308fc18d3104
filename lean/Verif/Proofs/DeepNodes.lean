import Verif.Proofs.DeepIndex
import Verif.Spec.ReferenceIndex
/-! # The node of a device with any number of series, exactly -/

namespace TsFile
open Spec

theorem every_concat {α : Type} (l : List α) (x : α) :
    Ref.every 65536 (l ++ [x]) = Ref.every 65536 l ++ (if l.length % 65536 = 0 then [x] else []) := by
  rw [Ref.every, Ref.every]
  have hsame : ∀ n, 65536 * n ≤ l.length + 65535 → (List.range n).flatMap (fun k => ((l ++ [x]).drop (65536 * k)).take 1)
      = (List.range n).flatMap (fun k => (l.drop (65536 * k)).take 1) := by
    intro n hn
    rw [List.flatMap, List.flatMap]
    congr 1
    refine List.map_congr_left fun k hk => ?_
    rw [List.mem_range] at hk
    have hlt : 65536 * k < l.length := by omega
    rw [List.drop_append_of_le_length (by omega), List.take_append_of_le_length]
    rw [List.length_drop]; omega
  by_cases h : l.length % 65536 = 0
  · rw [if_pos h]
    have h1 : ((l ++ [x]).length + (65536 - 1)) / 65536 = l.length / 65536 + 1 := by
      rw [List.length_append, List.length_singleton]; omega
    have h2 : (l.length + (65536 - 1)) / 65536 = l.length / 65536 := by omega
    rw [h1, h2, List.range_succ, List.flatMap_append, hsame _ (by omega)]
    congr 1
    have h3 : 65536 * (l.length / 65536) = l.length := by omega
    simp [h3]
  · rw [if_neg h, List.append_nil]
    have h1 : ((l ++ [x]).length + (65536 - 1)) / 65536 = (l.length + (65536 - 1)) / 65536 := by
      rw [List.length_append, List.length_singleton]; omega
    rw [h1, hsame _ (by omega)]

/-- The first names of nodes. -/
def firstNames (q : List IndexNode) : List Bytes := q.flatMap (fun n => (n.children.take 1).map IndexEntry.name)

theorem firstNames_append (a b : List IndexNode) : firstNames (a ++ b) = firstNames a ++ firstNames b := by
  simp [firstNames]

theorem length_firstNames {P : Bytes → Prop} {q : List IndexNode} (h : NodesOk P q) : (firstNames q).length = q.length := by
  induction q with
  | nil => rfl
  | cons n q ih =>
    have h1 := (h n (by simp)).1
    have h2 := ih fun x hx => h x (by simp [hx])
    simp only [firstNames, List.flatMap_cons, List.length_append, List.length_map, List.length_take, List.length_cons] at h2 ⊢
    have := List.length_pos_iff.2 h1
    omega

theorem firstNames_single {n : IndexNode} {e : IndexEntry} {es : List IndexEntry} (h : n.children = e :: es) :
    firstNames [n] = [e.name] := by
  simp [firstNames, h]

/-! ## the leaf nodes -/

theorem leafLoop_first (env : Env) (ts pre : List TimeSeriesMetadata) (s : LeafState) (b : Bytes)
    (h : LeafInv pre.length b (fun _ => True) s)
    (hf : firstNames (s.queue ++ [s.cur]) = Ref.every 65536 (pre.map TimeSeriesMetadata.measurementId)) :
    firstNames ((leafLoop env pre.length s ts).queue ++ [(leafLoop env pre.length s ts).cur])
      = Ref.every 65536 ((pre ++ ts).map TimeSeriesMetadata.measurementId) := by
  induction ts generalizing pre s b with
  | nil => simpa [leafLoop] using hf
  | cons t ts ih =>
    have hstep := leafLoop_inv env (fun _ => True) [t] (by simp) pre.length s b h
    rw [leafLoop] at hstep ⊢
    simp only [leafLoop] at hstep
    have hpre : (pre ++ [t]).length = pre.length + 1 := by simp
    rw [show pre.length + [t].length = (pre ++ [t]).length by simp] at hstep
    rw [← hpre]
    rw [show pre ++ t :: ts = (pre ++ [t]) ++ ts by simp]
    refine ih (pre ++ [t]) _ _ hstep ?_
    rw [List.map_append, List.map_cons, List.map_nil, every_concat, List.length_map, ← hf]
    obtain ⟨h1, h2, h3, h4, h5, h6, h7⟩ := h
    have hd : maxDegree = 256 := rfl
    by_cases hi : pre.length % maxDegree = 0
    · rw [if_pos hi]
      rw [hd] at hi
      by_cases hfull : s.cur.isFull = true
      · have hf' : 256 ≤ s.cur.children.length := of_decide_eq_true hfull
        rw [if_pos hfull, if_pos (by omega)]
        simp only [IndexNode.new, List.nil_append]
        rw [firstNames_append, firstNames_append, firstNames_append]
        rfl
      · have hf' : s.cur.children.length < 256 := by
          have := of_decide_eq_false (Bool.eq_false_iff.2 hfull)
          rw [hd] at this
          omega
        rw [if_neg hfull]
        simp only
        rw [firstNames_append, firstNames_append]
        cases hc : s.cur.children with
        | nil =>
          rw [hc] at h2 h4 
          simp only [List.length_nil] at h2 h4
          have hp0 : pre.length = 0 := by by_contra hne; have := h4 (by omega); omega
          rw [if_pos (by omega)]
          simp [firstNames, hc]
        | cons e es =>
          rw [hc] at h2 hf'
          simp only [List.length_cons] at h2 hf'
          rw [if_neg (by omega)]
          simp [firstNames, hc]
    · rw [if_neg hi, if_neg (by rw [hd] at hi; omega), List.append_nil]

/-! ## the upper node -/

/-- Once the node under construction is full, each step puts it in place of the last of the queue. -/
theorem rootNodePass_full (pos : Nat) (n : Nat) (queue : List IndexNode) (last cur : IndexNode) (e e' : IndexEntry) (es es' : List IndexEntry)
    (hl : last.children = e' :: es') (hc : cur.children = e :: es) (hf : 256 ≤ cur.children.length) :
    ∃ q1 cur1, rootNodePass pos (n + 1) (queue ++ [last]) cur = some (queue ++ [q1], cur1)
      ∧ (∃ r, q1.children = e :: r) ∧ (∃ r, cur1.children = e :: r) := by
  induction n generalizing last cur e' es es' with
  | zero =>
    have hfull : cur.isFull = true := decide_eq_true hf
    refine ⟨{ cur with endOffset := pos }, { cur with endOffset := pos, children := cur.children ++ [⟨e'.name, pos⟩] }, ?_, ⟨es, hc⟩, ⟨es ++ [⟨e'.name, pos⟩], by simp [hc]⟩⟩
    rw [rootNodePass]
    simp only [List.getLast?_append, List.getLast?_singleton, Option.some_or, List.dropLast_concat, hl, hfull, if_true]
    rfl
  | succ n ih =>
    have hfull : cur.isFull = true := decide_eq_true hf
    rw [rootNodePass]
    simp only [List.getLast?_append, List.getLast?_singleton, Option.some_or, List.dropLast_concat, hl, hfull, if_true]
    exact ih { cur with endOffset := pos } { cur with endOffset := pos, children := cur.children ++ [⟨e'.name, pos⟩] } e
      (es ++ [⟨e'.name, pos⟩]) es hc (by simp [hc]) (by simp only [List.length_append]; omega)

/-- Until then, each step takes one. -/
theorem rootNodePass_take (pos : Nat) (P : Bytes → Prop) (n m : Nat) (queue : List IndexNode) (cur : IndexNode) (hq : NodesOk P queue)
    (hn : n ≤ queue.length) (hc : cur.children.length + n ≤ 256) :
    rootNodePass pos (n + m) queue cur = rootNodePass pos m (queue.take (queue.length - n))
      { cur with children := cur.children ++ ((firstNames queue).reverse.take n).map (fun x => ⟨x, pos⟩) } := by
  induction n generalizing queue cur with
  | zero => simp
  | succ n ih =>
    have hd : maxDegree = 256 := rfl
    have hne : queue ≠ [] := by rintro rfl; simp at hn
    obtain ⟨q, last, rfl⟩ : ∃ q last, queue = q ++ [last] := ⟨_, _, (List.dropLast_concat_getLast hne).symm⟩
    have hl1 := (hq last (by simp)).1
    rw [show n + 1 + m = (n + m) + 1 by omega, rootNodePass]
    simp only [List.getLast?_append, List.getLast?_singleton, Option.some_or, List.dropLast_concat]
    cases hch : last.children with
    | nil => exact absurd hch hl1
    | cons e es =>
      have hnf : cur.isFull = false := decide_eq_false (by rw [hd]; omega)
      simp only [hnf, Bool.false_eq_true, if_false]
      simp only [List.length_append, List.length_singleton] at hn
      rw [ih q _ (fun x hx => hq x (by simp [hx])) (by omega) (by simp only [List.length_append, List.length_singleton]; omega)]
      have ht : (q ++ [last]).take ((q ++ [last]).length - (n + 1)) = q.take (q.length - n) := by
        rw [List.length_append, List.length_singleton, List.take_append_of_le_length (by omega)]
        congr 1
        omega
      rw [ht, firstNames_append, firstNames_single hch, List.reverse_append]
      simp

theorem firstNames_take {P : Bytes → Prop} {q : List IndexNode} (h : NodesOk P q) (n : Nat) :
    firstNames (q.take n) = (firstNames q).take n := by
  induction q generalizing n with
  | nil => simp [firstNames]
  | cons x q ih =>
    cases n with
    | zero => simp [firstNames]
    | succ n =>
      have h1 := (h x (by simp)).1
      have h2 := ih (fun y hy => h y (by simp [hy])) n
      cases hc : x.children with
      | nil => exact absurd hc h1
      | cons e es =>
        simp only [firstNames, List.take_succ_cons, List.flatMap_cons, hc, List.take_zero, List.map_cons, List.map_nil, List.singleton_append] at h2 ⊢
        rw [h2]

theorem rootNodeLoop_upper (pos : Nat) (t : NodeType) (fuel rounds : Nat) (queue : List IndexNode)
    (hq : NodesOk (fun _ => True) queue) (h2 : 2 ≤ queue.length) (hfuel : queue.length ≤ fuel) (hr : queue.length ≤ rounds + 256) :
    rootNodeLoop pos t fuel queue = some ⟨(Ref.upper rounds (firstNames queue)).map (fun x => ⟨x, pos⟩), pos, t⟩ := by
  induction fuel generalizing queue rounds with
  | zero => omega
  | succ fuel ih =>
    have hlen := length_firstNames hq
    rw [rootNodeLoop.eq_def]
    simp only
    rw [if_neg (by omega)]
    by_cases hsmall : queue.length ≤ 256
    · have hp := rootNodePass_take pos _ queue.length 0 queue (IndexNode.new t) hq (Nat.le_refl _) (by simp [IndexNode.new]; exact hsmall)
      rw [Nat.add_zero] at hp
      have hup : Ref.upper rounds (firstNames queue) = (firstNames queue).reverse := by
        cases rounds with
        | zero => rfl
        | succ r => rw [Ref.upper, if_pos (by omega)]
      rw [hp, hup, List.take_of_length_le (l := (firstNames queue).reverse) (by rw [List.length_reverse]; omega)]
      simp only [Nat.sub_self, List.take_zero, rootNodePass, IndexNode.new, List.nil_append]
      rw [rootNodeLoop.eq_def]
      simp
    · obtain ⟨rounds, rfl⟩ : ∃ r, rounds = r + 1 := ⟨rounds - 1, by omega⟩
      have hp := rootNodePass_take pos _ 256 (queue.length - 256) queue (IndexNode.new t) hq (by omega) (by simp [IndexNode.new])
      rw [show 256 + (queue.length - 256) = queue.length by omega] at hp
      rw [hp]
      -- the rest of the pass
      obtain ⟨q, last, hql⟩ : ∃ q last, queue.take (queue.length - 256) = q ++ [last] := by
        have hne : queue.take (queue.length - 256) ≠ [] := by
          intro h0
          have := congrArg List.length h0
          rw [List.length_take, List.length_nil] at this
          omega
        exact ⟨_, _, (List.dropLast_concat_getLast hne).symm⟩
      have hqlen := congrArg List.length hql
      rw [List.length_take, List.length_append, List.length_singleton] at hqlen
      have hqq : NodesOk (fun _ => True) (q ++ [last]) := by rw [← hql]; exact fun x hx => hq x (List.mem_of_mem_take hx)
      obtain ⟨x, hx⟩ : ∃ x, (firstNames queue).drop ((firstNames queue).length - 1) = [x] := by
        rw [← List.length_eq_one_iff, List.length_drop]
        omega
      obtain ⟨y, ys, hrev⟩ : ∃ y ys, (firstNames queue).reverse = y :: ys := by
        cases hc : (firstNames queue).reverse with
        | nil => have := congrArg List.length hc; rw [List.length_reverse] at this; rw [List.length_nil] at this; omega
        | cons y ys => exact ⟨y, ys, rfl⟩
      have hxy : x = y := by
        have : firstNames queue = ys.reverse ++ [y] := by
          rw [← List.reverse_reverse (firstNames queue), hrev, List.reverse_cons]
        rw [this] at hx
        simpa using hx.symm
      subst hxy
      cases hlc : last.children with
      | nil => exact absurd hlc (hqq last (by simp)).1
      | cons e' es' =>
        obtain ⟨q1, cur1, hpass, ⟨r1, hr1⟩, ⟨r2, hr2⟩⟩ := rootNodePass_full pos (queue.length - 257) q last
          { IndexNode.new t with children := (IndexNode.new t).children ++ ((firstNames queue).reverse.take 256).map (fun x => ⟨x, pos⟩) }
          ⟨x, pos⟩ e' ((ys.take 255).map (fun x => ⟨x, pos⟩)) es' hlc (by simp [IndexNode.new, hrev])
          (by simp only [IndexNode.new, List.nil_append, List.length_map, List.length_take, List.length_reverse]; omega)
        rw [show queue.length - 257 + 1 = queue.length - 256 by omega] at hpass
        rw [hql, hpass]
        simp only
        have hnew : NodesOk (fun _ => True) (q ++ [q1] ++ [{ cur1 with endOffset := pos }]) := by
          intro z hz
          simp only [List.mem_append, List.mem_singleton] at hz
          rcases hz with (hz | rfl) | rfl
          · exact ⟨(hqq z (by simp [hz])).1, by simp⟩
          · exact ⟨by rw [hr1]; simp, by simp⟩
          · exact ⟨by simp [hr2], by simp⟩
        rw [ih rounds _ hnew (by simp only [List.length_append, List.length_singleton]; omega)
          (by simp only [List.length_append, List.length_singleton]; omega)
          (by simp only [List.length_append, List.length_singleton]; omega)]
        have hq1 : firstNames q = (firstNames queue).take (queue.length - 257) := by
          have h3 : q = queue.take (queue.length - 257) := by
            have := congrArg (List.take (queue.length - 257)) hql
            rw [List.take_take, List.take_append_of_le_length (by omega), List.take_of_length_le (l := q) (by omega)] at this
            rw [← this, Nat.min_eq_left (by omega)]
          rw [← firstNames_take hq, ← h3]
        rw [firstNames_append, firstNames_append, firstNames_single hr1, firstNames_single (n := { cur1 with endOffset := pos }) hr2,
          hq1, Ref.upper, if_neg (by omega), hx, hlen]

/-! ## the node of a device -/

/-- The index node of one device whose metadata start at `p`. -/
def anyNode (env : Env) (p : Nat) (l : List TimeSeriesMetadata) : IndexNode :=
  if l.length ≤ 65536 then leafNode env p l
  else
    { children := (Ref.upper l.length (Ref.every 65536 (l.map TimeSeriesMetadata.measurementId))).map
        (fun x => ⟨x, p + (l.flatMap (TimeSeriesMetadata.serialize env)).length⟩)
      endOffset := p + (l.flatMap (TimeSeriesMetadata.serialize env)).length
      nodeType := .internalMeasurement }

theorem deviceIndex_any (env : Env) (b : Bytes) (l : List TimeSeriesMetadata) :
    deviceIndex env ⟨b, none⟩ l
      = some (⟨b ++ l.flatMap (TimeSeriesMetadata.serialize env), none⟩, anyNode env b.length l) := by
  by_cases hl : l.length ≤ 65536
  · rw [deviceIndex_eq env b l hl, anyNode, if_pos hl]
  · rw [anyNode, if_neg hl]
    have hi : LeafInv ([] : List TimeSeriesMetadata).length b (fun _ => True) ⟨⟨b, none⟩, IndexNode.new .leafMeasurement, []⟩ :=
      ⟨rfl, by simp [IndexNode.new], by simp [IndexNode.new], fun h => absurd h (by simp), by simp, by simp, by simp [IndexNode.new]⟩
    have h := leafLoop_inv env (fun _ => True) l (by simp) 0 _ b hi
    have hf := leafLoop_first env l [] _ b hi rfl
    rw [List.nil_append, List.length_nil] at hf
    rw [deviceIndex]
    generalize leafLoop env 0 ⟨⟨b, none⟩, IndexNode.new .leafMeasurement, []⟩ l = s at h hf ⊢
    obtain ⟨out, cur, q⟩ := s
    obtain ⟨h1, h2, h3, h4, h5, h6, h7⟩ := h
    simp only at h1 h2 h3 h4 h5 h6 h7 hf
    subst h1
    have hpos := h4 (by omega)
    simp only [Sink.pos, List.length_append]
    generalize hp : b.length + (l.flatMap (TimeSeriesMetadata.serialize env)).length = p
    have hqq : NodesOk (fun _ => True) (q ++ [{ cur with endOffset := p }]) := by
      intro n hn
      rcases List.mem_append.1 hn with hn | hn
      · exact ⟨h5 n hn, h6 n hn⟩
      · rw [List.mem_singleton.1 hn]
        refine ⟨fun h0 => ?_, h7⟩
        simp only at h0
        rw [h0] at hpos
        simp at hpos
    have hlen : (q ++ [{ cur with endOffset := p }]).length = q.length + 1 := by simp
    rw [generateRootNode, rootNodeLoop_upper p .internalMeasurement _ l.length _ hqq (by omega) (by omega) (by omega)]
    have hff : firstNames (q ++ [{ cur with endOffset := p }]) = firstNames (q ++ [cur]) := by
      rw [firstNames_append, firstNames_append]; rfl
    rw [hff, hf]
    rfl

/-- The index nodes of all devices. -/
def anyNodes (env : Env) : Nat → BMap (List TimeSeriesMetadata) → List (Bytes × IndexNode)
  | _, [] => []
  | p, (d, l) :: rest =>
    (d, anyNode env p l) :: anyNodes env (p + (l.flatMap (TimeSeriesMetadata.serialize env)).length) rest

theorem devicesLoop_nodes (env : Env) (tsm : BMap (List TimeSeriesMetadata)) (b : Bytes) (hne : ∀ e ∈ tsm, e.2 ≠ []) :
    devicesLoop env ⟨b, none⟩ tsm = some (⟨b ++ metaBytes env tsm, none⟩, anyNodes env b.length tsm) := by
  induction tsm generalizing b with
  | nil => simp [devicesLoop, metaBytes, anyNodes]
  | cons e rest ih =>
    obtain ⟨d, l⟩ := e
    have h1 : l.isEmpty = false := by
      have := hne (d, l) (by simp)
      simpa using this
    rw [devicesLoop, h1, deviceIndex_any env b l]
    simp only [Bool.false_eq_true, if_false]
    rw [ih _ (fun e he => hne e (by simp [he]))]
    simp [metaBytes, anyNodes]

theorem every_subset {α : Type} {n : Nat} {l : List α} {x : α} (h : x ∈ Ref.every n l) : x ∈ l := by
  rw [Ref.every, List.mem_flatMap] at h
  obtain ⟨k, _, h⟩ := h
  exact List.mem_of_mem_drop (List.mem_of_mem_take h)

theorem upper_subset {rounds : Nat} {l : List Bytes} {x : Bytes} (h : x ∈ Ref.upper rounds l) : x ∈ l := by
  induction rounds generalizing l with
  | zero => simpa [Ref.upper] using h
  | succ r ih =>
    rw [Ref.upper] at h
    split at h
    · simpa using h
    · have := ih h
      simp only [List.mem_append] at this
      rcases this with (h1 | h1) | h1
      · exact List.mem_of_mem_take h1
      · exact List.mem_of_mem_drop h1
      · exact List.mem_of_mem_drop h1

end TsFile
